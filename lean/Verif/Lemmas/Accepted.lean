import Verif.Lemmas.Answers
import Verif.Props.Sax
/-! Accepted documents: the handler agreed to every event. -/
namespace Helium
open Spec
section
variable {σ : Type} {H : Handler σ}

/-- the handler was asked and did not object; lookups may fail. -/
def Agreed (H : Handler σ) (x : Ev × HOut) : Prop := Honest H x ∧ (x.1.lookup ∨ x.2 ∈ [HOut.ok, .unspecified] ∨ ∃ e, x.2 = .ent e)

/-- the handler agreed to the events from `s` to `s'`. -/
def Agrees (H : Handler σ) (s s' : St σ) : Prop := ∃ mid, s'.trace = s.trace ++ mid ∧ ∀ x ∈ mid, Agreed H x

theorem Agrees.same {s s' : St σ} (h : s'.trace = s.trace) : Agrees H s s' := ⟨[], by simp [h], by simp⟩
theorem Agrees.trans {a b c : St σ} (h : Agrees H a b) (k : Agrees H b c) : Agrees H a c := by
  obtain ⟨m, h1, h2⟩ := h
  obtain ⟨m', k1, k2⟩ := k
  refine ⟨m ++ m', by rw [k1, h1, List.append_assoc], fun x hx => ?_⟩
  rcases List.mem_append.1 hx with hx | hx
  · exact h2 x hx
  · exact k2 x hx

/-- the program logic of `Agrees`: nothing is said of failures. -/
def agrL (H : Handler σ) : Logic false H where
  R := Agrees H
  X _ _ _ := True
  Q _ := True
  quiet q := .same q.trace
  trans := Agrees.trans
  transX _ _ := trivial
  xquiet _ _ := trivial
  fail _ := trivial
  wrap _ := trivial
  call {s ev} _ h := ⟨[(ev, (H s.view ev s.hc).1)], rfl, by simp only [List.mem_singleton, forall_eq]; exact ⟨⟨_, _, rfl⟩, .inr h⟩⟩
  callX _ _ := trivial
  look {s ev} h := ⟨[(ev, (H s.view ev s.hc).1)], rfl, by simp only [List.mem_singleton, forall_eq]; exact ⟨⟨_, _, rfl⟩, .inl h⟩⟩

theorem agrL_wide : Wide (agrL H) where
  q _ _ := trivial
  cur _ _ := .same rfl
  sub _ _ := .same rfl
  nodes _ _ := .same rfl
  ns _ _ := .same rfl
  leave _ _ _ _ _ _ _ _ hR := hR
  leaveX _ _ _ _ _ _ _ _ _ _ := trivial

/-- in an accepted document the handler agreed to everything. -/
theorem agreed_trace (E : Env) (H : Handler σ) (usr : σ) (fuel snl : Nat) (input : Bytes) {doc : Option Nat} {h : Heap}
    {tr : List (Ev × HOut)} (hr : parserParse E H usr fuel snl input = .done doc none h tr) : ∀ x ∈ tr, Agreed H x := by
  have h1 := (agrL_wide (H := H)).document E fuel snl (initSt usr Heap.empty input)
  unfold parserParse at hr
  cases hp : parseDocument E H fuel snl (initSt usr Heap.empty input) with
  | ok a s =>
    rw [hp] at hr h1
    cases hr
    obtain ⟨m, h2, h3⟩ := h1
    rw [h2]
    exact h3
  | err e s => rw [hp] at hr; cases hr
  | panic => rw [hp] at hr; cases hr
  | diverge => rw [hp] at hr; cases hr

theorem white_trace (E : Env) (H : Handler σ) (usr : σ) (fuel snl : Nat) (input : Bytes) {doc : Option Nat} {e : Option Err}
    {h : Heap} {tr : List (Ev × HOut)} (hr : parserParse E H usr fuel snl input = .done doc e h tr) : ∀ x ∈ tr, DeclOK x.1 := by
  have hQ : ∀ ev : Ev, ev.White → DeclOK ev := by
    intro ev hw
    cases ev <;> first | exact hw | trivial
  have h1 := (TL_wide (H := H) hQ (by intro ev hl; cases ev <;> first | trivial | exact hl.elim)).document E fuel snl (initSt usr Heap.empty input)
  unfold parserParse at hr
  cases hp : parseDocument E H fuel snl (initSt usr Heap.empty input) with
  | ok a s => rw [hp] at hr h1; cases hr; obtain ⟨-, m, h2, h3⟩ := h1; rw [h2]; exact fun x hx => (h3 x (by simpa [initSt] using hx)).1
  | err e0 s => rw [hp] at hr h1; cases hr; obtain ⟨m, h2, h3, -⟩ := h1; rw [h2]; exact fun x hx => h3 x (by simpa [initSt] using hx)
  | panic => rw [hp] at hr; cases hr
  | diverge => rw [hp] at hr; cases hr

theorem dtdAddElementDecl_ok {t : Nat} {n : Bytes} {typ : Nat} {ec : EC} {h h' : Heap} {a : Nat} (hr : dtdAddElementDecl t n typ ec h = .ok a h') :
    (1 ≤ typ ∧ typ ≤ 4) ∧ (ec = .nil ↔ typ ≤ 2) := by
  unfold dtdAddElementDecl at hr
  by_cases h1 : typ = 1 ∨ typ = 2
  · rw [if_pos h1] at hr
    by_cases h2 : ec = .nil
    · exact ⟨by omega, fun _ => by omega, fun _ => h2⟩
    · rw [if_pos h2] at hr; cases hr
  · rw [if_neg h1] at hr
    by_cases h2 : typ = 3 ∨ typ = 4
    · rw [if_pos h2] at hr
      by_cases h3 : ec = .nil
      · rw [if_pos h3] at hr; cases hr
      · exact ⟨by omega, fun h => absurd h h3, fun h => by omega⟩
    · rw [if_neg h2] at hr; cases hr

theorem tbElementDecl_ok {v : HV} {n : Bytes} {typ : Nat} {ec : EC} {c c' : HC σ} (hr : tbElementDecl v n typ ec c = .ok () c') :
    (1 ≤ typ ∧ typ ≤ 4) ∧ (ec = .nil ↔ typ ≤ 2) := by
  unfold tbElementDecl at hr
  simp only [Bind.bind, M.bind] at hr
  split at hr
  case h_2 => cases hr
  case h_3 => cases hr
  case h_4 => cases hr
  case h_1 d c1 _ =>
    split at hr
    case h_2 => cases hr
    case h_3 => cases hr
    case h_4 => cases hr
    case h_1 t c2 _ =>
      cases t with
      | none =>
        simp only at hr
        by_cases h1 : (typ = 1 ∨ typ = 2) ∧ ec ≠ EC.nil
        · rw [if_pos h1] at hr; cases hr
        · rw [if_neg h1] at hr
          by_cases h2 : (typ = 3 ∨ typ = 4) ∧ ec = EC.nil
          · rw [if_pos h2] at hr; cases hr
          · rw [if_neg h2] at hr
            by_cases h3 : typ = 1 ∨ typ = 2 ∨ typ = 3 ∨ typ = 4
            · rw [if_pos h3] at hr; cases hr
            · rw [if_neg h3] at hr; cases hr
      | some t =>
        cases hd : dtdAddElementDecl t n typ ec c2.heap with
        | ok a h' => exact dtdAddElementDecl_ok hd
        | err e h' => simp only [M.bind, tbH, hd] at hr; cases hr
        | panic => simp only [M.bind, tbH, hd] at hr; cases hr
        | diverge => simp only [M.bind, tbH, hd] at hr; cases hr

/-- the tree builder agrees to the declaration of an element only if type and content model fit together. -/
theorem agreed_element {fuel : Nat} {n : Bytes} {typ : Nat} {ec : EC} {o : HOut} (h : Agreed (treeBuilder (σ := σ) fuel) (.elementDecl n typ ec, o)) :
    (1 ≤ typ ∧ typ ≤ 4) ∧ (ec = .nil ↔ typ ≤ 2) := by
  obtain ⟨⟨v, c, ho⟩, hk⟩ := h
  have ho : o = (treeBuilder fuel v (.elementDecl n typ ec) c).1 := ho
  unfold treeBuilder at ho
  simp only at ho
  unfold tbUnit tbOut at ho
  simp only [Bind.bind, M.bind] at ho
  cases hq : tbElementDecl v n typ ec c with
  | ok u c' => exact tbElementDecl_ok hq
  | err e c' => rw [hq] at ho; rw [ho] at hk; rcases hk with hk | hk | ⟨_, hk⟩; exact hk.elim; simp at hk; cases hk
  | panic => rw [hq] at ho; rw [ho] at hk; rcases hk with hk | hk | ⟨_, hk⟩; exact hk.elim; simp at hk; cases hk
  | diverge => rw [hq] at ho; rw [ho] at hk; rcases hk with hk | hk | ⟨_, hk⟩; exact hk.elim; simp at hk; cases hk

end
end Helium
