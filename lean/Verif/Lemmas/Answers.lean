import Verif.Lemmas.DocLogic
/-! Every answer in the trace was given by the handler. -/
namespace Helium
section
variable {σ : Type} {H : Handler σ}

/-- the answer `x.2` is one the handler gives to the event `x.1`. -/
def Honest (H : Handler σ) (x : Ev × HOut) : Prop := ∃ v c, x.2 = (H v x.1 c).1

/-- the events from `s` to `s'` were answered by the handler. -/
def Asked (H : Handler σ) (s s' : St σ) : Prop := ∃ mid, s'.trace = s.trace ++ mid ∧ ∀ x ∈ mid, Honest H x

theorem Asked.same {s s' : St σ} (h : s'.trace = s.trace) : Asked H s s' := ⟨[], by simp [h], by simp⟩
theorem Asked.trans {a b c : St σ} (h : Asked H a b) (k : Asked H b c) : Asked H a c := by
  obtain ⟨m, h1, h2⟩ := h
  obtain ⟨m', k1, k2⟩ := k
  refine ⟨m ++ m', by rw [k1, h1, List.append_assoc], fun x hx => ?_⟩
  rcases List.mem_append.1 hx with hx | hx
  · exact h2 x hx
  · exact k2 x hx
theorem Asked.call (ev : Ev) (s : St σ) : Asked H s (cbSt H ev s) :=
  ⟨[(ev, (H s.view ev s.hc).1)], rfl, by simp only [List.mem_singleton, forall_eq]; exact ⟨_, _, rfl⟩⟩

/-- the program logic of `Asked`. -/
def ansL (H : Handler σ) : Logic false H where
  R := Asked H
  X s _ s' := Asked H s s'
  Q _ := True
  quiet q := .same q.trace
  trans := Asked.trans
  transX := Asked.trans
  xquiet h q := h.trans (.same q.trace)
  fail _ := .same rfl
  wrap h := h
  call _ _ := .call _ _
  callX _ _ := .call _ _
  look _ := .call _ _

theorem ansL_wide : Wide (ansL H) where
  q _ _ := trivial
  cur _ _ := .same rfl
  sub _ _ := .same rfl
  nodes _ _ := .same rfl
  ns _ _ := .same rfl
  leave _ _ _ _ _ _ _ _ hR := hR
  leaveX _ _ _ _ _ _ _ _ _ hR := hR

/-- every entry of the trace of a parse is an event with an answer of the handler. -/
theorem honest_trace (E : Env) (H : Handler σ) (usr : σ) (fuel snl : Nat) (input : Bytes) {doc : Option Nat} {e : Option Err} {h : Heap}
    {tr : List (Ev × HOut)} (hr : parserParse E H usr fuel snl input = .done doc e h tr) : ∀ x ∈ tr, Honest H x := by
  have h1 := (ansL_wide (H := H)).document E fuel snl (initSt usr Heap.empty input)
  unfold parserParse at hr
  cases hp : parseDocument E H fuel snl (initSt usr Heap.empty input) with
  | ok a s =>
    rw [hp] at hr h1
    cases hr
    obtain ⟨m, h2, h3⟩ := h1
    rw [h2]
    exact h3
  | err e1 s =>
    rw [hp] at hr h1
    cases hr
    obtain ⟨m, h2, h3⟩ := h1
    rw [h2]
    exact h3
  | panic => rw [hp] at hr; cases hr
  | diverge => rw [hp] at hr; cases hr

end
end Helium
