import Verif.Lemmas.DocLogic
import Verif.Spec.Accepted
/-! With the tree builder a lookup finds only entities that have been declared before. -/
namespace Helium
open Spec

section
variable {σ : Type} {N : Bytes → Prop} {α β : Type}

/-- a computation of the tree builder that adds no names but those in `N` to entity tables. -/
def KeepB (N : Bytes → Prop) (p : TB σ α) : Prop :=
  ∀ c, (∀ a c', p c = .ok a c' → Tabs N c.heap c'.heap) ∧ (∀ e c', p c = .err e c' → Tabs N c.heap c'.heap)

theorem KeepB.bind {p : TB σ α} {f : α → TB σ β} (hp : KeepB N p) (hf : ∀ a, KeepB N (f a)) : KeepB N (p >>= f) := by
  intro h
  have h1 := hp h
  show (∀ a h', M.bind p f h = .ok a h' → _) ∧ (∀ e h', M.bind p f h = .err e h' → _)
  unfold M.bind
  cases hps : p h with
  | ok a s' =>
    have h2 := hf a s'
    have h3 := h1.1 a s' hps
    exact ⟨fun b h' hb => h3.trans (h2.1 b h' hb), fun e h' hb => h3.trans (h2.2 e h' hb)⟩
  | err e s' =>
    refine ⟨fun b h' hb => (by cases hb), fun e h' hb => ?_⟩
    cases hb
    exact h1.2 _ _ hps
  | panic => exact ⟨fun b h' hb => (by cases hb), fun e h' hb => (by cases hb)⟩
  | diverge => exact ⟨fun b h' hb => (by cases hb), fun e h' hb => (by cases hb)⟩

theorem KeepB.of_read {p : TB σ α} (h1 : ∀ h a h', p h = .ok a h' → h'.heap = h.heap) (h2 : ∀ h e h', p h = .err e h' → h'.heap = h.heap) : KeepB N p :=
  fun h => ⟨fun a h' hp => by rw [h1 h a h' hp]; exact Tabs.refl N _, fun e h' hp => by rw [h2 h e h' hp]; exact Tabs.refl N _⟩

theorem KeepB.pure (a : α) : KeepB N (Pure.pure a : TB σ α) := .of_read (fun _ _ _ h => by cases h; rfl) (fun _ _ _ h => by cases h)
theorem KeepB.raw (e : EK) : KeepB N (M.raw e : TB σ α) := .of_read (fun _ _ _ h => by cases h) (fun _ _ _ h => by cases h; rfl)
theorem KeepB.panic : KeepB N (M.panic : TB σ α) := .of_read (fun _ _ _ h => by cases h) (fun _ _ _ h => by cases h)
theorem KeepB.get : KeepB N (M.get : TB σ (HC σ)) := .of_read (fun _ _ _ h => by cases h; rfl) (fun _ _ _ h => by cases h)
theorem KeepB.modify {f : HC σ → HC σ} (hf : ∀ c, (f c).heap = c.heap) : KeepB N (M.modify f : TB σ Unit) :=
  .of_read (fun _ _ _ h => by cases h; exact hf _) (fun _ _ _ h => by cases h)
theorem KeepB.deref (o : Option α) : KeepB N (M.deref o : TB σ α) := by
  unfold M.deref
  cases o
  · exact KeepB.panic
  · exact KeepB.pure _
theorem KeepB.attempt {p : TB σ α} (hp : KeepB N p) : KeepB N (M.attempt p) := by
  intro h
  unfold M.attempt
  cases hps : p h with
  | ok a s' => exact ⟨fun b h' hb => by cases hb; exact (hp h).1 _ _ hps, fun e h' hb => (by cases hb)⟩
  | err e s' => exact ⟨fun b h' hb => by cases hb; exact (hp h).2 _ _ hps, fun e h' hb => (by cases hb)⟩
  | panic => exact ⟨fun b h' hb => (by cases hb), fun e h' hb => (by cases hb)⟩
  | diverge => exact ⟨fun b h' hb => (by cases hb), fun e h' hb => (by cases hb)⟩
theorem KeepB.forM {l : List α} {f : α → TB σ Unit} (hf : ∀ a, KeepB N (f a)) : KeepB N (l.forM f) := by
  induction l with
  | nil => exact KeepB.pure ()
  | cons a t ih => exact KeepB.bind (hf a) (fun _ => ih)
theorem KeepB.tbH {p : HM α} (hp : KeepT N p) : KeepB N (tbH p : TB σ α) := by
  intro c
  unfold Helium.tbH
  cases hps : p c.heap with
  | ok a s' => exact ⟨fun b h' hb => by cases hb; exact (hp _).1 _ _ hps, fun e h' hb => (by cases hb)⟩
  | err e s' => exact ⟨fun b h' hb => (by cases hb), fun e h' hb => by cases hb; exact (hp _).2 _ _ hps⟩
  | panic => exact ⟨fun b h' hb => (by cases hb), fun e h' hb => (by cases hb)⟩
  | diverge => exact ⟨fun b h' hb => (by cases hb), fun e h' hb => (by cases hb)⟩
theorem KeepB.tbDoc : KeepB N (tbDoc : TB σ Nat) := KeepB.bind KeepB.get (fun _ => KeepB.deref _)

macro "keepB1" : tactic => `(tactic| first
  | with_reducible assumption
  | with_reducible exact KeepB.pure _ | with_reducible exact KeepB.raw _ | with_reducible exact KeepB.panic | with_reducible exact KeepB.get
  | with_reducible exact KeepB.deref _ | with_reducible exact KeepB.tbDoc
  | ((with_reducible refine KeepB.modify ?_); intro x; rfl)
  | ((with_reducible refine KeepB.tbH ?_); solve | keepT)
  | with_reducible refine KeepB.bind ?_ (fun _ => ?_) | with_reducible refine KeepB.attempt ?_
  | with_reducible refine KeepB.forM (fun _ => ?_)
  | split
  | dsimp only)
macro "keepB" : tactic => `(tactic| repeat keepB1)

theorem KeepB.tbAttach (d n : Nat) : KeepB N (tbAttach d n : TB σ Unit) := by unfold Helium.tbAttach; keepB
theorem KeepB.tbSubset (v : HV) (d : Nat) : KeepB N (tbSubset v d : TB σ (Option Nat)) := by unfold Helium.tbSubset; keepB
theorem KeepB.tbAttr (fuel e : Nat) (a : AttrD) : KeepB N (tbAttr fuel e a : TB σ Unit) := by unfold Helium.tbAttr; keepB

theorem KeepB.out {p : TB σ HOut} (hp : KeepB N p) (c : HC σ) : Tabs N c.heap (tbOut p c).2.heap := by
  unfold tbOut
  cases h : p c with
  | ok a s' => exact (hp c).1 _ _ h
  | err e s' => exact (hp c).2 _ _ h
  | panic => exact Tabs.refl N _
  | diverge => exact Tabs.refl N _
theorem KeepB.unit {p : TB σ Unit} (hp : KeepB N p) (c : HC σ) : Tabs N c.heap (tbUnit p c).2.heap :=
  KeepB.out (KeepB.bind hp (fun _ => KeepB.pure _)) c

/-- the name an event adds to the table of general entities. -/
def Ev.adds : Ev → Bytes → Prop
  | .entityDecl n t _ _ _, m => m = n ∧ (t = 1 ∨ t = 2 ∨ t = 3)
  | _, _ => False

theorem treeBuilder_tabs (fuel : Nat) (v : HV) (ev : Ev) (c : HC σ) : Tabs ev.adds c.heap (treeBuilder fuel v ev c).2.heap := by
  have h1 : ∀ {N : Bytes → Prop} d n, KeepB N (Helium.tbAttach d n : TB σ Unit) := fun d n => KeepB.tbAttach d n
  have h2 : ∀ {N : Bytes → Prop} v d, KeepB N (Helium.tbSubset v d : TB σ (Option Nat)) := fun v d => KeepB.tbSubset v d
  have h3 : ∀ {N : Bytes → Prop} f e a, KeepB N (Helium.tbAttr f e a : TB σ Unit) := fun f e a => KeepB.tbAttr f e a
  have h4 : ∀ t n typ p s c, KeepB (Ev.adds (.entityDecl n typ p s c)) (tbH (dtdAddEntity t n typ p s c) : TB σ Nat) :=
    fun t n typ p s c => KeepB.tbH (KeepT.dtdAddEntity t n typ p s c)
  unfold treeBuilder
  cases ev <;> dsimp only <;> first | refine KeepB.unit ?_ c | refine KeepB.out ?_ c
  all_goals try unfold tbStartElement
  all_goals try unfold tbEndElement
  all_goals try unfold tbCharacters
  all_goals try unfold tbPI
  all_goals try unfold tbComment
  all_goals try unfold tbInternalSubset
  all_goals try unfold tbReference
  all_goals try unfold tbAttributeDecl
  all_goals try unfold tbElementDecl
  all_goals try unfold tbEntityDecl
  all_goals repeat first | with_reducible exact h1 _ _ | with_reducible exact h2 _ _ | with_reducible exact h3 _ _ _ | with_reducible exact h4 _ _ _ _ _ _ | keepB1

theorem treeBuilder_answer {fuel : Nat} {v : HV} {n : Bytes} {c : HC σ} {e : ERef} (h : (treeBuilder fuel v (.getEntity n) c).1 = .ent (some e)) :
    ∃ i x, mapGet (c.heap.at' i).entities n = some x := by
  have key : ∀ d x, docGetEntity c.heap d n = some x → ∃ i x, mapGet (c.heap.at' i).entities n = some x := by
    intro d x hx
    unfold docGetEntity at hx
    split at hx
    · exact ⟨_, _, hx⟩
    · split at hx
      · exact ⟨_, _, hx⟩
      · cases hx
  unfold treeBuilder tbOut tbDoc at h
  cases hd : c.doc with
  | none => simp [Bind.bind, M.bind, M.get, M.deref, M.panic, hd] at h
  | some d =>
    simp only [Bind.bind, M.bind, M.get, M.deref, hd, Pure.pure, M.pure] at h
    cases hg : docGetEntity c.heap d n with
    | none => rw [hg] at h; simp [M.raw, M.fail] at h
    | some x => exact key d x hg

/-! ### the logic -/

/-- entity tables hold declared names only, and what was found had been declared before. -/
structure EntOK (s : St σ) : Prop where
  tab : ∀ i n x, mapGet (s.hc.heap.at' i).entities n = some x → Declared s.trace n
  kept : ∀ i n x, mapGet (s.hc.heap.at' i).entities n = some x → x < s.hc.heap.size ∧ IsEnt (s.hc.heap.at' x) n
  old : ∀ pre n e suf, s.trace = pre ++ (Ev.getEntity n, HOut.ent (some e)) :: suf → Declared pre n

theorem declared_mono {tr m : List (Ev × HOut)} {n : Bytes} (h : Declared tr n) : Declared (tr ++ m) n := by
  obtain ⟨t, p, s, c, o, h1, h2⟩ := h
  exact ⟨t, p, s, c, o, List.mem_append_left _ h1, h2⟩

theorem ents_kept {h h' : Heap} (H : Ents h h') (hk : ∀ i n x, mapGet (h.at' i).entities n = some x → x < h.size ∧ IsEnt (h.at' x) n) :
    ∀ i n x, mapGet (h'.at' i).entities n = some x → x < h'.size ∧ IsEnt (h'.at' x) n := by
  intro i n x hx
  rcases H.tab i n x hx with hn | ⟨j, hj⟩
  · exact hn
  · exact H.isEnt (hk j n x hj).1 (hk j n x hj).2

theorem EntOK.call {fuel : Nat} {s : St σ} (h : EntOK s) (ev : Ev) : EntOK (cbSt (treeBuilder fuel) ev s) := by
  refine ⟨?_, ents_kept (treeBuilder_tabs fuel s.view ev s.hc).ents h.kept, ?_⟩
  · intro i n x hx
    rcases (treeBuilder_tabs fuel s.view ev s.hc).names i n x hx with hn | ⟨j, y, hy⟩
    · cases ev <;> try exact hn.elim
      rename_i m t p sy c
      obtain ⟨rfl, ht⟩ := hn
      exact ⟨t, p, sy, c, _, List.mem_append_right _ (List.mem_singleton.2 rfl), ht⟩
    · exact declared_mono (h.tab j n y hy)
  · intro pre n e suf heq
    have heq : s.trace ++ [(ev, (treeBuilder fuel s.view ev s.hc).1)] = pre ++ (Ev.getEntity n, HOut.ent (some e)) :: suf := heq
    rcases List.eq_nil_or_concat suf with rfl | ⟨suf', y, rfl⟩
    · obtain ⟨h1, h2⟩ := List.append_inj' heq rfl
      subst h1
      simp only [List.cons.injEq, Prod.mk.injEq, and_true] at h2
      obtain ⟨rfl, h3⟩ := h2
      obtain ⟨i, x, hx⟩ := treeBuilder_answer h3
      exact h.tab i n x hx
    · have : s.trace ++ [(ev, (treeBuilder fuel s.view ev s.hc).1)] = (pre ++ (Ev.getEntity n, HOut.ent (some e)) :: suf') ++ [y] := by
        rw [heq]; simp
      exact h.old pre n e suf' (List.append_inj' this rfl).1

theorem EntOK.heap {s s' : St σ} (h : EntOK s) (ht : s'.trace = s.trace) (hh : Tabs (fun _ => False) s.hc.heap s'.hc.heap) : EntOK s' := by
  refine ⟨?_, ents_kept hh.ents h.kept, ?_⟩
  · intro i n x hx
    rw [ht]
    rcases hh.names i n x hx with hn | ⟨j, y, hy⟩
    · exact hn.elim
    · exact h.tab j n y hy
  · rw [ht]; exact h.old

/-- the program logic of `EntOK`. -/
def entL (fuel : Nat) : Logic false (treeBuilder (σ := σ) fuel) where
  R s s' := EntOK s → EntOK s'
  X s _ s' := EntOK s → EntOK s'
  Q _ := True
  quiet q h := h.heap q.trace q.tabs.toTabs
  trans h k x := k (h x)
  transX h k x := k (h x)
  xquiet h q x := (h x).heap q.trace q.tabs.toTabs
  fail _ h := h
  wrap h := h
  call _ _ h := h.call _
  callX _ _ h := h.call _
  look _ h := h.call _

theorem entL_wide (fuel : Nat) : Wide (entL (σ := σ) fuel) where
  q _ _ := trivial
  cur _ _ h := h.heap rfl (Tabs.refl _ _)
  sub _ _ h := h.heap rfl (Tabs.refl _ _)
  nodes _ _ h := h.heap rfl (Tabs.refl _ _)
  ns _ _ h := h.heap rfl (Tabs.refl _ _)
  leave s d h c fc lc t ht hR x := by
    have h1 : EntOK (chunkSt s d h c) := x.heap rfl ht.tabs.toTabs
    exact (hR h1).heap rfl (Tabs.upd _ t.hc.heap d (f := fun x => { x with first := fc, last := lc }) rfl ⟨id, fun h => ⟨h, rfl, rfl⟩⟩)
  leaveX s d h c fc lc t e ht hR x := by
    have h1 : EntOK (chunkSt s d h c) := x.heap rfl ht.tabs.toTabs
    exact (hR h1).heap rfl (Tabs.upd _ t.hc.heap d (f := fun x => { x with first := fc, last := lc }) rfl ⟨id, fun h => ⟨h, rfl, rfl⟩⟩)

theorem entOK_init (usr : σ) (input : Bytes) : EntOK (initSt usr Heap.empty input) :=
  ⟨fun _ _ _ h => (by cases h), fun _ _ _ h => (by cases h), fun pre _ _ _ h => (by cases pre <;> cases h)⟩

theorem entOK_document (E : Env) (usr : σ) (tb fuel snl : Nat) (input : Bytes) :
    post (parseDocument E (treeBuilder tb) fuel snl (initSt usr Heap.empty input)) EntOK (fun _ => EntOK) :=
  post_mono (Wide.document E (entL_wide tb) fuel snl _) (fun _ h => h (entOK_init usr input)) (fun _ _ h => h (entOK_init usr input))

end
end Helium
