import Verif.Lemmas.LogicDoc
/-! Logics about the trace of callbacks. -/
namespace Helium
section
variable {σ : Type} {H : Handler σ} (E : Env)

/-- a notification that returned an error. -/
def BadEntry (x : Ev × HOut) : Prop := ¬ x.1.lookup ∧ ∃ e, x.2 = .err e

/-- what a returned error says about the last callback. -/
def LastErr (mid : List (Ev × HOut)) (e : Err) : Prop :=
  ∀ ev e0, mid.getLast? = some (ev, .err e0) → ¬ ev.lookup → e = e0 ∨ e = wrapErr e0

theorem wrapErr_wrapErr (e : Err) : wrapErr (wrapErr e) = wrapErr e := by cases e <;> rfl

theorem cbRes_ok_not_bad {ev : Ev} {s : St σ}
    (h : cbRes H ev s ∈ [HOut.ok, .unspecified] ∨ (∃ e, cbRes H ev s = .ent e)) : ∀ e, cbRes H ev s ≠ .err e := by
  intro e he
  rw [he] at h
  rcases h with h | ⟨e', h⟩
  · simp at h
  · cases h

/-- The trace grows by entries whose events satisfy `G`; a notification that fails is the last one and its error is the result.
With `tr`, the subset flag does not change. -/
def TL (H : Handler σ) (tr : Bool) (G : Ev → Prop) (hG : ∀ ev, ev.lookup → G ev) : Logic false H where
  R s s' := (tr = true → s'.inSubset = s.inSubset) ∧ ∃ mid, s'.trace = s.trace ++ mid ∧ ∀ x ∈ mid, G x.1 ∧ ¬ BadEntry x
  X s e s' := ∃ mid, s'.trace = s.trace ++ mid ∧ (∀ x ∈ mid, G x.1) ∧ (∀ x ∈ mid.dropLast, ¬ BadEntry x) ∧ LastErr mid e
  Q := G
  quiet h := ⟨fun _ => h.inSubset, [], by simp [h.trace], by simp⟩
  trans := by
    rintro a b c ⟨h0, m, h1, h2⟩ ⟨h0', m', h1', h2'⟩
    refine ⟨fun h => (h0' h).trans (h0 h), m ++ m', by rw [h1', h1, List.append_assoc], ?_⟩
    intro x hx
    rcases List.mem_append.1 hx with h | h
    · exact h2 x h
    · exact h2' x h
  transX := by
    rintro a b e c ⟨_, m, h1, h2⟩ ⟨m', h1', h2', h3', h4'⟩
    refine ⟨m ++ m', by rw [h1', h1, List.append_assoc], ?_, ?_, ?_⟩
    · intro x hx
      rcases List.mem_append.1 hx with h | h
      · exact (h2 x h).1
      · exact h2' x h
    · intro x hx
      by_cases hm : m' = []
      · subst hm
        rw [List.append_nil] at hx
        exact (h2 x (List.dropLast_subset _ hx)).2
      · rw [List.dropLast_append_of_ne_nil hm] at hx
        rcases List.mem_append.1 hx with h | h
        · exact (h2 x h).2
        · exact h3' x h
    · intro ev e0 hl hn
      by_cases hm : m' = []
      · subst hm
        rw [List.append_nil] at hl
        exact absurd ⟨hn, e0, rfl⟩ (h2 _ (List.mem_of_getLast? hl)).2
      · rw [List.getLast?_append, List.getLast?_eq_some_getLast hm, Option.some_or] at hl
        exact h4' ev e0 (by rw [List.getLast?_eq_some_getLast hm]; exact hl) hn
  xquiet := by
    rintro a e b c ⟨m, h1, h2⟩ h
    exact ⟨m, by rw [h.trace, h1], h2⟩
  fail := by
    intro s e _
    exact ⟨[], by simp, by simp, by simp, by intro ev e0 h; simp at h⟩
  wrap := by
    rintro s e s' ⟨m, h1, h2, h3, h4⟩
    refine ⟨m, h1, h2, h3, ?_⟩
    intro ev e0 hl hn
    rcases h4 ev e0 hl hn with rfl | rfl
    · exact Or.inr rfl
    · exact Or.inr (wrapErr_wrapErr e0)
  call := by
    intro s ev hq h
    refine ⟨fun _ => rfl, [(ev, cbRes H ev s)], rfl, ?_⟩
    intro x hx
    rw [List.mem_singleton] at hx
    subst hx
    exact ⟨hq, fun hb => by obtain ⟨_, e, he⟩ := hb; exact cbRes_ok_not_bad h e he⟩
  callX := by
    intro s ev e hq h
    refine ⟨[(ev, cbRes H ev s)], rfl, ?_, by simp, ?_⟩
    · intro x hx
      rw [List.mem_singleton] at hx
      subst hx
      exact hq
    · intro ev' e0 hl hn
      rw [h] at hl
      simp only [List.getLast?_singleton, Option.some.injEq, Prod.mk.injEq, HOut.err.injEq] at hl
      exact Or.inl hl.2
  look := by
    intro s ev h
    refine ⟨fun _ => rfl, [(ev, cbRes H ev s)], rfl, ?_⟩
    intro x hx
    rw [List.mem_singleton] at hx
    subst hx
    exact ⟨hG ev h, fun hb => hb.1 h⟩

/-- `TL` fits the content parser when all content events are good. -/
theorem TL_flat {tr : Bool} {G : Ev → Prop} {hG : ∀ ev, ev.lookup → G ev} (ha : Admits (TL H tr G hG)) {I : St σ → Prop}
    (hI : ∀ {s s'}, (TL H tr G hG).R s s' → I s → I s') (hIq : ∀ {s s'}, Quiet false s s' → I s → I s')
    (henter : ∀ s d h c, I s → I (chunkSt s d h c))
    (hent : ∀ s e s', I s → parseEntityRef E H s = .ok e s' → e.name s'.hc.heap = [] ∨ e.typ s'.hc.heap = 6 →
      e.content s'.hc.heap ≠ [] → G (.characters (e.content s'.hc.heap))) : Flat E (TL H tr G hG) I where
  admits := ha
  inv := hI
  invq := hIq
  enter := fun s d h c _ => henter s d h c
  leave := by
    rintro s d h c fc lc t - ⟨h0, m, h1, h2⟩
    exact ⟨fun _ => rfl, m, h1, h2⟩
  leaveX := by
    rintro s d h c fc lc t e - ⟨m, h1, h2⟩
    exact ⟨m, h1, h2⟩
  ent := hent

theorem TL_tags {tr : Bool} {G : Ev → Prop} {hG : ∀ ev, ev.lookup → G ev}
    (hs : ∀ l p u n a, G (.startElement l p u n a)) (he : ∀ l p u, G (.endElement l p u)) : FlatTags (TL H tr G hG) where
  start := hs
  fin := he
  nodes s ns := ⟨fun _ => rfl, [], by simp, by simp⟩
  ns s ns := ⟨fun _ => rfl, [], by simp, by simp⟩

end
end Helium
