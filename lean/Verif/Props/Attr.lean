import Verif.Lemmas.AttrRun
/-! # Attributes of elements (C19, C20) -/
namespace Helium
open Spec

/-- C19 (`SetAttribute` part): after any history of `SetAttribute` calls, with any names and values, the attributes of every element are a
well-formed list whose names are the names of the successful calls in order, and no name occurs twice. -/
theorem C19_attribute_names_distinct (fuel : Nat) (cs : List AttrCall) {h : Heap} {es : List Nat} {m : Nat → List Nat}
    (I : AttrLists h es m) (hn : ∀ e ∈ es, (attrNames h (m e)).Nodup) (hc : ∀ c ∈ cs, c.elem ∈ es) {rs : List (Option Err)} {h' : Heap}
    (he : setAll fuel cs h = .ok rs h') :
    ∃ m', AttrLists h' es m' ∧ rs.length = cs.length ∧ ∀ e ∈ es, (∃ k, m' e = m e ++ k) ∧
      attrNames h' (m' e) = attrNames h (m e) ++ accepted e cs rs ∧ (attrNames h' (m' e)).Nodup :=
  setAll_lists fuel cs I hn hc he

/-- C19: a rejected call leaves every attribute list as it was, and every name. -/
theorem C19_rejected_call_changes_no_list {h : Heap} {es : List Nat} {m : Nat → List Nat} (I : AttrLists h es m) {e : Nat} (he : e ∈ es)
    (fuel : Nat) (name value : Bytes) {er : Err} {h' : Heap} (hx : setAttribute fuel e name value h = .err er h') :
    AttrLists h' es m ∧ ∀ x ∈ es, attrNames h' (m x) = attrNames h (m x) := by
  have h0 := setAttribute_lists I he fuel name value
  rw [hx] at h0
  exact ⟨h0.2, fun x hxe => h0.1.names (fun i hi => (I.list x hxe).alloc i hi)⟩

/-- C19: a call with a name the element already has is rejected, whatever the value. -/
theorem C19_duplicate_is_rejected {h : Heap} {es : List Nat} {m : Nat → List Nat} (I : AttrLists h es m) {e : Nat} (he : e ∈ es)
    (fuel : Nat) (name value : Bytes) (hd : name ∈ attrNames h (m e)) (h' : Heap) : setAttribute fuel e name value h ≠ .ok () h' := by
  intro hx
  have h0 := setAttribute_lists I he fuel name value
  rw [hx] at h0
  exact h0.2.2.1 hd

/-- C20, for values that are UTF-8: after any history of calls with plain values on fresh elements, every call succeeds or is a duplicate, and the attributes of
every element, in list order, are the first call for each name in call order, with the value of that call. -/
theorem C20_attribute_order_and_values_partial (fuel : Nat) (cs : List (AttrCall × Bytes)) {h : Heap} {es : List Nat} (ht : TabOK h)
    (he : ∀ e ∈ es, e < h.size ∧ (h.at' e).kind = .element ∧ (h.at' e).props = none)
    (hc : ∀ c ∈ cs, c.1.elem ∈ es ∧ StandsFor c.1.value c.2 ∧ c.1.value.length + 1 < fuel) :
    ∃ (rs : List (Option Err)) (h' : Heap) (m : Nat → List Nat), setAll fuel (cs.map Prod.fst) h = .ok rs h' ∧ (∀ r ∈ rs, r = none ∨ r = some (.k .duplicateAttribute)) ∧
      ∀ e ∈ es, PropList h' e (m e) ∧ chain h' (h'.size + 1) (h'.at' e).props = some (m e) ∧ attrPairs h' (m e) = wanted e cs [] := by
  have I : AttrLists h es (fun _ => []) := ⟨ht, fun e h1 => ⟨(he e h1).1, (he e h1).2.1⟩, fun e h1 =>
    ⟨(he e h1).2.2, by simp, by simp, by simp, by simp, by simp⟩, by simp⟩
  obtain ⟨rs, h', m, e1, I1, H, hr⟩ := setAll_plain fuel es cs (ps := fun _ => []) I (fun _ _ => trivial) hc
  exact ⟨rs, h', m, e1, hr, fun e h1 => ⟨I1.list e h1, (I1.list e h1).chain_eq (Nat.le_refl _), (H e h1).pairs⟩⟩

/-- C20: with pairwise different names every call counts. -/
theorem C20_distinct_names_all_kept (e : Nat) (cs : List (AttrCall × Bytes)) (he : ∀ c ∈ cs, c.1.elem = e)
    (hn : (cs.map (fun c => c.1.name)).Nodup) : wanted e cs [] = cs.map (fun c => (c.1.name, some c.2)) := by
  have key : ∀ (cs : List (AttrCall × Bytes)) (acc : List (Bytes × Option Bytes)), (∀ c ∈ cs, c.1.elem = e) →
      (cs.map (fun c => c.1.name)).Nodup → (∀ c ∈ cs, c.1.name ∉ acc.map Prod.fst) →
      wanted e cs acc = acc ++ cs.map (fun c => (c.1.name, some c.2)) := by
    intro cs
    induction cs with
    | nil => intro acc _ _ _; simp [wanted]
    | cons c cs ih =>
      intro acc h1 h2 h3
      obtain ⟨c, w⟩ := c
      unfold wanted
      rw [if_pos ⟨h1 (c, w) (by simp), h3 (c, w) (by simp)⟩]
      simp only [List.map_cons, List.nodup_cons] at h2
      rw [ih _ (fun x hx => h1 x (by simp [hx])) h2.2]
      · simp
      · intro x hx hm
        simp only [List.map_append, List.map_cons, List.map_nil, List.mem_append, List.mem_singleton] at hm
        rcases hm with hm | hm
        · exact h3 x (by simp [hx]) hm
        · exact h2.1 (by rw [← hm]; exact List.mem_map_of_mem hx)
  simpa using key cs [] he hn (by simp)

/-- C20: a value without ampersand stands for itself. -/
theorem C20_value_without_reference {rs : List Nat} (hs : ∀ r ∈ rs, isScalar r) (ha : 38 ∉ rs) : StandsFor (encodeRunes rs) (encodeRunes rs) := by
  refine ⟨rs, rs, hs, ?_, rfl, rfl⟩
  clear hs
  induction rs with
  | nil => exact .nil
  | cons c rs ih =>
    simp only [List.mem_cons, not_or] at ha
    exact .char c rs rs (Ne.symm ha.1) (ih ha.2)

/-- two elements without attributes. -/
def twoElements : Heap := (Heap.empty.alloc (mkElement none b!"p")).alloc (mkElement none b!"q")

theorem twoElements_ok : TabOK twoElements ∧ ∀ e ∈ [0, 1], e < twoElements.size ∧ (twoElements.at' e).kind = .element ∧
    (twoElements.at' e).props = none := by
  refine ⟨?_, by decide⟩
  intro i x hx
  have : (twoElements.at' i).entities = [] ∧ (twoElements.at' i).pentities = [] := by
    simp only [twoElements, Heap.alloc, mkElement]
    by_cases h1 : i = Heap.empty.size + 1
    · simp [h1]
    · by_cases h2 : i = Heap.empty.size
      · simp [h2]
      · simp only [h1, h2, if_false]; exact ⟨rfl, rfl⟩
  rw [this.1, this.2] at hx
  simp at hx

/-- four calls on two elements, one a duplicate, one with an escaped ampersand. -/
example : ∃ cs : List (AttrCall × Bytes), cs.length = 4 ∧
    (∀ c ∈ cs, c.1.elem ∈ [0, 1] ∧ StandsFor c.1.value c.2 ∧ c.1.value.length + 1 < 100) ∧
    wanted 0 cs [] = [(b!"a", some b!"x"), (b!"b", some b!"y&z")] ∧ wanted 1 cs [] = [(b!"a", some b!"")] := by
  refine ⟨[(⟨0, b!"a", b!"x"⟩, b!"x"), (⟨1, b!"a", b!""⟩, b!""), (⟨0, b!"b", b!"y&#38;z"⟩, b!"y&z"), (⟨0, b!"a", b!"w"⟩, b!"w")], rfl, ?_, by decide, by decide⟩
  intro c hc
  have h1 : StandsFor b!"x" b!"x" := C20_value_without_reference (rs := b!"x") (by decide) (by decide)
  have h2 : StandsFor b!"" b!"" := C20_value_without_reference (rs := []) (by decide) (by decide)
  have h3 : StandsFor b!"w" b!"w" := C20_value_without_reference (rs := b!"w") (by decide) (by decide)
  have h4 : StandsFor b!"y&#38;z" b!"y&z" :=
    ⟨b!"y&#38;z", b!"y&z", by decide, .char _ _ _ (by decide) (.amp _ _ (.char _ _ _ (by decide) .nil)), by decide, by decide⟩
  simp only [List.mem_cons, List.not_mem_nil, or_false] at hc
  rcases hc with rfl | rfl | rfl | rfl
  · exact ⟨by decide, h1, by decide⟩
  · exact ⟨by decide, h2, by decide⟩
  · exact ⟨by decide, h4, by decide⟩
  · exact ⟨by decide, h3, by decide⟩

/-- the hypotheses of `C19_attribute_names_distinct` on two elements; the second call of the history is rejected. -/
example : AttrLists twoElements [0, 1] (fun _ => []) ∧ ∃ rs h', rs = [none, some (Err.k .duplicateAttribute), none] ∧
    setAll 100 [⟨0, b!"a", b!"x"⟩, ⟨0, b!"a", b!"y"⟩, ⟨1, b!"a", b!"z"⟩] twoElements = .ok rs h' := by
  obtain ⟨ht, he⟩ := twoElements_ok
  refine ⟨⟨ht, fun e h1 => ⟨(he e h1).1, (he e h1).2.1⟩, fun e h1 => ⟨(he e h1).2.2, by simp, by simp, by simp, by simp, by simp⟩, by simp⟩,
    _, _, rfl, rfl⟩

/-- C20 as stated: every value without `&` reads back unchanged. -/
def C20_statement : Prop := ∀ (value : Bytes), 38 ∉ value → ∀ h', setAttribute (value.length + 2) 0 b!"a" value twoElements = .ok () h' →
  ∃ a, (h'.at' 0).props = some a ∧ contentF h' (h'.size + 1) a = some value

/-- a byte that is no UTF-8 is replaced by U+FFFD. -/
theorem C20_refuted : ¬ C20_statement := by
  intro h
  obtain ⟨a, h1, h2⟩ := h [255] (by decide) _ rfl
  have h3 : a = 2 := by
    have : some a = some 2 := by rw [← h1]; rfl
    injection this
  subst h3
  have h4 := h2.symm.trans (show _ = some [239, 191, 189] from rfl)
  revert h4
  decide

end Helium
