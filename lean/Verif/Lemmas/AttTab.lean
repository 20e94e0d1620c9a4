import Verif.Spec.Atts
import Verif.Lemmas.DeclEvents
/-! The tables of declared attributes after reading declarations. -/
namespace Helium
open Spec

/-! ### binding definitions -/

/-- what a definition is about. -/
def attKey (x : Bytes × AttDef) : Bytes × Bytes := (x.1, x.2.name)

theorem firsts_snoc (x : Bytes × AttDef) : ∀ (xs : List (Bytes × AttDef)) (seen : List (Bytes × Bytes)),
    firsts seen (xs ++ [x]) = firsts seen xs ++ if attKey x ∈ seen ∨ attKey x ∈ xs.map attKey then [] else [x]
  | [], seen => by
    simp only [List.nil_append, firsts, List.map_nil, List.not_mem_nil, or_false]
    rfl
  | y :: xs, seen => by
    have h1 := firsts_snoc x xs seen
    have h2 := firsts_snoc x xs ((y.1, y.2.name) :: seen)
    simp only [List.cons_append, firsts, List.map_cons, List.mem_cons] at h1 h2 ⊢
    by_cases h : (y.1, y.2.name) ∈ seen
    · rw [if_pos h, if_pos h, h1]
      by_cases hk : attKey x = attKey y
      · have : attKey x ∈ seen := by rw [hk]; exact h
        simp [this]
      · have e : (attKey x ∈ seen ∨ attKey x ∈ xs.map attKey) = (attKey x ∈ seen ∨ attKey x = attKey y ∨ attKey x ∈ xs.map attKey) := by simp [hk]
        simp only [e]
    · rw [if_neg h, if_neg h, h2]
      rw [List.cons_append]
      have e : ((attKey x = (y.1, y.2.name) ∨ attKey x ∈ seen) ∨ attKey x ∈ xs.map attKey) =
          (attKey x ∈ seen ∨ attKey x = attKey y ∨ attKey x ∈ xs.map attKey) := by
        rw [or_comm (a := attKey x = (y.1, y.2.name)), or_assoc]
        rfl
      simp only [e]

theorem firsts_mem : ∀ (xs : List (Bytes × AttDef)) (seen : List (Bytes × Bytes)), ∀ x ∈ firsts seen xs, x ∈ xs ∧ attKey x ∉ seen
  | [], _, x, h => by simp [firsts] at h
  | y :: xs, seen, x, h => by
    unfold firsts at h
    split at h
    · obtain ⟨h1, h2⟩ := firsts_mem xs seen x h
      exact ⟨by simp [h1], h2⟩
    · rcases List.mem_cons.1 h with rfl | h
      · exact ⟨by simp, by assumption⟩
      · obtain ⟨h1, h2⟩ := firsts_mem xs _ x h
        exact ⟨by simp [h1], fun hc => h2 (by simp [hc])⟩

theorem firsts_key : ∀ (xs : List (Bytes × AttDef)) (seen : List (Bytes × Bytes)), ∀ x ∈ xs, attKey x ∉ seen →
    ∃ y ∈ firsts seen xs, attKey y = attKey x
  | [], _, x, h, _ => by cases h
  | y :: xs, seen, x, h, hs => by
    unfold firsts
    rcases List.mem_cons.1 h with rfl | h
    · rw [if_neg (show (x.1, x.2.name) ∉ seen from hs)]
      exact ⟨x, by simp, rfl⟩
    · split
      · exact firsts_key xs seen x h hs
      · by_cases he : attKey x = (y.1, y.2.name)
        · exact ⟨y, by simp, he.symm⟩
        · obtain ⟨z, hz, hk⟩ := firsts_key xs ((y.1, y.2.name) :: seen) x h (by simp [he, hs])
          exact ⟨z, by simp [hz], hk⟩

/-! ### the table of types -/

/-- the table of types after some definitions. -/
def typeTab (m : List (Bytes × Nat)) (xs : List (Bytes × AttDef)) : List (Bytes × Nat) :=
  xs.foldl (fun m x => mapSet m (specialKey x.1 x.2.name) x.2.typ) m

theorem specialKey_inj {e a e' a' : Bytes} (h : 58 ∉ e) (h' : 58 ∉ e') (hk : specialKey e a = specialKey e' a') : e = e' ∧ a = a' := by
  unfold specialKey at hk
  have h1 := splitColon_append (a := e) (b := a) h
  rw [hk, splitColon_append h'] at h1
  cases h1
  exact ⟨rfl, rfl⟩

theorem mapSet_keys {α : Type} (k : Bytes) (v : α) : ∀ m : List (Bytes × α), (m.map (·.1)).Nodup →
    ((mapSet m k v).map (·.1)).Nodup ∧ ∀ x, x ∈ (mapSet m k v).map (·.1) ↔ x = k ∨ x ∈ m.map (·.1)
  | [], _ => by simp [mapSet]
  | (a, b) :: m, h => by
    rw [List.map_cons, List.nodup_cons] at h
    obtain ⟨h1, h2⟩ := mapSet_keys k v m h.2
    unfold mapSet
    split
    · rename_i e
      subst e
      refine ⟨by rw [List.map_cons, List.nodup_cons]; exact h, fun _ => ?_⟩
      simp
    · rename_i e
      refine ⟨?_, fun x => ?_⟩
      · rw [List.map_cons, List.nodup_cons]
        refine ⟨fun hc => ?_, h1⟩
        rcases (h2 a).1 hc with hc | hc
        · exact e hc
        · exact h.1 hc
      · rw [List.map_cons, List.mem_cons, h2, List.map_cons, List.mem_cons]
        exact ⟨fun h => by rcases h with h | h | h <;> simp [h], fun h => by rcases h with h | h | h <;> simp [h]⟩

theorem typeTab_nodup : ∀ (xs : List (Bytes × AttDef)) (m : List (Bytes × Nat)), (m.map (·.1)).Nodup → ((typeTab m xs).map (·.1)).Nodup
  | [], _, h => h
  | x :: xs, m, h => typeTab_nodup xs _ (mapSet_keys _ _ m h).1

theorem mapGet_filter {α : Type} (p : Bytes × α → Bool) (k : Bytes) : ∀ m : List (Bytes × α), (m.map (·.1)).Nodup →
    mapGet (m.filter p) k = (mapGet m k).filter (fun v => p (k, v))
  | [], _ => rfl
  | (a, b) :: m, h => by
    rw [List.map_cons, List.nodup_cons] at h
    have ih := mapGet_filter p k m h.2
    rw [List.filter_cons]
    by_cases ha : a = k
    · subst ha
      have h0 : mapGet m a = none := by
        cases hm : mapGet m a with
        | none => rfl
        | some v => exact absurd (List.mem_map.2 ⟨_, mapGet_mem hm, rfl⟩) h.1
      split
      · rename_i hp
        rw [mapGet_cons, mapGet_cons, if_pos rfl, if_pos rfl]
        simp [Option.filter, hp]
      · rename_i hp
        rw [ih, h0, mapGet_cons, if_pos rfl]
        simp [Option.filter, hp]
    · split
      · rw [mapGet_cons, mapGet_cons, if_neg ha, if_neg ha, ih]
      · rw [mapGet_cons, if_neg ha, ih]

theorem typeTab_get : ∀ (xs : List (Bytes × AttDef)) (m : List (Bytes × Nat)) (k : Bytes) (t : Nat), mapGet (typeTab m xs) k = some t →
    mapGet m k = some t ∨ ∃ x ∈ xs, specialKey x.1 x.2.name = k ∧ x.2.typ = t
  | [], m, k, t, h => Or.inl h
  | x :: xs, m, k, t, h => by
    rcases typeTab_get xs _ k t h with h | ⟨y, hy, h⟩
    · rw [mapGet_mapSet] at h
      split at h
      · rename_i e
        cases h
        exact Or.inr ⟨x, by simp, e, rfl⟩
      · exact Or.inl h
    · exact Or.inr ⟨y, by simp [hy], h⟩

theorem typeTab_some : ∀ (xs : List (Bytes × AttDef)) (m : List (Bytes × Nat)) (k : Bytes),
    (∃ x ∈ xs, specialKey x.1 x.2.name = k) ∨ (mapGet m k).isSome = true → (mapGet (typeTab m xs) k).isSome = true
  | [], m, k, h => by
    rcases h with ⟨x, hx, _⟩ | h
    · cases hx
    · exact h
  | x :: xs, m, k, h => by
    refine typeTab_some xs _ k ?_
    rw [mapGet_mapSet]
    by_cases hk : specialKey x.1 x.2.name = k
    · exact Or.inr (by simp [hk])
    · rw [if_neg hk]
      rcases h with ⟨y, hy, h⟩ | h
      · rcases List.mem_cons.1 hy with rfl | hy
        · exact absurd h hk
        · exact Or.inl ⟨y, hy, h⟩
      · exact Or.inr h

/-- the final table of types says which attributes are not of type CDATA. -/
theorem tokOf_tokenised {ds : List Decl} (hc : ∀ x ∈ attDefs ds, 58 ∉ x.1) (ht : ∀ x ∈ attDefs ds, x.2.typ ≠ 0)
    (hs : ∀ x ∈ attDefs ds, ∀ y ∈ attDefs ds, attKey x = attKey y → x.2.typ = y.2.typ) {e : Bytes} (he : 58 ∉ e) (a : Bytes) :
    tokOf ((typeTab [] (attDefs ds)).filter (fun p => p.2 != 1)) e a = tokenised ds e a := by
  unfold tokOf
  rw [mapGet_filter _ _ _ (typeTab_nodup (attDefs ds) [] (by simp))]
  have hb : tokenised ds e a = true ↔ ∃ x ∈ binding ds, x.1 = e ∧ x.2.name = a ∧ x.2.typ ≠ 1 := by
    unfold tokenised
    simp [List.any_eq_true, and_assoc]
  cases hg : mapGet (typeTab [] (attDefs ds)) (specialKey e a) with
  | none =>
    simp only [Option.filter_none]
    cases htk : tokenised ds e a with
    | false => rfl
    | true =>
      obtain ⟨x, hx, h1, h2, h3⟩ := hb.1 htk
      have := typeTab_some (attDefs ds) [] (specialKey e a) (Or.inl ⟨x, (firsts_mem _ _ x hx).1, by rw [h1, h2]⟩)
      rw [hg] at this
      cases this
  | some t =>
    rcases typeTab_get _ _ _ _ hg with h | ⟨x, hx, hk, rfl⟩
    · cases h
    · obtain ⟨rfl, rfl⟩ := specialKey_inj (hc x hx) he hk
      obtain ⟨y, hy, hyk⟩ := firsts_key (attDefs ds) [] x hx (by simp)
      have hyt := hs y (firsts_mem _ _ y hy).1 x hx hyk
      have hyk' : y.1 = x.1 ∧ y.2.name = x.2.name := by
        simpa [attKey] using hyk
      by_cases h1 : x.2.typ = 1
      · simp only [h1, Option.filter, bne_self_eq_false, Bool.false_eq_true, if_false]
        cases htk : tokenised ds x.1 x.2.name with
        | false => rfl
        | true =>
          obtain ⟨z, hz, g1, g2, g3⟩ := hb.1 htk
          have := hs z (firsts_mem _ _ z hz).1 x hx (by unfold attKey; rw [g1, g2])
          rw [h1] at this
          exact absurd this g3
      · have h0 := ht x hx
        simp [Option.filter, h1, h0]
        exact (hb.2 ⟨y, hy, hyk'.1, hyk'.2, by rw [hyt]; exact h1⟩)

/-! ### the table of default values -/

/-- from `h` to `h'` nodes were added, and at most the literals of entities changed. -/
def Extends (h h' : Heap) : Prop := h.size ≤ h'.size ∧ ∀ i, i < h.size → ∃ o, h'.at' i = { h.at' i with orig := o }

theorem Extends.refl (h : Heap) : Extends h h := ⟨Nat.le_refl _, fun i _ => ⟨(h.at' i).orig, rfl⟩⟩

theorem Extends.trans {a b c : Heap} (h1 : Extends a b) (h2 : Extends b c) : Extends a c := by
  refine ⟨Nat.le_trans h1.1 h2.1, fun i hi => ?_⟩
  obtain ⟨o, e1⟩ := h1.2 i hi
  obtain ⟨o', e2⟩ := h2.2 i (Nat.lt_of_lt_of_le hi h1.1)
  exact ⟨o', by rw [e2, e1]⟩

theorem Extends.alloc (h : Heap) (n : Node) : Extends h (h.alloc n) := by
  refine ⟨Nat.le_succ _, fun i hi => ⟨(h.at' i).orig, ?_⟩⟩
  simp [Heap.alloc, Nat.ne_of_lt hi]

theorem Extends.orig (h : Heap) (i : Nat) (l : Bytes) : Extends h (h.upd i (fun x => { x with orig := l })) := by
  refine ⟨Nat.le_refl _, fun j _ => ?_⟩
  by_cases hj : j = i
  · subst hj
    exact ⟨l, by simp [Heap.upd, Heap.put]⟩
  · exact ⟨(h.at' j).orig, by simp [Heap.upd, Heap.put, hj]⟩

/-- node `i` is the default attribute declared by `x`. -/
def DefNode (h : Heap) (i : Nat) (x : AttDef) : Prop :=
  (h.at' i).isDefault = true ∧ (h.at' i).ns = some ((splitColon x.name).1, []) ∧ (h.at' i).name = (splitColon x.name).2 ∧
    ∃ w, StandsFor x.value w ∧ HasText h i w

theorem DefNode.grows {h h' : Heap} (g : Extends h h') {i : Nat} {x : AttDef} (H : DefNode h i x) : DefNode h' i x := by
  obtain ⟨a, b, c, w, hw, k, l, t⟩ := H
  obtain ⟨o, e⟩ := g.2 i l
  refine ⟨by rw [e]; exact a, by rw [e]; exact b, by rw [e]; exact c, w, hw, by rw [e]; exact k, Nat.lt_of_lt_of_le l g.1, ?_⟩
  rcases t with ⟨t1, t2⟩ | ⟨t, t1, t2, t3, t4, t5⟩
  · exact Or.inl ⟨t1, by rw [e]; exact t2⟩
  · obtain ⟨o', e'⟩ := g.2 t t1
    exact Or.inr ⟨t, Nat.lt_of_lt_of_le t1 g.1, by rw [e]; exact t2, by rw [e']; exact t3, by rw [e']; exact t4, by rw [e']; exact t5⟩

theorem first_split {b : Nat} : ∀ {l : Bytes}, b ∈ l → ∃ x y, l = x ++ b :: y ∧ b ∉ x
  | [], h => by cases h
  | a :: l, h => by
    by_cases ha : a = b
    · exact ⟨[], l, by simp [ha], by simp⟩
    · rcases List.mem_cons.1 h with rfl | h
      · exact absurd rfl ha
      · obtain ⟨x, y, rfl, hx⟩ := first_split h
        exact ⟨a :: x, y, rfl, by simp [Ne.symm ha, hx]⟩

theorem splitColon_join (n : Bytes) : (splitColon n).1 = [] ∧ n = (splitColon n).2 ∨ n = (splitColon n).1 ++ 58 :: (splitColon n).2 := by
  by_cases h : 58 ∈ n
  · obtain ⟨a, b, rfl, ha⟩ := first_split h
    rw [splitColon_append ha]
    exact Or.inr rfl
  · rw [splitColon_none h]
    exact Or.inl ⟨rfl, rfl⟩

theorem DefNode.carries {h : Heap} {i : Nat} {x : AttDef} (H : DefNode h i x) : Carries h i x := by
  obtain ⟨a, b, c, w, hw, t⟩ := H
  refine ⟨a, ⟨_, b, ?_⟩, w, hw, t.content⟩
  rw [c]
  exact splitColon_join x.name

theorem Spec.Pairs.mono {α β : Type} {R S : α → β → Prop} (h : ∀ a b, R a b → S a b) {l : List α} {m : List β} (H : Pairs R l m) : Pairs S l m := by
  induction H with
  | nil => exact .nil
  | cons h1 _ ih => exact .cons (h _ _ h1) ih

theorem Spec.Pairs.snoc {α β : Type} {R : α → β → Prop} {l : List α} {m : List β} (H : Pairs R l m) {a : α} {b : β} (h : R a b) :
    Pairs R (l ++ [a]) (m ++ [b]) := by
  induction H with
  | nil => exact .cons h .nil
  | cons h1 _ ih => exact .cons h1 ih

theorem Spec.Pairs.mem {α β : Type} {R : α → β → Prop} {l : List α} {m : List β} (H : Pairs R l m) {b : β} (hb : b ∈ m) : ∃ a ∈ l, R a b := by
  induction H with
  | nil => cases hb
  | cons h1 _ ih =>
    rcases List.mem_cons.1 hb with rfl | hb
    · exact ⟨_, by simp, h1⟩
    · obtain ⟨a, ha, h⟩ := ih hb
      exact ⟨a, by simp [ha], h⟩

theorem Spec.Pairs.map {α β γ : Type} {R : α → β → Prop} {S : α → γ → Prop} (f : β → γ) (h : ∀ a b, R a b → S a (f b)) {l : List α} {m : List β}
    (H : Pairs R l m) : Pairs S l (m.map f) := by
  induction H with
  | nil => exact .nil
  | cons h1 _ ih => exact .cons (h _ _ h1) ih

/-- definitions for which a default attribute is made. -/
def given (x : AttDef) : Bool := (x.deflt == 1 || x.deflt == 4) && x.value != []

/-- default attributes of elements `e` after the definitions `xs`. -/
def givens (xs : List (Bytes × AttDef)) (e : Bytes) : List AttDef := ((firsts [] xs).filter (fun x => x.1 == e && given x.2)).map (·.2)

theorem givens_snoc (xs : List (Bytes × AttDef)) (x : Bytes × AttDef) (e : Bytes) :
    givens (xs ++ [x]) e = givens xs e ++ if attKey x ∉ xs.map attKey ∧ x.1 = e ∧ given x.2 = true then [x.2] else [] := by
  unfold givens
  rw [firsts_snoc]
  by_cases h : attKey x ∈ xs.map attKey
  · simp [h]
  · simp only [List.not_mem_nil, h, or_self, if_false, List.filter_append, List.map_append, not_false_eq_true, true_and]
    congr 1
    by_cases h2 : x.1 = e ∧ given x.2 = true
    · simp [h2]
    · rw [if_neg h2, List.filter_cons_of_neg]
      · rfl
      · simpa using h2

section
variable {σ : Type} {H : Handler σ}

/-- the tables after the definitions `xs`; about the default attributes nothing is said if not `K`. -/
structure AttTab (K : Prop) (xs : List (Bytes × AttDef)) (s : St σ) : Prop where
  special : s.attsSpecial = typeTab [] xs
  deflt : K → ∀ e, Pairs (fun x p => p.1 = x.name ∧ DefNode s.hc.heap p.2 x) (givens xs e) ((mapGet s.attsDefault e).getD [])

theorem AttTab.keep {K : Prop} {xs : List (Bytes × AttDef)} {s s' : St σ} (T : AttTab K xs s) (h1 : s'.attsSpecial = s.attsSpecial)
    (h2 : s'.attsDefault = s.attsDefault) (h3 : K → Extends s.hc.heap s'.hc.heap) : AttTab K xs s' :=
  ⟨by rw [h1]; exact T.special, fun hk e => by rw [h2]; exact (T.deflt hk e).mono (fun a b h => ⟨h.1, h.2.grows (h3 hk)⟩)⟩

theorem cb_eq {ev : Ev} {s s' : St σ} (h : cb H ev s = .ok () s') : s' = cbSt H ev s := by
  unfold cb callback at h
  cases ho : (H s.view ev s.hc).1 <;> simp [Bind.bind, M.bind, ho, Pure.pure, M.pure, M.panic, M.diverge, M.fail] at h <;> (subst h; simp [cbSt, ho])

theorem cb_tab {K : Prop} (hK : K → KeepsHeap H) {xs : List (Bytes × AttDef)} {ev : Ev} {s s' : St σ} (T : AttTab K xs s) (h : cb H ev s = .ok () s') : AttTab K xs s' := by
  obtain rfl := cb_eq h
  exact T.keep rfl rfl (fun hk => by rw [show (cbSt H ev s).hc.heap = s.hc.heap from hK hk _ _ _]; exact .refl _)

theorem ask_tab {K : Prop} (hK : K → KeepsHeap H) {xs : List (Bytes × AttDef)} {ev : Ev} {s s' : St σ} {x} (T : AttTab K xs s) (h : ask H ev s = .ok x s') :
    AttTab K xs s' := by
  obtain ⟨rfl, _⟩ := ask_ok h
  exact T.keep rfl rfl (fun hk => by rw [show (cbSt H ev s).hc.heap = s.hc.heap from hK hk _ _ _]; exact .refl _)

theorem setOrig_tab {K : Prop} {xs : List (Bytes × AttDef)} {x : Except Err (Option ERef)} {l : Bytes} {s s' : St σ} (T : AttTab K xs s)
    (h : setOrig x l s = .ok () s') : AttTab K xs s' := by
  unfold setOrig at h
  split at h
  · cases h
    exact T.keep rfl rfl (fun _ => .orig _ _ _)
  · cases h
    exact T

theorem hasText_attr (h : Heap) (d : Option Nat) (n : Bytes) (ns : Option (Bytes × Bytes)) {w : List Nat} (hw : w ≠ []) :
    HasText ((attrHeap h d n ns w).upd h.size (fun x => { x with isDefault := true })) h.size (encodeRunes w) := by
  unfold attrHeap
  rw [if_neg hw]
  refine ⟨by simp [Heap.upd, Heap.put, Heap.alloc, mkAttr], by simp [Heap.upd, Heap.put, Heap.alloc]; omega, Or.inr ⟨h.size + 1, ?_⟩⟩
  simp [Heap.upd, Heap.put, Heap.alloc, mkAttr, mkText]

theorem grows_attr (h : Heap) (d : Option Nat) (n : Bytes) (ns : Option (Bytes × Bytes)) (w : List Nat) :
    Extends h ((attrHeap h d n ns w).upd h.size (fun x => { x with isDefault := true })) := by
  unfold attrHeap
  split
  · refine ⟨by simp [Heap.upd, Heap.put, Heap.alloc], fun i hi => ⟨(h.at' i).orig, ?_⟩⟩
    simp [Heap.upd, Heap.put, Heap.alloc, Nat.ne_of_lt hi]
  · refine ⟨by simp [Heap.upd, Heap.put, Heap.alloc]; omega, fun i hi => ⟨(h.at' i).orig, ?_⟩⟩
    simp [Heap.upd, Heap.put, Heap.alloc, Nat.ne_of_lt hi, Nat.ne_of_lt (Nat.lt_succ_of_lt hi)]

/-- a default value, as made by `addAttributeDefault`. -/
theorem defaultAtt_run {w : List Nat} (hw : ∀ c ∈ w, Legal c) {snl : Nat} (hl : (reported w).length + 1 < snl) (elem attr : Bytes) (s : St σ) :
    addAttributeDefault snl elem attr (reported w) s = .ok () (match mapGet s.attsSpecial (specialKey elem attr) with
      | some _ => s
      | none => { s with
        attsDefault := mapSet (match mapGet s.attsDefault elem with
            | some _ => s.attsDefault
            | none => mapSet s.attsDefault elem []) elem (mapSet ((mapGet s.attsDefault elem).getD []) attr s.hc.heap.size)
        hc := { s.hc with heap := ((attrHeap s.hc.heap s.hc.doc (splitColon attr).2 (some ((splitColon attr).1, nsLookup s.ns (splitColon attr).1)) w).upd s.hc.heap.size (fun x => { x with isDefault := true })) } }) := by
  unfold addAttributeDefault
  run
  cases mapGet s.attsSpecial (specialKey elem attr) with
  | some t => rfl
  | none =>
    simp only
    run
    have hsc : ∀ r ∈ w.flatMap (fun c => if c = 38 then [38, 35, 51, 56, 59] else [c]), isScalar r := by
      intro r hr
      obtain ⟨c, hc, hr⟩ := List.mem_flatMap.1 hr
      split at hr
      · simp at hr
        rcases hr with rfl | rfl | rfl | rfl | rfl <;> decide
      · rw [List.mem_singleton] at hr
        subst hr
        exact (hw _ hc).scalar
    have hlen : w.length + 1 < snl := by
      have h1 := AmpText.length_le (ampText_reported w)
      have h2 := encodeRunes_len (w.flatMap (fun c => if c = 38 then [38, 35, 51, 56, 59] else [c]))
      unfold reported at hl
      omega
    have hcr := createAttribute_plain s.hc.doc hsc (ampText_reported w) snl hlen (splitColon attr).2 (some ((splitColon attr).1, nsLookup s.ns (splitColon attr).1)) s.hc.heap
    rw [bind_run (attempt_run (a := s.hc.heap.size) (t := { s with
        attsDefault := (match mapGet s.attsDefault elem with
          | some _ => s.attsDefault
          | none => mapSet s.attsDefault elem [])
        hc := { s.hc with heap := attrHeap s.hc.heap s.hc.doc (splitColon attr).2 (some ((splitColon attr).1, nsLookup s.ns (splitColon attr).1)) w } }) (by
      unfold liftH
      simp only
      rw [show reported w = encodeRunes (w.flatMap (fun c => if c = 38 then [38, 35, 51, 56, 59] else [c])) from rfl, hcr]
      rfl))]
    have hg : (mapGet (match mapGet s.attsDefault elem with
        | some _ => s.attsDefault
        | none => mapSet s.attsDefault elem []) elem).getD [] = (mapGet s.attsDefault elem).getD [] := by
      cases hm : mapGet s.attsDefault elem with
      | some m => simp [hm]
      | none => simp [mapGet_mapSet]
    show Out.ok () _ = Out.ok () _
    simp only [hg]

/-- an attribute definition whose effect on the tables is followed. -/
structure AttOK (snl : Nat) (a : AttDef) : Prop where
  spelled : Spelled a.value
  short : a.value.length + 1 < snl
  kind : a.deflt = 1 ∨ a.deflt = 2 ∨ a.deflt = 3 ∨ a.deflt = 4
  typed : a.typ ≠ 0

theorem mapSet_new {α : Type} (k : Bytes) (v : α) : ∀ m : List (Bytes × α), k ∉ m.map (·.1) → mapSet m k v = m ++ [(k, v)]
  | [], _ => rfl
  | (a, b) :: m, h => by
    simp only [List.map_cons, List.mem_cons, not_or] at h
    rw [mapSet, if_neg (Ne.symm h.1), mapSet_new k v m h.2]
    rfl

theorem att_tab {K : Prop} (hK : K → KeepsHeap H) {xs : List (Bytes × AttDef)} {snl : Nat} {elem : Bytes} {a : AttDef} (ha : AttOK snl a)
    (hc : K → ∀ x ∈ xs ++ [(elem, a)], 58 ∉ x.1) {s s' : St σ} (T : AttTab K xs s) (hns : s.ns = []) (h : declareAtt H snl elem a s = .ok () s') :
    AttTab K (xs ++ [(elem, a)]) s' := by
  unfold declareAtt at h
  rw [bind_ok] at h
  obtain ⟨_, s1, h1, h⟩ := h
  have T1 := cb_tab hK T h1
  have hns1 : s1.ns = [] := by
    rw [cb_eq h1]; exact hns
  obtain ⟨w, hw, hv⟩ := ha.spelled
  have key : ∀ s2 : St σ, s2.attsSpecial = s1.attsSpecial → (K → ∀ e, Pairs (fun x p => p.1 = x.name ∧ DefNode s2.hc.heap p.2 x)
      (givens (xs ++ [(elem, a)]) e) ((mapGet s2.attsDefault e).getD [])) →
      s' = { s2 with attsSpecial := mapSet s2.attsSpecial (specialKey elem a.name) a.typ } → AttTab K (xs ++ [(elem, a)]) s' := by
    rintro s2 e1 e2 rfl
    refine ⟨?_, e2⟩
    show mapSet s2.attsSpecial _ _ = _
    rw [e1, T1.special]
    unfold typeTab
    rw [List.foldl_append]
    rfl
  by_cases hg : a.value ≠ [] ∧ a.deflt ≠ 3 ∧ a.deflt ≠ 2
  · rw [if_pos hg] at h
    have hr := defaultAtt_run hw (hv ▸ ha.short) elem a.name s1
    rw [← hv] at hr
    rw [bind_run hr] at h
    cases h
    refine key _ ?_ (fun hk e => ?_) rfl
    · cases mapGet s1.attsSpecial (specialKey elem a.name) <;> rfl
    · have T2 := T1.deflt hk e
      rw [givens_snoc]
      have hgv : given a = true := by
        have := ha.kind
        unfold given
        simp [hg.1]
        omega
      cases hm : mapGet s1.attsSpecial (specialKey elem a.name) with
      | some t =>
        rw [T1.special] at hm
        have : attKey (elem, a) ∈ xs.map attKey := by
          rcases typeTab_get _ _ _ _ hm with h | ⟨x, hx, h, _⟩
          · cases h
          · have hcx := hc hk x (by simp [hx])
            have hce := hc hk (elem, a) (by simp)
            obtain ⟨h1, h2⟩ := specialKey_inj hcx hce h
            exact List.mem_map.2 ⟨x, hx, by unfold attKey; simp [h1, h2]⟩
        rw [if_neg (by simp [this]), List.append_nil]
        exact T2
      | none =>
        rw [T1.special] at hm
        have hnew : attKey (elem, a) ∉ xs.map attKey := by
          intro hmem
          obtain ⟨x, hx, hxk⟩ := List.mem_map.1 hmem
          have hxk : x.1 = elem ∧ x.2.name = a.name := by simpa [attKey] using hxk
          have := typeTab_some xs [] (specialKey elem a.name) (Or.inl ⟨x, hx, by rw [hxk.1, hxk.2]⟩)
          rw [hm] at this
          cases this
        have hgr := grows_attr s1.hc.heap s1.hc.doc (splitColon a.name).2 (some ((splitColon a.name).1, nsLookup s1.ns (splitColon a.name).1)) w
        have T3 := T2.mono (fun x p h => (⟨h.1, h.2.grows hgr⟩ : p.1 = x.name ∧ DefNode _ p.2 x))
        simp only [hnew, not_false_eq_true, hgv, and_true, true_and]
        have e1 : mapGet (mapSet (match mapGet s1.attsDefault elem with
            | some _ => s1.attsDefault
            | none => mapSet s1.attsDefault elem []) elem (mapSet ((mapGet s1.attsDefault elem).getD []) a.name s1.hc.heap.size)) e =
            if elem = e then some (mapSet ((mapGet s1.attsDefault elem).getD []) a.name s1.hc.heap.size) else mapGet s1.attsDefault e := by
          rw [mapGet_mapSet]
          split
          · rfl
          · rename_i hne
            cases mapGet s1.attsDefault elem with
            | some m => rfl
            | none => simp [mapGet_mapSet, hne]
        simp only [e1]
        by_cases he : elem = e
        · subst he
          rw [if_pos rfl, if_pos rfl, Option.getD_some]
          have hn : a.name ∉ ((mapGet s1.attsDefault elem).getD []).map (·.1) := by
            intro hmem
            obtain ⟨p, hp, hpn⟩ := List.mem_map.1 hmem
            obtain ⟨x, hx, hxp⟩ := T2.mem hp
            unfold givens at hx
            obtain ⟨y, hy, rfl⟩ := List.mem_map.1 hx
            rw [List.mem_filter] at hy
            have hye : y.1 = elem := by have := hy.2; simp at this; exact this.1
            exact hnew (List.mem_map.2 ⟨y, (firsts_mem _ _ y hy.1).1, by unfold attKey; rw [hye, ← hxp.1, hpn]⟩)
          rw [mapSet_new _ _ _ hn]
          have hwn : w ≠ [] := by
            rintro rfl
            exact hg.1 hv
          refine T3.snoc ⟨rfl, ?_, ?_, ?_, encodeRunes w, by rw [hv]; exact reported_stands hw, hasText_attr _ _ _ _ hwn⟩
          · simp [Heap.upd, Heap.put]
          · simp [Heap.upd, Heap.put, attrHeap, hwn, Heap.alloc, mkAttr, hns1, nsLookup_none]
          · simp [Heap.upd, Heap.put, attrHeap, hwn, Heap.alloc, mkAttr]
        · rw [if_neg he, if_neg he, List.append_nil]
          exact T3
  · rw [if_neg hg] at h
    refine key s1 rfl (fun hk e => ?_) ?_
    · rw [givens_snoc, if_neg, List.append_nil]
      · exact T1.deflt hk e
      · rintro ⟨_, _, h3⟩
        unfold given at h3
        simp at h3
        refine hg ⟨h3.2, ?_, ?_⟩ <;> omega
    · cases h
      rfl

theorem att_ns {snl : Nat} {elem : Bytes} {a : AttDef} (ha : AttOK snl a) {s s' : St σ} (h : declareAtt H snl elem a s = .ok () s') : s'.ns = s.ns := by
  unfold declareAtt at h
  rw [bind_ok] at h
  obtain ⟨_, s1, h1, h⟩ := h
  obtain rfl := cb_eq h1
  obtain ⟨w, hw, hv⟩ := ha.spelled
  by_cases hg : a.value ≠ [] ∧ a.deflt ≠ 3 ∧ a.deflt ≠ 2
  · rw [if_pos hg] at h
    have hr := defaultAtt_run hw (hv ▸ ha.short) elem a.name (cbSt H (.attributeDecl elem a.name a.typ a.deflt a.value a.names) s)
    rw [← hv] at hr
    rw [bind_run hr] at h
    cases h
    show St.ns _ = s.ns
    cases mapGet (cbSt H (.attributeDecl elem a.name a.typ a.deflt a.value a.names) s).attsSpecial (specialKey elem a.name) <;> rfl
  · rw [if_neg hg] at h
    cases h
    rfl

theorem atts_tab {K : Prop} (hK : K → KeepsHeap H) {snl : Nat} {elem : Bytes} : ∀ (as : List AttDef) {xs : List (Bytes × AttDef)}, (∀ a ∈ as, AttOK snl a) →
    (K → ∀ x ∈ xs ++ as.map (fun a => (elem, a)), 58 ∉ x.1) → ∀ {s s' : St σ}, AttTab K xs s → s.ns = [] → declareAtts H snl elem as s = .ok () s' →
    AttTab K (xs ++ as.map (fun a => (elem, a))) s' ∧ s'.ns = []
  | [], xs, _, _, s, s', T, hns, h => by
    cases h
    simpa using ⟨T, hns⟩
  | a :: as, xs, ha, hc, s, s', T, hns, h => by
    unfold declareAtts at h
    rw [bind_ok] at h
    obtain ⟨_, s1, h1, h⟩ := h
    have T1 := att_tab hK (ha a (by simp)) (fun hk x hx => hc hk x (by
      rcases List.mem_append.1 hx with hx | hx
      · exact List.mem_append.2 (Or.inl hx)
      · rw [List.mem_singleton] at hx; subst hx; simp)) T hns h1
    have := atts_tab hK as (xs := xs ++ [(elem, a)]) (fun x hx => ha x (by simp [hx])) (fun hk x hx => hc hk x (by simpa using hx)) T1
      ((att_ns (ha a (by simp)) h1).trans hns) h
    simpa using this

/-- a declaration whose effect on the tables is followed. -/
def Decl.OK (snl : Nat) : Decl → Prop
  | .attlist _ as => ∀ a ∈ as, AttOK snl a
  | _ => True

theorem decl_tab {K : Prop} (hK : K → KeepsHeap H) {snl : Nat} {d : Decl} (hd : Decl.OK snl d) {xs : List (Bytes × AttDef)}
    (hc : K → ∀ x ∈ xs ++ attDefs [d], 58 ∉ x.1) {s s' : St σ} (T : AttTab K xs s) (hns : s.ns = []) (h : declare H snl d s = .ok () s') :
    AttTab K (xs ++ attDefs [d]) s' ∧ s'.ns = [] := by
  cases d with
  | attlist n as =>
    have e : attDefs [.attlist n as] = as.map (fun a => (n, a)) := by simp [attDefs]
    rw [e] at hc ⊢
    exact atts_tab hK as hd hc T hns h
  | element n typ e =>
    refine ⟨by simpa [attDefs] using cb_tab hK T h, ?_⟩
    rw [cb_eq h]; exact hns
  | comment b =>
    refine ⟨by simpa [attDefs] using cb_tab hK T h, ?_⟩
    rw [cb_eq h]; exact hns
  | pi n x =>
    refine ⟨by simpa [attDefs] using cb_tab hK T h, ?_⟩
    rw [cb_eq h]; exact hns
  | entity p n l v =>
    unfold declare at h
    rw [bind_ok] at h
    obtain ⟨_, s1, h1, h⟩ := h
    rw [bind_ok] at h
    obtain ⟨x, s2, h2, h⟩ := h
    refine ⟨by simpa [attDefs] using setOrig_tab (ask_tab hK (cb_tab hK T h1) h2) h, ?_⟩
    have e2 : s2.ns = [] := by
      rw [(ask_ok h2).1, cb_eq h1]; exact hns
    unfold setOrig at h
    split at h <;> · cases h; exact e2

theorem attDefs_cons (d : Decl) (ds : List Decl) : attDefs (d :: ds) = attDefs [d] ++ attDefs ds := by
  simp [attDefs]

theorem decls_tab {K : Prop} (hK : K → KeepsHeap H) {snl : Nat} : ∀ (ds : List Decl) {xs : List (Bytes × AttDef)}, (∀ d ∈ ds, Decl.OK snl d) →
    (K → ∀ x ∈ xs ++ attDefs ds, 58 ∉ x.1) → ∀ {s s' : St σ}, AttTab K xs s → s.ns = [] → declareAll H snl ds s = .ok () s' →
    AttTab K (xs ++ attDefs ds) s' ∧ s'.ns = []
  | [], xs, _, _, s, s', T, hns, h => by
    cases h
    simpa [attDefs] using ⟨T, hns⟩
  | d :: ds, xs, hd, hc, s, s', T, hns, h => by
    rw [attDefs_cons] at hc ⊢
    unfold declareAll at h
    rw [bind_ok] at h
    obtain ⟨_, s1, h1, h⟩ := h
    obtain ⟨T1, n1⟩ := decl_tab hK (hd d (by simp)) (fun hk x hx => hc hk x (by
      rw [← List.append_assoc]; exact List.mem_append.2 (Or.inl hx))) T hns h1
    rw [← List.append_assoc] at hc ⊢
    exact decls_tab hK ds (fun x hx => hd x (by simp [hx])) hc T1 n1 h

/-- the tables after a document type declaration. -/
theorem doctype_tab {K : Prop} (hK : K → KeepsHeap H) {snl : Nat} (n : Bytes) {ds : List Decl} (hd : ∀ d ∈ ds, Decl.OK snl d)
    (hc : K → ∀ x ∈ attDefs ds, 58 ∉ x.1) {s s' : St σ} (hs : s.attsSpecial = []) (hdf : s.attsDefault = []) (hns : s.ns = [])
    (h : declareDoctype H snl n ds s = .ok () s') :
    s'.attsSpecial = (typeTab [] (attDefs ds)).filter (fun p => p.2 != 1) ∧
      (K → ∀ e, Pairs (fun x p => p.1 = x.name ∧ DefNode s'.hc.heap p.2 x) (givens (attDefs ds) e) ((mapGet s'.attsDefault e).getD [])) := by
  unfold declareDoctype at h
  simp only [modify_bind] at h
  rw [bind_ok] at h
  obtain ⟨_, s1, h1, h⟩ := h
  have T0 : AttTab K [] ({ s with inSubset := 1, intSubName := n, extSubURI := [], extSubSystem := [] } : St σ) := by
    refine ⟨hs, fun _ e => ?_⟩
    show Pairs _ (givens [] e) ((mapGet s.attsDefault e).getD [])
    rw [hdf]
    exact .nil
  have T1 := cb_tab hK T0 h1
  rw [bind_ok] at h
  obtain ⟨_, s2, h2, h⟩ := h
  have T2 := (decls_tab hK ds hd (by simpa using hc) T1 (by rw [cb_eq h1]; exact hns) h2).1
  rw [modify_bind, get_bind, bind_ok] at h
  obtain ⟨_, s3, h3, h⟩ := h
  have T3 := cb_tab hK (T2.keep (s' := { s2 with inSubset := 2 }) rfl rfl (fun _ => .refl _)) h3
  cases h
  refine ⟨?_, T3.deflt⟩
  show s3.attsSpecial.filter _ = _
  rw [T3.special]
  rfl

end

end Helium
