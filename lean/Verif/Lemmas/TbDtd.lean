import Verif.Lemmas.DtdInfo
import Verif.Lemmas.AttDoc
import Verif.Lemmas.TreeLogic
/-! The tree builder takes the declarations of a document type declaration. -/
namespace Helium
open Spec

/-- what a document type declaration `t` of document `dn` holds: keys of elements and attributes, entities. -/
structure DtdInv (h : Heap) (dn t : Nat) (D : HV) (ek ak : List Bytes) (es : List (Bool × Bytes × Bytes × Bytes)) : Prop where
  dlt : dn < h.size
  tlt : t < h.size
  ne : dn ≠ t
  doc : (h.at' dn).version = D.version ∧ (h.at' dn).encoding = D.encoding ∧ (h.at' dn).standalone = D.standalone
  elems : ∀ k v, mapGet (h.at' t).elements k = some v → k ∈ ek
  attrs : ∀ k v, mapGet (h.at' t).attributes k = some v → k ∈ ak
  ents : ∀ i, i < h.size → (h.at' i).kind = .entity → ∃ x ∈ es, (h.at' i).name = x.2.1 ∧ (h.at' i).entType = (if x.1 then 4 else 1) ∧
    (h.at' i).orig = x.2.2.1 ∧ (h.at' i).content = x.2.2.2
  full : (ek ≠ [] → (h.at' t).elements ≠ []) ∧ (ak ≠ [] → (h.at' t).attributes ≠ []) ∧
    (es ≠ [] → (h.at' t).entities ≠ [] ∨ (h.at' t).pentities ≠ [])
  gen : (∀ x ∈ es, x.1 = true) → (h.at' t).entities = []

theorem DtdInv.keep {h h' : Heap} {dn t : Nat} {D : HV} {ek ak : List Bytes} {es : List (Bool × Bytes × Bytes × Bytes)} (I : DtdInv h dn t D ek ak es)
    (K : Dtds h h') : DtdInv h' dn t D ek ak es := by
  obtain ⟨a1, a2, a3, a4, a5, a6, a7, a8, a9, a10, a11, a12, a13, a14⟩ := dinfo_eq (K.same t I.tlt)
  obtain ⟨d1, d2, d3, d4, d5, d6, d7, d8, d9, d10, d11, d12, d13, d14⟩ := dinfo_eq (K.same dn I.dlt)
  refine ⟨Nat.lt_of_lt_of_le I.dlt K.size, Nat.lt_of_lt_of_le I.tlt K.size, I.ne, ?_, ?_, ?_, ?_, ?_, ?_⟩
  · rw [d4, d5, d6]; exact I.doc
  · rw [a9]; exact I.elems
  · rw [a10]; exact I.attrs
  · intro i hi hk
    by_cases hlt : i < h.size
    · obtain ⟨b1, b2, b3, b4, b5, b6, b7, b8, b9, b10, b11, b12, b13, b14⟩ := dinfo_eq (K.same i hlt)
      obtain ⟨x, hx, h1, h2, h3, h4⟩ := I.ents i hlt (b1 ▸ hk)
      exact ⟨x, hx, b2.trans h1, b3.trans h2, b13.trans h3, (b14 hk).trans h4⟩
    · exact absurd hk (K.fresh i (Nat.not_lt.1 hlt) hi)
  · rw [a9, a10, a11, a12]; exact I.full
  · rw [a11]; exact I.gen

theorem mapSet_ne {α : Type} (m : List (Bytes × α)) (k : Bytes) (v : α) : mapSet m k v ≠ [] := by
  cases m with
  | nil => simp [mapSet]
  | cons x m => unfold mapSet; split <;> simp

/-- a new element or attribute declaration. -/
theorem DtdInv.decl {h h' : Heap} {dn t : Nat} {D : HV} {ek ak ek' ak' : List Bytes} {es : List (Bool × Bytes × Bytes × Bytes)} (I : DtdInv h dn t D ek ak es)
    {N : Node} {f : Node → Node} (hN : N.kind ≠ .entity) (K : Dtds ((h.alloc N).upd t f) h')
    (hf : ∀ x, (f x).kind = x.kind ∧ (f x).name = x.name ∧ (f x).entType = x.entType ∧ (f x).orig = x.orig ∧ (f x).content = x.content ∧
      (f x).entities = x.entities ∧ (f x).pentities = x.pentities)
    (he : ∀ k v, mapGet (f (h.at' t)).elements k = some v → (∃ v, mapGet (h.at' t).elements k = some v) ∧ k ∈ ek' ∨ k ∈ ek')
    (ha : ∀ k v, mapGet (f (h.at' t)).attributes k = some v → k ∈ ak')
    (hfull : (ek' ≠ [] → (f (h.at' t)).elements ≠ []) ∧ (ak' ≠ [] → (f (h.at' t)).attributes ≠ [])) :
    DtdInv h' dn t D ek' ak' es := by
  refine DtdInv.keep ?_ K
  have htx : ((h.alloc N).upd t f).at' t = f (h.at' t) := by simp [Heap.upd, Heap.put, Heap.alloc, Nat.ne_of_lt I.tlt]
  have hold : ∀ i, i ≠ h.size → i ≠ t → ((h.alloc N).upd t f).at' i = h.at' i := fun i hi hit => by
    simp [Heap.upd, Heap.put, Heap.alloc, hi, hit]
  have hnew : ((h.alloc N).upd t f).at' h.size = N := by simp [Heap.upd, Heap.put, Heap.alloc, Ne.symm (Nat.ne_of_lt I.tlt)]
  have hsz : ((h.alloc N).upd t f).size = h.size + 1 := rfl
  refine ⟨by rw [hsz]; exact Nat.lt_succ_of_lt I.dlt, by rw [hsz]; exact Nat.lt_succ_of_lt I.tlt, I.ne, ?_, ?_, ?_, ?_, ?_, ?_⟩
  · rw [hold dn (Nat.ne_of_lt I.dlt) I.ne]; exact I.doc
  · rw [htx]; intro k v hk; rcases he k v hk with h | h; exact h.2; exact h
  · rw [htx]; exact ha
  · intro i hi hk
    rw [hsz] at hi
    by_cases h1 : i = h.size
    · subst h1; rw [hnew] at hk; exact absurd hk hN
    · have hlt : i < h.size := by omega
      by_cases h2 : i = t
      · subst h2
        rw [htx] at hk ⊢
        obtain ⟨f1, f2, f3, f4, f5, _⟩ := hf (h.at' i)
        rw [f2, f3, f4, f5]
        exact I.ents i hlt (f1 ▸ hk)
      · rw [hold i h1 h2] at hk ⊢
        exact I.ents i hlt hk
  · rw [htx, (hf _).2.2.2.2.2.1, (hf _).2.2.2.2.2.2]
    exact ⟨hfull.1, hfull.2, I.full.2.2⟩
  · rw [htx, (hf _).2.2.2.2.2.1]
    exact I.gen

section
variable {σ : Type} {tf dn : Nat}

theorem TInv.dtd {c : HC σ} {st : Partial} {dl : List Ev} (I : TInv c dn st dl) {t : Nat} (ht : (c.heap.at' dn).intSubset = some t) :
    dn < c.heap.size ∧ t < c.heap.size ∧ dn ≠ t ∧ (c.heap.at' t).doc = some dn ∧ c.doc = some dn ∧ (c.heap.at' dn).extSubset = none ∧
      (∀ x ∈ (c.heap.at' t).elements, (c.heap.at' x.2).declType ≠ 0) := by
  obtain ⟨a, fs, i1, R, T, i5, i6, Z, D, i9⟩ := I
  unfold DtdPart at D
  rw [ht] at D
  obtain ⟨d1, d2, d3, d4, d5⟩ := D
  have hlt : ∀ {n}, a.tree n = true → n < c.heap.size := fun hn => by rw [R.size]; exact R.bound _ hn
  exact ⟨hlt Z.doc, hlt (R.kid dn t d1).1, (by rintro rfl; rw [Z.docKind] at d2; cases d2), d3, i1, i9, fun x hx => (d5 x hx).2.2⟩

theorem tbDoc_run {c : HC σ} (h : c.doc = some dn) : (tbDoc : TB σ Nat) c = .ok dn c := by
  unfold tbDoc
  rw [get_bind, h]
  rfl

theorem tbSubset_run {c : HC σ} {v : HV} (hv : v.inSubset = 1) {t : Nat} (ht : (c.heap.at' dn).intSubset = some t) :
    (tbSubset v dn : TB σ (Option Nat)) c = .ok (some t) c := by
  unfold tbSubset
  rw [get_bind, if_pos hv, ht]
  rfl

theorem nodeAddChild_dtds {n c : Nat} {h h2 : Heap} (r : nodeAddChild n c h = .ok () h2) : Dtds h h2 := (KeepD.nodeAddChild n c h).1 _ _ r

/-- an element that is not yet declared. -/
theorem tbElementDecl_run {c : HC σ} {st : Partial} {dl : List Ev} (I : TInv c dn st dl) {t : Nat} (ht : (c.heap.at' dn).intSubset = some t) {v : HV}
    (hv : v.inSubset = 1) {n : Bytes} {ty : Nat} {ec : EC} (hcon : Consistent ty ec)
    (hm : mapGet (c.heap.at' t).elements (elemKey (splitColon n).2 (splitColon n).1) = none) :
    ∃ c' N, tbElementDecl v n ty ec c = .ok () c' ∧ N.kind = .elemDecl ∧
      Dtds ((c.heap.alloc N).upd t (fun x => { x with elements := mapSet x.elements (elemKey (splitColon n).2 (splitColon n).1) c.heap.size })) c'.heap := by
  obtain ⟨hdl, htl, hne, d3, i1, i9, d5⟩ := I.dtd ht
  have hty0 : ty ≠ 0 := by rcases hcon with ⟨h, _⟩ | ⟨h, _⟩ <;> omega
  have hck : dtdAddElementDecl t n ty ec c.heap = (do
      let o ← (match mapGet (c.heap.at' t).elements (elemKey (splitColon n).2 (splitColon n).1) with
        | none => pure none
        | some dc =>
          if (c.heap.at' dc).declType = 0 then do
            let old := (c.heap.at' dc).declAttrs
            updNode dc (fun x => { x with declAttrs := none })
            updNode t (fun x => { x with elements := mapDel x.elements (elemKey (splitColon n).2 (splitColon n).1) })
            pure old
          else pure none : HM (Option Nat))
      addElemRest t n ty ec o) c.heap := by
    unfold dtdAddElementDecl
    rcases hcon with ⟨h1, h2⟩ | ⟨h1, h2⟩
    · simp only [if_pos h1, h2, ne_eq, not_true_eq_false, if_false, get_bind, d3, ht]; rfl
    · have : ¬ (ty = 1 ∨ ty = 2) := by omega
      simp only [if_neg this, if_pos h1, if_neg h2, get_bind, d3, ht]; rfl
  obtain ⟨h2, q1, I2⟩ := decl_heap I ht
    (N := { kind := .elemDecl, name := (splitColon n).2, pfx := (splitColon n).1, declAttrs := none, declType := ty, ec := copyEC ec, doc := (c.heap.at' t).doc })
    (f := fun x => { x with elements := mapSet x.elements (elemKey (splitColon n).2 (splitColon n).1) c.heap.size }) (ev := .elementDecl n ty ec) ⟨rfl, rfl, rfl, rfl⟩ ⟨rfl, rfl⟩
    (fun x => ⟨⟨rfl, rfl, rfl, rfl, fun _ => ⟨rfl, rfl⟩⟩, rfl, rfl⟩)
    (fun x => ⟨fun y hy => Or.inl hy, fun y hy => by
      rcases mem_mapSetT hy with h | h
      · exact Or.inr ⟨h, rfl, hty0⟩
      · exact Or.inl h⟩)
    (fun h i hi => by simp [HoldsDecl, hi, (copyEC_eq ec).1])
  have hrr : addElemRest t n ty ec none c.heap = .ok c.heap.size h2 := by
    unfold addElemRest
    simp only [get_bind, hm]
    refine Eq.trans (bind_run (a := c.heap.size) (t := (c.heap.alloc { kind := .elemDecl, name := (splitColon n).2, pfx := (splitColon n).1, declAttrs := none }).upd t
      (fun x => { x with elements := mapSet x.elements (elemKey (splitColon n).2 (splitColon n).1) c.heap.size })) rfl) ?_
    simp only [node_bind, updNode_bind]
    rw [upd_alloc (Nat.ne_of_lt htl), at'_upd, if_pos rfl, alloc_lt htl]
    exact bind_run q1
  refine ⟨{ c with heap := h2 }, _, ?_, rfl, nodeAddChild_dtds q1⟩
  unfold tbElementDecl
  rw [bind_run (tbDoc_run i1), bind_run (tbSubset_run hv ht)]
  have hg : dtdAddElementDecl t n ty ec c.heap = .ok c.heap.size h2 := by
    rw [hck]
    simp only [hm]
    exact hrr
  exact Eq.trans (bind_run (tbH_ok hg)) rfl

/-- an attribute that is not yet declared. -/
theorem tbAttributeDecl_run {c : HC σ} {st : Partial} {dl : List Ev} (I : TInv c dn st dl) {t : Nat} (ht : (c.heap.at' dn).intSubset = some t) {v : HV}
    (hv : v.inSubset = 1) {e n : Bytes} {ty df : Nat} {b : Bytes} {en : List Bytes} (hid : n = b!"xml:id" → ty = 2) (hty : 1 ≤ ty ∧ ty ≤ 10)
    (hm : mapGet (c.heap.at' t).attributes (attrKey (splitColon n).2 (splitColon n).1 e) = none) :
    ∃ c' N, tbAttributeDecl v e n ty df b en c = .ok () c' ∧ N.kind = .attrDecl ∧
      Dtds ((c.heap.alloc N).upd t (fun x => { x with attributes := mapSet x.attributes (attrKey (splitColon n).2 (splitColon n).1 e) c.heap.size })) c'.heap := by
  obtain ⟨hdl, htl, hne, d3, i1, i9, d5⟩ := I.dtd ht
  obtain ⟨h2, q1, I2⟩ := decl_heap I ht (N := { kind := .attrDecl, atype := ty, doc := some dn, name := (splitColon n).2, pfx := (splitColon n).1, elem := e, defType := df, tree := en, defValue := b })
    (f := fun x => { x with attributes := mapSet x.attributes (attrKey (splitColon n).2 (splitColon n).1 e) c.heap.size }) (ev := .attributeDecl e n ty df b en) ⟨rfl, rfl, rfl, rfl⟩ ⟨rfl, rfl⟩
    (fun x => ⟨⟨rfl, rfl, rfl, rfl, fun _ => ⟨rfl, rfl⟩⟩, rfl, rfl⟩)
    (fun x => ⟨fun y hy => Or.inl hy, fun y hy => Or.inl hy⟩)
    (fun h i hi => by simp [HoldsDecl, hi])
  refine ⟨{ c with heap := h2 }, _, ?_, rfl, nodeAddChild_dtds q1⟩
  unfold tbAttributeDecl
  rw [if_neg (by rintro ⟨h1, h2⟩; exact h2 (hid h1)), bind_run (tbDoc_run i1), bind_run (tbSubset_run hv ht)]
  have hg : addAttributeDecl (some t) e (splitColon n).2 (splitColon n).1 ty df b en c.heap = .ok c.heap.size h2 := by
    unfold addAttributeDecl
    simp only
    rw [if_neg (by omega), get_bind]
    simp only [d3, i9, reduceCtorEq, if_false, Bool.false_eq_true]
    rw [bind_run (newNode_run _ _)]
    rw [bind_run (a := ()) (t := (c.heap.alloc { kind := .attrDecl, atype := ty, doc := some dn, name := (splitColon n).2, pfx := (splitColon n).1, elem := e, defType := df, tree := en, defValue := b }).upd t
      (fun x => { x with attributes := mapSet x.attributes (attrKey (splitColon n).2 (splitColon n).1 e) c.heap.size }))]
    · rw [bind_run (attempt_run q1)]
      rfl
    · unfold dtdRegisterAttribute
      rw [get_bind]
      simp only [alloc_new, alloc_lt htl, hm]
      rfl
  exact Eq.trans (bind_run (tbH_ok hg)) rfl

/-- an entity. -/
theorem tbEntityDecl_run {c : HC σ} {st : Partial} {dl : List Ev} (I : TInv c dn st dl) {t : Nat} (ht : (c.heap.at' dn).intSubset = some t) {v : HV}
    (hv : v.inSubset = 1) (p : Bool) (n b : Bytes) :
    ∃ c' N, tbEntityDecl v n (if p then 4 else 1) [] [] b c = .ok () c' ∧ N = { mkEntity n (if p then 4 else 1) [] [] b [] with doc := some dn } ∧
      c'.doc = c.doc ∧
      Dtds ((c.heap.alloc N).upd t (fun x => if p then { x with pentities := mapSet x.pentities n c.heap.size } else { x with entities := mapSet x.entities n c.heap.size })) c'.heap := by
  obtain ⟨hdl, htl, hne, d3, i1, i9, d5⟩ := I.dtd ht
  obtain ⟨h2, q1, I2⟩ := decl_heap I ht (N := { mkEntity n (if p then 4 else 1) [] [] b [] with doc := some dn })
    (f := fun x => if p then { x with pentities := mapSet x.pentities n c.heap.size } else { x with entities := mapSet x.entities n c.heap.size })
    (ev := .entityDecl n (if p then 4 else 1) [] [] b) ⟨rfl, rfl, rfl, rfl⟩ ⟨rfl, rfl⟩
    (fun x => by cases p <;> exact ⟨⟨rfl, rfl, rfl, rfl, fun _ => ⟨rfl, rfl⟩⟩, rfl, rfl⟩)
    (fun x => by
      cases p
      · refine ⟨fun y hy => ?_, fun y hy => Or.inl hy⟩
        rcases hy with h | h
        · rcases mem_mapSetT h with h | h
          · exact Or.inr ⟨h, rfl⟩
          · exact Or.inl (Or.inl h)
        · exact Or.inl (Or.inr h)
      · refine ⟨fun y hy => ?_, fun y hy => Or.inl hy⟩
        rcases hy with h | h
        · exact Or.inl (Or.inl h)
        · rcases mem_mapSetT h with h | h
          · exact Or.inr ⟨h, rfl⟩
          · exact Or.inl (Or.inr h))
    (fun h i hi => by simp [HoldsDecl, hi, mkEntity])
  refine ⟨{ c with heap := h2 }, _, ?_, rfl, rfl, nodeAddChild_dtds q1⟩
  unfold tbEntityDecl
  rw [bind_run (tbDoc_run i1), bind_run (tbSubset_run hv ht)]
  have hg : dtdAddEntity t n (if p then 4 else 1) [] [] b c.heap = .ok c.heap.size h2 := by
    unfold dtdAddEntity
    cases p with
    | true =>
      rw [if_neg (by decide), if_pos (by decide), node_bind, bind_run (newNode_run _ _), d3]
      simp only [if_true, true_or, updNode_bind]
      exact bind_run (attempt_run q1)
    | false =>
      rw [if_neg (by decide), if_pos (by decide), node_bind, bind_run (newNode_run _ _), d3]
      simp only [Bool.false_eq_true, if_false, updNode_bind]
      exact bind_run (attempt_run q1)
  exact Eq.trans (bind_run (tbH_ok hg)) rfl

end
end Helium
