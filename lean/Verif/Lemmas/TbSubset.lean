import Verif.Lemmas.TbDtd
/-! The tree builder takes a document type declaration. -/
namespace Helium
open Spec

theorem dinfo_orig (x : Node) (l : Bytes) : dinfo { x with orig := l } = { dinfo x with orig := l } := rfl

/-- a new entity. -/
theorem DtdInv.entity {h h' : Heap} {dn t : Nat} {D : HV} {ek ak : List Bytes} {es : List (Bool × Bytes × Bytes × Bytes)} (I : DtdInv h dn t D ek ak es)
    {p : Bool} {n l b : Bytes} {N : Node} (hN : N = { mkEntity n (if p then 4 else 1) [] [] b [] with doc := some dn })
    (K : Dtds ((h.alloc N).upd t (fun x => if p then { x with pentities := mapSet x.pentities n h.size } else { x with entities := mapSet x.entities n h.size })) h') :
    DtdInv (h'.upd h.size (fun x => { x with orig := l })) dn t D ek ak (es ++ [(p, n, l, b)]) := by
  generalize hg : (fun x : Node => if p then { x with pentities := mapSet x.pentities n h.size } else { x with entities := mapSet x.entities n h.size }) = f at K
  have hts : t ≠ h.size := Nat.ne_of_lt I.tlt
  have hds : dn ≠ h.size := Nat.ne_of_lt I.dlt
  have htx : (((h.alloc N).upd t f).upd h.size (fun x => { x with orig := l })).at' t = f (h.at' t) := by
    simp [Heap.upd, Heap.put, Heap.alloc, hts]
  have hold : ∀ i, i ≠ h.size → i ≠ t → (((h.alloc N).upd t f).upd h.size (fun x => { x with orig := l })).at' i = h.at' i := fun i hi hit => by
    simp [Heap.upd, Heap.put, Heap.alloc, hi, hit]
  have hnew : (((h.alloc N).upd t f).upd h.size (fun x => { x with orig := l })).at' h.size = { N with orig := l } := by
    simp [Heap.upd, Heap.put, Heap.alloc, Ne.symm hts]
  have hsz : (((h.alloc N).upd t f).upd h.size (fun x => { x with orig := l })).size = h.size + 1 := rfl
  have K' : Dtds (((h.alloc N).upd t f).upd h.size (fun x => { x with orig := l })) (h'.upd h.size (fun x => { x with orig := l })) := by
    refine ⟨K.size, fun i hi => ?_, fun i h1 h2 => ?_⟩
    · have := K.same i hi
      rw [upd_at, upd_at]
      split
      · rename_i e
        subst e
        exact congrArg (fun y : Node => { y with orig := l }) this
      · exact this
    · rw [upd_at]
      have := K.fresh i h1 h2
      split
      · rename_i e
        rw [e] at this
        exact this
      · exact this
  have hfx : (f (h.at' t)).kind = (h.at' t).kind ∧ (f (h.at' t)).name = (h.at' t).name ∧ (f (h.at' t)).entType = (h.at' t).entType ∧ (f (h.at' t)).orig = (h.at' t).orig ∧
      (f (h.at' t)).content = (h.at' t).content ∧ (f (h.at' t)).elements = (h.at' t).elements ∧ (f (h.at' t)).attributes = (h.at' t).attributes := by
    rw [← hg]
    cases p <;> exact ⟨rfl, rfl, rfl, rfl, rfl, rfl, rfl⟩
  obtain ⟨f1, f2, f3, f4, f5, f6, f7⟩ := hfx
  refine DtdInv.keep ?_ K'
  refine ⟨by rw [hsz]; exact Nat.lt_succ_of_lt I.dlt, by rw [hsz]; exact Nat.lt_succ_of_lt I.tlt, I.ne, ?_, ?_, ?_, ?_, ?_, ?_⟩
  · rw [hold dn hds I.ne]; exact I.doc
  · rw [htx, f6]; exact I.elems
  · rw [htx, f7]; exact I.attrs
  · intro i hi hk
    rw [hsz] at hi
    by_cases h1 : i = h.size
    · subst h1
      rw [hnew, hN]
      exact ⟨(p, n, l, b), by simp, rfl, rfl, rfl, rfl⟩
    · have hlt : i < h.size := by omega
      by_cases h2 : i = t
      · subst h2
        rw [htx] at hk ⊢
        rw [f2, f3, f4, f5]
        obtain ⟨x, hx, r⟩ := I.ents i hlt (f1 ▸ hk)
        exact ⟨x, by simp [hx], r⟩
      · rw [hold i h1 h2] at hk ⊢
        obtain ⟨x, hx, r⟩ := I.ents i hlt hk
        exact ⟨x, by simp [hx], r⟩
  · rw [htx, f6, f7]
    refine ⟨I.full.1, I.full.2.1, fun _ => ?_⟩
    rw [← hg]
    cases p
    · exact Or.inl (mapSet_ne _ _ _)
    · exact Or.inr (mapSet_ne _ _ _)
  · intro hx
    have hp : p = true := hx (p, n, l, b) (by simp)
    subst hp
    rw [htx, ← hg]
    exact I.gen (fun x hx' => hx x (by simp [hx']))

theorem mapGet_absent {α : Type} {m : List (Bytes × α)} {ks : List Bytes} {k : Bytes} (h : ∀ k v, mapGet m k = some v → k ∈ ks) (hk : k ∉ ks) : mapGet m k = none := by
  cases hm : mapGet m k with
  | none => rfl
  | some v => exact absurd (h k v hm) hk

/-- the key of an element type. -/
def elKey (n : Bytes) : Bytes := elemKey (splitColon n).2 (splitColon n).1

/-- the key of an attribute. -/
def atKey (e a : Bytes) : Bytes := attrKey (splitColon a).2 (splitColon a).1 e

/-- keys of the element types declared. -/
def elKeys : Decl → List Bytes
  | .element n _ _ => [elKey n]
  | _ => []

/-- keys of the attributes declared. -/
def atKeys : Decl → List Bytes
  | .attlist n as => as.map (fun a => atKey n a.name)
  | _ => []

/-- entities declared. -/
def entsOf : Decl → List (Bool × Bytes × Bytes × Bytes)
  | .entity p n l v => [(p, n, l, v)]
  | _ => []

/-- declarations the tree builder takes. -/
def Decl.Fit (snl : Nat) : Decl → Prop
  | .element _ ty ec => Consistent ty ec
  | .attlist _ as => ∀ a ∈ as, (a.name = b!"xml:id" → a.typ = 2) ∧ (1 ≤ a.typ ∧ a.typ ≤ 10) ∧ Helium.Spelled a.value ∧ a.value.length + 1 < snl
  | .pi _ _ => False
  | _ => True

section
variable {σ : Type} {tf dn t : Nat} {D : HV}

/-- reading declarations with the tree builder. -/
def DSt (dn t : Nat) (D : HV) (s : St σ) (dl : List Ev) (ek ak : List Bytes) (es : List (Bool × Bytes × Bytes × Bytes)) : Prop :=
  s.inSubset = 1 ∧ (∃ st, TSt dn s st dl (some t) ∧ st.inner = []) ∧ DtdInv s.hc.heap dn t D ek ak es

theorem cb_tree {s : St σ} {ev : Ev} {st : Partial} {dl : List Ev} {o : Option Nat} (S : TSt dn s st dl o) (hP : Plain ev) (hcd : notCData ev = true)
    (hok : okIn s.inSubset ev = true) {c' : HC σ} (r : treeBuilder tf s.view ev s.hc = (.ok, c')) :
    ∃ s', cb (treeBuilder tf) ev s = .ok () s' ∧ Noted [ev] s s' ∧ SameAtts s s' ∧ s'.hc = c' ∧ s'.inSubset = s.inSubset ∧
      ∃ st', st.step ev = some st' ∧ TSt dn s' st' (dl ++ [ev].filter isDecl) o := by
  have ho : Took (treeBuilder tf s.view ev s.hc).1 := by rw [r]; exact Or.inl rfl
  obtain ⟨st', e1, I', e2⟩ := tb_step (tf := tf) (v := s.view) S.1 hok (Or.inl hP) hcd (Or.inl (by rw [r]; simp))
  refine ⟨cbSt (treeBuilder tf) ev s, ?_, ⟨rfl, rfl, rfl, rfl, rfl, rfl, rfl, [(ev, (treeBuilder tf s.view ev s.hc).1)], rfl, rfl⟩, ⟨rfl, rfl⟩, ?_, rfl, st', e1, ?_⟩
  · unfold cb callback
    simp [Bind.bind, M.bind, r, cbSt, Pure.pure, M.pure]
  · show (treeBuilder tf s.view ev s.hc).2 = c'
    rw [r]
  · exact ⟨I', S.2.1.grows (treeBuilder_tabs tf s.view ev s.hc).grows, e2.trans S.2.2⟩

theorem element_tree {s : St σ} {dl : List Ev} {ek ak : List Bytes} {es : List (Bool × Bytes × Bytes × Bytes)} (S : DSt dn t D s dl ek ak es)
    {n : Bytes} {ty : Nat} {ec : EC} (hcon : Consistent ty ec) (hn : elKey n ∉ ek) :
    ∃ s', cb (treeBuilder tf) (.elementDecl n ty ec) s = .ok () s' ∧ Noted [.elementDecl n ty ec] s s' ∧
      DSt dn t D s' (dl ++ [.elementDecl n ty ec]) (ek ++ [elKey n]) ak es := by
  obtain ⟨h1, ⟨st, T, hin⟩, I⟩ := S
  obtain ⟨c', N, r, hk, K⟩ := tbElementDecl_run T.1 T.2.2 (v := s.view) h1 hcon (mapGet_absent I.elems hn)
  obtain ⟨s', q1, q2, _, q3, q4, st', q5, q6⟩ := cb_tree (tf := tf) (ev := .elementDecl n ty ec) T trivial rfl rfl (tbUnit_ok r)
  cases q5
  refine ⟨s', q1, q2, q4.trans h1, ⟨st, q6, hin⟩, ?_⟩
  rw [q3]
  refine I.decl (by rw [hk]; decide) K (fun x => ⟨rfl, rfl, rfl, rfl, rfl, rfl, rfl⟩) (fun k v hkv => ?_) (fun k v hkv => I.attrs k v hkv) ⟨fun _ => mapSet_ne _ _ _, I.full.2.1⟩
  simp only [mapGet_mapSet] at hkv
  split at hkv
  · rename_i e
    exact Or.inr (by rw [List.mem_append]; exact Or.inr (by rw [← e]; exact List.mem_singleton.2 rfl))
  · exact Or.inr (List.mem_append_left _ (I.elems k v hkv))

theorem comment_tree {s : St σ} {dl : List Ev} {ek ak : List Bytes} {es : List (Bool × Bytes × Bytes × Bytes)} (S : DSt dn t D s dl ek ak es) (b : Bytes) :
    ∃ s', cb (treeBuilder tf) (.comment b) s = .ok () s' ∧ Noted [.comment b] s s' ∧ DSt dn t D s' dl ek ak es := by
  obtain ⟨h1, ⟨st, T, hin⟩, I⟩ := S
  obtain ⟨c', r, _⟩ := tbComment_inv T.1 b
  have e : treeBuilder tf s.view (.comment b) s.hc = (.ok, c') := tbUnit_ok r
  obtain ⟨s', q1, q2, _, q3, q4, st', q5, q6⟩ := cb_tree (tf := tf) (ev := .comment b) T trivial rfl rfl e
  cases q5
  refine ⟨s', q1, q2, q4.trans h1, ⟨_, by simpa [isDecl] using q6, ?_⟩, ?_⟩
  · have := add_length st (.comment b) .nil
    rw [hin] at this
    exact List.length_eq_zero_iff.1 this
  · rw [q3]
    have := treeBuilder_dtds tf s.view (ev := .comment b) trivial s.hc
    rw [e] at this
    exact I.keep this

theorem default_dtds {fuel : Nat} {el a v : Bytes} {s s' : St σ} (h : addAttributeDefault fuel el a v s = .ok () s') : Dtds s.hc.heap s'.hc.heap := by
  unfold addAttributeDefault at h
  rw [get_bind] at h
  cases hm : mapGet s.attsSpecial (specialKey el a) with
  | some _ => rw [hm] at h; cases h; exact Dtds.refl _
  | none =>
    rw [hm] at h
    simp only [Bind.bind, M.bind, M.modify, M.get, M.attempt, liftH] at h
    cases hc : createAttribute s.hc.doc fuel (splitColon a).2 v (some ((splitColon a).1, nsLookup s.ns (splitColon a).1)) s.hc.heap with
    | ok i h' =>
      rw [hc] at h
      cases h
      exact ((KeepD.createAttribute _ _ _ _ _ _).1 _ _ hc).trans (Dtds.upd h' i (f := fun x => { x with isDefault := true }) rfl)
    | err e h' =>
      rw [hc] at h
      cases h
      exact (KeepD.createAttribute _ _ _ _ _ _).2 _ _ hc
    | panic => rw [hc] at h; cases h
    | diverge => rw [hc] at h; cases h

theorem TStep.use {s s' : St σ} (h : TStep dn s s') {evs : List Ev} (hn : Noted evs s s') {st : Partial} {dl : List Ev} {o : Option Nat}
    (hok : ∀ ev ∈ evs, okIn s.inSubset ev = true) (hnr : ∀ ev ∈ evs, ∀ n, ev ≠ .reference n) (S : TSt dn s st dl o) :
    ∃ st', st.steps (evs.filter notCData) = some st' ∧ TSt dn s' st' (dl ++ evs.filter isDecl) o := by
  obtain ⟨_, mid, h1, _, _, h2, _⟩ := h
  obtain ⟨tr, k1, k2⟩ := hn.trace
  have : mid = tr := List.append_cancel_left (h1.symm.trans k1)
  subst this
  subst k2
  obtain ⟨_, vis, st', v, h3⟩ := h2 st dl o (fun x hx => hok _ (List.mem_map.2 ⟨x, hx, rfl⟩)) S
  rw [v.eq hnr] at h3
  exact ⟨st', h3⟩

theorem attribute_tree {snl : Nat} {s : St σ} {dl : List Ev} {ek ak : List Bytes} {es : List (Bool × Bytes × Bytes × Bytes)} (S : DSt dn t D s dl ek ak es)
    {e : Bytes} {a : AttDef} (hid : a.name = b!"xml:id" → a.typ = 2) (hty : 1 ≤ a.typ ∧ a.typ ≤ 10) (hv : Helium.Spelled a.value) (hl : a.value.length + 1 < snl)
    (hn : atKey e a.name ∉ ak) :
    ∃ s', declareAtt (treeBuilder tf) snl e a s = .ok () s' ∧ Noted [.attributeDecl e a.name a.typ a.deflt a.value a.names] s s' ∧
      DSt dn t D s' (dl ++ [.attributeDecl e a.name a.typ a.deflt a.value a.names]) ek (ak ++ [atKey e a.name]) es := by
  obtain ⟨h1, ⟨st, T, hin⟩, I⟩ := S
  obtain ⟨c', N, r, hk, K⟩ := tbAttributeDecl_run T.1 T.2.2 (v := s.view) h1 (df := a.deflt) (b := a.value) (en := a.names) hid hty (mapGet_absent I.attrs hn)
  obtain ⟨s1, q1, q2, _, q3, q4, st', q5, q6⟩ := cb_tree (tf := tf) (ev := .attributeDecl e a.name a.typ a.deflt a.value a.names) T trivial rfl rfl (tbUnit_ok r)
  cases q5
  have I1 : DtdInv s1.hc.heap dn t D ek (ak ++ [atKey e a.name]) es := by
    rw [q3]
    refine I.decl (by rw [hk]; decide) K (fun x => ⟨rfl, rfl, rfl, rfl, rfl, rfl, rfl⟩) (fun k v hkv => Or.inr (I.elems k v hkv)) (fun k v hkv => ?_) ⟨I.full.1, fun _ => mapSet_ne _ _ _⟩
    simp only [mapGet_mapSet] at hkv
    split at hkv
    · rename_i e
      rw [List.mem_append]; exact Or.inr (by rw [← e]; exact List.mem_singleton.2 rfl)
    · exact List.mem_append_left _ (I.attrs k v hkv)
  have : ∃ s2, (if a.value ≠ [] ∧ a.deflt ≠ 3 ∧ a.deflt ≠ 2 then addAttributeDefault snl e a.name a.value else pure () : P σ Unit) s1 = .ok () s2 ∧ Noted [] s1 s2 ∧
      s2.inSubset = s1.inSubset ∧ Dtds s1.hc.heap s2.hc.heap ∧ TSt dn s2 st (dl ++ [.attributeDecl e a.name a.typ a.deflt a.value a.names]) (some t) := by
    split
    · obtain ⟨w, hw, he⟩ := hv
      rw [he] at hl
      obtain ⟨s2, r2, n2, _⟩ := default_noted hw hl e a.name s1
      have hT : TStep dn s1 s2 := by
        have := TR_dflt (tf := tf) (dn := dn) snl e a.name (reported w) s1
        rw [r2] at this
        exact this
      obtain ⟨st2, x1, x2⟩ := hT.use n2 (by simp) (by simp) q6
      cases x1
      rw [he]
      rw [he] at x2
      exact ⟨s2, r2, n2, hT.1, default_dtds r2, by rw [show dl ++ [Ev.attributeDecl e a.name a.typ a.deflt (reported w) a.names] = dl ++ [Ev.attributeDecl e a.name a.typ a.deflt (reported w) a.names].filter isDecl ++ List.filter isDecl [] from (List.append_nil _).symm]; exact x2⟩
    · exact ⟨s1, rfl, .refl _, rfl, Dtds.refl _, q6⟩
  obtain ⟨s2, r2, n2, j1, j2, j3⟩ := this
  refine ⟨{ s2 with attsSpecial := mapSet s2.attsSpecial (specialKey e a.name) a.typ }, ?_, ?_, (j1.trans (q4.trans h1)), ⟨st, j3, hin⟩, I1.keep j2⟩
  · unfold declareAtt
    rw [bind_run q1]
    revert r2
    split
    · intro r2; rw [bind_run r2]; rfl
    · intro r2; cases r2; rfl
  · have n4 : Noted [] s2 { s2 with attsSpecial := mapSet s2.attsSpecial (specialKey e a.name) a.typ } := .silent rfl rfl rfl rfl rfl rfl rfl rfl
    exact q2.trans (n2.trans n4)

theorem attlist_tree {snl : Nat} {e : Bytes} : ∀ (as : List AttDef) {s : St σ} {dl : List Ev} {ek ak : List Bytes} {es : List (Bool × Bytes × Bytes × Bytes)},
    DSt dn t D s dl ek ak es → Decl.Fit snl (.attlist e as) → (ak ++ atKeys (.attlist e as)).Nodup →
    ∃ s', declareAtts (treeBuilder tf) snl e as s = .ok () s' ∧ Noted (Decl.attlist e as).events s s' ∧
      DSt dn t D s' (dl ++ (Decl.attlist e as).events) ek (ak ++ atKeys (.attlist e as)) es
  | [], s, dl, ek, ak, es, S, _, _ => ⟨s, rfl, .refl _, by simpa [Decl.events, atKeys] using S⟩
  | a :: as, s, dl, ek, ak, es, S, hf, hn => by
    obtain ⟨f1, f2, f3, f4⟩ := hf a (by simp)
    have e1 : ak ++ atKeys (.attlist e (a :: as)) = (ak ++ [atKey e a.name]) ++ atKeys (.attlist e as) := by simp [atKeys]
    rw [e1] at hn
    obtain ⟨s1, r1, n1, S1⟩ := attribute_tree (tf := tf) (e := e) S f1 f2 f3 f4 (by
      intro hc
      rw [List.nodup_append, List.nodup_append] at hn
      exact hn.1.2.2 _ hc _ (by simp) rfl)
    obtain ⟨s2, r2, n2, S2⟩ := attlist_tree as S1 (fun x hx => hf x (by simp [hx])) hn
    refine ⟨s2, ?_, n1.trans n2, ?_⟩
    · show (declareAtt (treeBuilder tf) snl e a >>= fun _ => declareAtts (treeBuilder tf) snl e as) s = _
      rw [bind_run r1]
      exact r2
    · rw [e1]
      have e2 : dl ++ (Decl.attlist e (a :: as)).events = dl ++ [.attributeDecl e a.name a.typ a.deflt a.value a.names] ++ (Decl.attlist e as).events := by simp [Decl.events]
      rw [e2]
      exact S2

/-- looking up an entity. -/
theorem lookup_run {c : HC σ} (hd : c.doc = some dn) (ht : (c.heap.at' dn).intSubset = some t) {p : Bool} {n : Bytes} {i : Nat} {v : HV}
    (hm : mapGet (if p then (c.heap.at' t).pentities else (c.heap.at' t).entities) n = some i) :
    treeBuilder tf v (if p then .getParameterEntity n else .getEntity n) c = (.ent (some (.ptr i)), c) := by
  cases p with
  | true =>
    have hm : mapGet (c.heap.at' t).pentities n = some i := hm
    simp only [if_true, treeBuilder, tbOut, get_bind, hd, docGetParameterEntity, ht, hm]
    rfl
  | false =>
    have hm : mapGet (c.heap.at' t).entities n = some i := hm
    simp only [Bool.false_eq_true, if_false, treeBuilder, tbOut, tbDoc, bindM_assoc, get_bind, hd, deref_bind, docGetEntity, ht, hm]
    rfl

theorem entity_tree {snl : Nat} {s : St σ} {dl : List Ev} {ek ak : List Bytes} {es : List (Bool × Bytes × Bytes × Bytes)} (S : DSt dn t D s dl ek ak es)
    (p : Bool) (n l b : Bytes) :
    ∃ s', declare (treeBuilder tf) snl (.entity p n l b) s = .ok () s' ∧ Noted (Decl.entity p n l b).events s s' ∧
      DSt dn t D s' (dl ++ (Decl.entity p n l b).events.filter isDecl) ek ak (es ++ [(p, n, l, b)]) := by
  obtain ⟨h1, ⟨st, T, hin⟩, I⟩ := S
  obtain ⟨c', N, r, hN, hdoc, K⟩ := tbEntityDecl_run T.1 T.2.2 (v := s.view) h1 p n b
  obtain ⟨s1, q1, q2, _, q3, q4, st', q5, q6⟩ := cb_tree (tf := tf) (ev := .entityDecl n (if p then 4 else 1) [] [] b) T trivial rfl rfl (tbUnit_ok r)
  cases q5
  have I2 := I.entity (l := l) hN K
  obtain ⟨_, htl, _, _, hd1, _⟩ := T.1.dtd T.2.2
  have hd2 : s1.hc.doc = some dn := by rw [q3, hdoc]; exact hd1
  have hget : mapGet (if p then (s1.hc.heap.at' t).pentities else (s1.hc.heap.at' t).entities) n = some s.hc.heap.size := by
    rw [q3]
    obtain ⟨_, _, _, _, _, _, _, _, _, _, e11, e12, _⟩ := dinfo_eq (K.same t (Nat.lt_succ_of_lt htl))
    rw [e11, e12]
    have htx : ∀ f, ((s.hc.heap.alloc N).upd t f).at' t = f (s.hc.heap.at' t) := fun f => by simp [Heap.upd, Heap.put, Heap.alloc, Nat.ne_of_lt htl]
    rw [htx]
    cases p
    · exact (mapGet_mapSet _ _ _ _).trans (if_pos rfl)
    · exact (mapGet_mapSet _ _ _ _).trans (if_pos rfl)
  have hlk := lookup_run (tf := tf) (v := s1.view) hd2 q6.2.2 hget
  generalize hev : (if p then Ev.getParameterEntity n else .getEntity n) = ev at hlk
  have hl : ev.lookup := by rw [← hev]; cases p <;> trivial
  obtain ⟨s2, hs2⟩ : ∃ s2 : St σ, s2 = cbSt (treeBuilder tf) ev s1 := ⟨_, rfl⟩
  have r2 : ask (treeBuilder tf) ev s1 = .ok (.ok (some (.ptr s.hc.heap.size))) s2 := by
    rw [hs2]
    unfold ask callback
    simp [Bind.bind, M.bind, hlk, cbSt, Pure.pure, M.pure]
  have n2 : Noted [ev] s1 s2 := by rw [hs2]; exact ⟨rfl, rfl, rfl, rfl, rfl, rfl, rfl, _, rfl, rfl⟩
  have h2 : s2.hc = s1.hc := by rw [hs2]; show (treeBuilder tf s1.view ev s1.hc).2 = _; rw [hlk]
  have r3 : setOrig (.ok (some (.ptr s.hc.heap.size))) l s2 = .ok () { s2 with hc := { s2.hc with heap := s2.hc.heap.upd s.hc.heap.size (fun x => { x with orig := l }) } } := rfl
  have r23 : (do let cur ← ask (treeBuilder tf) ev; setOrig cur l : P σ Unit) s1 = .ok () { s2 with hc := { s2.hc with heap := s2.hc.heap.upd s.hc.heap.size (fun x => { x with orig := l }) } } := by
    rw [bind_run r2]
    exact r3
  have n3 : Noted [ev] s1 { s2 with hc := { s2.hc with heap := s2.hc.heap.upd s.hc.heap.size (fun x => { x with orig := l }) } } :=
    n2.trans (.silent rfl rfl rfl rfl rfl rfl rfl rfl)
  have hT := TR_orig (σ := σ) (tf := tf) (dn := dn) ev l hl s1
  rw [r23] at hT
  have hT : TStep dn s1 _ := hT
  obtain ⟨st2, x1, x2⟩ := hT.use n3 (fun e he => by rw [List.mem_singleton] at he; rw [he, ← hev]; cases p <;> rfl)
    (fun e he => by rw [List.mem_singleton] at he; rw [he, ← hev]; cases p <;> nofun) q6
  refine ⟨_, ?_, ?_, hT.1.trans (q4.trans h1), ⟨st2, ?_, ?_⟩, ?_⟩
  · rotate_left
    show (cb (treeBuilder tf) (.entityDecl n (if p then 4 else 1) [] [] b) >>= fun _ => ask (treeBuilder tf) (if p then .getParameterEntity n else .getEntity n) >>= fun x => setOrig x l) s = _
    rw [bind_run q1, hev]
    exact r23
  · have := q2.trans n3
    subst hev
    cases p <;> exact this
  · have e : (Decl.entity p n l b).events.filter isDecl = [Ev.entityDecl n (if p then 4 else 1) [] [] b].filter isDecl ++ [ev].filter isDecl := by
      rw [← hev]
      cases p <;> rfl
    rw [e, ← List.append_assoc]
    exact x2
  · have : st2 = st := by
      rw [← hev] at x1
      cases p <;> · cases x1; rfl
    rw [this]
    exact hin
  · have : DtdInv (s2.hc.heap.upd s.hc.heap.size (fun x => { x with orig := l })) dn t D ek ak (es ++ [(p, n, l, b)]) := by
      rw [h2, q3]
      exact I2
    exact this

theorem declare_tree {snl : Nat} {d : Decl} {s : St σ} {dl : List Ev} {ek ak : List Bytes} {es : List (Bool × Bytes × Bytes × Bytes)} (S : DSt dn t D s dl ek ak es)
    (hf : Decl.Fit snl d) (he : (ek ++ elKeys d).Nodup) (ha : (ak ++ atKeys d).Nodup) :
    ∃ s', declare (treeBuilder tf) snl d s = .ok () s' ∧ Noted d.events s s' ∧
      DSt dn t D s' (dl ++ d.events.filter isDecl) (ek ++ elKeys d) (ak ++ atKeys d) (es ++ entsOf d) := by
  cases d with
  | element n ty ec =>
    obtain ⟨s', h1, h2, h3⟩ := element_tree (tf := tf) (n := n) S hf (by
      intro hc
      rw [List.nodup_append] at he
      exact he.2.2 _ hc _ (List.mem_singleton.2 rfl) rfl)
    exact ⟨s', h1, h2, by simp only [elKeys, atKeys, entsOf, List.append_nil]; exact h3⟩
  | entity p n l b =>
    obtain ⟨s', h1, h2, h3⟩ := entity_tree (tf := tf) (snl := snl) S p n l b
    exact ⟨s', h1, h2, by simpa [elKeys, atKeys, entsOf] using h3⟩
  | attlist n as =>
    obtain ⟨s', h1, h2, h3⟩ := attlist_tree (tf := tf) as S hf ha
    refine ⟨s', h1, h2, ?_⟩
    have e : (Decl.attlist n as).events.filter isDecl = (Decl.attlist n as).events := by
      rw [List.filter_eq_self]
      intro x hx
      obtain ⟨a, _, rfl⟩ := List.mem_map.1 hx
      rfl
    rw [e]
    simpa [elKeys, entsOf] using h3
  | comment b =>
    obtain ⟨s', h1, h2, h3⟩ := comment_tree (tf := tf) S b
    exact ⟨s', h1, h2, by simp only [elKeys, atKeys, entsOf, List.append_nil]; rw [show dl ++ (Decl.comment b).events.filter isDecl = dl from List.append_nil _]; exact h3⟩
  | pi n b => exact absurd hf id

theorem declareAll_tree {snl : Nat} : ∀ (ds : List Decl) {s : St σ} {dl : List Ev} {ek ak : List Bytes} {es : List (Bool × Bytes × Bytes × Bytes)},
    DSt dn t D s dl ek ak es → (∀ d ∈ ds, Decl.Fit snl d) → (ek ++ ds.flatMap elKeys).Nodup → (ak ++ ds.flatMap atKeys).Nodup →
    ∃ s', declareAll (treeBuilder tf) snl ds s = .ok () s' ∧ Noted (ds.flatMap Decl.events) s s' ∧
      DSt dn t D s' (dl ++ (ds.flatMap Decl.events).filter isDecl) (ek ++ ds.flatMap elKeys) (ak ++ ds.flatMap atKeys) (es ++ ds.flatMap entsOf)
  | [], s, dl, ek, ak, es, S, _, _, _ => ⟨s, rfl, .refl _, by simpa using S⟩
  | d :: ds, s, dl, ek, ak, es, S, hf, he, ha => by
    simp only [List.flatMap_cons, ← List.append_assoc] at he ha
    obtain ⟨s1, r1, n1, S1⟩ := declare_tree (tf := tf) S (hf d (by simp)) (List.nodup_append.1 he).1 (List.nodup_append.1 ha).1
    obtain ⟨s2, r2, n2, S2⟩ := declareAll_tree ds S1 (fun x hx => hf x (by simp [hx])) he ha
    refine ⟨s2, ?_, ?_, ?_⟩
    · show (declare (treeBuilder tf) snl d >>= fun _ => declareAll (treeBuilder tf) snl ds) s = _
      rw [bind_run r1]
      exact r2
    · rw [List.flatMap_cons]
      exact n1.trans n2
    · simpa only [List.flatMap_cons, List.filter_append, ← List.append_assoc] using S2

end
end Helium
