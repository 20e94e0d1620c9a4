import Verif.Lemmas.TbSubset
import Verif.Spec.Total
/-! The tree builder takes a document type declaration, and after it the document. -/
namespace Helium
open Spec

/-- no entity was allocated. -/
def NoEnt (h : Heap) : Prop := ∀ i, i < h.size → (h.at' i).kind ≠ .entity

theorem NoEnt.keep {h h' : Heap} (hn : NoEnt h) (K : Dtds h h') : NoEnt h' := by
  intro i hi
  by_cases hlt : i < h.size
  · rw [(dinfo_eq (K.same i hlt)).1]; exact hn i hlt
  · exact K.fresh i (Nat.not_lt.1 hlt) hi

section
variable {σ : Type} {tf dn t : Nat} {D : HV}

theorem tbInternalSubset_dtds {c c' : HC σ} (hd : c.doc = some dn) {n e u : Bytes} (h : tbInternalSubset n e u c = .ok () c') :
    Dtds ((((c.heap.upd dn (fun x => { x with intSubset := none })).alloc
      { kind := .dtd, doc := some dn, name := n, externalID := e, systemID := u }).upd dn (fun x => { x with intSubset := some c.heap.size })).upd
      c.heap.size (fun x => { x with parent := some dn })) c'.heap := by
  unfold tbInternalSubset at h
  rw [bind_run (tbDoc_run hd), bind_run (tbH_ok (a := ()) (h := c.heap.upd dn (fun x => { x with intSubset := none })) rfl), bind_ok] at h
  obtain ⟨a, c1, h1, h2⟩ := h
  cases h2
  obtain ⟨g, hg, rfl⟩ := tbH_inv h1
  unfold createInternalSubset at hg
  have : (node dn : HM Node) (c.heap.upd dn (fun x => { x with intSubset := none })) = .ok { c.heap.at' dn with intSubset := none } (c.heap.upd dn (fun x => { x with intSubset := none })) := by
    simp [node, Heap.upd, Heap.put]
  rw [bind_run this, if_neg (by simp), bind_run (newNode_run _ _), bind_run updNode_run, bind_run updNode_run, bind_ok] at hg
  obtain ⟨b, g1, h3, h4⟩ := hg
  cases h4
  exact (KeepD.attempt (KeepD.nodeAddChild _ _) _).1 _ _ h3

theorem tbInternalSubset_dtdInv {c c' : HC σ} (hd : c.doc = some dn) (hlt : dn < c.heap.size) {n e u : Bytes} (h : tbInternalSubset n e u c = .ok () c')
    (hi : info (c.heap.at' dn) = info (mkDoc D.version D.encoding D.standalone)) (hn : NoEnt c.heap) : DtdInv c'.heap dn c.heap.size D [] [] [] := by
  refine DtdInv.keep ?_ (tbInternalSubset_dtds hd h)
  have hne : dn ≠ c.heap.size := Nat.ne_of_lt hlt
  generalize hh1 : ((((c.heap.upd dn (fun x => { x with intSubset := none })).alloc
      { kind := .dtd, doc := some dn, name := n, externalID := e, systemID := u }).upd dn (fun x => { x with intSubset := some c.heap.size })).upd
      c.heap.size (fun x => { x with parent := some dn })) = h1
  have hsz : h1.size = c.heap.size + 1 := by rw [← hh1]; rfl
  have hold : ∀ i, i < c.heap.size → i ≠ dn → h1.at' i = c.heap.at' i := fun i hi hid => by
    rw [← hh1]; simp [Heap.upd, Heap.put, Heap.alloc, Nat.ne_of_lt hi, hid]
  have hdn : h1.at' dn = { c.heap.at' dn with intSubset := some c.heap.size } := by
    rw [← hh1]; simp [Heap.upd, Heap.put, Heap.alloc, hne]
  have hnew : h1.at' c.heap.size = { kind := .dtd, doc := some dn, name := n, externalID := e, systemID := u, parent := some dn } := by
    rw [← hh1]; simp [Heap.upd, Heap.put, Heap.alloc, Ne.symm hne]
  have g : ∀ {β} (f : Node → β), f (info (c.heap.at' dn)) = f (info (mkDoc D.version D.encoding D.standalone)) := fun f => congrArg f hi
  refine ⟨by omega, by omega, hne, ?_, ?_, ?_, ?_, ?_, fun _ => by rw [hnew]⟩
  · rw [hdn]
    exact ⟨g Node.version, g Node.encoding, g Node.standalone⟩
  · rw [hnew]; intro k v hk; cases hk
  · rw [hnew]; intro k v hk; cases hk
  · intro i hi hk
    by_cases h1 : i = c.heap.size
    · subst h1; rw [hnew] at hk; cases hk
    · have hlt : i < c.heap.size := by omega
      by_cases h2 : i = dn
      · subst h2; rw [hdn] at hk; exact absurd hk (hn i hlt)
      · rw [hold i hlt h2] at hk; exact absurd hk (hn i hlt)
  · exact ⟨fun h => absurd rfl h, fun h => absurd rfl h, fun h => absurd rfl h⟩

/-- the declarations of a document type declaration are in the tree. -/
theorem declareDoctype_tree {snl : Nat} (n : Bytes) {ds : List Decl} (hf : ∀ d ∈ ds, Decl.Fit snl d) (he : (ds.flatMap elKeys).Nodup)
    (ha : (ds.flatMap atKeys).Nodup) {s : St σ} (h0 : s.inSubset = 0) {st : Partial} {dl : List Ev} (I : TInv s.hc dn st dl) (hin : st.inner = [])
    (hi : info (s.hc.heap.at' dn) = info (mkDoc D.version D.encoding D.standalone)) (hn : NoEnt s.hc.heap) (hdf : s.attsDefault = []) :
    ∃ s' t st', declareDoctype (treeBuilder tf) snl n ds s = .ok () s' ∧ s'.cur = s.cur ∧ s'.ns = s.ns ∧ s'.nodes = s.nodes ∧ s'.view = s.view ∧
      (∃ tr, s'.trace = s.trace ++ tr ∧ tr.map (·.1) = doctypeEvents n ds) ∧
      TSt dn s' st' ((ds.flatMap Decl.events).filter isDecl) (some t) ∧ st'.inner = [] ∧
      DtdInv s'.hc.heap dn t D (ds.flatMap elKeys) (ds.flatMap atKeys) (ds.flatMap entsOf) := by
  let s0 : St σ := { s with inSubset := 1, intSubName := n, extSubURI := [], extSubSystem := [] }
  obtain ⟨c', r0, I0, ht0⟩ := tbInternalSubset_inv I hin n [] []
  have hd0 : s.hc.doc = some dn ∧ dn < s.hc.heap.size := by
    obtain ⟨a, fs, i1, R, T, i5, i6, Z, _⟩ := I
    exact ⟨i1, by rw [R.size]; exact R.bound _ Z.doc⟩
  have V0 := tbInternalSubset_dtdInv hd0.1 hd0.2 r0 hi hn
  have e0 : treeBuilder tf s0.view (.internalSubset n [] []) s0.hc = (.ok, c') := tbUnit_ok r0
  obtain ⟨s1, hs1⟩ : ∃ s1 : St σ, s1 = cbSt (treeBuilder tf) (.internalSubset n [] []) s0 := ⟨_, rfl⟩
  have r1 : cb (treeBuilder tf) (.internalSubset n [] []) s0 = .ok () s1 := by
    rw [hs1]
    unfold cb callback
    simp [Bind.bind, M.bind, e0, cbSt, Pure.pure, M.pure]
  have n1 : Noted [.internalSubset n [] []] s0 s1 := by rw [hs1]; exact ⟨rfl, rfl, rfl, rfl, rfl, rfl, rfl, _, rfl, rfl⟩
  have h1 : s1.hc = c' := by rw [hs1]; show (treeBuilder tf s0.view _ s0.hc).2 = _; rw [e0]
  have hdf1 : s1.attsDefault = [] := by rw [hs1]; exact hdf
  have S1 : DSt dn s.hc.heap.size D s1 [] [] [] [] := by
    refine ⟨by rw [hs1]; rfl, ⟨_, ⟨by rw [h1]; exact I0, ?_, by rw [h1]; exact ht0⟩, ?_⟩, by rw [h1]; exact V0⟩
    · rw [hdf1]; intro k l hkl; cases hkl
    · have := add_length st (.dtd n [] []) .nil
      rw [hin] at this
      exact List.length_eq_zero_iff.1 this
  obtain ⟨s2, r2, n2, S2⟩ := declareAll_tree (tf := tf) ds S1 hf (by simpa using he) (by simpa using ha)
  simp only [List.nil_append] at S2
  have n12 := n1.trans n2
  obtain ⟨hi2, ⟨st2, T2, hin2⟩, V2⟩ := S2
  let s3 : St σ := { s2 with inSubset := 2 }
  obtain ⟨s4, hs4⟩ : ∃ s4 : St σ, s4 = cbSt (treeBuilder tf) (.externalSubset n [] []) s3 := ⟨_, rfl⟩
  have r4 : cb (treeBuilder tf) (.externalSubset n [] []) s3 = .ok () s4 := by rw [hs4]; rfl
  have n4 : Noted [.externalSubset n [] []] s3 s4 := by rw [hs4]; exact ⟨rfl, rfl, rfl, rfl, rfl, rfl, rfl, _, rfl, rfl⟩
  have hc4 : s4.hc = s2.hc := by rw [hs4]; rfl
  have hd4 : s4.attsDefault = s2.attsDefault := by rw [hs4]; rfl
  refine ⟨{ s4 with inSubset := 0, attsSpecial := s4.attsSpecial.filter (fun p => p.2 != 1) }, s.hc.heap.size, st2, ?_, ?_, ?_, ?_, ?_, ?_, ?_, hin2, ?_⟩
  · unfold declareDoctype
    run
    rw [bind_run (s := s0) r1, bind_run r2]
    run
    have e : Ev.externalSubset s2.intSubName s2.extSubSystem s2.extSubURI = .externalSubset n [] [] := by rw [n12.name, n12.sys, n12.uri]
    have r4' : cb (treeBuilder tf) (Ev.externalSubset s2.intSubName s2.extSubSystem s2.extSubURI) s3 = .ok () s4 := by rw [e]; exact r4
    rw [bind_run (s := s3) r4']
    rfl
  · exact n4.cur.trans n12.cur
  · exact n4.ns.trans n12.ns
  · exact n4.nodes.trans n12.nodes
  · have h1 := n4.view
    have h2 := n12.view
    have e1 : (St.view s4).version = s.version := (congrArg HV.version h1).trans (congrArg HV.version h2)
    have e2 : (St.view s4).encoding = s.encoding := (congrArg HV.encoding h1).trans (congrArg HV.encoding h2)
    have e3 : (St.view s4).standalone = s.standalone := (congrArg HV.standalone h1).trans (congrArg HV.standalone h2)
    unfold St.view at e1 e2 e3 ⊢
    simp only at e1 e2 e3 ⊢
    rw [e1, e2, e3, h0]
  · obtain ⟨t1, a1, b1⟩ := n12.trace
    obtain ⟨t2, a2, b2⟩ := n4.trace
    refine ⟨t1 ++ t2, ?_, ?_⟩
    · show s4.trace = _
      rw [a2]
      show s2.trace ++ t2 = _
      rw [a1, List.append_assoc]
    · rw [List.map_append, b1, b2]
      rfl
  · refine ⟨?_, ?_, ?_⟩
    · show TInv s4.hc dn st2 _; rw [hc4]; exact T2.1
    · show Marked s4.attsDefault s4.hc.heap; rw [hc4, hd4]; exact T2.2.1
    · show (s4.hc.heap.at' dn).intSubset = _; rw [hc4]; exact T2.2.2
  · show DtdInv s4.hc.heap dn _ D _ _ _
    rw [hc4]
    exact V2

/-! ### the document after it -/

theorem tagAttrs_of {B : Nat} {h : Heap} {ats : List AttrD} (hp : ∀ a ∈ ats, TagAttr B h a) : tagAttrs h ats := by
  intro a ha
  rcases hp a ha with ⟨p, l, w, h, _⟩ | h
  · exact Or.inl ⟨_, _, _, h⟩
  · exact Or.inr h

theorem tbTagAttrs_run {fuel : Nat} {h : Heap} {e : Nat} {x : Node} (hx : x.kind = .element) : ∀ {ats : List AttrD} {m : List Nat}
    {as : List (Bytes × Bytes)} {c : HC σ}, (∀ a ∈ ats, TagAttr fuel h a) → Built h c.heap e x m as →
    ((as ++ givenAttrs ats).map (·.1)).Nodup → ∃ c', ats.forM (tbAttr fuel e) c = .ok () c'
  | [], m, as, c, _, B, hn => ⟨c, rfl⟩
  | y :: ats, m, as, c, hp, B, hn => by
    rcases hp y (by simp) with ⟨p, l, w, rfl, hw, hs⟩ | ⟨i, rfl, hi, hdf⟩
    case inr =>
      obtain ⟨c', hc'⟩ := tbTagAttrs_run (ats := ats) (c := c) hx (fun a ha => hp a (by simp [ha])) B hn
      refine ⟨c', ?_⟩
      show ((tbAttr fuel e (.dflt i) : TB σ Unit) >>= fun _ => ats.forM (tbAttr fuel e)) c = .ok () c'
      have hsk : (tbAttr fuel e (.dflt i) : TB σ Unit) c = .ok () c := by
        obtain ⟨f, q, h2⟩ := B.ent i hi
        have : AttrD.isDefault c.heap (.dflt i) = true := by simp only [AttrD.isDefault]; rw [h2]; exact hdf
        unfold tbAttr
        rw [get_bind, if_pos this]
        rfl
      rw [bind_run hsk]
      exact hc'
    have e0 : givenAttrs (.parsed p l (reported w) :: ats) = (AttrD.name c.heap (.parsed p l (reported w)), reported w) :: givenAttrs ats := by
      simp only [givenAttrs, AttrD.name]
      by_cases hpe : p = [] <;> simp [hpe]
    rw [e0] at hn
    have hn' : AttrD.name c.heap (.parsed p l (reported w)) ∉ as.map (·.1) := by
      rw [List.map_append, List.nodup_append] at hn
      intro hm
      exact hn.2.2 _ hm _ (by simp) rfl
    obtain ⟨g, hg⟩ := B.attr_run hx (reported_stands hw) hs hn'
    have B1 := B.attr hx hg
    obtain ⟨c', hc'⟩ := tbTagAttrs_run (ats := ats) (c := { c with heap := g }) hx (fun a ha => hp a (by simp [ha])) B1 (by simpa using hn)
    refine ⟨c', ?_⟩
    show ((tbAttr fuel e (.parsed p l (reported w)) : TB σ Unit) >>= fun _ => ats.forM (tbAttr fuel e)) c = .ok () c'
    rw [bind_run (a := ()) (t := { c with heap := g }) ?_]
    · exact hc'
    · show (tbH (setAttribute fuel e (AttrD.name c.heap (.parsed p l (reported w))) (reported w)) : TB σ Unit) c = _
      exact tbH_ok hg

theorem tbTagElement_run {c : HC σ} {s : Partial} {dl : List Ev} (I : TInv c dn s dl) {fuel : Nat} {l p u : Bytes}
    {ds : List (Bytes × Bytes)} {ats : List AttrD} (hp : ∀ a ∈ ats, TagAttr fuel c.heap a) (hn : ((givenAttrs ats).map (·.1)).Nodup) :
    ∃ c', tbStartElement fuel l p u (ds.map some) ats c = .ok () c' := by
  obtain ⟨a, fs, i1, R, T, i5, i6, Z, D, i9⟩ := I
  unfold tbStartElement
  rw [bind_run (tbDoc_run i1), bind_run (tbH_ok (a := c.heap.size) (h := c.heap.alloc (mkElement (some dn) l)) rfl)]
  have key : ∀ (c1 : HC σ), Built c.heap c1.heap c.heap.size { mkElement (some dn) l with ns := if u = [] then none else some (p, u) } [] [] →
      c1 = { c with heap := c1.heap } → ∃ c', (do
        (ds.map some).forM (fun n => do
          let n ← M.deref n
          tbH (setNamespace c.heap.size n.1 n.2 false))
        ats.forM (tbAttr fuel c.heap.size)
        tbAttach dn c.heap.size
        M.modify (fun c0 => { c0 with elem := some c.heap.size }) : TB σ Unit) c1 = .ok () c' := by
    intro c1 B1 hc1
    obtain ⟨c2, r2⟩ := tbNs_run (e := c.heap.size) (ds := ds) (c := c1)
    rw [bind_run r2]
    obtain ⟨B2, hc2⟩ := tbNs_inv (by split <;> rfl) B1 r2
    obtain ⟨c3, r3⟩ := tbTagAttrs_run (by rfl) hp B2 (by simpa using hn)
    rw [bind_run r3]
    obtain ⟨m, B3, hc3⟩ := tbAttrs_inv (by rfl) (tagAttrs_of hp) B2 r3
    have hc : c3 = { c with heap := c3.heap } := by rw [hc3, hc2, hc1]
    obtain ⟨h2, q1⟩ := built_attach R Z B3 ⟨rfl, rfl, rfl, rfl⟩ rfl
    have hel : c3.elem = fs.head?.map (·.1) := by rw [hc]; exact i6
    rw [bind_run (tbAttach_run hel q1)]
    exact ⟨_, rfl⟩
  by_cases hu : u = []
  · simp only [hu, ne_eq, not_true_eq_false, if_false]
    exact key { c with heap := c.heap.alloc (mkElement (some dn) l) } (by rw [if_pos hu]; exact built_new T _ _) rfl
  · simp only [ne_eq, hu, not_false_eq_true, if_true]
    rw [bind_run (tbH_ok (a := ()) (h := (c.heap.alloc (mkElement (some dn) l)).upd c.heap.size (fun x => { x with ns := some (p, u) })) rfl)]
    exact key { c with heap := (c.heap.alloc (mkElement (some dn) l)).upd c.heap.size (fun x => { x with ns := some (p, u) }) }
      (by rw [if_neg hu]; exact built_ns T _ _ _ _) rfl

/-- a handler that is willing stays so with what its events keep. -/
theorem Spec.Willing.keep {B : Nat} {H : Handler σ} {F : HC σ → Prop} {G : Nat → HC σ → Prop} (W : Willing B D H F G) {P : HC σ → Prop}
    (hP : ∀ v ev c, Ev.outside ev → P c → P (H v ev c).2) : Willing B D H (fun c => F c ∧ P c) (fun n c => G n c ∧ P c) where
  locator := fun h => ⟨(W.locator h.1).1, (W.locator h.1).2, hP _ _ _ trivial h.2⟩
  startDoc := fun h => ⟨(W.startDoc h.1).1, (W.startDoc h.1).2, hP _ _ _ trivial h.2⟩
  endDoc := fun h => ⟨(W.endDoc h.1).1, (W.endDoc h.1).2, hP _ _ _ trivial h.2⟩
  start := fun h0 h h2 h3 => ⟨(W.start h0 h.1 h2 h3).1, (W.start h0 h.1 h2 h3).2, hP _ _ _ trivial h.2⟩
  stop := fun h0 h => ⟨(W.stop h0 h.1).1, (W.stop h0 h.1).2, hP _ _ _ trivial h.2⟩
  comment := fun h0 h => ⟨(W.comment h0 h.1).1, (W.comment h0 h.1).2, hP _ _ _ trivial h.2⟩
  pi := fun h0 h => ⟨(W.pi h0 h.1).1, (W.pi h0 h.1).2, hP _ _ _ trivial h.2⟩
  text := fun h0 h => ⟨(W.text h0 h.1).1, (W.text h0 h.1).2, hP _ _ _ trivial h.2⟩
  blank := fun h0 h => ⟨(W.blank h0 h.1).1, (W.blank h0 h.1).2, hP _ _ _ trivial h.2⟩
  cdata := fun h0 h => ⟨(W.cdata h0 h.1).1, (W.cdata h0 h.1).2, hP _ _ _ trivial h.2⟩

/-- inside of `n` elements, after a document type declaration with the declarations `dl`. -/
def TbAfter (dn : Nat) (dl : List Ev) (df : List (Bytes × List (Bytes × Nat))) (n : Nat) (c : HC σ) : Prop :=
  ∃ st, TInv c dn st dl ∧ st.inner.length = n ∧ Marked df c.heap

theorem tbAfter_start {fuel : Nat} {dl : List Ev} {df : List (Bytes × List (Bytes × Nat))} {n : Nat} {c : HC σ} (h : TbAfter dn dl df n c) {v : HV} {l p u : Bytes}
    {ds : List (Bytes × Bytes)} {ats : List AttrD} (hp : ∀ a ∈ ats, TagAttr fuel c.heap a) (hn : ((givenAttrs ats).map (·.1)).Nodup) :
    Took (treeBuilder fuel v (.startElement l p u (ds.map some) ats) c).1 ∧
      TbAfter dn dl df (n + 1) (treeBuilder fuel v (.startElement l p u (ds.map some) ats) c).2 := by
  obtain ⟨st, I, hl, hm⟩ := h
  have hm' := hm.grows (treeBuilder_tabs fuel v (.startElement l p u (ds.map some) ats) c).grows
  obtain ⟨c', r⟩ := tbTagElement_run (l := l) (p := p) (u := u) (ds := ds) I hp hn
  obtain ⟨I', h3⟩ := tbStartElement_inv I (tagAttrs_of hp) r
  have e : treeBuilder fuel v (.startElement l p u (ds.map some) ats) c = (.ok, c') := tbUnit_ok r
  rw [e] at hm' ⊢
  exact ⟨Or.inl rfl, _, I', by simp [hl], hm'⟩

theorem tbAfter_willing (fuel : Nat) (D : HV) (dl : List Ev) (df : List (Bytes × List (Bytes × Nat))) :
    Willing fuel D (treeBuilder fuel : Handler σ) (fun _ => False) (TbAfter dn dl df) where
  locator := fun h => h.elim
  startDoc := fun h => h.elim
  endDoc := fun h => ⟨Or.inl rfl, h⟩
  start := fun _ h hn hs => tbAfter_start h (fun a ha => Or.inl (hs a ha)) hn
  stop := by
    intro n v c l p u hv ⟨st, I, hn, hm⟩
    have hm' := hm.grows (treeBuilder_tabs fuel v (.endElement l p u) c).grows
    obtain ⟨inner, top⟩ := st
    match inner, hn with
    | (d, t) :: r, hn =>
      obtain ⟨c', h1, h2, h3⟩ := tbEndElement_inv I rfl
      have e : treeBuilder fuel v (.endElement l p u) c = (.ok, c') := tbUnit_ok h1
      rw [e] at hm' ⊢
      exact ⟨Or.inl rfl, _, h2, by rw [add_length]; simpa using hn, hm'⟩
  comment := by
    intro n v c b hv ⟨st, I, hn, hm⟩
    have hm' := hm.grows (treeBuilder_tabs fuel v (.comment b) c).grows
    obtain ⟨c', h1, h2, h3⟩ := tbComment_inv I b
    have e : treeBuilder fuel v (.comment b) c = (.ok, c') := tbUnit_ok h1
    rw [e] at hm' ⊢
    exact ⟨Or.inl rfl, _, h2, by rw [add_length]; exact hn, hm'⟩
  pi := by
    intro n v c t d hv ⟨st, I, hn, hm⟩
    have hm' := hm.grows (treeBuilder_tabs fuel v (.pi t d) c).grows
    obtain ⟨c', h1, h2, h3⟩ := tbPI_inv I hv t d
    have e : treeBuilder fuel v (.pi t d) c = (.ok, c') := tbUnit_ok h1
    rw [e] at hm' ⊢
    exact ⟨Or.inl rfl, _, h2, by rw [add_length]; exact hn, hm'⟩
  text := by
    intro n v c b hv ⟨st, I, hn, hm⟩
    have hm' := hm.grows (treeBuilder_tabs fuel v (.characters b) c).grows
    obtain ⟨inner, top⟩ := st
    match inner, hn with
    | (d, t) :: r, hn =>
      obtain ⟨c', h1, h2, h3⟩ := tbCharacters_inv I rfl b
      have e : treeBuilder fuel v (.characters b) c = (.ok, c') := tbUnit_ok h1
      rw [e] at hm' ⊢
      exact ⟨Or.inl rfl, _, h2, by simpa using hn, hm'⟩
  blank := by
    intro n v c b hv ⟨st, I, hn, hm⟩
    have hm' := hm.grows (treeBuilder_tabs fuel v (.ignorable b) c).grows
    obtain ⟨inner, top⟩ := st
    match inner, hn with
    | (d, t) :: r, hn =>
      obtain ⟨c', h1, h2, h3⟩ := tbCharacters_inv I rfl b
      have e : treeBuilder fuel v (.ignorable b) c = (.ok, c') := tbUnit_ok h1
      rw [e] at hm' ⊢
      exact ⟨Or.inl rfl, _, h2, by simpa using hn, hm'⟩
  cdata := fun _ h => ⟨Or.inl rfl, h⟩

theorem givenAttrs_dflt {ds : List AttrD} (hd : ∀ a ∈ ds, ∃ i, a = .dflt i) : ∀ as : List AttrD, givenAttrs (as ++ ds) = givenAttrs as
  | [] => by
    induction ds with
    | nil => rfl
    | cons a ds ih =>
      obtain ⟨i, rfl⟩ := hd a (by simp)
      exact ih (fun a ha => hd a (by simp [ha]))
  | .parsed p l v :: as => by
    show (_, v) :: givenAttrs (as ++ ds) = (_, v) :: givenAttrs as
    rw [givenAttrs_dflt hd as]
  | .dflt i :: as => givenAttrs_dflt hd as

theorem tbAfter_supplied (E : Env) (fuel : Nat) (dl : List Ev) (df : List (Bytes × List (Bytes × Nat))) :
    Supplied fuel (treeBuilder fuel : Handler σ) (TbAfter dn dl df) (defaultAttrs E df) := by
  intro n v c l p u as ds hv h hn hs
  obtain ⟨st, I, hl, hm⟩ := h
  refine tbAfter_start ⟨st, I, hl, hm⟩ (fun a ha => ?_) ?_
  · rcases List.mem_append.1 ha with ha | ha
    · exact Or.inl (hs a ha)
    · exact Or.inr (defaultAttrs_marked E hm ha)
  · rw [givenAttrs_dflt (fun a ha => (defaultAttrs_marked E hm ha).elim (fun i h => ⟨i, h.1⟩))]
    exact hn

/-- what is left after a document with the declarations `ds`. -/
def TbLeft (D : HV) (ds : List Decl) (c : HC σ) : Prop :=
  ∃ dn t, c.doc = some dn ∧ (c.heap.at' dn).intSubset = some t ∧ DtdInv c.heap dn t D (ds.flatMap elKeys) (ds.flatMap atKeys) (ds.flatMap entsOf)

theorem treeBuilder_ready (E : Env) (fuel : Nat) (D : HV) (n : Bytes) {ds : List Decl} (hf : ∀ d ∈ ds, Decl.Fit fuel d) (ho : ∀ d ∈ ds, Decl.OK fuel d)
    (he : (ds.flatMap elKeys).Nodup) (ha : (ds.flatMap atKeys).Nodup) :
    DtdReady E (treeBuilder fuel : Handler σ) (fun n c => TbIn D n c ∧ NoEnt c.heap) fuel D fuel n ds
      (fun sp _ c => sp = (typeTab [] (attDefs ds)).filter (fun p => p.2 != 1) ∧ TbLeft D ds c) := by
  intro s hi hns hG hd hs
  obtain ⟨⟨dn, st, I, hl, hin⟩, hne⟩ := hG
  obtain ⟨s', t, st', r, c1, c2, c3, c4, c5, T, hin', V⟩ := declareDoctype_tree (tf := fuel) (D := D) n hf he ha hi I (List.length_eq_zero_iff.1 hl) hin hne hd
  obtain ⟨k1, _⟩ := doctype_tab (K := False) (fun h => h.elim) n ho (fun h => h.elim) hs hd hns r
  have hP : ∀ v ev (c : HC σ), Ev.outside ev → ((c.heap.at' dn).intSubset = some t ∧ DtdInv c.heap dn t D (ds.flatMap elKeys) (ds.flatMap atKeys) (ds.flatMap entsOf)) →
      (((treeBuilder fuel v ev c).2.heap.at' dn).intSubset = some t ∧
        DtdInv (treeBuilder fuel v ev c).2.heap dn t D (ds.flatMap elKeys) (ds.flatMap atKeys) (ds.flatMap entsOf)) := by
    intro v ev c ho h
    have K := treeBuilder_dtds fuel v ho c
    obtain ⟨_, _, _, _, _, _, d7, _⟩ := dinfo_eq (K.same dn h.2.dlt)
    exact ⟨d7.trans h.1, h.2.keep K⟩
  refine ⟨s', r, c1, c2, c3, c4, c5, _, _, (tbAfter_willing fuel D ((ds.flatMap Decl.events).filter isDecl) s'.attsDefault).keep hP,
    ⟨⟨st', T.1, by rw [hin']; rfl, T.2.1⟩, T.2.2, V⟩, ?_, ?_⟩
  · intro n v c l p u as ds hv h hn hs
    obtain ⟨x1, x2⟩ := tbAfter_supplied E fuel _ _ hv h.1 hn hs (u := u) (p := p) (l := l) (ds := ds)
    exact ⟨x1, x2, hP _ _ _ trivial h.2⟩
  · intro c hc
    obtain ⟨⟨st, I, _⟩, h1, h2⟩ := hc
    refine ⟨k1, dn, t, ?_, h1, h2⟩
    obtain ⟨a, fs, i1, _⟩ := I
    exact i1

theorem treeBuilder_willing_noEnt (fuel : Nat) (D : HV) :
    Willing fuel D (treeBuilder fuel : Handler σ) (fun c => (c.heap = Heap.empty ∧ c.elem = none) ∧ NoEnt c.heap) (fun n c => TbIn D n c ∧ NoEnt c.heap) :=
  (treeBuilder_willing fuel D).keep (P := fun c => NoEnt c.heap) (fun v ev c ho h => h.keep (treeBuilder_dtds fuel v ho c))

end

/-! ### keys -/

theorem splitColon_inj {a b : Bytes} (ha : a.head? ≠ some 58) (hb : b.head? ≠ some 58) (h : splitColon a = splitColon b) : a = b := by
  have key : ∀ n : Bytes, n.head? ≠ some 58 → (splitColon n).1 ≠ [] ∧ n = (splitColon n).1 ++ 58 :: (splitColon n).2 ∨ (splitColon n).1 = [] ∧ n = (splitColon n).2 := by
    intro n hn
    rcases splitColon_join n with h1 | h1
    · exact Or.inr h1
    · by_cases hp : (splitColon n).1 = []
      · rw [hp] at h1
        rw [h1] at hn
        exact absurd rfl hn
      · exact Or.inl ⟨hp, h1⟩
  rcases key a ha with ⟨h1, h2⟩ | ⟨h1, h2⟩
  · rcases key b hb with ⟨k1, k2⟩ | ⟨k1, k2⟩
    · rw [h2, k2, h]
    · rw [h] at h1; exact absurd k1 h1
  · rcases key b hb with ⟨k1, k2⟩ | ⟨k1, k2⟩
    · rw [h] at h1; exact absurd h1 k1
    · rw [h2, k2, h]

theorem splitColon_free (n : Bytes) : 58 ∉ (splitColon n).1 := by
  by_cases h : 58 ∈ n
  · obtain ⟨a, b, rfl, ha⟩ := first_split h
    rw [splitColon_append ha]
    exact ha
  · rw [splitColon_none h]
    simp

/-- the last colon splits in one way only. -/
theorem lastColon_inj {a b c d : Bytes} (hb : 58 ∉ b) (hd : 58 ∉ d) (h : a ++ 58 :: b = c ++ 58 :: d) : a = c ∧ b = d := by
  have h' := congrArg List.reverse h
  simp only [List.reverse_append, List.reverse_cons, List.append_assoc, List.singleton_append] at h'
  have e1 := splitColon_append (a := b.reverse) (b := a.reverse) (by simpa using hb)
  have e2 := splitColon_append (a := d.reverse) (b := c.reverse) (by simpa using hd)
  rw [h', e2] at e1
  simp only [Prod.mk.injEq, List.reverse_inj] at e1
  exact ⟨e1.2.symm, e1.1.symm⟩

theorem elKey_inj {a b : Bytes} (ha : a.head? ≠ some 58) (hb : b.head? ≠ some 58) (h : elKey a = elKey b) : a = b := by
  obtain ⟨h1, h2⟩ := lastColon_inj (splitColon_free a) (splitColon_free b) h
  exact splitColon_inj ha hb (Prod.ext h2 h1)

theorem atKey_inj {e a f b : Bytes} (he : 58 ∉ e) (hf : 58 ∉ f) (ha : a.head? ≠ some 58) (hb : b.head? ≠ some 58) (h : atKey e a = atKey f b) :
    e = f ∧ a = b := by
  unfold atKey attrKey at h
  have h' : ((splitColon a).2 ++ 58 :: (splitColon a).1) ++ 58 :: e = ((splitColon b).2 ++ 58 :: (splitColon b).1) ++ 58 :: f := by simpa using h
  obtain ⟨h1, h2⟩ := lastColon_inj he hf h'
  obtain ⟨h3, h4⟩ := lastColon_inj (splitColon_free a) (splitColon_free b) h1
  exact ⟨h2, splitColon_inj ha hb (Prod.ext h4 h3)⟩

theorem nodup_map {α β : Type} {f : α → β} : ∀ {l : List α}, l.Nodup → (∀ a ∈ l, ∀ b ∈ l, f a = f b → a = b) → (l.map f).Nodup
  | [], _, _ => List.nodup_nil
  | a :: l, h, hf => by
    rw [List.nodup_cons] at h
    rw [List.map_cons, List.nodup_cons]
    refine ⟨fun hc => ?_, nodup_map h.2 (fun x hx y hy => hf x (by simp [hx]) y (by simp [hy]))⟩
    obtain ⟨b, hb, he⟩ := List.mem_map.1 hc
    exact h.1 (hf b (by simp [hb]) a (by simp) he ▸ hb)

theorem elKeys_eq (ds : List Decl) : ds.flatMap elKeys = (elementNames ds).map elKey := by
  induction ds with
  | nil => rfl
  | cons d ds ih =>
    rw [List.flatMap_cons, ih]
    cases d <;> rfl

theorem atKeys_eq (ds : List Decl) : ds.flatMap atKeys = ((attDefs ds).map attKey).map (fun x => atKey x.1 x.2) := by
  induction ds with
  | nil => rfl
  | cons d ds ih =>
    rw [List.flatMap_cons, ih]
    cases d with
    | attlist n as => simp [atKeys, attDefs, attKey, Function.comp_def]
    | _ => rfl

theorem Spec.Declarable.elKeys {ds : List Decl} (h : Declarable ds) : (ds.flatMap elKeys).Nodup := by
  rw [elKeys_eq]
  exact nodup_map h.elements (fun a ha b hb e => elKey_inj (h.elementColon a ha) (h.elementColon b hb) e)

theorem Spec.Declarable.atKeys {ds : List Decl} (h : Declarable ds) : (ds.flatMap atKeys).Nodup := by
  rw [atKeys_eq]
  refine nodup_map h.attributes (fun a ha b hb e => ?_)
  obtain ⟨x, hx, rfl⟩ := List.mem_map.1 ha
  obtain ⟨y, hy, rfl⟩ := List.mem_map.1 hb
  obtain ⟨x1, x2⟩ := h.attributeColon x hx
  obtain ⟨y1, y2⟩ := h.attributeColon y hy
  obtain ⟨e1, e2⟩ := atKey_inj x1 y1 x2 y2 e
  exact Prod.ext e1 e2

section
variable {E : Env}

theorem modelText_ne {k : CK} {x : Nat} {e : EC} {t : List Nat} (h : ModelText E k x e t) : e ≠ .nil := by
  induction h with
  | name => simp [nameModel]
  | paren _ _ _ ih => exact ih
  | @parenOpt d ws e x _ _ _ _ ih => cases e <;> simp_all [madeOpt]
  | last _ _ ih => exact ih
  | more => simp
  | single => simp [nameModel]
  | several => simp

theorem elementText_consistent {n : List Nat} {typ : Nat} {e : EC} {t : List Nat} (h : ElementText E n typ e t) : Consistent typ e := by
  obtain ⟨w1, w2, w3, x, _, _, _, _, _, _, hs, _⟩ := h
  cases hs with
  | empty => exact Or.inl ⟨Or.inl rfl, rfl⟩
  | any => exact Or.inl ⟨Or.inr rfl, rfl⟩
  | pcdata => exact Or.inr ⟨Or.inl rfl, by simp [pcdataModel]⟩
  | pcdataStar => exact Or.inr ⟨Or.inl rfl, by simp [pcdataModel]⟩
  | mixed => exact Or.inr ⟨Or.inl rfl, by simp⟩
  | children _ hm => exact Or.inr ⟨Or.inr rfl, modelText_ne hm⟩
  | @childrenOpt ws e x _ hm _ =>
    refine Or.inr ⟨Or.inr rfl, ?_⟩
    have := modelText_ne hm
    cases e <;> simp_all [madeOpt]

theorem typeText_range {typ : Nat} {ns : List Bytes} {t : List Nat} (h : TypeText E typ ns t) : 1 ≤ typ ∧ typ ≤ 10 := by
  cases h <;> decide

theorem attDefs_range {as : List AttDef} {t : List Nat} (h : AttDefs E as t) : ∀ a ∈ as, 1 ≤ a.typ ∧ a.typ ≤ 10 := by
  induction h with
  | one _ _ _ ht _ _ hd _ => intro a ha; rw [List.mem_singleton] at ha; subst ha; exact typeText_range ht
  | more _ _ _ ht _ _ hd _ _ _ ih =>
    intro a ha
    rcases List.mem_cons.1 ha with rfl | ha
    · exact typeText_range ht
    · exact ih a ha

theorem decl_fit {d : Decl} {t : List Nat} (h : DeclText E d t) {snl : Nat} (hs : d.Short snl) (hp : ∀ n b, d ≠ .pi n b)
    (hid : ∀ x ∈ attDefs [d], x.2.name = b!"xml:id" → x.2.typ = 2) : Decl.Fit snl d := by
  have hsp := decl_spelled h
  cases h with
  | element h => exact elementText_consistent h
  | entity => trivial
  | @attlist n as t h =>
    obtain ⟨w1, w2, r, _, _, _, _, _, hx, _⟩ := h
    intro a ha
    exact ⟨hid (encodeRunes n, a) (by simp [attDefs, ha]), attDefs_range hx a ha, hsp a ha, hs a ha⟩
  | comment => trivial
  | pi => exact absurd rfl (hp _ _)

theorem doctype_fit {n : List Nat} {ds : List Decl} {t : List Nat} (h : DoctypeText E n ds t) (hD : Declarable ds) {snl : Nat} (hs : ∀ d ∈ ds, d.Short snl) :
    ∀ d ∈ ds, Decl.Fit snl d := by
  have sub : ∀ {ds t}, SubsetText E ds t → ∀ d ∈ ds, ∃ t, DeclText E d t := by
    intro ds t h
    induction h with
    | nil => intro d hd; cases hd
    | cons _ hd _ ih =>
      intro x hx
      rcases List.mem_cons.1 hx with rfl | hx
      · exact ⟨_, hd⟩
      · exact ih x hx
  intro d hd
  have : ∃ t, DeclText E d t := by
    cases h with
    | plain => cases hd
    | subset _ _ _ _ _ h => exact sub h d hd
  obtain ⟨t, ht⟩ := this
  refine decl_fit ht (hs d hd) (fun n b e => hD.noPI n b (e ▸ hd)) (fun x hx => hD.ids x ?_)
  unfold attDefs at hx ⊢
  rw [List.flatMap_cons, List.flatMap_nil, List.append_nil] at hx
  exact List.mem_flatMap.2 ⟨d, hd, hx⟩
end
end Helium
