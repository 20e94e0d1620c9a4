import Verif.Lemmas.TotalDoc
import Verif.Lemmas.TbWilling
import Verif.Lemmas.TreeLogic
import Verif.Lemmas.TbDoctype
/-! Total correctness: the tree builder. -/
namespace Helium
open Spec
section
variable {σ : Type} {pn : Bool}

theorem tbH_tot {α : Type} {p : HM α} {c : HC σ} {R : α → HC σ → Prop} (h : Tot pn (p c.heap) (fun a h => R a { c with heap := h }) (fun _ => True)) :
    Tot pn ((tbH p : TB σ α) c) R (fun _ => True) := by
  unfold tbH
  cases hp : p c.heap <;> rw [hp] at h <;> exact h

theorem tbUnit_tot {p : TB σ Unit} {c : HC σ} {R : HC σ → Prop} (h : Tot pn (p c) (fun _ c' => R c') (fun _ => True)) :
    Tame pn (tbUnit p c).1 ∧ (Spec.NoErr (tbUnit p c).1 → R (tbUnit p c).2) := by
  unfold tbUnit tbOut
  simp only [Bind.bind, M.bind]
  cases hp : p c with
  | ok a c' =>
    rw [hp] at h
    exact ⟨⟨nofun, fun _ => nofun⟩, fun _ => h⟩
  | err e c' => exact ⟨⟨nofun, fun _ => nofun⟩, fun he => by rcases he with h | h | ⟨_, h⟩ <;> cases h⟩
  | panic =>
    rw [hp] at h
    exact ⟨⟨nofun, fun hp => by rw [show pn = true from h] at hp; cases hp⟩, fun he => by rcases he with h | h | ⟨_, h⟩ <;> cases h⟩
  | diverge => rw [hp] at h; exact absurd h id

theorem Built.attr_tot {h g : Heap} {e : Nat} {x : Node} {m : List Nat} {as : List (Bytes × Bytes)} (B : Built h g e x m as)
    (hx : x.kind = .element) {fuel : Nat} {n v w : Bytes} (hv : StandsFor v w) (hf : v.length + 1 < fuel) :
    Tot pn (setAttribute fuel e n v g) (fun _ g' => Built h g' e x (m ++ [g.size]) (as ++ [(n, v)])) (fun _ => True) := by
  have hk : (g.at' e).kind = .element := by rw [B.elem]; exact hx
  have I : AttrLists g [e] (fun _ => m) := by
    refine ⟨B.tab, ?_, ?_, ?_⟩
    · intro y hy; rw [List.mem_singleton] at hy; subst hy; exact ⟨B.lt, hk⟩
    · intro y hy; rw [List.mem_singleton] at hy; subst hy; exact B.list
    · intro y hy z hz; rw [List.mem_singleton] at hy hz; subst hy hz; intro h; exact absurd rfl h
  have := setAttribute_plain I (List.mem_singleton.2 rfl) fuel n v w hv hf
  split at this
  · obtain ⟨h', h1, _⟩ := this
    rw [h1]; trivial
  · obtain ⟨h', h1, _⟩ := this
    have := B.attr hx h1
    rw [h1]; exact this

theorem tbAttrs_tot {fuel : Nat} {h : Heap} {e : Nat} {x : Node} (hx : x.kind = .element) : ∀ {ats : List AttrD} {m : List Nat}
    {as : List (Bytes × Bytes)} {c : HC σ}, (∀ a ∈ ats, TagAttr fuel h a) → Built h c.heap e x m as →
    Tot pn (ats.forM (tbAttr fuel e) c) (fun _ c' => ∃ m' as', Built h c'.heap e x m' as' ∧ c' = { c with heap := c'.heap }) (fun _ => True)
  | [], m, as, c, _, B => ⟨m, as, B, rfl⟩
  | y :: ats, m, as, c, hp, B => by
    show Tot pn (((tbAttr fuel e y : TB σ Unit) >>= fun _ => ats.forM (tbAttr fuel e)) c) _ _
    refine Tot.bind (R := fun _ c' => ∃ m' as', Built h c'.heap e x m' as' ∧ c' = { c with heap := c'.heap }) ?_ ?_
    · rcases hp y (by simp) with ⟨p, l, w, rfl, hw, hs⟩ | ⟨i, rfl, hi, hdf⟩
      · show Tot pn ((tbH (setAttribute fuel e (AttrD.name c.heap (.parsed p l (reported w))) (reported w)) : TB σ Unit) c) _ _
        exact tbH_tot ((B.attr_tot hx (reported_stands hw) hs).mono (fun _ g hg => ⟨_, _, hg, rfl⟩) (fun _ h => h))
      · have hsk : (tbAttr fuel e (.dflt i) : TB σ Unit) c = .ok () c := by
          obtain ⟨f, q, h2⟩ := B.ent i hi
          have : AttrD.isDefault c.heap (.dflt i) = true := by simp only [AttrD.isDefault]; rw [h2]; exact hdf
          unfold tbAttr
          rw [get_bind, if_pos this]
          rfl
        rw [hsk]
        exact ⟨m, as, B, rfl⟩
    · rintro _ c1 ⟨m1, as1, B1, hc1⟩
      refine (tbAttrs_tot hx (fun a ha => hp a (by simp [ha])) B1).mono (fun _ c2 h2 => ?_) (fun _ h => h)
      obtain ⟨m2, as2, B2, hc2⟩ := h2
      exact ⟨m2, as2, B2, by rw [hc2, hc1]⟩

theorem tbNs_tot {e : Nat} : ∀ {ns : List (Option (Bytes × Bytes))} {c : HC σ}, (pn = false → ∀ x ∈ ns, x ≠ none) → Tot pn (ns.forM (fun n => do
      let n ← M.deref n
      tbH (setNamespace e n.1 n.2 false) : Option (Bytes × Bytes) → TB σ Unit) c) (fun _ _ => True) (fun _ => True)
  | [], c, _ => trivial
  | none :: ns, c, h => by
    have hpn : pn = true := by
      cases hp : pn with
      | true => rfl
      | false => exact absurd rfl (h hp none (by simp))
    exact hpn
  | some d :: ns, c, h =>
    tbNs_tot (ns := ns) (c := { c with heap := c.heap.upd e (fun x => { x with nsDefs := x.nsDefs ++ [(d.1, d.2)] }) }) (fun hp x hx => h hp x (by simp [hx]))

theorem tbStartElement_tot {c : HC σ} {dn : Nat} {s : Partial} {dl : List Ev} (I : TInv c dn s dl) {fuel : Nat} {l p u : Bytes}
    {ns : List (Option (Bytes × Bytes))} {ats : List AttrD} (hp : ∀ a ∈ ats, TagAttr fuel c.heap a) (hns : pn = false → ∀ x ∈ ns, x ≠ none) :
    Tot pn (tbStartElement fuel l p u ns ats c) (fun _ _ => True) (fun _ => True) := by
  obtain ⟨a, fs, i1, R, T, i5, i6, Z, D, i9⟩ := I
  have hd : (tbDoc : TB σ Nat) c = .ok dn c := by
    unfold tbDoc
    rw [get_bind, i1]
    rfl
  unfold tbStartElement
  rw [bind_run hd, bind_run (tbH_ok (a := c.heap.size) (h := c.heap.alloc (mkElement (some dn) l)) rfl)]
  have key : ∀ (c1 : HC σ), Built c.heap c1.heap c.heap.size { mkElement (some dn) l with ns := if u = [] then none else some (p, u) } [] [] →
      c1 = { c with heap := c1.heap } → Tot pn ((do
        ns.forM (fun n => do
          let n ← M.deref n
          tbH (setNamespace c.heap.size n.1 n.2 false))
        ats.forM (tbAttr fuel c.heap.size)
        tbAttach dn c.heap.size
        M.modify (fun c0 => { c0 with elem := some c.heap.size }) : TB σ Unit) c1) (fun _ _ => True) (fun _ => True) := by
    intro c1 B1 hc1
    refine Tot.bind ((tbNs_tot (e := c.heap.size) (c := c1) hns).with (fun _ c2 r2 => tbNs_inv (by split <;> rfl) B1 r2)) ?_
    rintro _ c2 ⟨-, B2, hc2⟩
    refine Tot.bind (tbAttrs_tot (by rfl) hp B2) ?_
    rintro _ c3 ⟨m, as, B3, hc3⟩
    have hc : c3 = { c with heap := c3.heap } := by rw [hc3, hc2, hc1]
    obtain ⟨h2, q1⟩ := built_attach R Z B3 ⟨rfl, rfl, rfl, rfl⟩ rfl
    have hel : c3.elem = fs.head?.map (·.1) := by rw [hc]; exact i6
    rw [bind_run (tbAttach_run hel q1)]
    trivial
  by_cases hu : u = []
  · simp only [hu, ne_eq, not_true_eq_false, if_false]
    exact key { c with heap := c.heap.alloc (mkElement (some dn) l) } (by rw [if_pos hu]; exact built_new T _ _) rfl
  · simp only [ne_eq, hu, not_false_eq_true, if_true]
    rw [bind_run (tbH_ok (a := ()) (h := (c.heap.alloc (mkElement (some dn) l)).upd c.heap.size (fun x => { x with ns := some (p, u) })) rfl)]
    exact key { c with heap := (c.heap.alloc (mkElement (some dn) l)).upd c.heap.size (fun x => { x with ns := some (p, u) }) }
      (by rw [if_neg hu]; exact built_ns T _ _ _ _) rfl

theorem ShortAttr.mono {A B : Nat} (h : A ≤ B) {a : AttrD} (ha : ShortAttr A a) : ShortAttr B a := by
  obtain ⟨p, l, w, h1, h2, h3⟩ := ha
  exact ⟨p, l, w, h1, h2, by omega⟩

/-- the document has no internal subset, or one without entities. -/
def Entless (h : Heap) (dn : Nat) : Prop := (h.at' dn).intSubset = none ∨ ∃ i, (h.at' dn).intSubset = some i ∧ i < h.size ∧ (h.at' i).entities = []

theorem Entless.keep {h h' : Heap} {dn : Nat} (hl : dn < h.size) (K : Dtds h h') (he : Entless h dn) : Entless h' dn := by
  have e1 := (dinfo_eq (K.same dn hl)).2.2.2.2.2.2.1
  rcases he with h1 | ⟨i, h1, h2, h3⟩
  · exact Or.inl (e1.trans h1)
  · exact Or.inr ⟨i, e1.trans h1, Nat.lt_of_lt_of_le h2 K.size, (dinfo_eq (K.same i h2)).2.2.2.2.2.2.2.2.2.2.1.trans h3⟩

theorem Entless.get {h : Heap} {dn : Nat} (he : Entless h dn) (hx : (h.at' dn).extSubset = none) (b : Bytes) : docGetEntity h dn b = none := by
  unfold docGetEntity
  rcases he with h1 | ⟨i, h1, h2, h3⟩
  · simp only [h1, hx]
  · simp only [h1, h3]
    rfl

/-- what the tree builder has inside of `n` elements; `df` are the default attributes declared. -/
def TbAt (pn : Bool) (df : List (Bytes × List (Bytes × Nat))) (n : Nat) (c : HC σ) : Prop :=
  ∃ dn st dl, TInv c dn st dl ∧ st.inner.length = n ∧ Marked df c.heap ∧ (pn = true → Entless c.heap dn)

theorem TInv.dn_lt {c : HC σ} {dn : Nat} {s : Partial} {dl : List Ev} (I : TInv c dn s dl) : dn < c.heap.size := by
  obtain ⟨a, fs, i1, R, T, i5, i6, Z, D, i9⟩ := I
  rw [R.size]; exact R.bound _ Z.doc

theorem TInv.doc_eq {c : HC σ} {dn : Nat} {s : Partial} {dl : List Ev} (I : TInv c dn s dl) : c.doc = some dn := by
  obtain ⟨a, fs, i1, _⟩ := I
  exact i1

theorem TInv.ext_none {c : HC σ} {dn : Nat} {s : Partial} {dl : List Ev} (I : TInv c dn s dl) : (c.heap.at' dn).extSubset = none := by
  obtain ⟨a, fs, i1, R, T, i5, i6, Z, D, i9⟩ := I
  exact i9

theorem tbReference_tot {c : HC σ} {dn : Nat} {s : Partial} {dl : List Ev} (I : TInv c dn s dl) (i8 : Entless c.heap dn) (b : Bytes) :
    Tot true (tbReference b c) (fun _ _ => True) (fun _ => True) := by
  obtain ⟨a, fs, i1, R, T, i5, i6, Z, D, i9⟩ := I
  have hd : (tbDoc : TB σ Nat) c = .ok dn c := by
    unfold tbDoc
    rw [get_bind, i1]
    rfl
  unfold tbReference
  rw [bind_run hd]
  cases b with
  | nil => rfl
  | cons x b =>
    simp only
    have hnode : ∃ nm, (if x = 35 then createCharRef (some dn) (x :: b) else createReference dn (x :: b)) c.heap =
        .ok c.heap.size (c.heap.alloc { kind := .entityRef, doc := some dn, name := nm }) := by
      split
      · exact ⟨_, rfl⟩
      · refine ⟨if x ≠ 38 then x :: b else if (x :: b).getLast? = some 59 then b.dropLast else b, ?_⟩
        unfold createReference
        rw [bind_run (p := createCharRef (some dn) (x :: b)) (a := c.heap.size) (t := c.heap.alloc { kind := .entityRef, doc := some dn, name := if x ≠ 38 then x :: b else if (x :: b).getLast? = some 59 then b.dropLast else b }) rfl]
        rw [get_bind]
        have h1 : ∀ nm x, docGetEntity (c.heap.alloc { kind := .entityRef, doc := some dn, name := nm }) dn x = none := by
          intro nm x
          have hdn := R.bound dn Z.doc
          rw [← R.size] at hdn
          have K : Dtds c.heap (c.heap.alloc { kind := .entityRef, doc := some dn, name := nm }) := Dtds.alloc c.heap (by simp)
          exact (i8.keep hdn K).get ((dinfo_eq (K.same dn hdn)).2.2.2.2.2.2.2.1.trans i9) x
        rw [h1]
        rfl
    obtain ⟨nm, hnode⟩ := hnode
    rw [bind_run (tbH_ok hnode), get_bind]
    cases fs with
    | nil =>
      have i6 : c.elem = none := i6
      simp only [i6]
      rfl
    | cons f fs =>
      have i6 : c.elem = some f.1 := i6
      simp only [i6]
      rw [deref_bind]
      have hold : ∀ i, i < c.heap.size → (c.heap.alloc { kind := .entityRef, doc := some dn, name := nm }).at' i = c.heap.at' i := fun i hi => by
        simp [Heap.alloc, Nat.ne_of_lt hi]
      have hold' : ∀ i, a.tree i = true → (c.heap.alloc { kind := .entityRef, doc := some dn, name := nm }).at' i = c.heap.at' i :=
        fun i hi => hold i (by rw [R.size]; exact R.bound i hi)
      obtain ⟨h2, a2, q1, _⟩ := attach (h1 := c.heap.alloc { kind := .entityRef, doc := some dn, name := nm }) R Z (T.alloc ⟨rfl, rfl⟩)
        (Nat.le_succ _) (fun n hn => Linked.of_eq (hold' n hn)) (fun n hn => by rw [hold' n hn]) (fun i hi _ _ => hold i hi)
        (Nat.le_refl _) (Nat.lt_succ_self _) (by simp [Heap.alloc]) (by simp [Heap.alloc])
      have q2 := tbH_ok (c := { c with heap := c.heap.alloc { kind := .entityRef, doc := some dn, name := nm } }) q1
      show Tot true ((tbH (nodeAddChild (curNode dn (f :: fs)) c.heap.size) : TB σ Unit) _) _ _
      rw [i6] at q2
      rw [q2]
      trivial

theorem treeBuilder_sturdy (pn : Bool) (df : List (Bytes × List (Bytes × Nat))) {B fuel : Nat} (hB : B ≤ fuel) :
    Sturdy pn B (treeBuilder fuel : Handler σ) (fun c => c.heap = Heap.empty ∧ c.elem = none ∧ df = []) (TbAt pn df) := by
  have stay : ∀ {v : HV} {ev : Ev} {c c' : HC σ} {dn : Nat} {st' : Partial} {dl : List Ev} {n : Nat}, ev.outside → dn < c.heap.size → Marked df c.heap →
      (pn = true → Entless c.heap dn) → treeBuilder fuel v ev c = (.ok, c') → TInv c' dn st' dl → st'.inner.length = n → TbAt pn df n c' := by
    intro v ev c c' dn st' dl n ho hlt hm he e I' hn
    have hm' := hm.grows (treeBuilder_tabs fuel v ev c).grows
    have K := treeBuilder_dtds fuel v ho c
    rw [e] at hm' K
    exact ⟨dn, st', dl, I', hn, hm', fun hp => (he hp).keep hlt K⟩
  refine ⟨fun h => ⟨⟨nofun, fun _ => nofun⟩, fun _ => h⟩, ?_, fun _ => ⟨nofun, fun _ => nofun⟩, ?_, fun _ h => ⟨⟨nofun, fun _ => nofun⟩, fun _ => h⟩,
    ?_, ?_, ?_, ?_, ?_, ?_, fun _ h => ⟨⟨nofun, fun _ => nofun⟩, fun _ => h⟩, ?_, ?_⟩
  · rintro v c ⟨h1, h2, rfl⟩
    refine ⟨⟨nofun, fun _ => nofun⟩, fun _ => ⟨0, ⟨[], .nil⟩, [], (TInv.start (tf := fuel) (v := v) h1 h2).1, rfl, ?_, fun _ =>
      Or.inl (TInv.start (tf := fuel) (v := v) h1 h2).2⟩⟩
    intro k l hkl
    cases hkl
  · rintro v c b hv ⟨dn, st, dl, I, hn, hm, he⟩
    have hm' := hm.grows (treeBuilder_tabs fuel v (.internalSubset b [] []) c).grows
    obtain ⟨c', h1, h2, h3⟩ := tbInternalSubset_inv I (List.length_eq_zero_iff.1 hn) b [] []
    have e : treeBuilder fuel v (.internalSubset b [] []) c = (.ok, c') := tbUnit_ok h1
    rw [e] at hm' ⊢
    refine ⟨⟨nofun, fun _ => nofun⟩, fun _ => ⟨dn, _, [], h2, by rw [add_length]; exact hn, hm', fun _ => Or.inr ⟨_, h3, ?_⟩⟩⟩
    have K := tbInternalSubset_dtds I.doc_eq h1
    have hne : c.heap.size ≠ dn := Nat.ne_of_gt I.dn_lt
    refine ⟨Nat.lt_of_lt_of_le (Nat.lt_succ_self _) K.size, (dinfo_eq (K.same c.heap.size (Nat.lt_succ_self _))).2.2.2.2.2.2.2.2.2.2.1.trans ?_⟩
    simp [Heap.upd, Heap.put, Heap.alloc, hne]
  · rintro n v c l p u ns as hv ⟨dn, st, dl, I, hn, hm, he⟩ hs hns
    have hs' : ∀ a ∈ as, TagAttr fuel c.heap a := fun a ha => (hs a ha).imp (Helium.ShortAttr.mono hB) id
    refine tbUnit_tot (((tbStartElement_tot (l := l) (p := p) (u := u) I hs' hns).with (fun _ c' r =>
      (⟨tbStartElement_inv I (tagAttrs_of hs') r, tbUnit_ok r⟩ : _ ∧ treeBuilder fuel v (.startElement l p u ns as) c = (.ok, c')))).mono (fun _ c' h => ?_) (fun _ h => h))
    exact stay (ev := .startElement l p u ns as) trivial I.dn_lt hm he h.2.2 h.2.1.1 (by simp [hn])
  · rintro n v c l p u hv ⟨dn, st, dl, I, hn, hm, he⟩
    obtain ⟨inner, top⟩ := st
    match inner, hn with
    | (d, t) :: r, hn =>
      obtain ⟨c', h1, h2, h3⟩ := tbEndElement_inv I rfl
      have e : treeBuilder fuel v (.endElement l p u) c = (.ok, c') := tbUnit_ok h1
      rw [e]
      exact ⟨⟨nofun, fun _ => nofun⟩, fun _ => stay (ev := .endElement l p u) trivial I.dn_lt hm he e h2 (by rw [add_length]; simpa using hn)⟩
  · rintro n v c b hv ⟨dn, st, dl, I, hn, hm, he⟩
    obtain ⟨c', h1, h2, h3⟩ := tbComment_inv I b
    have e : treeBuilder fuel v (.comment b) c = (.ok, c') := tbUnit_ok h1
    rw [e]
    exact ⟨⟨nofun, fun _ => nofun⟩, fun _ => stay (ev := .comment b) trivial I.dn_lt hm he e h2 (by rw [add_length]; exact hn)⟩
  · rintro n v c t d hv ⟨dn, st, dl, I, hn, hm, he⟩
    obtain ⟨c', h1, h2, h3⟩ := tbPI_inv I hv t d
    have e : treeBuilder fuel v (.pi t d) c = (.ok, c') := tbUnit_ok h1
    rw [e]
    exact ⟨⟨nofun, fun _ => nofun⟩, fun _ => stay (ev := .pi t d) trivial I.dn_lt hm he e h2 (by rw [add_length]; exact hn)⟩
  · rintro n v c b hv ⟨dn, st, dl, I, hn, hm, he⟩
    obtain ⟨inner, top⟩ := st
    match inner, hn with
    | (d, t) :: r, hn =>
      obtain ⟨c', h1, h2, h3⟩ := tbCharacters_inv I rfl b
      have e : treeBuilder fuel v (.characters b) c = (.ok, c') := tbUnit_ok h1
      rw [e]
      exact ⟨⟨nofun, fun _ => nofun⟩, fun _ => stay (ev := .characters b) trivial I.dn_lt hm he e h2 (by simpa using hn)⟩
  · rintro n v c b hv ⟨dn, st, dl, I, hn, hm, he⟩
    obtain ⟨inner, top⟩ := st
    match inner, hn with
    | (d, t) :: r, hn =>
      obtain ⟨c', h1, h2, h3⟩ := tbCharacters_inv I rfl b
      have e : treeBuilder fuel v (.ignorable b) c = (.ok, c') := tbUnit_ok h1
      rw [e]
      exact ⟨⟨nofun, fun _ => nofun⟩, fun _ => stay (ev := .ignorable b) trivial I.dn_lt hm he e h2 (by simpa using hn)⟩
  · rintro n v c b hpn hv ⟨dn, st, dl, I, hn, hm, he⟩
    have hr : treeBuilder fuel v (.getEntity b) c = (.err (.k .entityNotFound), c) := by
      have h1 := (he hpn).get I.ext_none b
      unfold treeBuilder tbOut tbDoc
      simp only [I.doc_eq, Bind.bind, M.bind, h1, M.get, M.deref, M.raw, M.fail, M.pure]
    rw [hr]
    exact ⟨Or.inr ⟨_, rfl⟩, dn, st, dl, I, hn, hm, he⟩
  · rintro n v c b hpn hv ⟨dn, st, dl, I, hn, hm, he⟩
    have := tbUnit_tot (R := fun _ => True) (tbReference_tot I (he hpn) b)
    exact this.1.1

end
end Helium
