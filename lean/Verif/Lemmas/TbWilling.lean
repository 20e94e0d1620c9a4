import Verif.Lemmas.TreeParse
import Verif.Lemmas.AttrRun
import Verif.Lemmas.SourceDoc
/-! The tree builder takes every event of a document without document type declaration. -/
namespace Helium
open Spec

section
variable {σ : Type}

theorem ampText_reported : ∀ w : List Nat, AmpText (w.flatMap (fun c => if c = 38 then [38, 35, 51, 56, 59] else [c])) w
  | [] => .nil
  | c :: w => by
    rw [List.flatMap_cons]
    by_cases h : c = 38
    · subst h
      exact .amp _ _ (ampText_reported w)
    · rw [if_neg h]
      exact .char _ _ _ h (ampText_reported w)

theorem reported_stands {w : List Nat} (h : ∀ c ∈ w, Legal c) : StandsFor (reported w) (encodeRunes w) := by
  refine ⟨_, w, ?_, ampText_reported w, rfl, rfl⟩
  intro r hr
  obtain ⟨c, hc, hr⟩ := List.mem_flatMap.1 hr
  split at hr
  · simp at hr
    rcases hr with rfl | rfl | rfl | rfl | rfl <;> decide
  · rw [List.mem_singleton] at hr
    subst hr
    exact (h _ hc).scalar

theorem Built.attr_run {h g : Heap} {e : Nat} {x : Node} {m : List Nat} {as : List (Bytes × Bytes)} (B : Built h g e x m as)
    (hx : x.kind = .element) {fuel : Nat} {n v w : Bytes} (hv : StandsFor v w) (hf : v.length + 1 < fuel) (hn : n ∉ as.map (·.1)) :
    ∃ g', setAttribute fuel e n v g = .ok () g' := by
  have hk : (g.at' e).kind = .element := by rw [B.elem]; exact hx
  have I : AttrLists g [e] (fun _ => m) := by
    refine ⟨B.tab, ?_, ?_, ?_⟩
    · intro y hy; rw [List.mem_singleton] at hy; subst hy; exact ⟨B.lt, hk⟩
    · intro y hy; rw [List.mem_singleton] at hy; subst hy; exact B.list
    · intro y hy z hz; rw [List.mem_singleton] at hy hz; subst hy hz; intro h; exact absurd rfl h
  have := setAttribute_plain I (List.mem_singleton.2 rfl) fuel n v w hv hf
  have hnm : n ∉ attrNames g m := by
    rw [show attrNames g m = as.map (·.1) from B.attrs.names]
    exact hn
  rw [if_neg hnm] at this
  obtain ⟨h', h1, _⟩ := this
  exact ⟨h', h1⟩

theorem tbAttrs_run {fuel : Nat} {h : Heap} {e : Nat} {x : Node} (hx : x.kind = .element) : ∀ {ats : List AttrD} {m : List Nat}
    {as : List (Bytes × Bytes)} {c : HC σ}, (∀ a ∈ ats, ShortAttr fuel a) → Built h c.heap e x m as →
    ((as ++ givenAttrs ats).map (·.1)).Nodup → ∃ c', ats.forM (tbAttr fuel e) c = .ok () c'
  | [], m, as, c, _, B, hn => ⟨c, rfl⟩
  | y :: ats, m, as, c, hp, B, hn => by
    obtain ⟨p, l, w, rfl, hw, hs⟩ := hp y (by simp)
    have e0 : givenAttrs (.parsed p l (reported w) :: ats) = (AttrD.name c.heap (.parsed p l (reported w)), reported w) :: givenAttrs ats := by
      simp only [givenAttrs, AttrD.name]
      by_cases hpe : p = [] <;> simp [hpe]
    rw [e0] at hn
    have hn' : AttrD.name c.heap (.parsed p l (reported w)) ∉ as.map (·.1) := by
      rw [List.map_append, List.nodup_append] at hn
      intro hm
      exact hn.2.2 _ hm _ (by simp) rfl
    obtain ⟨g, hg⟩ := B.attr_run hx (reported_stands hw) hs hn'
    have B1 := B.attr hx hg
    obtain ⟨c', hc'⟩ := tbAttrs_run (ats := ats) (c := { c with heap := g }) hx (fun a ha => hp a (by simp [ha])) B1 (by simpa using hn)
    refine ⟨c', ?_⟩
    show ((tbAttr fuel e (.parsed p l (reported w)) : TB σ Unit) >>= fun _ => ats.forM (tbAttr fuel e)) c = .ok () c'
    rw [bind_run (a := ()) (t := { c with heap := g }) ?_]
    · exact hc'
    · show (tbH (setAttribute fuel e (AttrD.name c.heap (.parsed p l (reported w))) (reported w)) : TB σ Unit) c = _
      exact tbH_ok hg

theorem tbNs_run {e : Nat} : ∀ {ds : List (Bytes × Bytes)} {c : HC σ}, ∃ c', (ds.map some).forM (fun n => do
      let n ← M.deref n
      tbH (setNamespace e n.1 n.2 false) : Option (Bytes × Bytes) → TB σ Unit) c = .ok () c'
  | [], c => ⟨c, rfl⟩
  | d :: ds, c => tbNs_run (ds := ds) (c := { c with heap := c.heap.upd e (fun x => { x with nsDefs := x.nsDefs ++ [(d.1, d.2)] }) })

theorem built_new {h : Heap} (T : TabOK h) (d : Option Nat) (l : Bytes) : Built h (h.alloc (mkElement d l)) h.size (mkElement d l) [] [] := by
  refine { es := rfl, lt := Nat.lt_succ_self _, same := ?_, ent := ?_, tab := T.alloc ⟨rfl, rfl⟩, elem := ?_, list := ?_, attrs := trivial, nodup := List.nodup_nil }
  · intro i hi _; simp [Heap.alloc, Nat.ne_of_lt hi]
  · intro i hi; exact ⟨(h.at' i).first, (h.at' i).last, by simp [Heap.alloc, Nat.ne_of_lt hi]⟩
  · simp [Heap.alloc, mkElement]
  · refine { first := ?_, next := ?_, prev := ?_, kind := ?_, alloc := ?_, nodup := List.nodup_nil }
    · simp [Heap.alloc, mkElement]
    · intro a c b hc; simp at hc
    · intro a c b hc; simp at hc
    · intro c hc; cases hc
    · intro c hc; cases hc

theorem built_ns {h : Heap} (T : TabOK h) (d : Option Nat) (l p u : Bytes) :
    Built h ((h.alloc (mkElement d l)).upd h.size (fun x => { x with ns := some (p, u) })) h.size { mkElement d l with ns := some (p, u) } [] [] := by
  refine { es := rfl, lt := Nat.lt_succ_self _, same := ?_, ent := ?_, tab := (built_new T d l).tab.upd rfl ⟨rfl, rfl⟩, elem := ?_, list := ?_, attrs := trivial, nodup := List.nodup_nil }
  · intro i hi _; simp [Heap.alloc, Heap.upd, Heap.put, Nat.ne_of_lt hi]
  · intro i hi; exact ⟨(h.at' i).first, (h.at' i).last, by simp [Heap.alloc, Heap.upd, Heap.put, Nat.ne_of_lt hi]⟩
  · simp [Heap.alloc, Heap.upd, Heap.put, mkElement]
  · refine { first := ?_, next := ?_, prev := ?_, kind := ?_, alloc := ?_, nodup := List.nodup_nil }
    · simp [Heap.alloc, Heap.upd, Heap.put, mkElement]
    · intro a c b hc; simp at hc
    · intro a c b hc; simp at hc
    · intro c hc; cases hc
    · intro c hc; cases hc

theorem built_attach {c : HC σ} {a : Forest} {dn : Nat} {top : XTree} {fs : List (Nat × XData × XTree)} {g : Heap} {x : Node} {m : List Nat}
    {as : List (Bytes × Bytes)} (R : Rel c.heap a) (Z : Zip a c.heap dn top fs) (B : Built c.heap g c.heap.size x m as)
    (hx : x.first = none ∧ x.last = none ∧ x.next = none ∧ x.prev = none) (hk : x.kind = .element) :
    ∃ h2, nodeAddChild (curNode dn fs) c.heap.size g = .ok () h2 := by
  have hlt : ∀ {n}, a.tree n = true → n < c.heap.size := fun hn => by rw [R.size]; exact R.bound _ hn
  have he := B.elem
  obtain ⟨h2, _, q1, _⟩ := attach R Z B.tab (Nat.le_of_lt B.lt) (fun n hn => (B.linked (hlt hn)).1)
    (fun n hn => vinfo_of_info (B.linked (hlt hn)).2) (fun i hi _ hk => B.same i hi hk) (Nat.le_refl _) B.lt
    (by rw [he]; exact hx) (by rw [he]; simp [hk])
  exact ⟨h2, q1⟩

theorem tbStartElement_run {c : HC σ} {dn : Nat} {s : Partial} {dl : List Ev} (I : TInv c dn s dl) {fuel : Nat} {l p u : Bytes}
    {ds : List (Bytes × Bytes)} {ats : List AttrD} (hp : ∀ a ∈ ats, ShortAttr fuel a) (hn : ((givenAttrs ats).map (·.1)).Nodup) :
    ∃ c', tbStartElement fuel l p u (ds.map some) ats c = .ok () c' := by
  obtain ⟨a, fs, i1, R, T, i5, i6, Z, D, i9⟩ := I
  have hd : (tbDoc : TB σ Nat) c = .ok dn c := by
    unfold tbDoc
    rw [get_bind, i1]
    rfl
  unfold tbStartElement
  rw [bind_run hd, bind_run (tbH_ok (a := c.heap.size) (h := c.heap.alloc (mkElement (some dn) l)) rfl)]
  have key : ∀ (c1 : HC σ), Built c.heap c1.heap c.heap.size { mkElement (some dn) l with ns := if u = [] then none else some (p, u) } [] [] →
      c1 = { c with heap := c1.heap } → ∃ c', (do
        (ds.map some).forM (fun n => do
          let n ← M.deref n
          tbH (setNamespace c.heap.size n.1 n.2 false))
        ats.forM (tbAttr fuel c.heap.size)
        tbAttach dn c.heap.size
        M.modify (fun c0 => { c0 with elem := some c.heap.size }) : TB σ Unit) c1 = .ok () c' := by
    intro c1 B1 hc1
    obtain ⟨c2, r2⟩ := tbNs_run (e := c.heap.size) (ds := ds) (c := c1)
    rw [bind_run r2]
    obtain ⟨B2, hc2⟩ := tbNs_inv (by split <;> rfl) B1 r2
    obtain ⟨c3, r3⟩ := tbAttrs_run (by rfl) hp B2 (by simpa using hn)
    rw [bind_run r3]
    obtain ⟨m, B3, hc3⟩ := tbAttrs_inv (by rfl) (fun a ha => Or.inl (by obtain ⟨p, l, w, h, _⟩ := hp a ha; exact ⟨_, _, _, h⟩)) B2 r3
    have hc : c3 = { c with heap := c3.heap } := by rw [hc3, hc2, hc1]
    obtain ⟨h2, q1⟩ := built_attach R Z B3 ⟨rfl, rfl, rfl, rfl⟩ rfl
    have hel : c3.elem = fs.head?.map (·.1) := by rw [hc]; exact i6
    rw [bind_run (tbAttach_run hel q1)]
    exact ⟨_, rfl⟩
  by_cases hu : u = []
  · simp only [hu, ne_eq, not_true_eq_false, if_false]
    exact key { c with heap := c.heap.alloc (mkElement (some dn) l) } (by rw [if_pos hu]; exact built_new T _ _) rfl
  · simp only [ne_eq, hu, not_false_eq_true, if_true]
    rw [bind_run (tbH_ok (a := ()) (h := (c.heap.alloc (mkElement (some dn) l)).upd c.heap.size (fun x => { x with ns := some (p, u) })) rfl)]
    exact key { c with heap := (c.heap.alloc (mkElement (some dn) l)).upd c.heap.size (fun x => { x with ns := some (p, u) }) }
      (by rw [if_neg hu]; exact built_ns T _ _ _ _) rfl

/-- what the tree builder has inside of `n` elements. -/
def TbIn (D : HV) (n : Nat) (c : HC σ) : Prop :=
  ∃ dn st, TInv c dn st [] ∧ st.inner.length = n ∧ info (c.heap.at' dn) = info (mkDoc D.version D.encoding D.standalone)

theorem tbUnit_ok {p : TB σ Unit} {c c' : HC σ} (h : p c = .ok () c') : tbUnit p c = (.ok, c') := by
  unfold tbUnit tbOut
  rw [bind_run h]
  rfl

theorem add_length (s : Partial) (d : XData) (k : XTree) : (s.add d k).inner.length = s.inner.length := by
  unfold Partial.add
  split
  · rfl
  · rename_i h; simp [h]

theorem treeBuilder_willing (fuel : Nat) (D : HV) :
    Willing fuel D (treeBuilder fuel : Handler σ) (fun c => c.heap = Heap.empty ∧ c.elem = none) (TbIn D) where
  locator := fun h => ⟨Or.inl rfl, h⟩
  startDoc := fun {c} h => ⟨Or.inl rfl, 0, ⟨[], .nil⟩, (TInv.start h.1 h.2).1, rfl, by
    show info ((c.heap.alloc (mkDoc D.version D.encoding D.standalone)).at' 0) = _
    rw [h.1]
    rfl⟩
  endDoc := fun h => ⟨Or.inl rfl, h⟩
  start := by
    intro n v c l p u as ds hv ⟨dn, st, I, hn, hi⟩ hnd hs
    obtain ⟨c', r⟩ := tbStartElement_run (l := l) (p := p) (u := u) (ds := ds) I hs hnd
    obtain ⟨I', h3⟩ := tbStartElement_inv I (fun a ha => Or.inl (by obtain ⟨p, l, w, h, _⟩ := hs a ha; exact ⟨_, _, _, h⟩)) r
    have e : treeBuilder fuel v (.startElement l p u (ds.map some) as) c = (.ok, c') := tbUnit_ok r
    rw [e]
    exact ⟨Or.inl rfl, dn, _, I', by simp [hn], h3.trans hi⟩
  stop := by
    intro n v c l p u hv ⟨dn, st, I, hn, hi⟩
    obtain ⟨inner, top⟩ := st
    match inner, hn with
    | (d, t) :: r, hn =>
      obtain ⟨c', h1, h2, h3⟩ := tbEndElement_inv I rfl
      have e : treeBuilder fuel v (.endElement l p u) c = (.ok, c') := tbUnit_ok h1
      rw [e]
      exact ⟨Or.inl rfl, dn, _, h2, by rw [add_length]; simpa using hn, h3.trans hi⟩
  comment := by
    intro n v c b hv ⟨dn, st, I, hn, hi⟩
    obtain ⟨c', h1, h2, h3⟩ := tbComment_inv I b
    have e : treeBuilder fuel v (.comment b) c = (.ok, c') := tbUnit_ok h1
    rw [e]
    exact ⟨Or.inl rfl, dn, _, h2, by rw [add_length]; exact hn, h3.trans hi⟩
  pi := by
    intro n v c t d hv ⟨dn, st, I, hn, hi⟩
    obtain ⟨c', h1, h2, h3⟩ := tbPI_inv I hv t d
    have e : treeBuilder fuel v (.pi t d) c = (.ok, c') := tbUnit_ok h1
    rw [e]
    exact ⟨Or.inl rfl, dn, _, h2, by rw [add_length]; exact hn, h3.trans hi⟩
  text := by
    intro n v c b hv ⟨dn, st, I, hn, hi⟩
    obtain ⟨inner, top⟩ := st
    match inner, hn with
    | (d, t) :: r, hn =>
      obtain ⟨c', h1, h2, h3⟩ := tbCharacters_inv I rfl b
      have e : treeBuilder fuel v (.characters b) c = (.ok, c') := tbUnit_ok h1
      rw [e]
      exact ⟨Or.inl rfl, dn, _, h2, by simpa using hn, h3.trans hi⟩
  blank := by
    intro n v c b hv ⟨dn, st, I, hn, hi⟩
    obtain ⟨inner, top⟩ := st
    match inner, hn with
    | (d, t) :: r, hn =>
      obtain ⟨c', h1, h2, h3⟩ := tbCharacters_inv I rfl b
      have e : treeBuilder fuel v (.ignorable b) c = (.ok, c') := tbUnit_ok h1
      rw [e]
      exact ⟨Or.inl rfl, dn, _, h2, by simpa using hn, h3.trans hi⟩
  cdata := fun _ h => ⟨Or.inl rfl, h⟩

end
end Helium
