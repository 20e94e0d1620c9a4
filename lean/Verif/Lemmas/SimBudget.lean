import Verif.Lemmas.SimParse
import Verif.Model.TreeBuilder
import Verif.Lemmas.TreeLogic
/-! A larger budget gives the same result: DOM operations, the tree builder, the whole parser. -/
namespace Helium
section
variable {S : Type} {α β : Type} {lax : Prop}

theorem Upto.ite {c : Prop} [Decidable c] {f f' g g' : M S α} (h : c → Upto lax f g) (h' : ¬c → Upto lax f' g') :
    Upto lax (if c then f else f') (if c then g else g') := by
  by_cases hc : c
  · rw [if_pos hc, if_pos hc]; exact h hc
  · rw [if_neg hc, if_neg hc]; exact h' hc

macro "upto1" : tactic => `(tactic| first
  | exact Upto.refl _
  | with_reducible assumption
  | with_reducible refine Upto.bind ?_ (fun _ => ?_)
  | with_reducible refine Upto.ite (fun _ => ?_) (fun _ => ?_)
  | dsimp only
  | (split <;> (try simp only [*])))

theorem snl_upto (d : Option Nat) : ∀ n,
    (∀ m, n ≤ m → ∀ b, Upto True (stringToNodeList d n b) (stringToNodeList d m b)) ∧
    (∀ m, n ≤ m → ∀ l st, Upto True (stringToNodeList.loop d n l st) (stringToNodeList.loop d m l st))
  | 0 => by
    refine ⟨fun m _ b => ?_, fun m _ l st => ?_⟩
    · rw [stringToNodeList]; exact Upto.diverge trivial _
    · rw [stringToNodeList.loop]; exact Upto.diverge trivial _
  | n + 1 => by
    obtain ⟨i1, i2⟩ := snl_upto d n
    refine ⟨fun m hm b => ?_, fun m hm l st => ?_⟩
    · obtain ⟨m, rfl⟩ : ∃ k, m = k + 1 := ⟨m - 1, by omega⟩
      rw [stringToNodeList, stringToNodeList]
      exact i2 m (by omega) _ _
    · obtain ⟨m, rfl⟩ : ∃ k, m = k + 1 := ⟨m - 1, by omega⟩
      have j1 := i1 m (by omega)
      have j2 := i2 m (by omega)
      cases l with
      | nil => rw [stringToNodeList.loop, stringToNodeList.loop]; exact Upto.refl _
      | cons c t =>
        unfold stringToNodeList.loop
        repeat first | exact j1 _ | exact j2 _ _ | upto1

theorem snl_le {n m : Nat} (h : n ≤ m) (hl : lax ∨ n = m) (d : Option Nat) (b : Bytes) :
    Upto lax (stringToNodeList d n b) (stringToNodeList d m b) := by
  rcases hl with hl | rfl
  · exact fun s => ((snl_upto d n).1 m h b s).imp (fun x => ⟨x.1, hl⟩) id
  · exact Upto.refl _

theorem createAttribute_le {n m : Nat} (h : n ≤ m) (hl : lax ∨ n = m) (d : Option Nat) (nm v : Bytes) (ns : Option (Bytes × Bytes)) :
    Upto lax (createAttribute d n nm v ns) (createAttribute d m nm v ns) := by
  have := snl_le h hl d
  unfold createAttribute
  repeat first | exact this _ | upto1

theorem setAttribute_le {n m : Nat} (h : n ≤ m) (hl : lax ∨ n = m) (e : Nat) (nm v : Bytes) :
    Upto lax (setAttribute n e nm v) (setAttribute m e nm v) := by
  have := createAttribute_le h hl
  unfold setAttribute
  repeat first | exact this _ _ _ _ | upto1

theorem Upto.forM {l : List α} {f g : α → M S Unit} (h : ∀ a, Upto lax (f a) (g a)) : Upto lax (l.forM f) (l.forM g) := by
  induction l with
  | nil => exact Upto.refl _
  | cons a t ih => exact Upto.bind (h a) (fun _ => ih)

variable {σ τ : Type}

theorem Upto.tbH {p q : HM α} (h : Upto lax p q) : Upto lax (tbH p : TB σ α) (tbH q) := by
  intro c
  unfold Helium.tbH
  rcases h c.heap with ⟨e, x⟩ | e
  · rw [e]; exact .inl ⟨rfl, x⟩
  · rw [e]; exact .inr rfl

theorem tbAttr_le {n m : Nat} (h : n ≤ m) (hl : lax ∨ n = m) (e : Nat) (a : AttrD) :
    Upto lax (tbAttr n e a : TB σ Unit) (tbAttr m e a) := by
  have := fun nm v => Upto.tbH (σ := σ) (setAttribute_le h hl e nm v)
  unfold tbAttr
  repeat first | exact this _ _ | upto1

theorem tbStartElement_le {n m : Nat} (h : n ≤ m) (hl : lax ∨ n = m) (l p u : Bytes) (ns : List (Option (Bytes × Bytes)))
    (as : List AttrD) : Upto lax (tbStartElement n l p u ns as : TB σ Unit) (tbStartElement m l p u ns as) := by
  have := fun e => Upto.forM (l := as) (fun a => tbAttr_le (σ := σ) h hl e a)
  unfold tbStartElement
  repeat first | exact this _ | upto1

/-- a tree builder with a larger budget answers the same. -/
theorem treeBuilder_le {n m : Nat} (h : n ≤ m) (hl : lax ∨ n = m) (v : HV) (ev : Ev) (c : HC σ) :
    ((treeBuilder n v ev c).1 = .diverge ∧ lax) ∨ treeBuilder n v ev c = treeBuilder m v ev c := by
  cases ev with
  | startElement l p u ns as =>
    show (((tbUnit (tbStartElement n l p u ns as) c).1 = _ ∧ _) ∨ tbUnit (tbStartElement n l p u ns as) c = tbUnit (tbStartElement m l p u ns as) c)
    unfold tbUnit tbOut
    rcases Upto.bind (tbStartElement_le (σ := σ) h hl l p u ns as) (fun _ => Upto.refl (pure HOut.ok)) c with ⟨e, x⟩ | e
    · rw [e]; exact .inl ⟨rfl, x⟩
    · rw [e]; exact .inr rfl
  | _ => exact .inr rfl

/-! ### the parser -/

variable {L : Sync σ τ} {H : Handler σ} {G : Handler τ} (E : Env) {o : List Nat → List Nat} {ho : ∀ l, (o l).Perm l}

theorem createAttribute_lt {d : Option Nat} {n : Nat} {nm v : Bytes} {ns : Option (Bytes × Bytes)} {h h' : Heap} {a : Nat}
    (hp : createAttribute d n nm v ns h = .ok a h') : a < h'.size := by
  have hg : Grows h h' := ((KeepT.createAttribute (N := fun _ => False) d n nm v ns h).1 _ _ hp).grows
  have hs : ∀ {b : Nat} {t t' : Heap}, createAttribute d n nm v ns t = .ok b t' → b = t.size ∧ t.size + 1 ≤ t'.size := by
    intro b t t' hb
    unfold createAttribute at hb
    obtain ⟨c, t1, e1, hb⟩ := bind_ok.mp hb
    cases e1
    by_cases hv : v = []
    · rw [if_pos hv] at hb; cases hb; exact ⟨rfl, Nat.le_refl _⟩
    · rw [if_neg hv] at hb
      obtain ⟨kids, t2, e2, hb⟩ := bind_ok.mp hb
      obtain ⟨_, t3, e3, hb⟩ := bind_ok.mp hb
      obtain ⟨h0, t4, e4, hb⟩ := bind_ok.mp hb
      cases e4
      have k2 := ((KeepT.snl (N := fun _ => False) d n v _).1 _ _ e2).grows.1
      have k3 : t3.size = t2.size := by cases e3; rfl
      generalize chain t3 (t3.size + 1) kids = c at hb
      cases c with
      | none => cases hb
      | some l =>
        obtain ⟨_, t5, e5, hb⟩ := bind_ok.mp hb
        cases hb
        refine ⟨rfl, ?_⟩
        have k5 := ((KeepT.forM (N := fun _ => False) (fun k => by keepT) _).1 _ _ e5).grows.1
        have : (t.alloc (mkAttr nm ns)).size = t.size + 1 := rfl
        omega
  obtain ⟨e, k⟩ := hs hp
  omega

theorem Sim.addAttributeDefault {n m : Nat} (h : n ≤ m) (hl : L.lax ∨ n = m) (el at' v : Bytes) :
    Sim L (addAttributeDefault n el at' v : P σ Unit) (addAttributeDefault m el at' v) := by
  unfold Helium.addAttributeDefault
  refine Sim.get_bind (fun s0 u0 tr0 => ?_)
  show Sim L (match mapGet s0.attsSpecial (specialKey el at') with | some _ => _ | none => _)
    (match mapGet s0.attsSpecial (specialKey el at') with | some _ => _ | none => _)
  cases mapGet s0.attsSpecial (specialKey el at') with
  | some _ => exact Sim.pure ()
  | none =>
    refine Sim.bind (f := M.modify _) (g := M.modify _) ?_ (fun _ => ?_)
    · intro K s u tr hr
      exact ⟨u, tr, rfl, hr.1, fun x => ⟨(hr.2 x).1.entry el, (hr.2 x).2⟩⟩
    · refine Sim.get_bind (fun s1 u1 tr1 => ?_)
      dsimp only [St.re]
      intro K s u tr hr
      have hc := createAttribute_le h hl s1.hc.doc (splitColon at').2 v (some ((splitColon at').1, nsLookup s1.ns (splitColon at').1)) s.hc.heap
      simp only [Bind.bind, M.bind, M.attempt, Helium.liftH, St.re]
      rcases hc with ⟨e, x⟩ | e
      · rw [e]; exact .inl x
      · rw [← e]
        cases hp : createAttribute s1.hc.doc n (splitColon at').2 v (some ((splitColon at').1, nsLookup s1.ns (splitColon at').1)) s.hc.heap with
        | ok a h' =>
          refine ⟨u, tr, rfl, hr.1, fun x => ?_⟩
          have hu := Grows.upd h' a (f := fun x => { x with isDefault := true }) (fun _ => rfl)
          have hg := ((KeepT.createAttribute (N := fun _ => False) _ _ _ _ _ _).1 _ _ hp).grows
          refine ⟨?_, K.grows hu (K.grows hg (hr.2 x).2)⟩
          refine (((hr.2 x).1.grows hg).grows hu).add el at'
            (by have := createAttribute_lt hp; exact this) ?_
          simp [Heap.upd, Heap.put]
        | err e h' =>
          exact ⟨u, tr, rfl, hr.grows rfl rfl rfl ((KeepT.createAttribute (N := fun _ => False) _ _ _ _ _ _).2 _ _ hp).grows⟩
        | panic => rfl
        | diverge => exact .inr rfl

theorem Sim.attlistLoop (hA : InStep L H G) {n m : Nat} (h : n ≤ m) (hl : L.lax ∨ n = m) (el : Bytes) :
    ∀ fuel, Sim L (attlistLoop E H n el fuel) (attlistLoop (E.reorder o ho) G m el fuel)
  | 0 => by unfold Helium.attlistLoop; exact Sim.diverge
  | fuel + 1 => by
    have ih := Sim.attlistLoop hA h hl el fuel
    have ha := Sim.addAttributeDefault (σ := σ) h hl el
    unfold Helium.attlistLoop
    repeat first | exact ha _ _ | sim1

theorem Sim.parseAttributeListDecl (hA : InStep L H G) {n m : Nat} (h : n ≤ m) (hl : L.lax ∨ n = m) :
    Sim L (parseAttributeListDecl E H n) (parseAttributeListDecl (E.reorder o ho) G m) := by
  have := Sim.attlistLoop E (o := o) (ho := ho) hA h hl
  unfold Helium.parseAttributeListDecl
  repeat first | exact this _ _ | sim1

theorem Sim.parseMarkupDecl (hA : InStep L H G) {n m : Nat} (h : n ≤ m) (hl : L.lax ∨ n = m) :
    Sim L (parseMarkupDecl E H n) (parseMarkupDecl (E.reorder o ho) G m) := by
  have := Sim.parseAttributeListDecl E (o := o) (ho := ho) hA h hl
  unfold Helium.parseMarkupDecl; sim

theorem Sim.internalSubsetLoop (hA : InStep L H G) {n m : Nat} (h : n ≤ m) (hl : L.lax ∨ n = m) :
    ∀ fuel, Sim L (internalSubsetLoop E H n fuel) (internalSubsetLoop (E.reorder o ho) G m fuel)
  | 0 => by unfold Helium.internalSubsetLoop; exact Sim.diverge
  | fuel + 1 => by
    have ih := Sim.internalSubsetLoop hA h hl fuel
    have := Sim.parseMarkupDecl E (o := o) (ho := ho) hA h hl
    unfold Helium.internalSubsetLoop; sim

theorem Sim.parseInternalSubset (hA : InStep L H G) {n m : Nat} (h : n ≤ m) (hl : L.lax ∨ n = m) :
    Sim L (parseInternalSubset E H n) (parseInternalSubset (E.reorder o ho) G m) := by
  have := Sim.internalSubsetLoop E (o := o) (ho := ho) hA h hl
  unfold Helium.parseInternalSubset
  repeat first | exact this _ | sim1

theorem Sim.parseDocTypeDecl (hA : InStep L H G) : Sim L (parseDocTypeDecl E H) (parseDocTypeDecl (E.reorder o ho) G) := by
  unfold Helium.parseDocTypeDecl; sim
macro_rules | `(tactic| sim_leaf) => `(tactic| with_reducible exact Sim.parseDocTypeDecl _ (by assumption))

theorem Sim.afterNs : Sim L (afterNs E : P σ Bool) (afterNs (E.reorder o ho)) := by
  unfold Helium.afterNs; sim
macro_rules | `(tactic| sim_leaf) => `(tactic| with_reducible exact Sim.afterNs _)

theorem Sim.attrsLoop (hA : InStep L H G) (l : Bytes) : ∀ (fuel n : Nat) (as : List AttrD),
    Sim L (attrsLoop E H l fuel n as) (attrsLoop (E.reorder o ho) G l fuel n as)
  | 0, _, _ => by unfold Helium.attrsLoop; exact Sim.diverge
  | fuel + 1, n, as => by
    have ih := Sim.attrsLoop hA l fuel
    unfold Helium.attrsLoop
    have e : ∀ ns a b, nsDeclCheck (E.reorder o ho) ns a b = nsDeclCheck E ns a b := fun _ _ _ => rfl
    simp only [e]
    repeat first | exact ih _ _ | sim1

/-- the end of `parseStartTag`. -/
def tagEvent (E : Env) (H : Handler σ) (q : Bytes × Bytes) (na : Nat × List AttrD) (s : St σ) : P σ Unit :=
  let attrs := na.2 ++ defaultAttrs E s.attsDefault q.2 q.1
  let uri := nsLookup s.ns q.2
  if q.2 ≠ [] ∧ uri = [] then M.cerr .mNamespaceNotFound
  else do
    cb H (.startElement q.1 q.2 uri (nsList s.ns na.1) attrs)
    M.modify (fun s => { s with nodes := s.nodes ++ [⟨q.1, q.2, uri⟩] })

theorem defaultAttrs_reorder (m : List (Bytes × List (Bytes × Nat))) (p l : Bytes) :
    ∃ is js, List.Perm is js ∧ defaultAttrs E m p l = is.map .dflt ∧ defaultAttrs (E.reorder o ho) m p l = js.map .dflt ∧
      ∀ h, Marked m h → ∀ i ∈ is, i < h.size ∧ (h.at' i).isDefault = true := by
  unfold defaultAttrs
  simp only
  cases hg : mapGet m (if p ≠ [] then p ++ 58 :: l else l) with
  | none => exact ⟨[], [], List.Perm.refl _, rfl, rfl, fun _ _ i hi => by cases hi⟩
  | some x =>
    refine ⟨E.order (x.map (·.2)), o (x.map (·.2)), (E.order_perm _).trans (ho _).symm, rfl, rfl, fun h hm i hi => ?_⟩
    obtain ⟨⟨a, j⟩, hj, rfl⟩ := List.mem_map.mp ((E.order_perm _).mem_iff.mp hi)
    exact hm _ _ hg a j hj

theorem Sim.parseStartTag (hA : InStep L H G) (hq : L.perm ∨ o = E.order) :
    Sim L (parseStartTag E H) (parseStartTag (E.reorder o ho) G) := by
  have hl := Sim.attrsLoop E (o := o) (ho := ho) hA
  have ht : ∀ q na, allParsed na.2 → Sim L (M.get >>= fun s : St σ => tagEvent E H q na s) (M.get >>= fun s : St τ => tagEvent (E.reorder o ho) G q na s) := by
    intro q na hna K s u tr hr
    show L.Match K (tagEvent E H q na s s) (tagEvent (E.reorder o ho) G q na (s.re u tr) (s.re u tr))
    unfold tagEvent
    obtain ⟨is, js, hp, e1, e2, hm⟩ := defaultAttrs_reorder E (o := o) (ho := ho) s.attsDefault q.2 q.1
    show L.Match K ((if q.2 ≠ [] ∧ nsLookup s.ns q.2 = [] then _ else _ : P σ Unit) s) ((if q.2 ≠ [] ∧ nsLookup s.ns q.2 = [] then _ else _ : P τ Unit) (s.re u tr))
    by_cases hc : q.2 ≠ [] ∧ nsLookup s.ns q.2 = []
    · rw [if_pos hc, if_pos hc]; exact Sim.cerr _ K s u tr hr
    · rw [if_neg hc, if_neg hc]
      have hlike : L.Like (.startElement q.1 q.2 (nsLookup s.ns q.2) (nsList s.ns na.1) (na.2 ++ defaultAttrs E s.attsDefault q.2 q.1))
          (.startElement q.1 q.2 (nsLookup s.ns q.2) (nsList s.ns na.1) (na.2 ++ defaultAttrs (E.reorder o ho) s.attsDefault q.2 q.1)) := by
        rcases hq with hq | rfl
        · exact .inr ⟨hq, _, _, _, _, na.2, is, js, hp, by rw [e1], by rw [e2]⟩
        · exact .inl rfl
      have := match_cb hA hlike rfl K s u tr hr (fun x i hi => by
        rcases List.mem_append.mp hi with hi | hi
        · obtain ⟨_, _, _, e⟩ := hna _ hi; cases e
        · rw [e1] at hi
          obtain ⟨j, hj, e⟩ := List.mem_map.mp hi
          cases e
          exact hm _ (hr.2 x).1 i hj)
      exact this.bind (fun _ _ _ => by sim)
  have e : ∀ {ρ : Type} (E : Env) (F : Handler ρ), Helium.parseStartTag E F = (do
      M.need ((← Helium.peek E) == 60) .startTagRequired
      Helium.adv 1
      let q ← M.orElse (Helium.parseQName E) .mLocalNameEmpty
      M.need (q.1 != []) .mLocalNameEmpty
      let r ← Helium.rest
      Helium.attrsLoop E F q.1 (r.length + 1) 0 [] >>= fun na => M.get >>= fun s => tagEvent E F q na s) := fun _ _ => rfl
  have hparsed : ∀ {l : Bytes} {n : Nat} (s : St σ) a s', Helium.attrsLoop E H l n 0 [] s = .ok a s' → allParsed a.2 := fun s a s' h =>
    attrsLoop_parsed (E := E) (H := H) (l := []) (fun _ h => by cases h) h
  rw [e, e]
  repeat first
    | exact Sim.bind_of (Q := fun na => allParsed na.2) (hl _ _ _ _) hparsed (fun na hna => ht _ na hna)
    | sim1
macro_rules | `(tactic| sim_leaf) => `(tactic| with_reducible exact Sim.parseStartTag _ (by assumption) (by assumption))

theorem Sim.parseEndTag (hA : InStep L H G) : Sim L (parseEndTag E H) (parseEndTag (E.reorder o ho) G) := by
  unfold Helium.parseEndTag; sim
macro_rules | `(tactic| sim_leaf) => `(tactic| with_reducible exact Sim.parseEndTag _ (by assumption))

theorem Sim.chunkAdopt (d : Nat) : Sim L (chunkAdopt d : P σ Unit) (chunkAdopt d) := by
  unfold Helium.chunkAdopt; sim

/-- both. -/
def Stays.and (K J : Stays) : Stays := ⟨fun h => K.p h ∧ J.p h, fun g x => ⟨K.grows g x.1, J.grows g x.2⟩⟩

/-- the table stays marked. -/
def stayMarked (m : List (Bytes × List (Bytes × Nat))) : Stays := ⟨fun h => Marked m h, fun g x => x.grows g⟩

theorem Sim.parseChunk {f : P σ Unit} {g : P τ Unit} (h : Sim L f g) (b : Bytes) :
    Sim L (parseChunk E f b) (parseChunk (E.reorder o ho) g b) := by
  intro K s u tr hr
  have hd : chunkDoc (s.re u tr) = chunkDoc s := rfl
  have hb := Sim.bind h (fun _ => Sim.chunkAdopt (L := L) (chunkDoc s).1)
  unfold Helium.parseChunk
  simp only [hd]
  show L.Match K (if s.depth + 1 > 40 then _ else _) (if s.depth + 1 > 40 then _ else _)
  by_cases h40 : s.depth + 1 > 40
  · rw [if_pos h40, if_pos h40]; exact ⟨u, tr, rfl, hr⟩
  · rw [if_neg h40, if_neg h40]
    have hk := KeepT.bind (N := fun _ => False) (KeepT.newNode (m := mkElement (some (chunkDoc s).1) b!"pseudoroot") rfl)
      (fun root => KeepT.bind (KeepT.attempt (KeepT.nodeAddChild (chunkDoc s).1 root)) (fun _ => KeepT.pure ()))
      ((chunkDoc s).2.upd (chunkDoc s).1 (fun x => { x with first := none, last := none }))
    have h1 : Grows s.hc.heap (chunkDoc s).2 := by
      unfold chunkDoc
      split
      · exact Grows.refl _
      · exact Grows.alloc _ _
    have h2 : Grows (chunkDoc s).2 ((chunkDoc s).2.upd (chunkDoc s).1 (fun x => { x with first := none, last := none })) := Grows.upd _ _ id
    have hback : ∀ {t : St σ} {u' : τ} {tr'}, L.Rel (K.and (stayMarked s.attsDefault)) t u' tr' →
        L.Rel K (chunkBack s (chunkDoc s).1 ((chunkDoc s).2.at' (chunkDoc s).1).first ((chunkDoc s).2.at' (chunkDoc s).1).last t) u' tr' := by
      intro t u' tr' ht
      have hg : Grows t.hc.heap (t.hc.heap.upd (chunkDoc s).1 (fun x => { x with first := ((chunkDoc s).2.at' (chunkDoc s).1).first, last := ((chunkDoc s).2.at' (chunkDoc s).1).last })) :=
        Grows.upd _ _ id
      exact ⟨ht.1, fun x => ⟨((ht.2 x).2.2).grows hg, K.grows hg (ht.2 x).2.1⟩⟩
    revert hk
    generalize ((do
        let root ← newNode (mkElement (some (chunkDoc s).1) b!"pseudoroot")
        let _ ← M.attempt (nodeAddChild (chunkDoc s).1 root)
        Pure.pure () : HM Unit) ((chunkDoc s).2.upd (chunkDoc s).1 (fun x => { x with first := none, last := none }))) = q
    intro hk
    cases q with
    | ok a hp =>
      have hg := (h1.trans h2).trans (hk.1 _ _ rfl).grows
      have := hb (K.and (stayMarked s.attsDefault)) (chunkSt s (chunkDoc s).1 hp (E.decode .utf8 b)) u tr
        ⟨hr.1, fun x => ⟨(hr.2 x).1.grows hg, K.grows hg (hr.2 x).2, (hr.2 x).1.grows hg⟩⟩
      have e : chunkSt (s.re u tr) (chunkDoc s).1 hp (E.decode .utf8 b) = (chunkSt s (chunkDoc s).1 hp (E.decode .utf8 b)).re u tr := rfl
      simp only [e]
      cases hf : (do f; Helium.chunkAdopt (chunkDoc s).1 : P σ Unit) (chunkSt s (chunkDoc s).1 hp (E.decode .utf8 b)) with
      | ok a t => rw [hf] at this; obtain ⟨u', tr', e', hr'⟩ := this; rw [e']; exact ⟨u', tr', rfl, hback hr'⟩
      | err a t => rw [hf] at this; obtain ⟨u', tr', e', hr'⟩ := this; rw [e']; exact ⟨u', tr', rfl, hback hr'⟩
      | panic => rw [hf] at this; rw [show _ = Out.panic from this]; rfl
      | diverge =>
        rw [hf] at this
        rcases this with l | e'
        · exact .inl l
        · rw [e']; exact .inr rfl
    | err e hp => exact ⟨u, tr, rfl, hr.grows rfl rfl rfl ((h1.trans h2).trans (hk.2 _ _ rfl).grows)⟩
    | panic => rfl
    | diverge => exact .inr rfl

theorem Sim.parseReference (hA : InStep L H G) {f : P σ Unit} {g : P τ Unit} (h : Sim L f g) :
    Sim L (parseReference E H f) (parseReference (E.reorder o ho) G g) := by
  have := Sim.parseChunk E (o := o) (ho := ho) h
  unfold Helium.parseReference
  repeat first | exact this _ | sim1

theorem Sim.parseElementW (hA : InStep L H G) (hq : L.perm ∨ o = E.order) {f : P σ Unit} {g : P τ Unit} (h : Sim L f g) :
    Sim L (parseElementW E H f) (parseElementW (E.reorder o ho) G g) := by
  unfold Helium.parseElementW; sim

theorem Sim.contentStep (hA : InStep L H G) (hq : L.perm ∨ o = E.order) {f : P σ Unit} {g : P τ Unit} (h : Sim L f g) :
    Sim L (contentStep E H f) (contentStep (E.reorder o ho) G g) := by
  have h1 := Sim.parseElementW E (o := o) (ho := ho) hA hq h
  have h2 := Sim.parseReference E (o := o) (ho := ho) hA h
  unfold Helium.contentStep; sim

theorem Sim.parseContent (hA : InStep L H G) (hq : L.perm ∨ o = E.order) : ∀ {n m : Nat}, n ≤ m → (L.lax ∨ n = m) →
    Sim L (parseContent E H n) (parseContent (E.reorder o ho) G m)
  | 0, m, _, hl => by
    rcases hl with hl | rfl
    · unfold Helium.parseContent; exact Sim.lax hl _
    · unfold Helium.parseContent; exact Sim.diverge
  | n + 1, m, h, hl => by
    obtain ⟨m, rfl⟩ : ∃ k, m = k + 1 := ⟨m - 1, by omega⟩
    have ih := Sim.parseContent hA hq (n := n) (m := m) (by omega) (hl.imp id (by omega))
    have hs := Sim.contentStep E (o := o) (ho := ho) hA hq ih
    rw [Helium.parseContent, Helium.parseContent]; sim

theorem Sim.parseHead (hA : InStep L H G) : Sim L (parseHead E H) (parseHead (E.reorder o ho) G) := by
  unfold Helium.parseHead; sim
macro_rules | `(tactic| sim_leaf) => `(tactic| with_reducible exact Sim.parseHead _ (by assumption))

theorem Sim.parseDoctypePart (hA : InStep L H G) {n m : Nat} (h : n ≤ m) (hl : L.lax ∨ n = m) :
    Sim L (parseDoctypePart E H n) (parseDoctypePart (E.reorder o ho) G m) := by
  have := Sim.parseInternalSubset E (o := o) (ho := ho) hA h hl
  unfold Helium.parseDoctypePart; sim

theorem Sim.parseTail (hA : InStep L H G) (hq : L.perm ∨ o = E.order) {n m : Nat} (h : n ≤ m) (hl : L.lax ∨ n = m) :
    Sim L (parseTail E H n) (parseTail (E.reorder o ho) G m) := by
  have h1 : Sim L (Helium.parseElement E H n) (Helium.parseElement (E.reorder o ho) G m) := Sim.parseElementW E hA hq (Sim.parseContent E hA hq h hl)
  unfold Helium.parseTail; sim

theorem Sim.parseDocument (hA : InStep L H G) (hq : L.perm ∨ o = E.order) {n m k l : Nat} (h : n ≤ m) (hl : L.lax ∨ n = m) (h' : k ≤ l) (hl' : L.lax ∨ k = l) :
    Sim L (parseDocument E H n k) (parseDocument (E.reorder o ho) G m l) := by
  have h1 := Sim.parseDoctypePart E (o := o) (ho := ho) hA h' hl'
  have h2 := Sim.parseTail E (o := o) (ho := ho) hA hq h hl
  unfold Helium.parseDocument; sim

/-- Two parses of one input, side by side. -/
theorem parserParse_sim (hA : InStep L H G) (hq : L.perm ∨ o = E.order) {u : σ} {w : τ} {n m k l : Nat} (h : n ≤ m)
    (hl : L.lax ∨ n = m) (h' : k ≤ l) (hl' : L.lax ∨ k = l) (b : Bytes) (hr : L.rel u [] w []) :
    match parserParse E H u n k b with
    | .done d e hp tr => ∃ u' w' tr', parserParse (E.reorder o ho) G w m l b = .done d e hp tr' ∧ L.rel u' tr w' tr'
    | .panic => parserParse (E.reorder o ho) G w m l b = .panic
    | .diverge => L.lax ∨ parserParse (E.reorder o ho) G w m l b = .diverge := by
  have := Sim.parseDocument E (o := o) (ho := ho) hA hq h hl h' hl' ⟨fun _ => True, fun _ x => x⟩ (initSt u Heap.empty b) w []
    ⟨hr, fun _ => ⟨fun k l hl => (by cases hl), trivial⟩⟩
  unfold parserParse
  have e : initSt w Heap.empty b = (initSt u Heap.empty b).re w [] := rfl
  rw [e]
  cases hf : Helium.parseDocument E H n k (initSt u Heap.empty b) with
  | ok a s => rw [hf] at this; obtain ⟨u', tr', e', hr'⟩ := this; rw [e']; exact ⟨_, u', tr', rfl, hr'.1⟩
  | err a s => rw [hf] at this; obtain ⟨u', tr', e', hr'⟩ := this; rw [e']; exact ⟨_, u', tr', rfl, hr'.1⟩
  | panic => rw [hf] at this; rw [show _ = Out.panic from this]
  | diverge =>
    rw [hf] at this
    rcases this with l | e'
    · exact .inl l
    · rw [e']; exact .inr rfl

/-- handlers compared on the same events. -/
theorem inStep_same (hp : ¬ L.perm) (hs : ¬ L.strict)
    (h : ∀ v ev (c : HC σ) u tr tr', L.rel c.usr tr u tr' →
      ((H v ev c).1 = .diverge ∧ L.lax) ∨
      ((G v ev ⟨u, c.heap, c.doc, c.elem⟩).1.seen ev = (H v ev c).1.seen ev ∧
        ∃ w, (G v ev ⟨u, c.heap, c.doc, c.elem⟩).2 = ⟨w, (H v ev c).2.heap, (H v ev c).2.doc, (H v ev c).2.elem⟩ ∧
          L.rel (H v ev c).2.usr (tr ++ [(ev, (H v ev c).1)]) w (tr' ++ [(ev, (G v ev ⟨u, c.heap, c.doc, c.elem⟩).1)]))) :
    InStep L H G := by
  intro v ev ev' c u tr tr' hr he _
  rcases he with rfl | ⟨x, _⟩
  · exact (h v _ c u tr tr' hr).imp id (fun h => ⟨h.1, fun x => absurd x hs, h.2⟩)
  · exact absurd x hp

/-- Two parses of one input with the same external code. -/
theorem parserParse_same (hA : InStep L H G) {u : σ} {w : τ} {n m k l : Nat} (h : n ≤ m)
    (hl : L.lax ∨ n = m) (h' : k ≤ l) (hl' : L.lax ∨ k = l) (b : Bytes) (hr : L.rel u [] w []) :
    match parserParse E H u n k b with
    | .done d e hp tr => ∃ u' w' tr', parserParse E G w m l b = .done d e hp tr' ∧ L.rel u' tr w' tr'
    | .panic => parserParse E G w m l b = .panic
    | .diverge => L.lax ∨ parserParse E G w m l b = .diverge :=
  parserParse_sim E (o := E.order) (ho := E.order_perm) hA (.inr rfl) h hl h' hl' b hr

end
end Helium
