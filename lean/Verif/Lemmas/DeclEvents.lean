import Verif.Lemmas.SubsetRun
import Verif.Lemmas.TbWilling
/-! Documents with a document type declaration: the events reported. -/
namespace Helium
open Spec

section
variable {σ : Type}

/-- from `s` the parser went to `s'` by reporting `evs` while reading declarations. -/
structure Noted (evs : List Ev) (s s' : St σ) : Prop where
  cur : s'.cur = s.cur
  ns : s'.ns = s.ns
  nodes : s'.nodes = s.nodes
  view : s'.view = s.view
  name : s'.intSubName = s.intSubName
  uri : s'.extSubURI = s.extSubURI
  sys : s'.extSubSystem = s.extSubSystem
  trace : ∃ tr, s'.trace = s.trace ++ tr ∧ tr.map (·.1) = evs

theorem Noted.refl (s : St σ) : Noted [] s s := ⟨rfl, rfl, rfl, rfl, rfl, rfl, rfl, [], by simp, rfl⟩

theorem Noted.trans {e1 e2 : List Ev} {s s1 s2 : St σ} (h1 : Noted e1 s s1) (h2 : Noted e2 s1 s2) : Noted (e1 ++ e2) s s2 := by
  obtain ⟨t1, a1, b1⟩ := h1.trace
  obtain ⟨t2, a2, b2⟩ := h2.trace
  exact ⟨h2.cur.trans h1.cur, h2.ns.trans h1.ns, h2.nodes.trans h1.nodes, h2.view.trans h1.view, h2.name.trans h1.name, h2.uri.trans h1.uri, h2.sys.trans h1.sys,
    t1 ++ t2, by rw [a2, a1, List.append_assoc], by rw [List.map_append, b1, b2]⟩

theorem Noted.silent {s s' : St σ} (cur : s'.cur = s.cur) (ns : s'.ns = s.ns) (nodes : s'.nodes = s.nodes) (view : s'.view = s.view)
    (name : s'.intSubName = s.intSubName) (uri : s'.extSubURI = s.extSubURI) (sys : s'.extSubSystem = s.extSubSystem) (trace : s'.trace = s.trace) :
    Noted [] s s' := ⟨cur, ns, nodes, view, name, uri, sys, [], by simp [trace], rfl⟩

/-- the tables of declared attributes are untouched. -/
def SameAtts (s s' : St σ) : Prop := s'.attsSpecial = s.attsSpecial ∧ s'.attsDefault = s.attsDefault

theorem SameAtts.trans {s s1 s2 : St σ} (h1 : SameAtts s s1) (h2 : SameAtts s1 s2) : SameAtts s s2 := ⟨h2.1.trans h1.1, h2.2.trans h1.2⟩

variable {E : Env} {H : Handler σ}

theorem cb_noted {ev : Ev} {s : St σ} (h : Took (H s.view ev s.hc).1) : ∃ s', cb H ev s = .ok () s' ∧ Noted [ev] s s' ∧ SameAtts s s' := by
  refine ⟨cbSt H ev s, ?_, ⟨rfl, rfl, rfl, rfl, rfl, rfl, rfl, [(ev, (H s.view ev s.hc).1)], rfl, rfl⟩, rfl, rfl⟩
  unfold cb callback
  rcases h with h1 | h1 <;> simp only [Bind.bind, M.bind, h1] <;> simp [cbSt, h1, Pure.pure, M.pure]

theorem ask_noted {ev : Ev} {s : St σ} (h1 : (H s.view ev s.hc).1 ≠ .panic) (h2 : (H s.view ev s.hc).1 ≠ .diverge) :
    ∃ x s', ask H ev s = .ok x s' ∧ Noted [ev] s s' ∧ SameAtts s s' := by
  have hn : Noted [ev] s (cbSt H ev s) := ⟨rfl, rfl, rfl, rfl, rfl, rfl, rfl, [(ev, (H s.view ev s.hc).1)], rfl, rfl⟩
  have hcb : callback H ev s = .ok (H s.view ev s.hc).1 (cbSt H ev s) := rfl
  unfold ask
  rw [bind_run hcb]
  cases ho : (H s.view ev s.hc).1 with
  | ok => exact ⟨_, _, rfl, hn, rfl, rfl⟩
  | ent e => exact ⟨_, _, rfl, hn, rfl, rfl⟩
  | unspecified => exact ⟨_, _, rfl, hn, rfl, rfl⟩
  | err e => exact ⟨_, _, rfl, hn, rfl, rfl⟩
  | panic => exact absurd ho h1
  | diverge => exact absurd ho h2

theorem setOrig_noted (x : Except Err (Option ERef)) (lit : Bytes) (s : St σ) : ∃ s', setOrig x lit s = .ok () s' ∧ Noted [] s s' ∧ SameAtts s s' := by
  unfold setOrig
  split
  · exact ⟨_, rfl, .silent rfl rfl rfl rfl rfl rfl rfl rfl, rfl, rfl⟩
  · exact ⟨_, rfl, .refl _, rfl, rfl⟩

theorem default_noted {w : List Nat} (hw : ∀ c ∈ w, Legal c) {snl : Nat} (hl : (reported w).length + 1 < snl) (elem attr : Bytes) (s : St σ) :
    ∃ s', addAttributeDefault snl elem attr (reported w) s = .ok () s' ∧ Noted [] s s' ∧ s'.attsSpecial = s.attsSpecial := by
  unfold addAttributeDefault
  run
  cases mapGet s.attsSpecial (specialKey elem attr) with
  | some t => exact ⟨s, rfl, .refl _, rfl⟩
  | none =>
    simp only
    run
    have hsc : ∀ r ∈ w.flatMap (fun c => if c = 38 then [38, 35, 51, 56, 59] else [c]), isScalar r := by
      intro r hr
      obtain ⟨c, hc, hr⟩ := List.mem_flatMap.1 hr
      split at hr
      · simp at hr
        rcases hr with rfl | rfl | rfl | rfl | rfl <;> decide
      · rw [List.mem_singleton] at hr
        subst hr
        exact (hw _ hc).scalar
    have hlen : w.length + 1 < snl := by
      have h1 := AmpText.length_le (ampText_reported w)
      have h2 := encodeRunes_len (w.flatMap (fun c => if c = 38 then [38, 35, 51, 56, 59] else [c]))
      unfold reported at hl
      omega
    have hcr := createAttribute_plain s.hc.doc hsc (ampText_reported w) snl hlen (splitColon attr).2 (some ((splitColon attr).1, nsLookup s.ns (splitColon attr).1)) s.hc.heap
    rw [bind_run (attempt_run (a := s.hc.heap.size) (t := { s with
        attsDefault := (match mapGet s.attsDefault elem with
          | some _ => s.attsDefault
          | none => mapSet s.attsDefault elem [])
        hc := { s.hc with heap := attrHeap s.hc.heap s.hc.doc (splitColon attr).2 (some ((splitColon attr).1, nsLookup s.ns (splitColon attr).1)) w } }) (by
      unfold liftH
      simp only
      rw [show reported w = encodeRunes (w.flatMap (fun c => if c = 38 then [38, 35, 51, 56, 59] else [c])) from rfl, hcr]
      rfl))]
    exact ⟨_, rfl, .silent rfl rfl rfl rfl rfl rfl rfl rfl, rfl⟩

/-- the default value of a declared attribute is the reported form of some text. -/
def Spelled (v : Bytes) : Prop := ∃ w, (∀ c ∈ w, Legal c) ∧ v = reported w

theorem words_legal : ∀ (acc w : List Nat), (∀ c ∈ acc, Legal c) → (∀ c ∈ w, Legal c) → ∀ x ∈ words acc w, ∀ c ∈ x, Legal c
  | [], [], _, _ => by intro x hx; cases hx
  | a :: acc, [], ha, _ => by
    intro x hx c hc
    simp [words] at hx
    subst hx
    exact ha c (by simpa [or_comm] using hc)
  | [], b :: w, _, hw => by
    intro x hx
    rw [words] at hx
    split at hx
    · exact words_legal [] w (by simp) (fun c hc => hw c (by simp [hc])) x hx
    · exact words_legal [b] w (by intro c hc; simp at hc; exact hw c (by simp [hc])) (fun c hc => hw c (by simp [hc])) x hx
  | a :: acc, b :: w, ha, hw => by
    intro x hx
    have hx : x ∈ (if b = 32 then (a :: acc).reverse :: words [] w else words (b :: a :: acc) w) := by simpa [words] using hx
    split at hx
    · rcases List.mem_cons.1 hx with rfl | hx
      · intro c hc
        exact ha c (by simpa [or_comm] using hc)
      · exact words_legal [] w (by simp) (fun c hc => hw c (by simp [hc])) x hx
    · refine words_legal (b :: a :: acc) w ?_ (fun c hc => hw c (by simp [hc])) x hx
      intro c hc
      rcases List.mem_cons.1 hc with rfl | hc
      · exact hw _ (by simp)
      · exact ha c hc

theorem unwords_legal : ∀ (ws : List (List Nat)), (∀ x ∈ ws, ∀ c ∈ x, Legal c) → ∀ c ∈ unwords ws, Legal c
  | [], _ => by intro c hc; cases hc
  | [x], h => h x (by simp)
  | x :: y :: ws, h => by
    intro c hc
    have hc : c ∈ x ++ 32 :: unwords (y :: ws) := hc
    rcases List.mem_append.1 hc with hc | hc
    · exact h x (by simp) c hc
    · rcases List.mem_cons.1 hc with rfl | hc
      · decide
      · exact unwords_legal (y :: ws) (fun z hz => h z (by simp [List.mem_cons] at hz ⊢; exact .inr hz)) c hc

theorem defaultValue_spelled {q : Nat} {l w : List Nat} (hv : Value q l w) (typ : Nat) : Spelled (defaultValue typ w) := by
  unfold defaultValue
  refine ⟨_, ?_, rfl⟩
  split
  · exact value_legal hv
  · exact unwords_legal _ (words_legal [] w (by simp) (value_legal hv))

theorem default_spelled {typ d : Nat} {v : Bytes} {u : List Nat} (h : DefaultText typ d v u) : Spelled v := by
  cases h with
  | required => exact ⟨[], by simp, rfl⟩
  | implied => exact ⟨[], by simp, rfl⟩
  | fixed _ _ _ hv _ => exact defaultValue_spelled hv _
  | value _ hv _ => exact defaultValue_spelled hv _

theorem attDefs_spelled {as : List AttDef} {t : List Nat} (h : AttDefs E as t) : ∀ a ∈ as, Spelled a.value := by
  induction h with
  | one _ _ _ _ _ _ hd _ => intro a ha; rw [List.mem_singleton] at ha; subst ha; exact default_spelled hd
  | more _ _ _ _ _ _ hd _ _ _ ih =>
    intro a ha
    rcases List.mem_cons.1 ha with rfl | ha
    · exact default_spelled hd
    · exact ih a ha

/-- the default values of a declaration. -/
def Decl.Spelled : Decl → Prop
  | .attlist _ as => ∀ a ∈ as, Helium.Spelled a.value
  | _ => True

theorem decl_spelled {d : Decl} {t : List Nat} (h : DeclText E d t) : Decl.Spelled d := by
  cases h with
  | element => trivial
  | entity => trivial
  | attlist h => obtain ⟨w1, w2, r, _, _, _, _, _, hx, _⟩ := h; exact attDefs_spelled hx
  | comment => trivial
  | pi => trivial

theorem subset_spelled {ds : List Decl} {t : List Nat} (h : SubsetText E ds t) : ∀ d ∈ ds, Decl.Spelled d := by
  induction h with
  | nil => intro d hd; cases hd
  | cons _ hd _ ih =>
    intro x hx
    rcases List.mem_cons.1 hx with rfl | hx
    · exact decl_spelled hd
    · exact ih x hx

theorem doctype_spelled {n : List Nat} {ds : List Decl} {t : List Nat} (h : DoctypeText E n ds t) : ∀ d ∈ ds, Decl.Spelled d := by
  cases h with
  | plain => intro d hd; cases hd
  | subset _ _ _ _ _ hs => exact subset_spelled hs

theorem takes_took {ev : Ev} (hH : Takes H) (he : ∀ n, ev ≠ .getEntity n ∧ ev ≠ .getParameterEntity n) (v : HV) (c : HC σ) : Took (H v ev c).1 := by
  rcases hH v ev c with h | ⟨⟨n, h | h⟩, _⟩
  · exact h
  · exact absurd h (he n).1
  · exact absurd h (he n).2

theorem takes_alive (hH : Takes H) (v : HV) (ev : Ev) (c : HC σ) : (H v ev c).1 ≠ .panic ∧ (H v ev c).1 ≠ .diverge := by
  rcases hH v ev c with h | h
  · rcases h with h | h <;> rw [h] <;> exact ⟨by simp, by simp⟩
  · exact h.2

theorem declareAtts_noted (hH : Takes H) {snl : Nat} (elem : Bytes) : ∀ (as : List AttDef), (∀ a ∈ as, Spelled a.value ∧ a.value.length + 1 < snl) → ∀ s : St σ,
    ∃ s', declareAtts H snl elem as s = .ok () s' ∧ Noted (as.map (fun a => .attributeDecl elem a.name a.typ a.deflt a.value a.names)) s s' ∧
      s'.attsSpecial = as.foldl (fun m a => mapSet m (specialKey elem a.name) a.typ) s.attsSpecial
  | [], _, s => ⟨s, rfl, .refl _, rfl⟩
  | a :: as, h, s => by
    obtain ⟨s1, r1, n1, k1⟩ := cb_noted (H := H) (ev := .attributeDecl elem a.name a.typ a.deflt a.value a.names) (s := s) (takes_took hH (by simp) _ _)
    have : ∃ s2, (if a.value ≠ [] ∧ a.deflt ≠ 3 ∧ a.deflt ≠ 2 then addAttributeDefault snl elem a.name a.value else pure () : P σ Unit) s1 = .ok () s2 ∧ Noted [] s1 s2 ∧
        s2.attsSpecial = s1.attsSpecial := by
      split
      · obtain ⟨⟨w, hw, hv⟩, hl⟩ := h a (by simp)
        rw [hv] at hl ⊢
        exact default_noted hw hl elem a.name s1
      · exact ⟨s1, rfl, .refl _, rfl⟩
    obtain ⟨s2, r2, n2, k2⟩ := this
    obtain ⟨s3, r3, n3, k3⟩ := declareAtts_noted hH elem as (fun x hx => h x (by simp [hx])) { s2 with attsSpecial := mapSet s2.attsSpecial (specialKey elem a.name) a.typ }
    refine ⟨s3, ?_, ?_, ?_⟩
    · show (declareAtt H snl elem a >>= fun _ => declareAtts H snl elem as) s = _
      have : declareAtt H snl elem a s = .ok () { s2 with attsSpecial := mapSet s2.attsSpecial (specialKey elem a.name) a.typ } := by
        unfold declareAtt
        rw [bind_run r1]
        revert r2
        split
        · intro r2; rw [bind_run r2]; rfl
        · intro r2; cases r2; rfl
      rw [bind_run this]
      exact r3
    · have n4 : Noted [] s2 { s2 with attsSpecial := mapSet s2.attsSpecial (specialKey elem a.name) a.typ } := .silent rfl rfl rfl rfl rfl rfl rfl rfl
      exact n1.trans (n2.trans (n4.trans n3))
    · rw [k3, List.foldl_cons, k2, k1.1]

theorem declare_noted (hH : Takes H) {snl : Nat} {d : Decl} (hd : Decl.Spelled d) (hB : d.Short snl) (s : St σ) :
    ∃ s', declare H snl d s = .ok () s' ∧ Noted d.events s s' ∧ (d.NoAttrs → SameAtts s s') := by
  cases d with
  | element n typ e =>
    obtain ⟨s1, r, n, k⟩ := cb_noted (H := H) (ev := .elementDecl n typ e) (s := s) (takes_took hH (by simp) _ _)
    exact ⟨s1, r, n, fun _ => k⟩
  | comment b =>
    obtain ⟨s1, r, n, k⟩ := cb_noted (H := H) (ev := .comment b) (s := s) (takes_took hH (by simp) _ _)
    exact ⟨s1, r, n, fun _ => k⟩
  | pi n d =>
    obtain ⟨s1, r, n, k⟩ := cb_noted (H := H) (ev := .pi n d) (s := s) (takes_took hH (by simp) _ _)
    exact ⟨s1, r, n, fun _ => k⟩
  | attlist n as =>
    obtain ⟨s1, r, n, k⟩ := declareAtts_noted hH n as (fun a ha => ⟨hd a ha, hB a ha⟩) s
    exact ⟨s1, r, n, fun h => absurd h id⟩
  | entity p n l v =>
    obtain ⟨s1, r1, n1, k1⟩ := cb_noted (H := H) (ev := .entityDecl n (if p then 4 else 1) [] [] v) (s := s) (takes_took hH (by simp) _ _)
    obtain ⟨x, s2, r2, n2, k2⟩ := ask_noted (H := H) (ev := if p then .getParameterEntity n else .getEntity n) (s := s1) (takes_alive hH _ _ _).1 (takes_alive hH _ _ _).2
    obtain ⟨s3, r3, n3, k3⟩ := setOrig_noted x l s2
    refine ⟨s3, ?_, ?_, fun _ => k1.trans (k2.trans k3)⟩
    · show (cb H (.entityDecl n (if p then 4 else 1) [] [] v) >>= fun _ => ask H (if p then .getParameterEntity n else .getEntity n) >>= fun x => setOrig x l) s = _
      rw [bind_run r1, bind_run r2]
      exact r3
    · have := n1.trans (n2.trans n3)
      cases p <;> exact this

theorem declareAll_noted (hH : Takes H) {snl : Nat} : ∀ (ds : List Decl), (∀ d ∈ ds, Decl.Spelled d ∧ d.Short snl) → ∀ s : St σ,
    ∃ s', declareAll H snl ds s = .ok () s' ∧ Noted (ds.flatMap Decl.events) s s' ∧ ((∀ d ∈ ds, d.NoAttrs) → SameAtts s s')
  | [], _, s => ⟨s, rfl, .refl _, fun _ => ⟨rfl, rfl⟩⟩
  | d :: ds, h, s => by
    obtain ⟨s1, r1, n1, k1⟩ := declare_noted hH (h d (by simp)).1 (h d (by simp)).2 s
    obtain ⟨s2, r2, n2, k2⟩ := declareAll_noted hH ds (fun x hx => h x (by simp [hx])) s1
    refine ⟨s2, ?_, ?_, fun hk => (k1 (hk d (by simp))).trans (k2 (fun x hx => hk x (by simp [hx])))⟩
    · show (declare H snl d >>= fun _ => declareAll H snl ds) s = _
      rw [bind_run r1]
      exact r2
    · rw [List.flatMap_cons]
      exact n1.trans n2

/-- the events of a document type declaration. -/
def doctypeEvents (n : Bytes) (ds : List Decl) : List Ev := .internalSubset n [] [] :: (ds.flatMap Decl.events ++ [.externalSubset n [] []])

theorem declareDoctype_noted (hH : Takes H) {snl : Nat} (n : Bytes) {ds : List Decl} (h : ∀ d ∈ ds, Decl.Spelled d ∧ d.Short snl) (s : St σ) (hi : s.inSubset = 0) :
    ∃ s', declareDoctype H snl n ds s = .ok () s' ∧ s'.cur = s.cur ∧ s'.ns = s.ns ∧ s'.nodes = s.nodes ∧ s'.view = s.view ∧
      (∃ tr, s'.trace = s.trace ++ tr ∧ tr.map (·.1) = doctypeEvents n ds) ∧
      ((∀ d ∈ ds, d.NoAttrs) → s'.attsDefault = s.attsDefault ∧ s'.attsSpecial = s.attsSpecial.filter (fun p => p.2 != 1)) := by
  let s0 : St σ := { s with inSubset := 1, intSubName := n, extSubURI := [], extSubSystem := [] }
  obtain ⟨s1, r1, n1, k1⟩ := cb_noted (H := H) (ev := .internalSubset n [] []) (s := s0) (takes_took hH (by simp) _ _)
  obtain ⟨s2, r2, n2, k2⟩ := declareAll_noted hH ds h s1
  have n12 := n1.trans n2
  let s3 : St σ := { s2 with inSubset := 2 }
  obtain ⟨s4, r4, n4, k4⟩ := cb_noted (H := H) (ev := .externalSubset n [] []) (s := s3) (takes_took hH (by simp) _ _)
  refine ⟨{ s4 with inSubset := 0, attsSpecial := s4.attsSpecial.filter (fun p => p.2 != 1) }, ?_, ?_, ?_, ?_, ?_, ?_, ?_⟩
  · unfold declareDoctype
    run
    rw [bind_run (s := s0) r1, bind_run r2]
    run
    have e : Ev.externalSubset s2.intSubName s2.extSubSystem s2.extSubURI = .externalSubset n [] [] := by rw [n12.name, n12.sys, n12.uri]
    have r4' : cb H (Ev.externalSubset s2.intSubName s2.extSubSystem s2.extSubURI) s3 = .ok () s4 := by rw [e]; exact r4
    rw [bind_run (s := s3) r4']
    rfl
  · exact n4.cur.trans n12.cur
  · exact n4.ns.trans n12.ns
  · exact n4.nodes.trans n12.nodes
  · have h1 := n4.view
    have h2 := n12.view
    have e1 : (St.view s4).version = s.version := (congrArg HV.version h1).trans (congrArg HV.version h2)
    have e2 : (St.view s4).encoding = s.encoding := (congrArg HV.encoding h1).trans (congrArg HV.encoding h2)
    have e3 : (St.view s4).standalone = s.standalone := (congrArg HV.standalone h1).trans (congrArg HV.standalone h2)
    unfold St.view at e1 e2 e3 ⊢
    simp only at e1 e2 e3 ⊢
    rw [e1, e2, e3, hi]
  · obtain ⟨t1, a1, b1⟩ := n12.trace
    obtain ⟨t2, a2, b2⟩ := n4.trace
    refine ⟨t1 ++ t2, ?_, ?_⟩
    · show s4.trace = _
      rw [a2]
      show s2.trace ++ t2 = _
      rw [a1, List.append_assoc]
    · rw [List.map_append, b1, b2]
      rfl
  · intro hk
    obtain ⟨p1, p2⟩ := k1.trans (k2 hk)
    obtain ⟨q1, q2⟩ := k4
    refine ⟨q2.trans p2, ?_⟩
    show s4.attsSpecial.filter _ = _
    rw [q1]
    show s2.attsSpecial.filter _ = _
    rw [p1]
end
end Helium
