import Verif.Lemmas.TreeLogic
import Verif.Lemmas.DomHist
/-! Whole documents: the tree that `Parse` returns. -/
namespace Helium
open Spec

theorem nest_steps : ∀ (evs : List Ev) (st st' : List (Bytes × Bytes × Bytes)) (p p' : Partial), nest st evs = some st' →
    p.steps (evs.filter notCData) = some p' → p.inner.length = st.length → p'.inner.length = st'.length
  | [], st, st', p, p', h1, h2, hl => by
    cases h1; cases h2; exact hl
  | ev :: evs, st, st', p, p', h1, h2, hl => by
    have hsome : ∀ q, p.step ev = some q → notCData ev = true → q.steps (evs.filter notCData) = some p' := by
      intro q hq hn
      rw [List.filter_cons_of_pos hn] at h2
      simpa [Partial.steps, hq] using h2
    have hnone : p.step ev = none → notCData ev = true → False := by
      intro hq hn
      rw [List.filter_cons_of_pos hn] at h2
      simp [Partial.steps, hq] at h2
    have hadd : ∀ (q : Partial) d k, (q.add d k).inner.length = q.inner.length := by
      intro q d k
      unfold Partial.add
      split <;> simp_all
    cases ev
    case startElement l q u ns as => exact nest_steps evs _ st' _ p' h1 (hsome _ rfl rfl) (by simp [hl])
    case endElement l q u =>
      cases st with
      | nil => cases h1
      | cons x st =>
        simp only [nest] at h1
        split at h1
        · cases hi : p.inner with
          | nil => rw [hi] at hl; cases hl
          | cons y r =>
            refine nest_steps evs st st' ({ p with inner := r }.add y.1 y.2) p' h1 (hsome _ (by simp [Partial.step, hi]) rfl) ?_
            rw [hadd]
            rw [hi] at hl
            simpa using hl
        · cases h1
    case characters b =>
      cases hi : p.inner with
      | nil => exact (hnone (by simp [Partial.step, hi]) rfl).elim
      | cons y r => exact nest_steps evs st st' _ p' h1 (hsome _ (by simp only [Partial.step, hi]; rfl) rfl) (by rw [← hl, hi]; simp)
    case ignorable b =>
      cases hi : p.inner with
      | nil => exact (hnone (by simp [Partial.step, hi]) rfl).elim
      | cons y r => exact nest_steps evs st st' _ p' h1 (hsome _ (by simp only [Partial.step, hi]; rfl) rfl) (by rw [← hl, hi]; simp)
    case comment b => exact nest_steps evs st st' _ p' h1 (hsome _ rfl rfl) (by rw [hadd, hl])
    case pi t d => exact nest_steps evs st st' _ p' h1 (hsome _ rfl rfl) (by rw [hadd, hl])
    case cdata b =>
      rw [List.filter_cons_of_neg (by simp [notCData])] at h2
      exact nest_steps evs st st' p p' h1 h2 hl
    case internalSubset n e u =>
      cases hi : p.inner with
      | nil => exact nest_steps evs st st' _ p' h1 (hsome _ (by simp only [Partial.step, hi]; rfl) rfl) (by rw [hadd, hl])
      | cons y r => exact (hnone (by simp [Partial.step, hi]) rfl).elim
    case reference n =>
      cases hi : p.inner with
      | nil => exact (hnone (by simp [Partial.step, hi]) rfl).elim
      | cons y r => exact nest_steps evs st st' _ p' h1 (hsome _ (by simp only [Partial.step, hi]; rfl) rfl) (by rw [hadd, hl])
    all_goals exact nest_steps evs st st' _ p' h1 (hsome _ rfl rfl) hl

theorem Spec.Visible.count {l v : List Ev} (h : Visible l v) : references l ≤ lookups l := by
  induction h with
  | nil => exact Nat.le_refl _
  | @keep ev l v hev _ ih =>
    have h1 : references (ev :: l) = references l := by
      cases ev <;> first | rfl | exact absurd rfl (hev _)
    have h2 : lookups l ≤ lookups (ev :: l) := by
      unfold lookups
      rw [List.countP_cons]
      omega
    omega
  | @expand m n inner w l v hi hb hs hl ih1 ih =>
    simp only [references, lookups, List.countP_cons, List.countP_append] at *
    simp only [if_true, if_false, Bool.false_eq_true]
    omega

theorem Spec.Visible.skip {l v : List Ev} (h : Visible l v) : references l = lookups l → ∀ n r, unexpanded (n + 1) (l ++ r) = unexpanded (n + 1) r := by
  induction h with
  | nil => intro _ n r; rfl
  | @keep ev l v hev hl ih =>
    intro hc n r
    have := hl.count
    cases ev
    case reference => exact absurd rfl (hev _)
    case getEntity =>
      simp only [references, lookups, List.countP_cons] at *
      simp at hc
      omega
    all_goals
      rw [← ih (by simpa [references, lookups] using hc) n r]
      simp [unexpanded]
  | @expand m n inner w l v hi hb hs hl ih1 ih =>
    intro hc k r
    have h1 := hi.count
    have h2 := hl.count
    simp only [references, lookups, List.countP_cons, List.countP_append] at *
    simp only [if_true, if_false, Bool.false_eq_true] at hc
    rw [← ih (by omega) k r]
    simp only [List.cons_append, List.append_assoc, unexpanded]
    rw [ih1 (by omega) (k + 1)]
    simp [unexpanded]

theorem Spec.Visible.unexpanded {l v : List Ev} (h : Visible l v) : references l = lookups l → v = unexpanded 0 l := by
  induction h with
  | nil => intro _; rfl
  | @keep ev l v hev hl ih =>
    intro hc
    have := hl.count
    cases ev
    case reference => exact absurd rfl (hev _)
    case getEntity =>
      simp only [references, lookups, List.countP_cons] at *
      simp at hc
      omega
    all_goals
      rw [ih (by simpa [references, lookups] using hc)]
      simp [Spec.unexpanded]
  | @expand m n inner w l v hi hb hs hl ih1 ih =>
    intro hc
    have h1 := hi.count
    have h2 := hl.count
    have h3 := hi.skip
    simp only [references, lookups, List.countP_cons, List.countP_append] at *
    simp only [if_true, if_false, Bool.false_eq_true] at hc
    rw [ih (by omega)]
    simp only [List.cons_append, Spec.unexpanded]
    rw [h3 (by omega) 0]
    simp [Spec.unexpanded]

/-- what follows the document type declaration is expanded on its own. -/
theorem Spec.Visible.split {l v : List Ev} (h : Visible l v) : ∀ {a b : List Ev} {n e u : Bytes}, l = a ++ .externalSubset n e u :: b →
    ∃ va vb, v = va ++ .externalSubset n e u :: vb ∧ Visible a va ∧ Visible b vb := by
  induction h with
  | nil => intro a b n e u h; cases a <;> cases h
  | @keep ev l v hev hl ih =>
    intro a b n e u h
    cases a with
    | nil => cases h; exact ⟨[], v, rfl, .nil, hl⟩
    | cons x a =>
      cases h
      obtain ⟨va, vb, rfl, h1, h2⟩ := ih rfl
      exact ⟨ev :: va, vb, rfl, .keep hev h1, h2⟩
  | @expand m k inner w l v hi hb hs hl ih1 ih =>
    intro a b n e u h
    cases a with
    | nil => cases h
    | cons x a =>
      simp only [List.cons_append, List.cons.injEq] at h
      obtain ⟨rfl, h⟩ := h
      rcases List.append_eq_append_iff.1 h with ⟨c, h1, h2⟩ | ⟨c, h1, h2⟩
      · cases c with
        | nil => cases h2
        | cons y c =>
          cases h2
          obtain ⟨va, vb, rfl, k1, k2⟩ := ih rfl
          refine ⟨.getEntity m :: .reference k :: va, vb, rfl, ?_, k2⟩
          rw [h1]
          exact .expand hi hb hs k1
      · cases c with
        | nil => cases h2
        | cons y c =>
          cases h2
          exact absurd (by rw [h1]; simp) (hs n e u)

section
variable {σ : Type} (E : Env)

/-- only the trace. -/
abbrev AL (H : Handler σ) : Logic false H := TL H false (fun _ => True) (fun _ _ => trivial)

theorem AL_admits {H : Handler σ} : Admits (AL H) := Admits.of (fun _ _ _ => trivial)

theorem AL_ext {H : Handler σ} {α : Type} {p : P σ α} (hp : Sat (AL H) p) {s s' : St σ} {a : α} (h : p s = .ok a s') :
    ∃ m, s'.trace = s.trace ++ m := by
  have := hp s
  rw [h] at this
  obtain ⟨_, m, hm, _⟩ := this
  exact ⟨m, hm⟩

theorem AL_wide {H : Handler σ} : Wide (AL H) where
  q := fun _ _ => trivial
  cur := fun s c => ⟨by simp, [], by simp, by simp⟩
  sub := fun s n => ⟨by simp, [], by simp, by simp⟩
  nodes := fun s n => ⟨by simp, [], by simp, by simp⟩
  ns := fun s n => ⟨by simp, [], by simp, by simp⟩
  leave := by
    rintro s d h c fc lc t - ⟨h0, m, h1, h2⟩
    exact ⟨by simp, m, h1, h2⟩
  leaveX := by
    rintro s d h c fc lc t e - ⟨m, h1, h2⟩
    exact ⟨m, h1, h2⟩

theorem cb_trace {H : Handler σ} {ev : Ev} {s s' : St σ} (h : cb H ev s = .ok () s') :
    s' = cbSt H ev s ∧ (cbRes H ev s ∈ [HOut.ok, .unspecified] ∨ ∃ e, cbRes H ev s = .ent e) := by
  unfold cb callback at h
  unfold cbSt cbRes
  simp only [Bind.bind, M.bind] at h
  cases hr : (H s.view ev s.hc).1 <;> simp only [hr, Pure.pure, M.pure, M.fail, M.panic, M.diverge] at h <;> cases h <;> simp [hr]

theorem docTypeDecl_reported {H : Handler σ} {s s' : St σ} (h : parseDocTypeDecl E H s = .ok () s') :
    ∃ n e u o, (Ev.internalSubset n e u, o) ∈ s'.trace := by
  unfold parseDocTypeDecl at h
  simp only [bind_ok] at h
  obtain ⟨c, s1, _, h⟩ := h
  split at h
  · simp only [bind_ok] at h
    obtain ⟨_, s2, _, nm, s3, _, _, s4, _, _, s5, _, x, s6, _, _, s7, _, _, s8, _, _, s9, hc, _, s10, r10, h⟩ := h
    obtain ⟨h1, _⟩ := cb_trace hc
    obtain ⟨m1, e1⟩ := AL_ext (Silent.sat (Silent.peek E) (AL H)) r10
    have hin : (Ev.internalSubset nm x.2 x.1, cbRes H (.internalSubset nm x.2 x.1) s8) ∈ s10.trace := by
      rw [e1, h1]
      simp [cbSt, cbRes]
    split at h
    · simp only [pure_ok] at h
      rw [← h.2]
      exact ⟨_, _, _, _, hin⟩
    · obtain ⟨m2, e2⟩ := AL_ext (H := H) (Sat.bind (Silent.sat (Silent.need _ _) _) (fun _ => Silent.sat (Silent.adv 1) _)) h
      rw [e2]
      exact ⟨_, _, _, _, List.mem_append_left _ hin⟩
  · simp only [cerr_ok] at h

/-- a document type declaration is reported. -/
theorem doctype_reported {H : Handler σ} {snl : Nat} {s s' : St σ} (h : parseDoctypePart E H snl s = .ok () s')
    (hp : List.isPrefixOf b!"<!DOCTYPE" s.cur = true) : ∃ n e u o, (Ev.internalSubset n e u, o) ∈ s'.trace := by
  have hQ : Admits (AL H) := AL_admits
  have hA := Sat.attlistLoop (L := AL H) E hQ (fun _ _ _ _ _ _ _ => trivial)
  unfold parseDoctypePart at h
  rw [bind_run (a := true) (t := s) (by unfold hasPrefix; rw [hp])] at h
  simp only [if_true] at h
  rw [bind_ok] at h
  obtain ⟨_, s1, _, h⟩ := h
  rw [bind_ok] at h
  obtain ⟨_, s2, r2, h⟩ := h
  obtain ⟨n, e, u, o, hin⟩ := docTypeDecl_reported E (wrap_ok.1 r2)
  have hs : Sat (AL H) (do
      if (← hasPrefix b!"[") then M.wrap (parseInternalSubset E H snl) else pure ()
      M.modify (fun s => { s with inSubset := 2 })
      let s ← M.get
      cb H (.externalSubset s.intSubName s.extSubSystem s.extSubURI)
      M.modify (fun s => { s with inSubset := 0, attsSpecial := s.attsSpecial.filter (fun p => p.2 != 1) })
      M.wrap (parseMisc E H) : P σ Unit) := by
    have h1 : ∀ ev : Ev, Sat (AL H) (cb H ev) := fun ev => Sat.cb trivial
    have h2 : ∀ f : St σ → St σ, (∀ s, (f s).trace = s.trace) → Sat (AL H) (M.modify f : P σ Unit) :=
      fun f hf => Sat.modify (fun s => ⟨by simp, [], by simp [hf s], by simp⟩)
    repeat first | with_reducible exact h1 _ | exact h2 _ (fun _ => rfl) | sat1
  obtain ⟨m, hm⟩ := AL_ext hs h
  exact ⟨n, e, u, o, by rw [hm]; exact List.mem_append_left _ hin⟩

theorem doctype_absent {H : Handler σ} {snl : Nat} {s s' : St σ} (h : parseDoctypePart E H snl s = .ok () s')
    (hp : ¬ List.isPrefixOf b!"<!DOCTYPE" s.cur = true) : s' = s := by
  unfold parseDoctypePart at h
  rw [bind_run (a := false) (t := s) (by unfold hasPrefix; simp only [Bool.not_eq_true] at hp; rw [hp])] at h
  cases h
  rfl

/-- the empty document. -/
theorem TInv.start {tf : Nat} {v : HV} {c : HC σ} (hh : c.heap = Heap.empty) (he : c.elem = none) :
    TInv (treeBuilder tf v .startDocument c).2 0 ⟨[], .nil⟩ [] ∧ ((treeBuilder tf v .startDocument c).2.heap.at' 0).intSubset = none := by
  have hc : (treeBuilder tf v .startDocument c).2 = { c with heap := Heap.empty.alloc (mkDoc v.version v.encoding v.standalone), doc := some 0 } := by
    rw [← hh]
    show (tbUnit _ c).2 = _
    unfold tbUnit tbOut
    rw [show (0 : Nat) = c.heap.size by rw [hh]; rfl]
    rfl
  rw [hc]
  have R := rel_empty.alloc (mkDoc v.version v.encoding v.standalone) ⟨rfl, rfl, rfl, rfl⟩
  have hat : ∀ i, (Heap.empty.alloc (mkDoc v.version v.encoding v.standalone)).at' i =
      if i = 0 then mkDoc v.version v.encoding v.standalone else Heap.empty.at' i := fun i => rfl
  refine ⟨⟨_, [], rfl, R, ?_, rfl, by simpa using he, ⟨rfl, rfl, ?_⟩, DtdPart.none rfl, rfl⟩, rfl⟩
  · intro i x hx
    simp only [hat] at hx
    by_cases hi : i = 0
    · simp [hi, mkDoc] at hx
    · simp [hi, Heap.empty] at hx
  · show (1 : Nat) ≤ _
    exact Nat.le_refl 1

/-- the events around elements. -/
abbrev ML (H : Handler σ) : Logic false H := TL H false (fun ev => ev.inner ∨ ev.lookup) (fun _ h => Or.inr h)

theorem ML_admits {H : Handler σ} : Admits (ML H) := Admits.of (fun _ h _ => Or.inl h)

/-- outside of elements the events of comments and declarations open no element. -/
theorem steps_outer : ∀ (evs : List Ev) (p p' : Partial), (∀ ev ∈ evs, (ev.inner ∨ ev.lookup) ∧ notSub ev = true) → p.inner = [] → p.steps evs = some p' → p'.inner = []
  | [], p, p', _, h, e => by cases e; exact h
  | ev :: evs, p, p', hev, h, e => by
    have hrest := fun x hx => hev x (List.mem_cons_of_mem _ hx)
    have hadd : ∀ d k, (p.add d k).inner = [] := by
      intro d k
      unfold Partial.add
      rw [h]
    obtain ⟨h1, h2⟩ := hev ev List.mem_cons_self
    cases hs : p.step ev with
    | none => simp [Partial.steps, hs] at e
    | some q =>
      have e : q.steps evs = some p' := by simpa [Partial.steps, hs] using e
      refine steps_outer evs q p' hrest ?_ e
      cases ev
      case startElement => rcases h1 with h1 | h1 <;> exact (h1 : False).elim
      case endElement => rcases h1 with h1 | h1 <;> exact (h1 : False).elim
      case internalSubset => cases h2
      case characters => simp [Partial.step, h] at hs
      case cdata => simp [Partial.step, h] at hs
      case ignorable => simp [Partial.step, h] at hs
      case reference => simp [Partial.step, h] at hs
      case comment => simp only [Partial.step, Option.some.injEq] at hs; rw [← hs]; exact hadd _ _
      case pi => simp only [Partial.step, Option.some.injEq] at hs; rw [← hs]; exact hadd _ _
      all_goals (simp only [Partial.step, Option.some.injEq] at hs; rw [← hs]; exact h)

/-- a processing instruction. -/
def isPI : Ev → Bool
  | .pi _ _ => true
  | _ => false

theorem noPI_seg : ∀ (pre : List Ev) {b : Bool} {rest : List Ev}, (∀ ev ∈ pre, notSub ev = true) → noPIInside b (pre ++ rest) = true →
    (b = true → ∀ ev ∈ pre, isPI ev = false) ∧ noPIInside b rest = true
  | [], b, rest, _, h => ⟨fun _ _ hx => (by cases hx), h⟩
  | ev :: pre, b, rest, hn, h => by
    have hn' := fun x hx => hn x (List.mem_cons_of_mem _ hx)
    have h0 := hn ev List.mem_cons_self
    have key : (b = true → isPI ev = false) ∧ noPIInside b (pre ++ rest) = true := by
      cases ev
      case pi t d =>
        simp only [List.cons_append, noPIInside, Bool.and_eq_true] at h
        exact ⟨fun hb => by simp [hb] at h, h.2⟩
      case internalSubset => cases h0
      case externalSubset => cases h0
      all_goals exact ⟨fun _ => rfl, h⟩
    obtain ⟨h1, h2⟩ := noPI_seg pre hn' key.2
    refine ⟨fun hb x hx => ?_, h2⟩
    rcases List.mem_cons.1 hx with rfl | hx
    · exact key.1 hb
    · exact h1 hb x hx

theorem okIn_of {n : Nat} {m : List (Ev × HOut)} (hp : n ≠ 0 → ∀ x ∈ m, isPI x.1 = false) : ∀ x ∈ m, okIn n x.1 = true := by
  intro x hx
  have h2 := fun hn => hp hn x hx
  cases he : x.1 <;> simp only [okIn]
  case pi t d =>
    by_cases hn : n = 0
    · simp [hn]
    · have := h2 hn
      rw [he] at this
      cases this

theorem Silent.ok {kb : Bool} {α : Type} {p : P σ α} (hp : Silent kb p) {s s' : St σ} {a : α} (h : p s = .ok a s') : Quiet kb s s' := by
  have := hp s
  rwa [h] at this

theorem Sat.ok {kb : Bool} {α : Type} {H : Handler σ} {L : Logic kb H} {p : P σ α} (hp : Sat L p) {s s' : St σ} {a : α} (h : p s = .ok a s') : L.R s s' := by
  have := hp s
  rwa [h] at this

theorem SatI.ok {kb : Bool} {α : Type} {H : Handler σ} {L : Logic kb H} {I : St σ → Prop} {p : P σ α} (hp : SatI L I p) {s s' : St σ} {a : α}
    (h : p s = .ok a s') (hi : I s) : L.R s s' := by
  have := hp s hi
  rwa [h] at this

/-- the start of the document type declaration makes one report. -/
theorem docTypeDecl_run {H : Handler σ} {s s' : St σ} (h : parseDocTypeDecl E H s = .ok () s') :
    ∃ n e u t, Quiet true s t ∧ Quiet true (cbSt H (.internalSubset n e u) t) s' ∧
      (cbRes H (.internalSubset n e u) t ∈ [HOut.ok, .unspecified] ∨ ∃ x, cbRes H (.internalSubset n e u) t = .ent x) := by
  unfold parseDocTypeDecl at h
  simp only [bind_ok] at h
  obtain ⟨c, s1, r1, h⟩ := h
  split at h
  · simp only [bind_ok] at h
    obtain ⟨_, s2, r2, nm, s3, r3, _, s4, r4, _, s5, r5, x, s6, r6, _, s7, r7, _, s8, r8, _, s9, hc, _, s10, r10, h⟩ := h
    have hm : ∀ {f : St σ → St σ} {a b : St σ}, M.modify f a = .ok () b → Quiet true a (f a) → Quiet true a b := by
      intro f a b h q
      cases h
      exact q
    have q8 : Quiet true s s8 := ((((((((Silent.consume _).ok r1).trans (Silent.skipBlanks.ok r2)).trans ((Silent.orElse (Silent.parseName E)).ok r3)).trans
      (hm r4 ⟨List.suffix_refl _, rfl, rfl, rfl, rfl, rfl, rfl, rfl, fun _ => ⟨rfl, rfl⟩, Tabs0.refl _, rfl⟩)).trans (Silent.skipBlanks.ok r5)).trans
      ((Silent.wrap Silent.parseExternalID).ok r6)).trans (hm r7 ⟨List.suffix_refl _, rfl, rfl, rfl, rfl, rfl, rfl, rfl, fun _ => ⟨rfl, rfl⟩, Tabs0.refl _, rfl⟩)).trans (Silent.skipBlanks.ok r8)
    obtain ⟨rfl, ho⟩ := cb_trace hc
    refine ⟨nm, x.2, x.1, s8, q8, ?_, ho⟩
    refine ((Silent.peek E).ok r10).trans ?_
    split at h
    · simp only [pure_ok] at h
      rw [← h.2]
      exact Quiet.refl _
    · exact Silent.ok (Silent.bind (Silent.need _ _) (fun _ => Silent.adv 1)) h
  · simp only [cerr_ok] at h

theorem TStep.tree {dn : Nat} {s s' : St σ} (h : TStep dn s s') {b : Bool}
    (hb : b = true ∨ s.inSubset = 0) :
    s'.inSubset = s.inSubset ∧ ∃ mid, s'.trace = s.trace ++ mid ∧ (∀ x ∈ mid, notSub x.1 = true) ∧ (s.inSubset ≠ 0 → notRef mid) ∧
      ∀ rest st ds o, TSt dn s st ds o → noPIInside b (mid.map (·.1) ++ rest) = true → noPIInside b rest = true ∧ (o = none → notRef mid) ∧
        ∃ vis st', Visible (mid.map (·.1)) vis ∧ st.steps (vis.filter notCData) = some st' ∧ TSt dn s' st' (ds ++ (mid.map (·.1)).filter isDecl) o := by
  obtain ⟨hs, mid, h1, h2, h3, h4, _⟩ := h
  refine ⟨hs, mid, h1, h2, h3, fun rest st ds o I hp => ?_⟩
  obtain ⟨p1, p2⟩ := noPI_seg (mid.map (·.1)) (fun ev hev => by obtain ⟨x, hx, rfl⟩ := List.mem_map.1 hev; exact h2 x hx) hp
  refine ⟨p2, h4 st ds o (okIn_of (fun hn x hx => ?_)) I⟩
  rcases hb with hb | hb
  · exact p1 hb x.1 (List.mem_map.2 ⟨x, hx, rfl⟩)
  · exact absurd hb hn

theorem notRef.vis {m : List (Ev × HOut)} (h : notRef m) {vis : List Ev} (v : Visible (m.map (·.1)) vis) : vis = m.map (·.1) :=
  v.eq (fun ev hev => by obtain ⟨x, hx, rfl⟩ := List.mem_map.1 hev; exact h x hx)

theorem parse_tree {tf fuel snl : Nat} {usr : σ} {input : Bytes} {s : St σ}
    (h : parseDocument E (treeBuilder tf) fuel snl (initSt usr Heap.empty input) = .ok () s)
    (hn : noPIInside false (s.trace.map (·.1)) = true) :
    ∃ vis st o, Visible (s.trace.map (·.1)) vis ∧ Partial.steps ⟨[], .nil⟩ (vis.filter notCData) = some st ∧ TSt 0 s st ((s.trace.map (·.1)).filter isDecl) o ∧
      (o = none ↔ ∀ x ∈ s.trace, ∀ n e u, x.1 ≠ .internalSubset n e u) ∧ (o = none → notRef s.trace) ∧
      (∀ pre n e u post, s.trace.map (·.1) = pre ++ .externalSubset n e u :: post → ∀ m, .reference m ∉ pre) ∧
      (s.trace.map (·.1)).countP isInt ≤ 1 := by
  unfold parseDocument at h
  rw [parseHead_eq] at h
  simp only [bind_ok] at h
  obtain ⟨_, s1, ⟨_, s0, r0, r1⟩, _, s2, r2, _, s3, r3, _, s4, r4, _, s5, r5, h⟩ := h
  obtain ⟨rfl, _⟩ := cb_trace r0
  -- nothing is built before the document starts
  have q1 := (Silent.headRest (kb := true) E).ok r1
  obtain ⟨q1h, q1a⟩ := q1.heap rfl
  have q2 : s2.hc = s1.hc ∧ s2.trace = s1.trace ∧ s2.inSubset = s1.inSubset ∧ s2.attsDefault = s1.attsDefault := by
    have r2 := wrap_ok.1 r2
    unfold switchEncoding at r2
    rw [get_bind] at r2
    cases he : encLoad (if s1.encoding ≠ [] then s1.encoding else if s1.detected ≠ [] then s1.detected else b!"utf8") with
    | none => rw [he] at r2; cases r2
    | some c =>
      rw [he] at r2
      cases r2
      exact ⟨rfl, rfl, rfl, rfl⟩
  obtain ⟨rfl, _⟩ := cb_trace r3
  have I3 : TSt 0 (cbSt (treeBuilder tf) .startDocument s2) ⟨[], .nil⟩ [] none := by
    obtain ⟨h1, h2⟩ := TInv.start (tf := tf) (v := s2.view) (c := s2.hc) (by rw [q2.1, q1h]; rfl) (by rw [q2.1, q1.elem]; rfl)
    refine ⟨h1, ?_, h2⟩
    intro k l hk
    have : s2.attsDefault = [] := q2.2.2.2.trans q1a
    rw [show (cbSt (treeBuilder tf) Ev.startDocument s2).attsDefault = s2.attsDefault from rfl, this] at hk
    cases hk
  have O3 : (cbSt (treeBuilder tf) .startDocument s2).inSubset = 0 := q2.2.2.1.trans q1.inSubset
  have T3 : ((cbSt (treeBuilder tf) .startDocument s2).trace.map (·.1)) = [.setDocumentLocator, .startDocument] := by
    show (s2.trace ++ _).map _ = _
    rw [q2.2.1, q1.trace]
    rfl
  generalize cbSt (treeBuilder tf) .startDocument s2 = s3 at r4 I3 O3 T3
  have m4 : TStep 0 s3 s4 := (Sat.wrap (Sat.parseMisc E (TR_admits (σ := σ) (tf := tf) (dn := 0)))).ok r4
  obtain ⟨o4, mid4, e4, n4, -, f4⟩ := m4.tree (b := false) (Or.inr O3)
  rw [parseTail_eq, bind_ok] at h
  obtain ⟨_, s6, r6, r7⟩ := h
  obtain ⟨rfl, hcb⟩ := cb_trace r7
  have htail : s5.inSubset = 0 → TStep 0 s5 (cbSt (treeBuilder tf) .endDocument s6) := fun hz =>
    (SatI.ok (SatI.tr_tail (σ := σ) (tf := tf) (dn := 0) E fuel) r6 hz).trans
      (TStep.cb rfl (Or.inl trivial) (hcb.elim Or.inl (fun h => Or.inr (Or.inl h))))
  generalize cbSt (treeBuilder tf) .endDocument s6 = s7 at htail hn r7
  have T3' : ∀ x ∈ s3.trace, ∀ n e u, x.1 ≠ .internalSubset n e u := by
    intro x hx n e u hxe
    have : x.1 ∈ s3.trace.map (·.1) := List.mem_map.2 ⟨x, hx, rfl⟩
    rw [T3, hxe] at this
    simp at this
  have hns : ∀ {m : List (Ev × HOut)}, (∀ x ∈ m, notSub x.1 = true) → ∀ x ∈ m, ∀ n e u, x.1 ≠ .internalSubset n e u := by
    intro m hm x hx n e u he
    have := hm x hx
    rw [he] at this
    cases this
  by_cases hp : List.isPrefixOf b!"<!DOCTYPE" s4.cur = true
  · unfold parseDoctypePart at r5
    rw [bind_run (a := true) (t := s4) (by unfold hasPrefix; rw [hp])] at r5
    simp only [if_true, bind_ok] at r5
    obtain ⟨_, a1, y1, _, a2, y2, c, a3, y3, r5⟩ := r5
    cases y1
    obtain ⟨n, e, u, t, k1, k2, ko⟩ := docTypeDecl_run E (wrap_ok.1 y2)
    have hsub : ∃ a4, TStep 0 a2 a4 ∧ (do
        M.modify (fun s => { s with inSubset := 2 })
        let s ← M.get
        cb (treeBuilder tf) (.externalSubset s.intSubName s.extSubSystem s.extSubURI)
        M.modify (fun s => { s with inSubset := 0, attsSpecial := s.attsSpecial.filter (fun p => p.2 != 1) })
        M.wrap (parseMisc E (treeBuilder tf)) : P σ Unit) a4 = .ok () s5 := by
      have z1 : TStep 0 a2 a3 := (TR σ tf 0).quiet ((Silent.hasPrefix _).ok y3)
      split at r5
      · rw [bind_ok] at r5
        obtain ⟨_, a4, y4, r5⟩ := r5
        exact ⟨a4, z1.trans ((Sat.wrap (Sat.parseInternalSubset E (Sat.attlistLoop E (TR_admits (σ := σ) (tf := tf) (dn := 0)) (fun _ _ _ _ _ _ _ => trivial)) TR_admits snl)).ok y4), r5⟩
      · exact ⟨a3, z1, r5⟩
    obtain ⟨a4, z2, r5⟩ := hsub
    simp only [bind_ok, get_ok] at r5
    obtain ⟨_, a5, y5, _, _, ⟨rfl, rfl⟩, _, a6, y6, _, a7, y7, y8⟩ := r5
    cases y5
    obtain ⟨rfl, -⟩ := cb_trace y6
    cases y7
    have z3 := ((Sat.wrap (Sat.parseMisc E (TR_admits (σ := σ) (tf := tf) (dn := 0)))).ok y8)
    have z3 := z3.trans (htail z3.1)
    have hsub2 : a2.inSubset = 1 := k2.inSubset.trans k1.inSubset
    obtain ⟨o5, mid5, e5, n5, g5, f5⟩ := z2.tree (b := true) (Or.inl rfl)
    obtain ⟨o6, mid6, e6, n6, -, f6⟩ := z3.tree (b := false) (Or.inr rfl)
    have hT : s7.trace = s3.trace ++ (mid4 ++ (Ev.internalSubset n e u, cbRes (treeBuilder tf) (.internalSubset n e u) t) ::
        (mid5 ++ (Ev.externalSubset a4.intSubName a4.extSubSystem a4.extSubURI,
          cbRes (treeBuilder tf) (.externalSubset a4.intSubName a4.extSubSystem a4.extSubURI) { a4 with inSubset := 2 }) :: mid6)) := by
      rw [e6]
      show (a4.trace ++ _) ++ _ = _
      rw [e5, k2.trace]
      show ((t.trace ++ _) ++ _ ++ _) ++ _ = _
      rw [k1.trace]
      show ((s4.trace ++ _) ++ _ ++ _) ++ _ = _
      rw [e4]
      simp [cbRes, St.view]
    have hE : s7.trace.map (·.1) = [.setDocumentLocator, .startDocument] ++ (mid4.map (·.1) ++ .internalSubset n e u ::
        (mid5.map (·.1) ++ .externalSubset a4.intSubName a4.extSubSystem a4.extSubURI :: mid6.map (·.1))) := by
      rw [hT, List.map_append, T3]
      simp
    rw [hE] at hn
    obtain ⟨hn5, g4, vis4, st4, v4, t4, I4⟩ := f4 _ _ _ _ I3 hn
    obtain rfl := (g4 rfl).vis v4
    -- no element is open
    have hin : st4.inner = [] := by
      obtain ⟨_, m', hm', hm''⟩ := (Sat.wrap (Sat.parseMisc E (ML_admits (H := (treeBuilder tf : Handler σ))))).ok r4
      obtain rfl : m' = mid4 := List.append_cancel_left (hm'.symm.trans e4)
      refine steps_outer _ _ _ (fun ev hev => ?_) rfl t4
      obtain ⟨x, hx, rfl⟩ := List.mem_map.1 (List.mem_filter.1 hev).1
      exact ⟨(hm'' x hx).1, n4 x hx⟩
    have hds : (mid4.map (·.1)).filter isDecl = [] := by
      obtain ⟨⟨a, fs, i1, R, T, i5, i6, Z, D, _⟩, _, h3⟩ := I4
      unfold DtdPart at D
      rw [h3] at D
      simpa using D
    have hct : ∀ {a b : St σ}, Quiet true a b → b.hc = a.hc := by
      intro a b k
      have e1 := k.usr; have e2 := k.doc; have e3 := k.elem; have e4 := (k.heap rfl).1
      cases h1 : a.hc; cases h2 : b.hc
      simp only [h1, h2] at e1 e2 e3 e4
      subst e1 e2 e3 e4
      rfl
    have It : TInv t.hc 0 st4 [] := by
      rw [hct k1]
      simpa [hds] using I4.1
    have Mt : Marked t.attsDefault t.hc.heap := by
      rw [hct k1, (k1.heap rfl).2]
      exact I4.2.1
    obtain ⟨c', y, I5, hi5⟩ := tbInternalSubset_inv It hin n e u
    have hc' : (cbSt (treeBuilder tf) (.internalSubset n e u) t).hc = c' := by
      show (tbUnit (tbInternalSubset n e u) t.hc).2 = c'
      have := tbOut_ok (p := tbInternalSubset n e u) (c := t.hc) ko
      rw [y] at this
      injection this with _ this
      exact this.symm
    have I2 : TSt 0 a2 (st4.add (.dtd n e u) .nil) [] (some t.hc.heap.size) := by
      unfold TSt
      rw [hct k2, (k2.heap rfl).2, hc']
      refine ⟨I5, ?_, hi5⟩
      rw [← hc']
      exact Mt.grows (treeBuilder_tabs tf t.view (.internalSubset n e u) t.hc).grows
    obtain ⟨hn6, -, vis5, st5, v5, t5, I5⟩ := f5 _ _ _ _ I2 hn5
    obtain ⟨-, -, vis6, st6, v6, t6, I6⟩ := f6 [] st5 _ (some t.hc.heap.size) I5 (by simpa [noPIInside] using hn6)
    refine ⟨[.setDocumentLocator, .startDocument] ++ (mid4.map (·.1) ++ .internalSubset n e u ::
        (vis5 ++ .externalSubset a4.intSubName a4.extSubSystem a4.extSubURI :: vis6)), st6, some t.hc.heap.size, ?_, ?_, ?_,
      ⟨nofun, fun hx => absurd rfl (hx (Ev.internalSubset n e u, cbRes (treeBuilder tf) (.internalSubset n e u) t) (by rw [hT]; simp) n e u)⟩, nofun, fun pre n' e' u' post hpre m hm => ?_, ?_⟩
    · rw [hE]
      exact .keep nofun (.keep nofun (v4.append (.keep nofun (v5.append (.keep nofun v6)))))
    · rw [List.filter_append, List.filter_append, Partial.steps_append]
      show Partial.steps ⟨[], .nil⟩ (_ ++ _) = _
      rw [Partial.steps_append, t4, List.filter_cons_of_pos rfl, List.filter_append, List.filter_cons_of_pos rfl]
      show (st4.step _).bind _ = _
      simp only [Partial.step, hin, Option.bind_some]
      rw [Partial.steps_append, t5]
      exact t6
    · have e : (s7.trace.map (·.1)).filter isDecl = (mid5.map (·.1)).filter isDecl ++ (mid6.map (·.1)).filter isDecl := by
        rw [hE, List.filter_append, List.filter_append, hds]
        simp [isDecl]
      rw [e]
      simpa using I6
    · rw [hE, show ∀ (p q r : List Ev) (x y z w : Ev), [x, y] ++ (p ++ z :: (q ++ w :: r)) = ([x, y] ++ p ++ z :: q) ++ w :: r by intros; simp] at hpre
      have hno : ∀ {m : List (Ev × HOut)}, (∀ x ∈ m, notSub x.1 = true) → ∀ n e u, Ev.externalSubset n e u ∉ m.map (·.1) := by
        intro m hm n e u h
        obtain ⟨x, hx, he⟩ := List.mem_map.1 h
        have := hm x hx
        rw [he] at this
        cases this
      have hrf : ∀ {m : List (Ev × HOut)}, notRef m → ∀ n, Ev.reference n ∉ m.map (·.1) := by
        intro m hm n h
        obtain ⟨x, hx, he⟩ := List.mem_map.1 h
        exact hm x hx n he
      rcases List.append_eq_append_iff.1 hpre with ⟨c, h1, h2⟩ | ⟨c, h1, h2⟩
      · cases c with
        | nil =>
          rw [List.append_nil] at h1
          rw [h1] at hm
          simp only [List.mem_append, List.mem_cons] at hm
          rcases hm with (hm | hm) | hm | hm
          · simp at hm
          · exact hrf (g4 rfl) _ hm
          · cases hm
          · exact hrf (g5 (by rw [hsub2]; decide)) _ hm
        | cons y c =>
          injection h2 with _ h2
          exact (hno n6 n' e' u' (by rw [h2]; exact List.mem_append_right _ List.mem_cons_self)).elim
      · have hm' : Ev.reference m ∈ [Ev.setDocumentLocator, .startDocument] ++ mid4.map (·.1) ++ .internalSubset n e u :: mid5.map (·.1) := by
          rw [h1]; exact List.mem_append_left _ hm
        simp only [List.mem_append, List.mem_cons] at hm'
        rcases hm' with (hm | hm) | hm | hm
        · simp at hm
        · exact hrf (g4 rfl) _ hm
        · cases hm
        · exact hrf (g5 (by rw [hsub2]; decide)) _ hm
    · rw [hE]
      simp [List.countP_append, List.countP_cons, countInt_zero n4, countInt_zero n5, countInt_zero n6, isInt]
  · have h5 := doctype_absent E r5 hp
    subst h5
    obtain ⟨o6, mid6, e6, n6, -, f6⟩ := (htail (o4.trans O3)).tree (b := false) (Or.inr (o4.trans O3))
    have hT : s7.trace = s3.trace ++ (mid4 ++ mid6) := by rw [e6, e4, List.append_assoc]
    have hE : s7.trace.map (·.1) = [.setDocumentLocator, .startDocument] ++ (mid4.map (·.1) ++ mid6.map (·.1)) := by
      rw [hT, List.map_append, List.map_append, T3]
    rw [hE] at hn
    obtain ⟨hn6, g4, vis4, st4, v4, t4, I4⟩ := f4 _ _ _ _ I3 hn
    obtain ⟨-, g6, vis6, st6, v6, t6, I6⟩ := f6 [] _ _ _ I4 (by simpa using hn6)
    have hnr : notRef s7.trace := by
      intro x hx
      rw [hT] at hx
      rcases List.mem_append.1 hx with hx | hx
      · intro n hxe
        have : x.1 ∈ s3.trace.map (·.1) := List.mem_map.2 ⟨x, hx, rfl⟩
        rw [T3, hxe] at this
        simp at this
      · rcases List.mem_append.1 hx with hx | hx
        · exact g4 rfl x hx
        · exact g6 rfl x hx
    refine ⟨[.setDocumentLocator, .startDocument] ++ (vis4 ++ vis6), st6, none, ?_, ?_, ?_, ⟨fun _ x hx => ?_, fun _ => rfl⟩, fun _ => hnr, fun pre n e u post hpre m hm => ?_, ?_⟩
    · rw [hE]
      exact .keep nofun (.keep nofun (v4.append v6))
    · rw [List.filter_append, List.filter_append, Partial.steps_append]
      show Partial.steps ⟨[], .nil⟩ (_ ++ _) = _
      rw [Partial.steps_append, t4]
      exact t6
    · rw [hE, List.filter_append, List.filter_append]
      simpa [isDecl] using I6
    · rw [hT] at hx
      rcases List.mem_append.1 hx with hx | hx
      · exact T3' x hx
      · rcases List.mem_append.1 hx with hx | hx
        · exact hns n4 x hx
        · exact hns n6 x hx
    · have : Ev.reference m ∈ s7.trace.map (·.1) := by rw [hpre]; exact List.mem_append_left _ hm
      obtain ⟨x, hx, he⟩ := List.mem_map.1 this
      exact hnr x hx m he
    · rw [hE]
      simp [List.countP_append, List.countP_cons, countInt_zero n4, countInt_zero n6, isInt]

end
end Helium
