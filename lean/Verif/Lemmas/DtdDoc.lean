import Verif.Lemmas.AttTab
/-! Running the parser on a document with a document type declaration. -/
namespace Helium
open Spec

section
variable {σ : Type} {E : Env} {H : Handler σ} {G : Nat → HC σ → Prop}

/-- reading the declarations of `ds` reports them and leaves the handler ready for the document; `R` holds of the tables of types and default
attributes, and of the handler after the document. -/
def DtdReady (E : Env) (H : Handler σ) (G : Nat → HC σ → Prop) (B : Nat) (D : HV) (snl : Nat) (n : Bytes) (ds : List Decl)
    (R : List (Bytes × Nat) → List (Bytes × List (Bytes × Nat)) → HC σ → Prop) : Prop :=
  ∀ s : St σ, s.inSubset = 0 → s.ns = [] → G 0 s.hc → s.attsDefault = [] → s.attsSpecial = [] →
    ∃ s', declareDoctype H snl n ds s = .ok () s' ∧ s'.cur = s.cur ∧ s'.ns = s.ns ∧ s'.nodes = s.nodes ∧ s'.view = s.view ∧
      (∃ tr, s'.trace = s.trace ++ tr ∧ tr.map (·.1) = doctypeEvents n ds) ∧ ∃ F' G', Willing B D H F' G' ∧ G' 0 s'.hc ∧
        Supplied B H G' (defaultAttrs E s'.attsDefault) ∧ ∀ c, G' 0 c → R s'.attsSpecial s'.attsDefault c

theorem willing_of_takes (hH : Takes H) (B : Nat) (D : HV) : Willing B D H (fun _ => True) (fun _ _ => True) where
  locator := fun _ => ⟨takes_took hH (by simp) _ _, trivial⟩
  startDoc := fun _ => ⟨takes_took hH (by simp) _ _, trivial⟩
  endDoc := fun _ => ⟨takes_took hH (by simp) _ _, trivial⟩
  start := fun _ _ _ _ => ⟨takes_took hH (by simp) _ _, trivial⟩
  stop := fun _ _ => ⟨takes_took hH (by simp) _ _, trivial⟩
  comment := fun _ _ => ⟨takes_took hH (by simp) _ _, trivial⟩
  pi := fun _ _ => ⟨takes_took hH (by simp) _ _, trivial⟩
  text := fun _ _ => ⟨takes_took hH (by simp) _ _, trivial⟩
  blank := fun _ _ => ⟨takes_took hH (by simp) _ _, trivial⟩
  cdata := fun _ _ => ⟨takes_took hH (by simp) _ _, trivial⟩

theorem ready_of_takes (E : Env) (hH : Takes H) (G : Nat → HC σ → Prop) (B : Nat) (D : HV) {snl : Nat} (n : Bytes) {ds : List Decl}
    (h : ∀ d ∈ ds, Decl.Spelled d ∧ d.Short snl) (hna : ∀ d ∈ ds, d.NoAttrs) : DtdReady E H G B D snl n ds (fun sp df _ => sp = [] ∧ df = []) := by
  intro s hi _ _ hd hs
  obtain ⟨s', r, c1, c2, c3, c4, c5, c6⟩ := declareDoctype_noted hH n h s hi
  obtain ⟨k1, k2⟩ := c6 hna
  have e1 : s'.attsDefault = [] := k1.trans hd
  refine ⟨s', r, c1, c2, c3, c4, c5, _, _, willing_of_takes hH B D, trivial, ?_, fun c _ => ⟨by rw [k2, hs]; rfl, e1⟩⟩
  rw [e1]
  intro n v c l p u as ds h1 h2 h3 h4
  exact (willing_of_takes hH B D).supplied h1 (n := n) h2 h3 h4

/-- for a handler that leaves the heap alone, the tables are those of the declarations. -/
theorem ready_of_keeps (E : Env) (hH : Takes H) (hK : KeepsHeap H) (G : Nat → HC σ → Prop) (B : Nat) (D : HV) {snl : Nat} (n : Bytes) {ds : List Decl}
    (h : ∀ d ∈ ds, Decl.Spelled d ∧ d.Short snl) (ho : ∀ d ∈ ds, Decl.OK snl d) (hc : ∀ x ∈ attDefs ds, 58 ∉ x.1) :
    DtdReady E H G B D snl n ds (fun sp df c => sp = (typeTab [] (attDefs ds)).filter (fun p => p.2 != 1) ∧
      ∀ e, Pairs (fun x p => p.1 = x.name ∧ DefNode c.heap p.2 x) (givens (attDefs ds) e) ((mapGet df e).getD [])) := by
  intro s hi hn _ hd hs
  obtain ⟨s', r, c1, c2, c3, c4, c5, _⟩ := declareDoctype_noted hH n h s hi
  obtain ⟨k1, k2⟩ := doctype_tab (K := True) (fun _ => hK) n ho (fun _ => hc) hs hd hn r
  have W : Willing B D H (fun c => c.heap = s'.hc.heap) (fun _ c => c.heap = s'.hc.heap) := by
    exact {
      locator := fun h => ⟨takes_took hH (by simp) _ _, (hK _ _ _).trans h⟩
      startDoc := fun h => ⟨takes_took hH (by simp) _ _, (hK _ _ _).trans h⟩
      endDoc := fun h => ⟨takes_took hH (by simp) _ _, (hK _ _ _).trans h⟩
      start := fun _ h1 _ _ => ⟨takes_took hH (by simp) _ _, (hK _ _ _).trans h1⟩
      stop := fun _ h1 => ⟨takes_took hH (by simp) _ _, (hK _ _ _).trans h1⟩
      comment := fun _ h1 => ⟨takes_took hH (by simp) _ _, (hK _ _ _).trans h1⟩
      pi := fun _ h1 => ⟨takes_took hH (by simp) _ _, (hK _ _ _).trans h1⟩
      text := fun _ h1 => ⟨takes_took hH (by simp) _ _, (hK _ _ _).trans h1⟩
      blank := fun _ h1 => ⟨takes_took hH (by simp) _ _, (hK _ _ _).trans h1⟩
      cdata := fun _ h1 => ⟨takes_took hH (by simp) _ _, (hK _ _ _).trans h1⟩ }
  refine ⟨s', r, c1, c2, c3, c4, c5, _, _, W, rfl, ?_, fun c hc' => ⟨k1, fun e => ?_⟩⟩
  · intro n v c l p u as ds _ h2 _ _
    exact ⟨takes_took hH (by simp) _ _, (hK _ _ _).trans h2⟩
  · rw [hc']
    exact k2 trivial e

theorem doctype_head {n : List Nat} {ds : List Decl} {t : List Nat} (h : DoctypeText E n ds t) : ∃ t', t = 60 :: 33 :: 68 :: t' := by
  cases h <;> exact ⟨_, rfl⟩

theorem decl_plain (d : Decl) : ∀ ev ∈ d.events, plainEv ev = ev := by
  cases d with
  | entity p n l v => cases p <;> · intro ev hev; simp [Decl.events] at hev; rcases hev with rfl | rfl <;> rfl
  | attlist n as => intro ev hev; obtain ⟨a, _, rfl⟩ := List.mem_map.1 hev; rfl
  | _ => intro ev hev; simp [Decl.events] at hev; subst hev; rfl

theorem doctype_plain (n : Bytes) (ds : List Decl) : (doctypeEvents n ds).map plainEv = doctypeEvents n ds := by
  rw [List.map_congr_left (g := id)]
  · simp
  · intro ev hev
    rcases List.mem_cons.1 hev with rfl | hev
    · rfl
    · rcases List.mem_append.1 hev with hev | hev
      · obtain ⟨d, _, hd⟩ := List.mem_flatMap.1 hev
        exact decl_plain d ev hd
      · rw [List.mem_singleton] at hev; subst hev; rfl

theorem declared_decl (tok : Bytes → Bytes → Bool) (dfl : Bytes → Bytes → List AttrD) (n : Bytes) (ds : List Decl) :
    (doctypeEvents n ds).map (declared tok dfl) = doctypeEvents n ds := by
  rw [List.map_congr_left (g := id)]
  · simp
  · intro ev hev
    rcases List.mem_cons.1 hev with rfl | hev
    · rfl
    · rcases List.mem_append.1 hev with hev | hev
      · obtain ⟨d, _, hd⟩ := List.mem_flatMap.1 hev
        cases d with
        | entity p n l v => cases p <;> · simp [Decl.events] at hd; rcases hd with rfl | rfl <;> rfl
        | attlist n as => obtain ⟨a, _, rfl⟩ := List.mem_map.1 hd; rfl
        | _ => simp [Decl.events] at hd; subst hd; rfl
      · rw [List.mem_singleton] at hev; subst hev; rfl

theorem declared_misc (tok : Bytes → Bytes → Bool) (dfl : Bytes → Bytes → List AttrD) {t : List Nat} {evs : List Ev} (h : Misc E t evs) :
    evs.map (declared tok dfl) = evs := by
  induction h with
  | nil => rfl
  | space _ _ ih => exact ih
  | comment _ _ ih => rw [List.map_cons, ih]; rfl
  | pi _ _ ih => rw [List.map_cons, ih]; rfl

theorem dtdDocument_run {B : Nat} {t v e : List Nat} {sd : Int} {ds : List Decl} {F : HC σ → Prop} (W : Willing B ⟨v, e, sd, 0⟩ H F G) {evs : List Ev}
    (h : DtdDocument E t v e sd ds evs) (usr : σ) (fuel snl : Nat) {R : List (Bytes × Nat) → List (Bytes × List (Bytes × Nat)) → HC σ → Prop}
    (hR : ∀ n t, DoctypeText E n ds t → DtdReady E H G B ⟨v, e, sd, 0⟩ snl (encodeRunes n) ds R)
    (hW : ∀ sp df c, R sp df c → ∀ ev ∈ evs, Worded (tokOf sp) ev) (hF : F ⟨usr, Heap.empty, none, none⟩) (hf : t.length ≤ fuel) (hB : (encodeRunes t).length + 1 < B) :
    ∃ s', parseDocument E H fuel snl (initSt usr Heap.empty (encodeRunes t)) = .ok () s' ∧
      (∃ sp df, s'.trace.map (fun x => plainEv x.1) = evs.map (declared (tokOf sp) (defaultAttrs E df)) ∧ R sp df s'.hc) ∧ s'.version = v ∧ s'.encoding = e ∧ s'.standalone = sd := by
  obtain ⟨h0, m1, n, dt, m2, root, m3, e1, e2, e3, e4, used, rfl, hh, hm1, hdt, hm2, hroot, hm3, hl, rfl⟩ := h
  obtain ⟨dt', hdt'⟩ := doctype_head hdt
  obtain ⟨c, r, hr, c1, c2, c3⟩ := src_elem_head hroot rfl
  have hne : m1 ++ (dt ++ (m2 ++ (root ++ m3))) ≠ [] := by simp [hdt']
  have hhd : ∀ c, (m1 ++ (dt ++ (m2 ++ (root ++ m3)))).head? = some c → Ws c ∨ c = 60 := by
    intro x hx
    cases m1 with
    | nil => rw [hdt'] at hx; cases hx; exact Or.inr rfl
    | cons y m => cases hx; exact misc_head hm1 _ rfl
  obtain ⟨o, hc, ho, hFc, r1⟩ := start_run W hh hhd hne hl usr fuel snl hF
  rw [r1]
  have hlen : (encodeRunes root).length ≤ (encodeRunes (h0 ++ (m1 ++ (dt ++ (m2 ++ (root ++ m3)))))).length := by
    simp only [encodeRunes_append, List.length_append]; omega
  generalize hs0 : ({ (initSt usr Heap.empty (encodeRunes (h0 ++ (m1 ++ (dt ++ (m2 ++ (root ++ m3))))))) with
      cur := m1 ++ (dt ++ (m2 ++ (root ++ m3))), version := v, encoding := e, standalone := sd, hc := hc, trace := [] ++ [(.setDocumentLocator, o)] } : St σ) = s0
  have i1 : s0.cur = m1 ++ (dt ++ (m2 ++ (root ++ m3))) := by rw [← hs0]
  have i2 : s0.ns = [] := by rw [← hs0]; rfl
  have i3 : s0.inSubset = 0 := by rw [← hs0]; rfl
  have i4 : s0.attsSpecial = [] := by rw [← hs0]; rfl
  have i5 : s0.attsDefault = [] := by rw [← hs0]; rfl
  have i6 : s0.view = ⟨v, e, sd, 0⟩ := by rw [← hs0]; rfl
  have i7 : F s0.hc := by rw [← hs0]; exact hFc
  have i8 : s0.trace = [(.setDocumentLocator, o)] := by rw [← hs0]; rfl
  clear hs0 r1
  obtain ⟨s1, r2, w1⟩ := cb_took (H := H) (G := G) (n := 0) (s := s0) (ev := .startDocument) (by rw [i6]; exact W.startDoc i7)
  rw [bind_run r2]
  obtain ⟨tr1, hc1, rfl, q1, _, g1⟩ := w1
  obtain ⟨s2, r3, w2⟩ := parseMisc_run W hm1 (w := dt ++ (m2 ++ (root ++ m3)))
    (Or.inr ⟨33, 68 :: (dt' ++ (m2 ++ (root ++ m3))), by rw [hdt']; rfl, by decide, .inr rfl⟩) 0 ({ s0 with hc := hc1, trace := s0.trace ++ tr1 } : St σ) i1 i3 g1
  rw [bind_run (wrap_run r3)]
  obtain ⟨tr2, hc2, rfl, q2, _, g2⟩ := w2
  have hm2h : (m2 ++ (root ++ m3)).head? ≠ some 91 := by
    cases hm2 with
    | nil => rw [hr]; simp
    | space h => intro hx; cases hx; exact absurd h (by decide)
    | comment => simp
    | pi => simp
  generalize hs2 : ({ s0 with cur := dt ++ (m2 ++ (root ++ m3)), hc := hc2, trace := s0.trace ++ tr1 ++ tr2 } : St σ) = s2
  have j1 : s2.cur = dt ++ (m2 ++ (root ++ m3)) := by rw [← hs2]
  have j2 : s2.ns = [] := by rw [← hs2]; exact i2
  have j3 : s2.inSubset = 0 := by rw [← hs2]; exact i3
  have j4 : s2.attsSpecial = [] := by rw [← hs2]; exact i4
  have j5 : s2.attsDefault = [] := by rw [← hs2]; exact i5
  have j6 : s2.view = ⟨v, e, sd, 0⟩ := by rw [← hs2]; exact i6
  have j7 : G 0 s2.hc := by rw [← hs2]; exact g2
  have j8 : s2.trace = [(.setDocumentLocator, o)] ++ tr1 ++ tr2 := by rw [← hs2, ← i8]
  have goal2 : ∃ s', (do parseDoctypePart E H snl; parseTail E H fuel : P σ Unit) s2 = .ok () s' ∧
      (∃ sp df, s'.trace.map (fun x => plainEv x.1) = s2.trace.map (fun x => plainEv x.1) ++ (doctypeEvents (encodeRunes n) ds ++
        (e2 ++ (e3.map (declared (tokOf sp) (defaultAttrs E df)) ++ (e4 ++ [.endDocument])))) ∧ R sp df s'.hc) ∧ s'.version = v ∧ s'.encoding = e ∧ s'.standalone = sd := by
    obtain ⟨s3', hd1, k1, k2, k3, k4, ⟨tr3, k5, k6⟩, F', G', W', k7, k8, k9⟩ := hR n dt hdt { s2 with cur := m2 ++ (root ++ m3) } j3 j2 j7 j5 j4
    obtain ⟨u, hsame, hpd⟩ := doctype_run E H snl hdt hm2h s2 j1 (m2 ++ (root ++ m3))
    rw [hd1] at hsame
    generalize hrhs : Out.ok () s3' = rhs at hsame
    cases hsame with
    | err e s s' ht => cases hrhs
    | panic => cases hrhs
    | diverge => cases hrhs
    | ok a s3 hs3 =>
    cases hrhs
    have k1 : s3.cur = m2 ++ (root ++ m3) := hs3
    have k2 : s3.ns = [] := k2.trans j2
    have k4 : s3.view = ⟨v, e, sd, 0⟩ := k4.trans j6
    have k3i : s3.inSubset = 0 := congrArg HV.inSubset k4
    have k7 : G' 0 s3.hc := k7
    have k8 : Supplied B H G' (defaultAttrs E s3.attsDefault) := k8
    have k9 : ∀ c, G' 0 c → R s3.attsSpecial s3.attsDefault c := k9
    have k5 : s3.trace = s2.trace ++ tr3 := k5
    obtain ⟨s4, r4, w4⟩ := parseMisc_run W' hm2 (w := root ++ m3) (Or.inr ⟨c, r ++ m3, by rw [hr]; rfl, c2, .inl c3⟩) 0 s3 k1 k3i k7
    obtain ⟨tr4, hc4, rfl, q4, _, g4⟩ := w4
    obtain ⟨s5, r5, tr5, hc5, h5, q5, _, g5⟩ := tail_run_declared W' k8 hroot hm3 fuel ({ s3 with cur := root ++ m3, hc := hc4, trace := s3.trace ++ tr4 } : St σ) rfl k2 k3i rfl rfl g4
      (by simp only [List.length_append] at hf; omega) (by omega)
      (fun ev hev => hW _ _ _ (k9 _ k7) ev (by simp [hev]))
    refine ⟨s5, ?_, ⟨s3.attsSpecial, s3.attsDefault, ?_, by rw [h5]; exact k9 _ g5⟩, ?_, ?_, ?_⟩
    · rw [bind_run (a := ()) (t := ({ s3 with cur := root ++ m3, hc := hc4, trace := s3.trace ++ tr4 } : St σ)) (by rw [hpd]; exact wrap_run r4)]
      exact r5
    · simp only [h5, List.map_append, k5, q4, q5]
      have : tr3.map (fun x => plainEv x.1) = doctypeEvents (encodeRunes n) ds := by
        rw [← doctype_plain, ← k6, List.map_map]; rfl
      rw [this]
      simp only [List.append_assoc]
    · rw [h5]; exact congrArg HV.version k4
    · rw [h5]; exact congrArg HV.encoding k4
    · rw [h5]; exact congrArg HV.standalone k4
  obtain ⟨s', r', ⟨sp, df, t', hRs⟩, rst⟩ := goal2
  refine ⟨s', r', ⟨sp, df, ?_, hRs⟩, rst⟩
  rw [t', j8]
  have hde := declared_decl (tokOf sp) (defaultAttrs E df) (encodeRunes n) ds
  unfold doctypeEvents at hde
  simp only [List.map_append, q1, q2, hde, declared_misc _ _ hm1, declared_misc _ _ hm2, declared_misc _ _ hm3, List.map_cons, List.map_nil]
  simp [plainEv, doctypeEvents, declared]
end
end Helium
