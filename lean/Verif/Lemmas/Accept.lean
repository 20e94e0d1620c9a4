import Verif.Lemmas.AcceptTag
/-! What an accepted element, and what an accepted document, looks like. -/
namespace Helium
open Spec
section
variable {σ : Type} {E : Env} {H : Handler σ} {K : List Nat → Bytes → Prop}

/-! ### the end of a tag -/

/-- how the attributes of a tag end: `>` has been consumed, or `/>` is next. -/
def TagStop (e r : List Nat) : Prop := e = [62] ∨ (e = [] ∧ b!"/>" <+: r)

theorem stayL_flat : Flat E (stayL H) (fun _ => True) where
  admits := Admits.of (fun _ _ _ => trivial)
  inv := fun _ _ => trivial
  invq := fun _ _ => trivial
  enter := fun _ _ _ _ _ _ => trivial
  leave := fun s d h c fc lc t ht hR => ⟨List.suffix_refl _, rfl, fun x =>
    Safe.heap (s := t) (hR.safe (x.heap rfl ht.tabs.toTabs)) rfl (Tabs.upd _ t.hc.heap d (f := fun x => { x with first := fc, last := lc }) rfl ⟨id, fun h => ⟨h, rfl, rfl⟩⟩)⟩
  leaveX := fun _ _ _ _ _ _ _ _ _ _ => trivial
  ent := fun _ _ _ _ _ _ _ => trivial

theorem stayL_tags : FlatTags (stayL H) where
  start := fun _ _ _ _ _ => trivial
  fin := fun _ _ _ => trivial
  nodes := fun _ _ => ⟨List.suffix_refl _, rfl, fun x => x.heap rfl (Tabs.refl _ _)⟩
  ns := fun _ _ => ⟨List.suffix_refl _, rfl, fun x => x.heap rfl (Tabs.refl _ _)⟩

theorem stayL_content (fuel : Nat) : SatI (stayL H) (fun _ => True) (parseContent E H fuel) :=
  SatI.parseContent E (stayL_flat (E := E)).toFrame (fun _ h => SatI.parseReference E stayL_flat h)
    (fun _ h => SatI.parseElementW E (stayL_flat (E := E)).toFrame stayL_tags h) fuel

theorem stayL_step (fuel : Nat) : SatI (stayL H) (fun _ => True) (contentStep E H (parseContent E H fuel)) :=
  SatI.contentStep E (stayL_flat (E := E)).toFrame (SatI.parseReference E stayL_flat (stayL_content fuel))
    (SatI.parseElementW E (stayL_flat (E := E)).toFrame stayL_tags (stayL_content fuel))

theorem stayL_elem (fuel : Nat) : SatI (stayL H) (fun _ => True) (parseElement E H fuel) :=
  SatI.parseElementW E (stayL_flat (E := E)).toFrame stayL_tags (stayL_content fuel)

theorem stay_endTag (s : St σ) : post (parseEndTag E H s) (Stay H s) (fun _ _ => True) :=
  Sat.parseEndTag (L := stayL H) E stayL_tags s

theorem Spec.LooseAtts.blank {ws a : List Nat} {ns : List (List Nat × Bytes)} (hw : Blank ws) (h : LooseAtts E K a ns) : LooseAtts E K (ws ++ a) ns := by
  have app : ∀ {v : List Nat}, Blank v → Blank (ws ++ v) := by
    intro v hv c hc
    rcases List.mem_append.1 hc with hc | hc
    · exact hw c hc
    · exact hv c hc
  cases h with
  | nil h1 => exact .nil (app h1)
  | attr h1 h2 h3 => rw [← List.append_assoc]; exact .attr (app h1) h2 h3

theorem nameStart_legal {c : Nat} (h : NameStartChar E c) : isChar c = true ∧ c ≠ 60 := by
  have h1 := nameChar_range E (nameStart_nameChar h)
  have h2 := nameChar_scalar E (nameStart_nameChar h)
  unfold isScalar at h2
  rcases h with h | h | h
  · have h3 := E.letter_char c h
    have h4 : 65 ≤ c := by
      by_cases hc : c < 128
      · rw [E.letter_ascii c hc] at h
        simp at h
        omega
      · omega
    refine ⟨isChar_of_xml ?_ h1.2.2.2.2, ?_⟩
    · unfold XmlChar; omega
    · omega
  · subst h; decide
  · subst h; decide

theorem ws_legal {c : Nat} (h : Ws c) : isChar c = true ∧ c ≠ 60 := by
  rcases h with rfl | rfl | rfl | rfl <;> decide

theorem not_stuck_cons {c : Nat} {r : List Nat} (h : isChar c = true ∧ c ≠ 60) : ¬ Stuck (c :: r) := by
  rintro ⟨c', r', he, h1⟩
  cases he
  rcases h1 with h1 | h1
  · rw [h.1] at h1; cases h1
  · exact h.2 h1

theorem tagStop_free {a e r : List Nat} {ns : List (List Nat × Bytes)} (h : LooseAtts E K a ns) (he : TagStop e r) : a ++ e ++ r ≠ [] ∧ ¬ Stuck (a ++ e ++ r) := by
  have key : ∃ c t, a ++ e ++ r = c :: t ∧ isChar c = true ∧ c ≠ 60 := by
    have bl : ∀ {ws : List Nat} {t : List Nat}, Blank ws → (∃ c u, t = c :: u ∧ isChar c = true ∧ c ≠ 60) → ∃ c u, ws ++ t = c :: u ∧ isChar c = true ∧ c ≠ 60 := by
      intro ws t hw ht
      cases ws with
      | nil => exact ht
      | cons c ws => exact ⟨c, ws ++ t, rfl, ws_legal (hw c (List.mem_cons_self ..))⟩
    have hend : ∃ c t, e ++ r = c :: t ∧ isChar c = true ∧ c ≠ 60 := by
      rcases he with rfl | ⟨rfl, t, rfl⟩
      · exact ⟨62, r, rfl, by decide, by decide⟩
      · exact ⟨47, 62 :: t, rfl, by decide, by decide⟩
    rw [List.append_assoc]
    cases h with
    | nil h1 => exact bl h1 hend
    | attr h1 h2 h3 =>
      obtain ⟨⟨c, n', rfl, hc, -⟩, w1, x, w2, v, rfl, -⟩ := h2
      rw [List.append_assoc]
      refine bl h1 ⟨c, _, rfl, nameStart_legal hc⟩
  obtain ⟨c, t, h1, h2⟩ := key
  rw [h1]
  exact ⟨by simp, not_stuck_cons h2⟩

theorem writtenAttrs_append (a b : List AttrD) : writtenAttrs (a ++ b) = writtenAttrs a ++ writtenAttrs b := by
  induction a with
  | nil => rfl
  | cons x a ih => cases x <;> simp [writtenAttrs, ih]

theorem writtenAttrs_dflt (l : List Nat) : writtenAttrs (l.map AttrD.dflt) = [] := by
  induction l with
  | nil => rfl
  | cons x l ih => simpa [writtenAttrs] using ih

theorem afterNs_step {s s' : St σ} {b : Bool} (h : afterNs E s = .ok b s') : ∃ ws, Blank ws ∧ Step H s s' ws [] := by
  unfold afterNs at h
  run at h
  split at h
  · cases h; exact ⟨[], (by intro c hc; cases hc), .refl _⟩
  · split at h
    · cases h; exact ⟨[], (by intro c hc; cases hc), .refl _⟩
    · obtain ⟨_, s1, h1, h2⟩ := bind_ok.1 h
      obtain ⟨-, rfl⟩ := pure_ok.1 h2
      unfold needBlanks at h1
      run at h1
      obtain ⟨_, s2, h3, h4⟩ := bind_ok.1 h1
      obtain ⟨-, rfl⟩ := need_ok.1 h3
      run at h4
      cases h4
      exact skip_step _

/-- what `attrsLoop` has done. -/
def AttsDone (H : Handler σ) (E : Env) (K : List Nat → Bytes → Prop) (s s' : St σ) (attrs out : List AttrD) : Prop :=
  ∃ a e ns look new, LooseAtts E K a ns ∧ TagStop e s'.cur ∧ OnlyLookups look ∧ Step H s s' (a ++ e) look ∧ out = attrs ++ new ∧
    (writtenAttrs new).Sublist (attrBytes ns)

theorem AttsDone.blank {s s1 s' : St σ} {ws : List Nat} {attrs out : List AttrD} (hw : Blank ws) (h1 : Step H s s1 ws []) (h : AttsDone H E K s1 s' attrs out) :
    AttsDone H E K s s' attrs out := by
  obtain ⟨a, e, ns, look, new, g1, g2, g3, g4, g5, g6⟩ := h
  have := h1.trans g4
  rw [← List.append_assoc] at this
  exact ⟨ws ++ a, e, ns, look, new, g1.blank hw, g2, g3, this, g5, g6⟩

theorem attrsLoop_step {loc : Bytes} : ∀ (fuel nb : Nat) {attrs : List AttrD} {s s' : St σ} {x : Nat × List AttrD},
    attrsLoop E H loc fuel nb attrs s = .ok x s' → Ready H K s → Knows H K s' → AttsDone H E K s s' attrs x.2 := by
  intro fuel
  induction fuel with
  | zero => intro nb attrs s s' x h; exact (diverge_ok.1 h).elim
  | succ fuel ih =>
    intro nb attrs s s' x h h0 hk
    unfold attrsLoop at h
    run at h
    obtain ⟨ws, hws, hs1⟩ := skip_step s
    have h0' := hs1.ready h0
    generalize ({ s with cur := s.cur.dropWhile isBlank } : St σ) = s1 at h hs1 h0'
    refine AttsDone.blank hws hs1 ?_
    clear hs1 h0
    obtain ⟨b, s2, h1, h2⟩ := bind_ok.1 h
    cases b with
    | true =>
      obtain ⟨r, g1, rfl⟩ := consume_true h1
      cases h2
      exact ⟨[], [62], [], [], [], .nil (by intro c hc; cases hc), Or.inl rfl, onlyLookups_nil, .moved rfl g1, by simp, by simp [writtenAttrs]⟩
    | false =>
      rcases consume_ok.1 h1 with ⟨g, -, -⟩ | ⟨-, -, rfl⟩
      · cases g
      run at h2
      simp only [Bool.false_eq_true, if_false] at h2
      split at h2
      · rename_i hp
        cases h2
        exact ⟨[], [], [], [], [], .nil (by intro c hc; cases hc), Or.inr ⟨rfl, List.isPrefixOf_iff_prefix.1 hp⟩, onlyLookups_nil, .refl _, by simp, by simp [writtenAttrs]⟩
      · obtain ⟨a, s3, h3, h4⟩ := bind_ok.1 h2
        have h3 := wrap_ok.1 h3
        have h0'' : Ready H K s3 := by
          have hc := Sat.parseAttribute (L := stayL H) E (Admits.of (fun _ _ _ => trivial)) loc s2
          rw [h3] at hc
          exact hc.ready h0'
        have fin : ∀ {t : St σ} {attrs' : List AttrD}, Step H s3 t [] [] → (attrs' = attrs ∨ attrs' = attrs ++ [.parsed a.2.1 a.1 a.2.2]) →
            AttsDone H E K t s' attrs' x.2 → AttsDone H E K s2 s' attrs x.2 := by
          intro t attrs' ht ha hd
          obtain ⟨a1, e, ns, look, new, g1, g2, g3, g4, g5, g6⟩ := hd
          have hst := ht.trans g4
          rw [List.nil_append, List.nil_append] at hst
          obtain ⟨f1, f2⟩ := tagStop_free g1 g2
          rw [← hst.cur] at f1 f2
          obtain ⟨tt, n, lk, k1, k2, k3, k4⟩ := parseAttribute_step h3 h0' (hst.knows hk) f1
          have k4 := k4.resolve_right f2
          have := k3.trans hst
          refine ⟨tt ++ a1, e, (n, a.2.2) :: ns, lk ++ look, ?_⟩
          have ho : ∃ new', x.2 = attrs ++ new' ∧ (writtenAttrs new').Sublist (attrBytes ((n, a.2.2) :: ns)) := by
            rcases ha with rfl | rfl
            · exact ⟨new, g5, g6.cons _⟩
            · refine ⟨_, by rw [g5, List.append_assoc], ?_⟩
              rw [writtenAttrs_append]
              show ((qual a.1 a.2.1, a.2.2) :: writtenAttrs new).Sublist ((encodeRunes n, a.2.2) :: attrBytes ns)
              rw [k1]
              exact g6.cons_cons _
          obtain ⟨new', o1, o2⟩ := ho
          exact ⟨new', .attr (ws := []) (by intro c hc; cases hc) k4 g1, g2, k2.append g3, by rw [List.append_assoc]; exact this, o1, o2⟩
        have refl' : Step H s3 s3 [] [] := .refl _
        split at h4
        · run at h4
          obtain ⟨b, s4, h5, h6⟩ := bind_ok.1 h4
          obtain ⟨w, hw, hs4⟩ := afterNs_step h5
          have hns : Step H s3 ({ s3 with ns := nsPush s3.ns [] a.2.2 } : St σ) [] [] := ⟨rfl, Step.extra rfl, rfl, rfl, fun x => x.heap rfl (Tabs.refl _ _)⟩
          have h04 := (hns.trans hs4).ready h0''
          rcases ite_any h6 with h6 | h6
          · exact fin hns (Or.inr rfl) ((ih _ h6 h04 hk).blank hw hs4)
          · exact fin hns (Or.inl rfl) ((ih _ h6 h04 hk).blank hw hs4)
        · run at h4
          split at h4
          · cases hd : nsDeclCheck E s3.ns a.1 a.2.2 with
            | some o =>
              rw [hd] at h4
              cases o with
              | some e => exact (cerr_ok.1 h4).elim
              | none =>
                obtain ⟨b, s4, h5, h6⟩ := bind_ok.1 h4
                obtain ⟨w, hw, hs4⟩ := afterNs_step h5
                exact fin refl' (Or.inl rfl) ((ih _ h6 (hs4.ready h0'') hk).blank hw hs4)
            | none =>
              rw [hd] at h4
              run at h4
              obtain ⟨b, s4, h5, h6⟩ := bind_ok.1 h4
              obtain ⟨w, hw, hs4⟩ := afterNs_step h5
              have hns : Step H s3 ({ s3 with ns := nsPush s3.ns a.1 a.2.2 } : St σ) [] [] := ⟨rfl, Step.extra rfl, rfl, rfl, fun x => x.heap rfl (Tabs.refl _ _)⟩
              exact fin hns (Or.inl rfl) ((ih _ h6 ((hns.trans hs4).ready h0'') hk).blank hw hs4)
          · exact fin refl' (Or.inr rfl) (ih _ h4 h0'' hk)

/-! ### tags -/

theorem parseStartTag_step {s s' : St σ} (h : parseStartTag E H s = .ok () s') (h0 : Ready H K s) (hk : Knows H K s') :
    ∃ n p l a e ns look u d as, LooseName E n ∧ encodeRunes n = qual l p ∧ LooseAtts E K a ns ∧ TagStop e s'.cur ∧ OnlyLookups look ∧
      (writtenAttrs as).Sublist (attrBytes ns) ∧ s'.nodes = s.nodes ++ [⟨l, p, u⟩] ∧
      ∃ s5, Step H s s5 (60 :: (n ++ (a ++ e))) (look ++ [.startElement l p u d as]) ∧ s' = { s5 with nodes := s'.nodes } := by
  unfold parseStartTag at h
  run at h
  obtain ⟨_, s1, h1, h2⟩ := bind_ok.1 h
  obtain ⟨k1, rfl⟩ := need_ok.1 h1
  obtain ⟨t, ht⟩ := peekd_cons (E := E) (eq_of_beq k1) (by decide : (60 : Nat) ≠ 0 ∧ (60 : Nat) ≠ 0xFFFD)
  run at h2
  have st1 : Step H s1 ({ s1 with cur := s1.cur.drop 1 } : St σ) [60] [] := .moved rfl (by rw [ht]; rfl)
  obtain ⟨q, s2, h3, h4⟩ := bind_ok.1 h2
  obtain ⟨n, e1, e2, e3, e4⟩ := parseQName_sound (orElse_ok.1 h3) (st1.ready h0).nul
  have st2 := st1.trans (Step.moved e4 e3)
  obtain ⟨_, s3, h5, h6⟩ := bind_ok.1 h4
  obtain ⟨k5, rfl⟩ := need_ok.1 h5
  run at h6
  obtain ⟨na, s4, h7, h8⟩ := bind_ok.1 h6
  run at h8
  split at h8
  · exact (cerr_ok.1 h8).elim
  · obtain ⟨_, s5, h9, h10⟩ := bind_ok.1 h8
    cases h10
    have hk5 : Knows H K s5 := hk
    obtain ⟨a, e, ns, look, new, g1, g2, g3, g4, g5, g6⟩ := attrsLoop_step _ _ h7 (st2.ready h0) ((cb_step h9).knows hk5)
    have st4 := (st2.trans g4).trans (cb_step h9)
    refine ⟨n, q.2, q.1, a, e, ns, look, nsLookup s4.ns q.2, nsList s4.ns na.1,
      na.2 ++ defaultAttrs E s4.attsDefault q.2 q.1, e1, e2, g1, ?_, g3, ?_, ?_, ?_⟩
    · have := (cb_step h9).cur
      rw [show ({ s5 with nodes := s5.nodes ++ [⟨q.1, q.2, nsLookup s4.ns q.2⟩] } : St σ).cur = s5.cur from rfl]
      rw [List.nil_append] at this
      rw [← this]
      exact g2
    · rw [g5, List.nil_append, writtenAttrs_append]
      have : writtenAttrs (defaultAttrs E s4.attsDefault q.2 q.1) = [] := by
        unfold defaultAttrs
        simp only
        split
        · exact writtenAttrs_dflt _
        · rfl
      rw [this, List.append_nil]
      exact g6
    · show s5.nodes ++ _ = _
      rw [st4.nodes]
    · refine ⟨s5, ?_, rfl⟩
      simpa using st4

theorem parseStartTag_nodes {s s' : St σ} (h : parseStartTag E H s = .ok () s') : ∃ ns e, s'.nodes = ns ++ [e] := by
  have h1 := parseStartTag_post E (H := H) s
  rw [h] at h1
  obtain ⟨e, m, l, p, u, n, a, o, hn, -⟩ := h1
  exact ⟨_, e, hn⟩

theorem parseEndTag_step {s s' : St σ} {ns : List EInfo} {e : EInfo} (hs : s.nodes = ns ++ [e]) (h : parseEndTag E H s = .ok () s') :
    (s.cur = b!"/>" ++ s'.cur ∨ s.cur = b!"</" ++ (decodeRunes e.name ++ 62 :: s'.cur)) ∧
      (∃ mid, s'.trace = s.trace ++ mid ∧ mid.map (·.1) = [.endElement e.loc e.pfx e.uri]) ∧ s'.nodes = ns ∧ s'.inSubset = s.inSubset := by
  have hp := parseEndTag_post E (H := H) s ns e hs
  rw [h] at hp
  obtain ⟨hn, o, htr⟩ := hp
  have hst := stay_endTag (E := E) (H := H) s
  rw [h] at hst
  refine ⟨?_, ⟨_, htr, rfl⟩, hn, hst.sub⟩
  rw [parseEndTag_eq] at h
  obtain ⟨_, s1, h1, h2⟩ := bind_ok.1 h
  have hcur : s'.cur = s1.cur := by
    unfold endTagFin at h2
    run at h2
    obtain ⟨e', s2, h3, h4⟩ := bind_ok.1 h2
    obtain ⟨-, rfl⟩ := deref_ok.1 h3
    obtain ⟨_, s3, h5, h6⟩ := bind_ok.1 h4
    cases h6
    have := (cb_step h5).cur
    exact this.symm
  rw [hcur]
  unfold endTagHead at h1
  obtain ⟨b, s2, h3, h4⟩ := bind_ok.1 h1
  cases b with
  | true =>
    obtain ⟨r, g1, rfl⟩ := consume_true h3
    cases h4
    exact Or.inl g1
  | false =>
    rcases consume_ok.1 h3 with ⟨g, -, -⟩ | ⟨-, -, rfl⟩
    · cases g
    simp only [Bool.false_eq_true, if_false] at h4
    obtain ⟨b, s3, h5, h6⟩ := bind_ok.1 h4
    cases b with
    | false => exact (cerr_ok.1 h6).elim
    | true =>
      obtain ⟨r, g1, rfl⟩ := consume_true h5
      simp only [if_true] at h6
      run at h6
      obtain ⟨e', s4, h7, h8⟩ := bind_ok.1 h6
      obtain ⟨g2, rfl⟩ := deref_ok.1 h7
      have he : e' = e := by
        rw [show ({ s2 with cur := r } : St σ).nodes = s2.nodes from rfl, hs] at g2
        simpa using g2.symm
      subst he
      obtain ⟨b, s5, h9, h10⟩ := bind_ok.1 h8
      cases b with
      | false => exact (cerr_ok.1 h10).elim
      | true =>
        obtain ⟨r2, g3, rfl⟩ := consume_true h9
        simp only [if_true] at h10
        run at h10
        obtain ⟨_, s6, h11, h12⟩ := bind_ok.1 h10
        obtain ⟨k, rfl⟩ := need_ok.1 h11
        obtain ⟨t, ht⟩ := peekd_cons (E := E) (s := { s2 with cur := r2 }) (eq_of_beq k) (by decide : (62 : Nat) ≠ 0 ∧ (62 : Nat) ≠ 0xFFFD)
        have ht : r2 = 62 :: t := ht
        cases h12
        right
        have g3 : r = decodeRunes e'.name ++ r2 := g3
        rw [g1, g3, ht]
        rfl

/-! ### content -/

/-- what an accepted run of `parseContent` has done. -/
def ContentDone (H : Handler σ) (E : Env) (K : List Nat → Bytes → Prop) (body : P σ Unit) : Prop :=
  ∀ {s s' : St σ}, body s = .ok () s' → Ready H K s → Knows H K s' → s'.cur ≠ [] →
    ∃ t evs, Accepted E K false t evs ∧ Step H s s' t evs ∧ b!"</" <+: s'.cur

theorem parseElementW_step {body : P σ Unit} (hb : ContentDone H E K body)
    (hbl : Sat (BL H) body) {s s' : St σ} (h : parseElementW E H body s = .ok () s') (h0 : Ready H K s) (hk : Knows H K s') :
    ∃ t evs, Accepted E K true t evs ∧ Step H s s' t evs := by
  unfold parseElementW at h
  obtain ⟨_, s1, h1, h2⟩ := bind_ok.1 h
  have hname : ∀ {n : List Nat} {l p u : Bytes}, LooseName E n → encodeRunes n = qual l p → decodeRunes (EInfo.name ⟨l, p, u⟩) = n := by
    intro n l p u g1 g2
    have : EInfo.name ⟨l, p, u⟩ = encodeRunes n := by
      rw [g2]
      unfold EInfo.name qual
      by_cases hp : p = [] <;> simp [hp]
    rw [this, decodeRunes_encodeRunes _ g1.scalar]
  run at h2
  split at h2
  · rename_i hp
    have h2 := wrap_ok.1 h2
    obtain ⟨ns0, e0, hns0⟩ := parseStartTag_nodes (wrap_ok.1 h1)
    obtain ⟨mid, hmid, -⟩ := (parseEndTag_step hns0 h2).2.1
    obtain ⟨n, p, l, a, e, ns, look, u, d, as, g1, g2, g3, g4, g5, g6, g9, s5, g7, g8⟩ := parseStartTag_step (wrap_ok.1 h1) h0 (hk.mono hmid)
    obtain ⟨k1, k2, k3, k4⟩ := parseEndTag_step g9 h2
    obtain ⟨r, hr⟩ := List.isPrefixOf_iff_prefix.1 hp
    have k1 : s1.cur = b!"/>" ++ s'.cur := by
      rcases k1 with k1 | k1
      · exact k1
      · rw [k1] at hr; cases hr
    have hc : e = [] ∨ e = [62] := by
      rcases g4 with g4 | g4
      · exact Or.inr g4
      · exact Or.inl g4.1
    have st5 : Step H s5 s' b!"/>" [.endElement l p u] := by
      have ke := stay_endTag (E := E) (H := H) s1
      rw [h2] at ke
      have ke := ke.safe
      rw [g8] at k1 k2 k4 ke
      exact ⟨k1, k2, by rw [k3, g7.nodes], k4, fun x => ke (x.heap rfl (Tabs.refl _ _))⟩
    refine ⟨_, _, .empty (c := e) (u := u) (d := d) g1 g2 g3 g5 g6 hc, ?_⟩
    have := g7.trans st5
    simpa using this
  · rename_i hp
    obtain ⟨_, s2, h3, h4⟩ := bind_ok.1 h2
    have h3 := wrap_ok.1 h3
    have hend := wrap_ok.1 h4
    have hne : s2.cur ≠ [] := by
      intro hc
      rw [parseEndTag_eq] at hend
      obtain ⟨_, s3, h5, -⟩ := bind_ok.1 hend
      unfold endTagHead at h5
      have f1 : (consume b!"/>" : P σ Bool) s2 = .ok false s2 := by unfold consume; simp [hc]
      have f2 : (consume b!"</" : P σ Bool) s2 = .ok false s2 := by unfold consume; simp [hc]
      rw [bind_run f1] at h5
      simp only [Bool.false_eq_true, if_false] at h5
      rw [bind_run f2] at h5
      exact (cerr_ok.1 h5).elim
    obtain ⟨ns0, e0, hns0⟩ := parseStartTag_nodes (wrap_ok.1 h1)
    have hbl2 := hbl s1
    rw [h3] at hbl2
    obtain ⟨hn2, mid2, hm2, -⟩ := hbl2
    obtain ⟨mid, hmid, -⟩ := (parseEndTag_step (hn2.trans hns0) hend).2.1
    have hk2 : Knows H K s2 := hk.mono hmid
    obtain ⟨n, p, l, a, e, ns, look, u, d, as, g1, g2, g3, g4, g5, g6, g9, s5, g7, g8⟩ := parseStartTag_step (wrap_ok.1 h1) h0 (hk2.mono hm2)
    have he : e = [62] := by
      rcases g4 with g4 | g4
      · exact g4
      · exact absurd (List.isPrefixOf_iff_prefix.2 g4.2) hp
    have h01 : Ready H K s1 := by
      have := g7.ready h0
      rw [g8]
      exact ⟨this.nul, this.sub, this.safe.imp (fun x => x.heap rfl (Tabs.refl _ _)) id⟩
    obtain ⟨k, evs, a1, a2, r, a3⟩ := hb h3 h01 hk2 hne
    obtain ⟨k1, k2, k3, k4⟩ := parseEndTag_step (a2.nodes.trans g9) hend
    have k1 : s2.cur = b!"</" ++ (n ++ 62 :: s'.cur) := by
      rcases k1 with k1 | k1
      · rw [k1] at a3; cases a3
      · rw [k1, hname g1 g2]
    refine ⟨_, _, .full (u := u) (d := d) g1 g2 g3 g5 g6 a1 ?_, ?_⟩
    · intro hk
      refine hp (List.isPrefixOf_iff_prefix.2 ?_)
      rw [a2.cur]
      exact hk.trans (List.prefix_append _ _)
    · have st5 : Step H s5 s' (k ++ (b!"</" ++ (n ++ [62]))) (evs ++ [.endElement l p u]) := by
        obtain ⟨m1, e1, e2⟩ := a2.ext
        obtain ⟨m2, e3, e4⟩ := k2
        have c1 := a2.cur
        have c2 := a2.sub
        have c3 := a2.safe
        have ke := stay_endTag (E := E) (H := H) s2
        rw [hend] at ke
        rw [g8] at e1 c1 c2 c3
        exact ⟨by rw [show s5.cur = _ from c1, k1]; simp, ⟨m1 ++ m2, by rw [e3, e1, List.append_assoc], by rw [List.map_append, e2, e4]⟩,
          by rw [k3, g7.nodes], by rw [k4, c2], fun x => ke.safe (c3 (x.heap rfl (Tabs.refl _ _)))⟩
      have := g7.trans st5
      rw [he] at this
      simpa using this

theorem parseChunk_cur {body : P σ Unit} {c : Bytes} {s s' : St σ} (h : parseChunk E body c s = .ok () s') : s'.cur = s.cur ∧ s'.inSubset = s.inSubset := by
  unfold parseChunk at h
  split at h
  · cases h
  · simp only at h
    split at h
    · split at h
      · cases h; exact ⟨rfl, rfl⟩
      all_goals cases h
    all_goals cases h

theorem cbRaw_step {ev : Ev} {s s' : St σ} (h : cbRaw H ev s = .ok () s') : Step H s s' [] [ev] := by
  unfold cbRaw callback at h
  obtain ⟨o, t, h1, h2⟩ := bind_ok.1 h
  simp only [Out.ok.injEq] at h1
  obtain ⟨rfl, rfl⟩ := h1
  have : s' = cbSt H ev s := by
    cases hr : (H s.view ev s.hc).1 <;> rw [hr] at h2 <;> simp only [pure_ok, panic_ok, diverge_ok, fail_ok] at h2
    all_goals (obtain ⟨-, rfl⟩ := h2; simp [cbSt, hr])
  rw [this]
  exact ⟨rfl, ⟨_, rfl, rfl⟩, rfl, rfl, fun x => x.call ev⟩

theorem parseReference_step {body : P σ Unit} (hb : Sat (BL H) body) (hy : SatI (stayL H) (fun _ => True) body) {s s' : St σ} (h : parseReference E H body s = .ok () s')
    (h0 : Ready H K s) (hk : Knows H K s') (hne : s'.cur ≠ []) :
    ∃ t evs, (∀ {r evs'}, Accepted E K false r evs' → Accepted E K false (t ++ r) (evs ++ evs')) ∧ Step H s s' t evs := by
  unfold parseReference at h
  run at h
  obtain ⟨_, s1, h1, h2⟩ := bind_ok.1 h
  obtain ⟨-, rfl⟩ := need_ok.1 h1
  run at h2
  split at h2
  · obtain ⟨v, s2, h3, h4⟩ := bind_ok.1 h2
    have st := cb_step h4
    obtain ⟨t, e1, e2⟩ := parseCharRef_step (wrap_ok.1 h3) (step_ne st hne)
    refine ⟨t, [.characters (encodeRunes [v])], fun hr => .charRef e1 hr, ?_⟩
    have := e2.trans st
    rw [List.append_nil, List.nil_append] at this
    rw [show encodeRunes [v] = encodeRune v by simp [encodeRunes]]
    exact this
  · obtain ⟨ent, s2, h3, h4⟩ := bind_ok.1 h2
    run at h4
    have hin : ∃ inner, Step H s2 s' [] inner := by
      split at h4
      · split at h4
        · cases h4; exact ⟨[], .refl _⟩
        · exact ⟨_, cb_step h4⟩
      · cases ent with
        | pre p => cases h4; exact ⟨[], .refl _⟩
        | ptr i =>
          simp only at h4
          run at h4
          split at h4
          · split at h4
            · obtain ⟨_, s3, h5, h6⟩ := bind_ok.1 h4
              have hsat := SatI.parseChunk E (BL_flat (H := H) E) (body := body) hb.satI (s2.hc.heap.at' i).content s2 trivial
              rw [h5] at hsat
              obtain ⟨hn, mid, hm, -⟩ := hsat
              have hys := SatI.parseChunk E (stayL_flat (H := H) (E := E)) (body := body) hy (s2.hc.heap.at' i).content s2 trivial
              rw [h5] at hys
              have st : Step H s2 s3 [] (mid.map (·.1)) := ⟨(parseChunk_cur h5).1.symm, ⟨mid, hm, rfl⟩, hn, (parseChunk_cur h5).2, hys.safe⟩
              run at h6
              exact ⟨_, st.trans (cbRaw_step h6)⟩
            · exact (raw_ok.1 h4).elim
          · exact (raw_ok.1 h4).elim
    obtain ⟨inner, hin⟩ := hin
    obtain ⟨n, e1, e2⟩ := parseEntityRef_step (wrap_ok.1 h3) h0 (hin.knows hk)
    rcases e2 with ⟨p, f1, rfl, f3⟩ | ⟨f1, fk, -, f2⟩
    · obtain ⟨v, k1, k2, k3, -⟩ := predef_value e1 f1
      have hc : p.content ≠ [] := by cases p <;> decide
      have hty : ERef.typ s2.hc.heap (.pre p) = 6 := rfl
      have hco : ERef.content s2.hc.heap (.pre p) = p.content := rfl
      simp only [hty, hco, or_true, if_true] at h4
      rw [if_neg hc, k2] at h4
      refine ⟨_, _, fun hr => ?_, f3.trans (cb_step h4)⟩
      have := Accepted.predefined (E := E) k1 k3 hr
      simpa using this
    · refine ⟨_, _, fun {r evs'} hr => ?_, f2.trans hin⟩
      have := Accepted.entity (inner := inner) e1 (predef_none e1 f1) (fk (refTo n) fun _ _ => rfl) hr
      simpa using this

/-! ### comments, processing instructions, CDATA, text -/

theorem infix_dropLast {l : List Nat} (h : ¬ [45, 45] <:+: l.dropLast) : ¬ b!"-->" <:+: l := by
  rintro ⟨a, b, rfl⟩
  apply h
  have : a ++ b!"-->" ++ b = (a ++ [45, 45]) ++ (62 :: b) := by simp
  rw [this, List.dropLast_append_of_ne_nil (by simp)]
  exact ⟨a, (62 :: b).dropLast, by simp⟩

theorem parseComment_step {s s' : St σ} (hp : b!"<!--" <+: s.cur) (h : parseComment H s = .ok () s') :
    (∃ t ev, LooseComment t ev ∧ Step H s s' t [ev]) ∨
    (s'.cur = [] ∧ ∃ l d, (∀ c ∈ l, XmlChar c) ∧ ¬ b!"-->" <:+: l ∧ Step H s s' (b!"<!--" ++ l) [.comment d]) := by
  obtain ⟨u, hu⟩ := hp
  rcases parseComment_sound H hu.symm h with ⟨b, w, h1, h2, h3, h4⟩ | ⟨l, t, h1, h2, h3, h4, d, h5⟩
  · refine Or.inl ⟨_, _, .closed (fun c hc => isChar_xml (h2 c hc)) h3, ?_⟩
    rw [unixLines_eq, ← replaceCRLF_encodeRunes]
    exact cb_step' (by rw [← hu, h1]; simp) h4
  · cases t with
    | nil =>
      right
      have st : Step H s s' (b!"<!--" ++ l) [.comment d] := cb_step' (w := []) (by rw [← hu, h1]; simp) h5
      refine ⟨?_, l, d, fun c hc => isChar_xml (h2 c hc), infix_dropLast h3, st⟩
      have := (cb_step h5).cur
      exact this.symm
    | cons c t =>
      left
      refine ⟨_, _, .cut (c := c) (d := d) (fun c hc => isChar_xml (h2 c hc)) (infix_dropLast h3) ?_, cb_step' (w := t) (by rw [← hu, h1]; simp) h5⟩
      intro hc
      have := h4 c rfl
      rw [isChar_of_xml hc.1 hc.2] at this
      cases this

theorem parsePI_step {s s' : St σ} (hp : b!"<?" <+: s.cur) (h0 : 0 ∉ s.cur) (h : parsePI E H s = .ok () s') : ∃ t ev, LoosePI E t ev ∧ Step H s s' t [ev] := by
  obtain ⟨u, hu⟩ := hp
  have hnodes := Sat.parsePI (L := NT H) E NT_admits s
  rw [h] at hnodes
  have hst := Sat.parsePI (L := stayL H) E (Admits.of (fun _ _ _ => trivial)) s
  rw [h] at hst
  obtain ⟨n, ws, d, w, h1, h2, h3, h4, h5, h6, h7, h8, h9, o, h10⟩ :=
    C15_accepted_partial E H (fun hc => h0 (by rw [← hu]; exact List.mem_append_right _ hc)) hu.symm h
  exact ⟨_, _, .mk h2 h3 h4 h5 h6 h7 h8, ⟨by rw [← hu, h1, h9]; simp, ⟨_, h10, rfl⟩, hnodes.1, hst.sub, hst.safe⟩⟩

theorem parseCDSect_step {s s' : St σ} (hp : b!"<![CDATA[" <+: s.cur) (h : parseCDSect E H s = .ok () s') :
    ∃ l, ¬ b!"]]>" <:+: l ∧ Step H s s' (b!"<![CDATA[" ++ (l ++ b!"]]>")) [.cdata (encodeRunes (unixLines l))] := by
  obtain ⟨u, hu⟩ := hp
  have hnodes := Sat.parseCDSect (L := NT H) E NT_admits s
  rw [h] at hnodes
  have hst := Sat.parseCDSect (L := stayL H) E (Admits.of (fun _ _ _ => trivial)) s
  rw [h] at hst
  obtain ⟨l, w, h1, h2, h3, o, h4⟩ := C16_accepted E H hu.symm h
  refine ⟨l, h2, ⟨by rw [← hu, h1, h3]; simp, ⟨_, h4, ?_⟩, hnodes.1, hst.sub, hst.safe⟩⟩
  rw [unixLines_eq, ← replaceCRLF_encodeRunes]
  rfl

theorem mem_unixLines : ∀ {l : List Nat} {x : Nat}, x ≠ 13 → x ∈ l → x ∈ unixLines l
  | [], _, _, h => by cases h
  | [c], x, _, h => by
    rw [List.mem_singleton.1 h]
    rw [unixLines_eq, replaceCRLF_cons (by simp)]
    exact List.mem_cons_self ..
  | c :: d :: t, x, hx, h => by
    by_cases hc : c = 13 ∧ d = 10
    · obtain ⟨rfl, rfl⟩ := hc
      rw [unixLines]
      rcases List.mem_cons.1 h with h | h
      · exact absurd h hx
      · rcases List.mem_cons.1 h with rfl | h
        · exact List.mem_cons_self ..
        · exact List.mem_cons_of_mem _ (mem_unixLines hx h)
    · rw [unixLines_eq, replaceCRLF_cons (by simpa using hc), ← unixLines_eq]
      rcases List.mem_cons.1 h with rfl | h
      · exact List.mem_cons_self ..
      · exact List.mem_cons_of_mem _ (mem_unixLines hx h)

theorem unixLines_mem : ∀ {l : List Nat} {x : Nat}, x ∈ unixLines l → x ∈ l
  | [], _, h => by simp [unixLines] at h
  | [c], x, h => by
    rw [unixLines_eq, replaceCRLF_cons (by simp)] at h
    simpa [replaceCRLF] using h
  | c :: d :: t, x, h => by
    by_cases hc : c = 13 ∧ d = 10
    · obtain ⟨rfl, rfl⟩ := hc
      rw [unixLines] at h
      rcases List.mem_cons.1 h with rfl | h
      · simp
      · exact List.mem_cons_of_mem _ (List.mem_cons_of_mem _ (unixLines_mem h))
    · rw [unixLines_eq, replaceCRLF_cons (by simpa using hc), ← unixLines_eq] at h
      rcases List.mem_cons.1 h with rfl | h
      · exact List.mem_cons_self ..
      · exact List.mem_cons_of_mem _ (unixLines_mem h)

theorem parseCharData_step {s s' : St σ} (h : parseCharData E H false s = .ok () s') :
    ∃ l ev, l ≠ [] ∧ (∀ c ∈ l, XmlChar c ∧ c ≠ 60 ∧ c ≠ 38) ∧ ¬ b!"]]>" <:+: l ∧
      (ev = .characters (encodeRunes (unixLines l)) ∨ ev = .ignorable (encodeRunes (unixLines l)) ∧ ∀ c ∈ l, Ws c) ∧ Step H s s' l [ev] := by
  unfold parseCharData at h
  run at h
  cases hl : cdScan E.eof false s.cur with
  | hang => simp only [hl] at h; exact (diverge_ok.1 h).elim
  | misplaced => simp only [hl] at h; exact (cerr_ok.1 h).elim
  | ok l =>
    cases l with
    | nil => simp only [hl] at h; exact (raw_ok.1 h).elim
    | cons c l =>
      simp only [hl] at h
      run at h
      obtain ⟨t, g1, g2, g3, _⟩ := cdScan_sound E.eof false s.cur (c :: l) hl
      have h5 : s.cur.drop (c :: l).length = t := by rw [g1]; simp
      rw [h5] at h
      simp only [Bool.false_eq_true, if_false] at h
      have hx : ∀ x ∈ c :: l, XmlChar x ∧ x ≠ 60 ∧ x ≠ 38 := fun x hx => ⟨isChar_xml (g2 rfl x hx).1, (g2 rfl x hx).2⟩
      obtain ⟨b, k1, k2⟩ := areBlanks_run (E := E) (replaceCRLF (encodeRunes (c :: l))) { s with cur := t }
      rw [bind_run k1] at h
      rw [replaceCRLF_encodeRunes] at h k2
      rw [← unixLines_eq] at h k2
      cases b with
      | true =>
        simp only [if_true] at h
        refine ⟨c :: l, _, by simp, hx, g3, Or.inr ⟨rfl, ?_⟩, cb_step' g1 h⟩
        have k3 := k2 rfl
        rw [decodeRunes_encodeRunes] at k3
        · intro x hx
          by_cases h13 : x = 13
          · subst h13; exact Or.inr (Or.inr (Or.inr rfl))
          · exact (isBlank_iff x).1 (List.all_eq_true.1 k3 x (mem_unixLines h13 hx))
        · intro x hx'
          have h1 := (hx x (unixLines_mem hx')).1
          unfold XmlChar at h1
          unfold isScalar
          omega
      | false =>
        simp only [Bool.false_eq_true, if_false] at h
        exact ⟨c :: l, _, by simp, hx, g3, Or.inl rfl, cb_step' g1 h⟩

theorem contentStep_step {body : P σ Unit} (hsat : Sat (BL H) body) (hy : SatI (stayL H) (fun _ => True) body) (hb : ContentDone H E K body) {s s' : St σ} (h : contentStep E H body s = .ok () s')
    (h0 : Ready H K s) (hk : Knows H K s') (hne : s'.cur ≠ []) :
    ∃ t evs, (∀ {r evs'}, Accepted E K false r evs' → Accepted E K false (t ++ r) (evs ++ evs')) ∧ Step H s s' t evs := by
  unfold contentStep at h
  run at h
  split at h
  · rename_i hp
    obtain ⟨t, ev, h1, h2⟩ := parsePI_step (List.isPrefixOf_iff_prefix.1 hp) h0.nul (wrap_ok.1 h)
    exact ⟨t, [ev], fun hr => .pi h1 hr, h2⟩
  · split at h
    · rename_i hp
      obtain ⟨l, h1, h2⟩ := parseCDSect_step (List.isPrefixOf_iff_prefix.1 hp) (wrap_ok.1 h)
      refine ⟨_, _, fun {r evs'} hr => ?_, h2⟩
      have := Accepted.cdata h1 hr
      simpa using this
    · split at h
      · rename_i hp
        rcases parseComment_step (List.isPrefixOf_iff_prefix.1 hp) (wrap_ok.1 h) with ⟨t, ev, h1, h2⟩ | ⟨h1, -⟩
        · exact ⟨t, [ev], fun hr => .comment h1 hr, h2⟩
        · exact absurd h1 hne
      · split at h
        · obtain ⟨t, evs, h1, h2⟩ := parseElementW_step hb hsat (wrap_ok.1 h) h0 hk
          exact ⟨t, evs, fun hr => .element h1 hr, h2⟩
        · split at h
          · exact parseReference_step hsat hy (wrap_ok.1 h) h0 hk hne
          · obtain ⟨l, ev, h1, h2, h3, h4, h5⟩ := parseCharData_step h
            exact ⟨l, [ev], fun hr => .text h1 h2 h3 h4 hr, h5⟩

theorem parseContent_step : ∀ (fuel : Nat), ContentDone H E K (parseContent E H fuel) := by
  intro fuel
  induction fuel with
  | zero => intro s s' h; exact (diverge_ok.1 h).elim
  | succ fuel ih =>
    intro s s' h h0 hk hne
    unfold parseContent at h
    run at h
    split at h
    · rename_i hd
      cases h
      exact absurd (List.isEmpty_iff.1 hd) hne
    · split at h
      · rename_i hp
        cases h
        exact ⟨[], [], .nil, .refl _, List.isPrefixOf_iff_prefix.1 hp⟩
      · obtain ⟨_, s1, h1, h2⟩ := bind_ok.1 h
        have h01 : Ready H K s1 := by
          have hcs := (stayL_step (E := E) (H := H) fuel) s trivial
          rw [h1] at hcs
          exact hcs.ready h0
        obtain ⟨t, evs, a1, a2, a3⟩ := ih h2 h01 hk hne
        obtain ⟨t1, evs1, b1, b2⟩ := contentStep_step (BL_content E fuel) (stayL_content fuel) ih h1 h0 (a2.knows hk) (step_ne a2 hne)
        exact ⟨_, _, b1 a1, b2.trans a2, a3⟩

theorem looseMisc_blank {ws t : List Nat} {evs : List Ev} (hw : Blank ws) (h : LooseMisc E t evs) : LooseMisc E (ws ++ t) evs := by
  induction ws with
  | nil => exact h
  | cons c ws ih => exact .space (hw c (List.mem_cons_self ..)) (ih (fun x hx => hw x (List.mem_cons_of_mem _ hx)))

theorem looseMisc_ws {ws : List Nat} (hw : Blank ws) : LooseMisc E ([] ++ ws) [] := by
  have := looseMisc_blank (E := E) hw .nil
  rwa [List.append_nil] at this

theorem parseMiscLoop_step : ∀ (fuel : Nat) {s s' : St σ}, parseMiscLoop E H fuel s = .ok () s' → 0 ∉ s.cur →
    ∃ t evs, LooseMisc E t evs ∧ Step H s s' t evs ∧ (s'.cur ≠ [] → ∀ ws, Blank ws → LooseMisc E (t ++ ws) evs) := by
  intro fuel
  induction fuel with
  | zero => intro s s' h; exact (diverge_ok.1 h).elim
  | succ fuel ih =>
    intro s s' h h0
    unfold parseMiscLoop at h
    run at h
    split at h
    · cases h; exact ⟨[], [], .nil, .refl _, fun _ ws hw => looseMisc_ws hw⟩
    · split at h
      · rename_i hp
        obtain ⟨_, s1, h1, h2⟩ := bind_ok.1 h
        obtain ⟨t, ev, a1, a2⟩ := parsePI_step (List.isPrefixOf_iff_prefix.1 hp) h0 (wrap_ok.1 h1)
        obtain ⟨t', evs, b1, b2, b3⟩ := ih h2 (a2.nul h0)
        exact ⟨_, _, .pi a1 b1, a2.trans b2, fun hc ws hw => by rw [List.append_assoc]; exact .pi a1 (b3 hc ws hw)⟩
      · split at h
        · rename_i hp
          obtain ⟨_, s1, h1, h2⟩ := bind_ok.1 h
          rcases parseComment_step (List.isPrefixOf_iff_prefix.1 hp) (wrap_ok.1 h1) with ⟨t, ev, a1, a2⟩ | ⟨a0, l, d, a1, a2, a3⟩
          · obtain ⟨t', evs, b1, b2, b3⟩ := ih h2 (a2.nul h0)
            exact ⟨_, _, .comment a1 b1, a2.trans b2, fun hc ws hw => by rw [List.append_assoc]; exact .comment a1 (b3 hc ws hw)⟩
          · have : s' = s1 := by
              cases fuel with
              | zero => exact (diverge_ok.1 h2).elim
              | succ f =>
                unfold parseMiscLoop at h2
                run at h2
                rw [a0] at h2
                simp only [List.isEmpty_nil, if_true] at h2
                cases h2; rfl
            subst this
            exact ⟨_, _, .open a1 a2, a3, fun hc => absurd a0 hc⟩
        · split at h
          · rename_i hb
            obtain ⟨ws, w1, w2⟩ := skip_step s
            obtain ⟨t', evs, b1, b2, b3⟩ := ih h (w2.nul h0)
            exact ⟨_, _, looseMisc_blank w1 b1, w2.trans b2, fun hc v hv => by rw [List.append_assoc]; exact looseMisc_blank w1 (b3 hc v hv)⟩
          · cases h; exact ⟨[], [], .nil, .refl _, fun _ ws hw => looseMisc_ws hw⟩

theorem parseMisc_step {s s' : St σ} (h : parseMisc E H s = .ok () s') (h0 : 0 ∉ s.cur) :
    ∃ t evs, LooseMisc E t evs ∧ Step H s s' t evs ∧ (s'.cur ≠ [] → ∀ ws, Blank ws → LooseMisc E (t ++ ws) evs) := by
  unfold parseMisc at h
  run at h
  exact parseMiscLoop_step _ h h0

/-! ### documents -/

theorem parseTail_step {fuel : Nat} {s s' : St σ} (h : parseTail E H fuel s = .ok () s') (h0 : Ready H K s) (hk : Knows H K s') :
    s.cur ≠ [] ∧ ∃ ws root tail er et, Blank ws ∧ Accepted E K true root er ∧ LooseMisc E tail et ∧ s.cur = ws ++ (root ++ tail) ∧
      s'.trace.map (·.1) = s.trace.map (·.1) ++ (er ++ (et ++ [.endDocument])) := by
  unfold parseTail at h
  run at h
  obtain ⟨ws, hws, st1⟩ := skip_step s
  obtain ⟨_, s1, h1, h2⟩ := bind_ok.1 h
  obtain ⟨k1, rfl⟩ := need_ok.1 h1
  obtain ⟨_, s2, h3, h4⟩ := bind_ok.1 h2
  obtain ⟨_, s3, h5, h6⟩ := bind_ok.1 h4
  run at h6
  obtain ⟨_, s4, h7, h8⟩ := bind_ok.1 h6
  obtain ⟨k2, rfl⟩ := need_ok.1 h7
  have hcur : s4.cur = [] := List.isEmpty_iff.1 k2
  have h02 : Ready H K s2 := by
    have := stayL_elem (E := E) (H := H) fuel { s with cur := s.cur.dropWhile isBlank } trivial
    rw [show parseElement E H fuel _ = _ from wrap_ok.1 h3] at this
    exact this.ready (st1.ready h0)
  obtain ⟨tail, et, b1, b2, -⟩ := parseMisc_step (wrap_ok.1 h5) h02.nul
  have b4 := b2.trans (cb_step h8)
  obtain ⟨root, er, a1, a2⟩ := parseElementW_step (parseContent_step fuel) (BL_content E fuel) (wrap_ok.1 h3) (st1.ready h0) (b4.knows hk)
  have st3 := (st1.trans a2).trans b2
  have st4 := st3.trans (cb_step h8)
  refine ⟨?_, ws, root, tail, er, et, hws, a1, b1, ?_, ?_⟩
  · intro hc
    obtain ⟨t, ht⟩ := peekd_cons (E := E) (s := { s with cur := s.cur.dropWhile isBlank }) (eq_of_beq k1) (by decide : (60 : Nat) ≠ 0 ∧ (60 : Nat) ≠ 0xFFFD)
    have ht : s.cur.dropWhile isBlank = 60 :: t := ht
    rw [hc] at ht
    cases ht
  · rw [st3.cur, hcur]; simp
  · rw [st4.trace]; simp

end
end Helium
