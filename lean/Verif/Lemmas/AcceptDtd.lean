import Verif.Lemmas.AcceptEnt
import Verif.Lemmas.Flags
import Verif.Lemmas.SaxPhases
/-! What an accepted document type declaration looks like. -/
namespace Helium
open Spec

/-- take a successful run apart at its first step. -/
macro "bnd" h:ident a:ident t:ident k:ident : tactic =>
  `(tactic| (obtain ⟨$a:ident, $t:ident, $k:ident, g⟩ := bind_ok.1 $h; clear $h; have $h := g; clear g))

section
variable {σ : Type} {E : Env} {H : Handler σ}

/-! ### element type declarations -/

theorem parseMixed_moves {e : EC} {s s' : St σ} (h : parseMixed E s = .ok e s') (h0 : 0 ∉ s.cur) : ∃ t, LooseMixed E e t ∧ Moves s s' t := by
  unfold parseMixed at h
  bnd h b s1 k1
  cases b with
  | false => exact (cerr_ok.1 h).elim
  | true =>
    have m1 := consume_moves k1
    simp only [if_true] at h
    run at h
    split at h
    · rename_i hc
      have m2 := m1.trans (peek_moves hc (by decide))
      split at h
      · rename_i hc
        have m3 := m2.trans (peek_moves (s := { s1 with cur := s1.cur.drop 1 }) hc (by decide))
        cases h
        exact ⟨_, .star, m3⟩
      · cases h
        exact ⟨_, .text, m2⟩
    · split at h
      · rename_i hc
        have m2 := m1.trans (peek_moves hc (by decide))
        obtain ⟨ws, hws, mb, -, -⟩ := skipBlanks_ok (s := { s1 with cur := s1.cur.drop 1 }) (b := _) rfl
        have m3 := m2.trans mb
        bnd h nm s3 k3
        obtain ⟨n, e1, rfl, m4⟩ := parseName_moves (wrap_ok.1 k3) (m3.nul h0)
        run at h
        obtain ⟨w2, hw2, m5, -, -⟩ := skipBlanks_ok (s := s3) (b := _) rfl
        have m6 := (m3.trans m4).trans m5
        split at h
        · exact (cerr_ok.1 h).elim
        · split at h
          · rename_i h7
            have m7 := m6.trans (Moves.mk (t := [41, 42]) (w := (s3.cur.dropWhile isBlank).drop 2) (by
              show s3.cur.dropWhile isBlank = _
              rw [← h7, List.take_append_drop]))
            obtain ⟨p, l, hp, hec⟩ := newElementContent_parts e1
            rw [hec] at h
            cases h
            exact ⟨_, .name hws e1 hp hw2, by simpa using m7⟩
          · cases h
            exact ⟨_, .nameOpen hws e1 hw2, by simpa using m6⟩
      · rename_i hc1 hc2
        split at h
        · rename_i h7
          exfalso
          apply hc1
          cases hs1 : s1.cur with
          | nil => rw [hs1] at h7; simp at h7
          | cons x r =>
            rw [hs1] at h7
            simp at h7
            rw [h7.1]; rfl
        · cases h
          refine ⟨_, .textOpen ?_, m1⟩
          split
          · exact .inl rfl
          · exact .inr rfl

theorem parseElementContentDecl_moves {x : EC × Nat} {s s' : St σ} (h : parseElementContentDecl E s = .ok x s') (h0 : 0 ∉ s.cur) (hne : Ended s'.cur) :
    ∃ t w, LooseContent E x.2 x.1 t ∧ Blank w ∧ Moves s s' (t ++ w) := by
  unfold parseElementContentDecl at h
  run at h
  bnd h u s1 k1
  obtain ⟨hc, rfl⟩ := need_ok.1 k1
  have m1 := peek_moves (eq_of_beq hc) (by decide : (40 : Nat) ≠ 0 ∧ (40 : Nat) ≠ 0xFFFD)
  run at h
  obtain ⟨ws, hws, mb, -, -⟩ := skipBlanks_ok (s := { s1 with cur := s1.cur.drop 1 }) (b := _) rfl
  have m2 := m1.trans mb
  bnd h y s2 k2
  run at h
  cases h
  obtain ⟨w2, hw2, m4, -, -⟩ := skipBlanks_ok (s := s2) (b := _) rfl
  run at k2
  split at k2
  · obtain ⟨e, s3, k3, k4⟩ := bind_ok.1 k2
    cases k4
    obtain ⟨t, g1, g2⟩ := parseMixed_moves (wrap_ok.1 k3) (m2.nul h0)
    exact ⟨_, w2, .mixed hws g1, hw2, by simpa using (m2.trans g2).trans m4⟩
  · obtain ⟨e, s3, k3, k4⟩ := bind_ok.1 k2
    cases k4
    obtain ⟨wa, f, m, wb, c, es, o, r, g1, g2, g3, g4, rfl, g5⟩ := parseChildren_moves _ _ _ _ _ (wrap_ok.1 k3) (m2.nul h0) (hne.blank m4 hw2)
    exact ⟨_, w2, .children (.group (blank_append hws g1) g2 g3 g4) rfl, hw2, by simpa using (m2.trans g5).trans m4⟩

theorem parseElementDecl_step {s s' : St σ} (h : parseElementDecl E H s = .ok () s') (h0 : 0 ∉ s.cur) : ∃ t evs, LooseDecl E t evs ∧ Step H s s' t evs := by
  unfold parseElementDecl at h
  bnd h b s1 k1
  cases b with
  | false => exact (cerr_ok.1 h).elim
  | true =>
    have m1 := consume_moves k1
    simp only [if_true] at h
    bnd h u s2 k2
    obtain ⟨w1, hw1, hb1, m2, -⟩ := needBlanks_moves k2
    bnd h nm s3 k3
    obtain ⟨n, e1, rfl, m3⟩ := parseName_moves (wrap_ok.1 k3) ((m1.trans m2).nul h0)
    bnd h u s4 k4
    obtain ⟨w2, hw2, hb2, m4, -⟩ := needBlanks_moves k4
    have m14 := ((m1.trans m2).trans m3).trans m4
    bnd h ct s5 k5
    bnd h u s6 k6
    obtain ⟨w3, hw3, m6, -, -⟩ := skipBlanks_ok k6
    run at h
    bnd h u s7 k7
    obtain ⟨hc, rfl⟩ := need_ok.1 k7
    have m7 := peek_moves (eq_of_beq hc) (by decide : (62 : Nat) ≠ 0 ∧ (62 : Nat) ≠ 0xFFFD)
    run at h
    have hne : Ended s5.cur := Ended.blank ⟨62, _, m7.2, by decide, by decide⟩ m6 hw3
    have hct : ∃ t w, LooseContent E ct.2 ct.1 t ∧ Blank w ∧ Moves s4 s5 (t ++ w) := by
      bnd k5 b s8 j1
      cases b with
      | true => cases k5; exact ⟨_, [], .empty, blank_nil, by simpa using consume_moves j1⟩
      | false =>
        obtain ⟨rfl, -⟩ := consume_stays j1
        simp only [Bool.false_eq_true, if_false] at k5
        bnd k5 b s9 j2
        cases b with
        | true => cases k5; exact ⟨_, [], .any, blank_nil, by simpa using consume_moves j2⟩
        | false =>
          obtain ⟨rfl, -⟩ := consume_stays j2
          simp only [Bool.false_eq_true, if_false] at k5
          run at k5
          split at k5
          · exact parseElementContentDecl_moves (wrap_ok.1 k5) (m14.nul h0) hne
          · cases k5; exact ⟨[], [], .missing, blank_nil, .refl _⟩
    obtain ⟨t, w, g1, g2, g3⟩ := hct
    have st := (((m14.trans g3).trans m6).trans m7).step.trans (cb_step h)
    refine ⟨_, _, .element (ec := ct.1) hw1 hb1 e1 hw2 hb2 g1 (blank_append g2 hw3), ?_⟩
    simpa using st

/-! ### entity declarations -/

theorem setOrig_step {e : Except Err (Option ERef)} {b : Bytes} {s s' : St σ} (h : setOrig e b s = .ok () s') : Step H s s' [] [] := by
  unfold setOrig at h
  split at h
  · simp only [liftH, updNode, M.modify] at h
    cases h
    refine ⟨rfl, Step.extra rfl, rfl, rfl, fun x => x.heap rfl (Tabs.upd (f := fun x => { x with orig := b }) _ s.hc.heap _ rfl ⟨id, fun h => ⟨h, rfl, rfl⟩⟩)⟩
  · cases h; exact .refl _

theorem parseEntityDecl_step {s s' : St σ} (h : parseEntityDecl E H s = .ok () s') (h0 : 0 ∉ s.cur) : ∃ t evs, LooseDecl E t evs ∧ Step H s s' t evs := by
  unfold parseEntityDecl at h
  bnd h b s1 k1
  cases b with
  | false => exact (cerr_ok.1 h).elim
  | true =>
    have m1 := consume_moves k1
    simp only [if_true] at h
    bnd h b s2 k2
    obtain ⟨w1, hb1, m2, hw1, -⟩ := skipBlanks_ok k2
    bnd h u s2' k2'
    obtain ⟨rfl, rfl⟩ := need_ok.1 k2'
    have hw1 := hw1 rfl
    bnd h p s3 k3
    have m12 := m1.trans m2
    have hp : ∃ w2, w2 ≠ [] ∧ Blank w2 ∧ Moves s2' s3 (if p then 37 :: w2 else []) := by
      run at k3
      split at k3
      · rename_i hc
        have ma := peek_moves hc (by decide : (37 : Nat) ≠ 0 ∧ (37 : Nat) ≠ 0xFFFD)
        obtain ⟨_, s4, k4, k5⟩ := bind_ok.1 k3
        obtain ⟨hx, rfl⟩ := need_ok.1 k4
        cases k5
        obtain ⟨w2, hb2, m3, hw2, -⟩ := skipBlanks_ok (s := { s2' with cur := s2'.cur.drop 1 }) (b := _) rfl
        exact ⟨w2, hw2 hx, hb2, ma.trans m3⟩
      · cases k3
        exact ⟨[32], by simp, by intro c hc; simp at hc; subst hc; exact Or.inl rfl, .refl _⟩
    obtain ⟨w2, hw2, hb2, m3⟩ := hp
    have m13 := m12.trans m3
    bnd h nm s4 k4
    obtain ⟨n, e1, rfl, m4⟩ := parseName_moves (wrap_ok.1 k4) (m13.nul h0)
    have m14 := m13.trans m4
    split at h
    · exact (cerr_ok.1 h).elim
    · rename_i hcol
      have hcol : 58 ∉ n := fun hc => hcol (indexByte_some.2 ((mem_encodeRunes_ascii n 58 (by decide)).2 hc))
      bnd h b s5 k5
      obtain ⟨w3, hb3, m5, hw3, hh5⟩ := skipBlanks_ok k5
      bnd h u s5' k5'
      obtain ⟨rfl, rfl⟩ := need_ok.1 k5'
      have hw3 := hw3 rfl
      have m15 := m14.trans m5
      bnd h c s5a kc
      obtain ⟨rfl, rfl⟩ := peek_ok.1 kc
      bnd h lit s6 k6
      bnd h b s7 k7
      obtain ⟨w4, hb4, m7, -, hh7⟩ := skipBlanks_ok k7
      bnd h c s7a kc
      obtain ⟨rfl, rfl⟩ := peek_ok.1 kc
      bnd h u s7b k7
      obtain ⟨hc62, rfl⟩ := need_ok.1 k7
      have hc62 := eq_of_beq hc62
      have m8 := peek_moves hc62 (by decide : (62 : Nat) ≠ 0 ∧ (62 : Nat) ≠ 0xFFFD)
      run at h
      bnd h cur s9 k9
      have hs9 := ((m7.trans m8).step.trans (ask_step k9)).trans (setOrig_step h)
      have hlook : Step H s6 s' (w4 ++ [62]) [entityLookup p n] := by
        rw [show entityLookup p n = (if p = true then Ev.getParameterEntity (encodeRunes n) else Ev.getEntity (encodeRunes n)) from rfl]
        simpa using hs9
      have h62 : ∃ r, s7b.cur = 62 :: r := peekd_cons hc62 (by decide)
      split at k6
      · rename_i hq
        obtain ⟨x, s10, k10, k6⟩ := bind_ok.1 k6
        obtain ⟨l, v, g1, g2, g3, g4, g5⟩ := parseEntityValue_moves hq rfl k10
        have hrep : Step H s10 s6 [] (entityReport p n v) := by
          cases x with
          | error e =>
            cases k6
            rw [g4 e rfl]
            exact .refl _
          | ok y =>
            obtain ⟨u, s11, k11, k6⟩ := bind_ok.1 k6
            cases k6
            rw [g3 y rfl]
            exact cb_step k11
        have hmv : Moves s5a s10 (s5a.cur.getD 0 E.eof :: (l ++ [s5a.cur.getD 0 E.eof])) := by
          have hcur : s10.cur = s6.cur := hrep.cur
          rcases g5 with g5 | g5 | ⟨c, r, g5, g6⟩
          · exact g5
          · exfalso
            obtain ⟨r, hr⟩ := h62
            have := m7.2
            rw [← hcur, g5, hr] at this
            simp at this
          · exfalso
            obtain ⟨r', hr⟩ := h62
            have := m7.2
            rw [← hcur, g5, hr] at this
            cases w4 with
            | nil => simp at this; rw [this.1] at g6; revert g6; decide
            | cons y w4 =>
              simp at this
              have hy := hb4 y (by simp)
              rw [← this.1] at hy
              rw [(ws_legal hy).1] at g6
              cases g6
        generalize s5a.cur.getD 0 E.eof = q at *
        refine ⟨_, _, .entity (p := p) hw1 hb1 hw2 hb2 e1 hcol hw3 hb3 hq g1 g2 hb4, ?_⟩
        have := ((m15.trans hmv).step.trans hrep).trans hlook
        simpa using this
      · rename_i hq
        bnd k6 x s10 k10
        cases k10
        have hv : Step H s5a s6 [] (if p then [] else [.entityDecl (encodeRunes n) 5 [] [] []]) := by
          split at k6
          · rename_i hp
            rw [hp]
            cases k6
            exact .refl _
          · rename_i hp
            rw [if_neg hp]
            run at k6
            bnd k6 u s11 k11
            obtain ⟨hx, rfl⟩ := need_ok.1 k11
            have hx : s11.cur.getD 0 E.eof = 62 := by
              simp only [Bool.or_eq_true, beq_iff_eq] at hx
              rcases hx with hx | hx
              · exact hx
              · exfalso
                cases hcur : s11.cur with
                | nil =>
                  rw [hcur, List.getD_nil] at hx
                  rcases E.eof_spec with h | h <;> rw [h] at hx <;> cases hx
                | cons y r =>
                  rw [hcur] at hx
                  exact hh5 y (by rw [hcur]; rfl) ((isBlank_iff y).1 hx)
            obtain ⟨r, hr⟩ := peekd_cons hx (by decide)
            run at k6
            have hsk : ({ s11 with cur := s11.cur.dropWhile isBlank } : St σ) = s11 := by
              have : s11.cur.dropWhile isBlank = s11.cur := by rw [hr]; rfl
              rw [this]
            rw [hsk] at k6
            bnd k6 b s12 k12
            cases b with
            | true =>
              rcases consume_ok.1 k12 with ⟨-, h1, -⟩ | ⟨h1, -⟩
              · rw [hr] at h1; cases h1
              · cases h1
            | false =>
              obtain ⟨rfl, -⟩ := consume_stays k12
              simp only [Bool.false_eq_true, if_false] at k6
              obtain ⟨u, s13, k13, k6⟩ := bind_ok.1 k6
              cases k6
              exact cb_step k13
        refine ⟨_, _, .valueless (p := p) hw1 hb1 hw2 hb2 e1 hcol (w3 := w3 ++ w4) (by simp [hw3]) (blank_append hb3 hb4), ?_⟩
        have := (m15.step.trans hv).trans hlook
        simpa using this

/-! ### attribute lists -/

theorem notationLoop_moves : ∀ (fuel : Nat) {acc out : List Bytes} {s s' : St σ}, notationLoop E fuel acc s = .ok out s' → 0 ∉ s.cur →
    ∃ ns t, out = acc ++ ns ∧ LooseNames E ns (t ++ [41]) ∧ Moves s s' t
  | 0, _, _, _, _, h, _ => (diverge_ok.1 h).elim
  | fuel + 1, acc, out, s, s', h, h0 => by
    unfold notationLoop at h
    bnd h nm s1 k1
    obtain ⟨n, e1, rfl, m1⟩ := parseName_moves (orElse_ok.1 k1) h0
    bnd h b s2 k2
    obtain ⟨w1, hb1, m2, -, -⟩ := skipBlanks_ok k2
    have m12 := m1.trans m2
    run at h
    split at h
    · rename_i hc
      have m3 := peek_moves hc (by decide : (124 : Nat) ≠ 0 ∧ (124 : Nat) ≠ 0xFFFD)
      obtain ⟨w2, hb2, m4, -, -⟩ := skipBlanks_ok (s := { s2 with cur := s2.cur.drop 1 }) (b := _) rfl
      have m14 := (m12.trans m3).trans m4
      obtain ⟨ns, t, rfl, g2, g3⟩ := notationLoop_moves fuel h (m14.nul h0)
      refine ⟨encodeRunes n :: ns, n ++ (w1 ++ 124 :: (w2 ++ t)), by simp, ?_, by simpa using m14.trans g3⟩
      have := LooseNames.more e1 hb1 hb2 g2
      simpa using this
    · cases h
      refine ⟨[encodeRunes n], n ++ w1, rfl, ?_, m12⟩
      have := LooseNames.one (E := E) e1 hb1
      simpa using this

theorem enumLoop_moves : ∀ (fuel : Nat) {acc out : List Bytes} {s s' : St σ}, enumLoop E fuel acc s = .ok out s' →
    ∃ ns t, out = acc ++ ns ∧ LooseBars ns (t ++ [41]) ∧ Moves s s' t
  | 0, _, _, _, _, h => (diverge_ok.1 h).elim
  | fuel + 1, acc, out, s, s', h => by
    unfold enumLoop at h
    bnd h nm s1 k1
    have k1 := orElse_ok.1 k1
    unfold parseNmtoken at k1
    run at k1
    split at k1
    · exact (diverge_ok.1 k1).elim
    cases k1
    bnd h b s2 k2
    obtain ⟨w1, hb1, m2, -, -⟩ := skipBlanks_ok k2
    run at h
    split at h
    · rename_i hc
      have m3 := peek_moves hc (by decide : (124 : Nat) ≠ 0 ∧ (124 : Nat) ≠ 0xFFFD)
      obtain ⟨w2, hb2, m4, -, -⟩ := skipBlanks_ok (s := { s2 with cur := s2.cur.drop 1 }) (b := _) rfl
      have m14 := (m2.trans m3).trans m4
      obtain ⟨ns, t, rfl, g2, g3⟩ := enumLoop_moves fuel h
      refine ⟨[] :: ns, w1 ++ 124 :: (w2 ++ t), by simp, ?_, by simpa using m14.trans g3⟩
      have := LooseBars.more hb1 hb2 g2
      simpa using this
    · cases h
      exact ⟨[[]], w1, rfl, LooseBars.one hb1, m2⟩

theorem parseAttributeType_moves {x : Nat × List Bytes} {s s' : St σ} (h : parseAttributeType E s = .ok x s') (h0 : 0 ∉ s.cur) :
    ∃ t, LooseType E x.1 x.2 t ∧ Moves s s' t := by
  unfold parseAttributeType at h
  bnd h b s1 k1
  cases b with
  | true => cases h; exact ⟨_, .cdata, consume_moves k1⟩
  | false =>
  obtain ⟨rfl, -⟩ := consume_stays k1
  clear k1
  simp only [Bool.false_eq_true, if_false] at h
  bnd h b s1 k1
  cases b with
  | true => cases h; exact ⟨_, .idrefs, consume_moves k1⟩
  | false =>
  obtain ⟨rfl, -⟩ := consume_stays k1
  clear k1
  simp only [Bool.false_eq_true, if_false] at h
  bnd h b s1 k1
  cases b with
  | true => cases h; exact ⟨_, .idref, consume_moves k1⟩
  | false =>
  obtain ⟨rfl, -⟩ := consume_stays k1
  clear k1
  simp only [Bool.false_eq_true, if_false] at h
  bnd h b s1 k1
  cases b with
  | true => cases h; exact ⟨_, .id, consume_moves k1⟩
  | false =>
  obtain ⟨rfl, -⟩ := consume_stays k1
  clear k1
  simp only [Bool.false_eq_true, if_false] at h
  bnd h b s1 k1
  cases b with
  | true => cases h; exact ⟨_, .entity, consume_moves k1⟩
  | false =>
  obtain ⟨rfl, -⟩ := consume_stays k1
  clear k1
  simp only [Bool.false_eq_true, if_false] at h
  bnd h b s1 k1
  cases b with
  | true => cases h; exact ⟨_, .entities, consume_moves k1⟩
  | false =>
  obtain ⟨rfl, -⟩ := consume_stays k1
  clear k1
  simp only [Bool.false_eq_true, if_false] at h
  bnd h b s1 k1
  cases b with
  | true => cases h; exact ⟨_, .nmtokens, consume_moves k1⟩
  | false =>
  obtain ⟨rfl, -⟩ := consume_stays k1
  clear k1
  simp only [Bool.false_eq_true, if_false] at h
  bnd h b s1 k1
  cases b with
  | true => cases h; exact ⟨_, .nmtoken, consume_moves k1⟩
  | false =>
  obtain ⟨rfl, -⟩ := consume_stays k1
  clear k1
  simp only [Bool.false_eq_true, if_false] at h
  bnd h b s1 k1
  cases b with
  | true =>
    have m1 := consume_moves k1
    simp only [if_true] at h
    bnd h u s2 k2
    obtain ⟨w1, hw1, hb1, m2, -⟩ := needBlanks_moves k2
    bnd h l s3 k3
    cases h
    have h := wrap_ok.1 k3
    unfold parseNotationType at h
    run at h
    bnd h u s4 k4
    obtain ⟨hc, rfl⟩ := need_ok.1 k4
    have m3 := peek_moves (eq_of_beq hc) (by decide : (40 : Nat) ≠ 0 ∧ (40 : Nat) ≠ 0xFFFD)
    run at h
    obtain ⟨w2, hb2, m4, -, -⟩ := skipBlanks_ok (s := { s4 with cur := s4.cur.drop 1 }) (b := _) rfl
    have m14 := ((m1.trans m2).trans m3).trans m4
    bnd h e s5 k5
    obtain ⟨ns, t, g1, g2, g3⟩ := notationLoop_moves _ k5 (m14.nul h0)
    run at h
    bnd h u s6 k6
    obtain ⟨hc6, rfl⟩ := need_ok.1 k6
    have m6 := peek_moves (eq_of_beq hc6) (by decide : (41 : Nat) ≠ 0 ∧ (41 : Nat) ≠ 0xFFFD)
    run at h
    cases h
    refine ⟨_, .notation hw1 hb1 hb2 (t := t ++ [41]) (by rw [g1]; exact g2), ?_⟩
    simpa using (m14.trans g3).trans m6
  | false =>
  obtain ⟨rfl, -⟩ := consume_stays k1
  clear k1
  simp only [Bool.false_eq_true, if_false] at h
  bnd h l s3 k3
  cases h
  have h := wrap_ok.1 k3
  unfold parseEnumerationType at h
  run at h
  bnd h u s4 k4
  obtain ⟨hc, rfl⟩ := need_ok.1 k4
  have m3 := peek_moves (eq_of_beq hc) (by decide : (40 : Nat) ≠ 0 ∧ (40 : Nat) ≠ 0xFFFD)
  run at h
  obtain ⟨w2, hb2, m4, -, -⟩ := skipBlanks_ok (s := { s4 with cur := s4.cur.drop 1 }) (b := _) rfl
  bnd h e s5 k5
  obtain ⟨ns, t, g1, g2, g3⟩ := enumLoop_moves _ k5
  run at h
  bnd h u s6 k6
  obtain ⟨hc6, rfl⟩ := need_ok.1 k6
  have m6 := peek_moves (eq_of_beq hc6) (by decide : (41 : Nat) ≠ 0 ∧ (41 : Nat) ≠ 0xFFFD)
  run at h
  cases h
  refine ⟨_, .enum hb2 (t := t ++ [41]) (by rw [g1]; exact g2), ?_⟩
  simpa using ((m3.trans m4).trans g3).trans m6

/-- anything may be referred to inside the document type declaration. -/
abbrev anyName : List Nat → Bytes → Prop := fun _ _ => True
theorem ready_any {s : St σ} (h0 : 0 ∉ s.cur) : Ready H anyName s := ⟨h0, .inr fun _ _ => trivial, .inr fun _ _ _ _ => trivial⟩
theorem knows_any {s : St σ} : Knows H anyName s := fun _ _ _ _ _ => trivial

theorem quotedValue_step {x : Bytes × Nat} {s s' : St σ} (h : parseQuotedText E (fun q => parseAttributeValueInternal E H q false) s = .ok x s')
    (h0 : 0 ∉ s.cur) : ∃ q l look, (q = 34 ∨ q = 39) ∧ LooseValue E anyName q l x.1 ∧ OnlyLookups look ∧ Step H s s' (q :: (l ++ [q])) look := by
  unfold parseQuotedText at h
  run at h
  split at h
  · rename_i hq
    have m1 := peek_moves (E := E) (s := s) (c := s.cur.getD 0 E.eof) rfl (by omega)
    generalize s.cur.getD 0 E.eof = q at *
    bnd h v s1 k1
    run at h
    bnd h u s2 k2
    obtain ⟨hc, rfl⟩ := needRaw_ok.1 k2
    have hc := eq_of_beq hc
    run at h
    cases h
    have m2 := peek_moves hc (by omega)
    obtain ⟨f, z, k3, rfl⟩ := parseAttributeValueInternal_loop k1
    obtain ⟨l, w, look, g1, gk, g2, g3, -⟩ := attrValueLoop_step (K := anyName) hq _ k3 .start (ready_any (m1.nul h0)) knows_any (by rw [m2.2]; simp)
    have gk := gk.all rfl
    rw [List.nil_append] at gk
    simp only [Bool.false_eq_true, and_false, if_false]
    rw [← gk] at g1
    refine ⟨q, l, look, hq, g1, g2, ?_⟩
    simpa using (m1.step.trans g3).trans m2.step
  · exact (raw_ok.1 h).elim

theorem parseDefaultDecl_step {x : Nat × Bytes} {s s' : St σ} (h : parseDefaultDecl E H s = .ok x s') (h0 : 0 ∉ s.cur) :
    ∃ t look, LooseDefault E x.1 t x.2 ∧ OnlyLookups look ∧ Step H s s' t look := by
  unfold parseDefaultDecl at h
  bnd h b s1 k1
  cases b with
  | true => cases h; exact ⟨_, [], .required, onlyLookups_nil, (consume_moves k1).step⟩
  | false =>
  obtain ⟨rfl, -⟩ := consume_stays k1
  clear k1
  simp only [Bool.false_eq_true, if_false] at h
  bnd h b s1 k1
  cases b with
  | true => cases h; exact ⟨_, [], .implied, onlyLookups_nil, (consume_moves k1).step⟩
  | false =>
  obtain ⟨rfl, -⟩ := consume_stays k1
  clear k1
  simp only [Bool.false_eq_true, if_false] at h
  bnd h t s2 k2
  bnd h v s3 k3
  cases h
  bnd k2 b s4 k4
  cases b with
  | true =>
    have m1 := consume_moves k4
    simp only [if_true] at k2
    bnd k2 u s5 k5
    cases k2
    obtain ⟨w1, hw1, hb1, m2, -⟩ := needBlanks_moves k5
    have m12 := m1.trans m2
    obtain ⟨q, l, look, g1, g2, g3, g4⟩ := quotedValue_step (wrap_ok.1 k3) (m12.nul h0)
    exact ⟨_, look, .fixed hw1 hb1 g1 g2, g3, by simpa using m12.step.trans g4⟩
  | false =>
    obtain ⟨rfl, -⟩ := consume_stays k4
    cases k2
    obtain ⟨q, l, look, g1, g2, g3, g4⟩ := quotedValue_step (wrap_ok.1 k3) h0
    exact ⟨_, look, .value g1 g2, g3, g4⟩

theorem attrNormalizeSpace_still {b v : Bytes} {s s' : St σ} (h : (attrNormalizeSpace b : P σ Bytes) s = .ok v s') : s' = s := by
  unfold attrNormalizeSpace at h
  split at h
  · exact (pure_ok.1 h).2.symm
  · simp only at h
    cases hl : (collapseSp (b.dropWhile (· == 32))).getLast? with
    | none => rw [hl] at h; exact (panic_ok.1 h).elim
    | some c => rw [hl] at h; exact (pure_ok.1 h).2.symm

theorem liftH_ok_cur {α : Type} {p : HM α} {a : α} {s s' : St σ} (h : liftH p s = .ok a s') : s'.cur = s.cur := by
  unfold liftH at h
  split at h
  · cases h; rfl
  · cases h
  · cases h
  · cases h
theorem liftH_err_cur {α : Type} {p : HM α} {e : Err} {s s' : St σ} (h : liftH p s = .err e s') : s'.cur = s.cur := by
  unfold liftH at h
  split at h
  · cases h
  · cases h; rfl
  · cases h
  · cases h

theorem addAttributeDefault_step {fuel : Nat} {a b c : Bytes} {s s' : St σ} (h : addAttributeDefault fuel a b c s = .ok () s') : Step H s s' [] [] := by
  have q : Quiet false s s' := by
    have := Silent.addAttributeDefault (σ := σ) fuel a b c s
    rw [h] at this
    exact this
  have hcur : s'.cur = s.cur := by
    unfold addAttributeDefault at h
    run at h
    cases hm : mapGet s.attsSpecial (specialKey a b) with
    | some x => rw [hm] at h; cases h; rfl
    | none =>
      rw [hm] at h
      simp only at h
      run at h
      bnd h x s1 k1
      have h1 : s1.cur = s.cur := by
        rcases attempt_ok.1 k1 with ⟨y, -, k1⟩ | ⟨y, -, k1⟩
        · exact (liftH_ok_cur k1).trans rfl
        · exact (liftH_err_cur k1).trans rfl
      rw [← h1]
      cases x with
      | error e => cases h; rfl
      | ok y =>
        simp only at h
        bnd h u s2 k2
        rw [← liftH_ok_cur k2]
        cases h
        rfl
  exact .quiet q hcur.symm

theorem opt_ok {α : Type} {c : Prop} [Decidable c] {p : P σ Unit} {K : P σ α} {a : α} {s s' : St σ} (h : (if c then p >>= fun _ => K else K) s = .ok a s') :
    ∃ s1, (if c then p else pure ()) s = .ok () s1 ∧ K s1 = .ok a s' := by
  split at h
  · rename_i hc
    obtain ⟨u, s1, h1, h2⟩ := bind_ok.1 h
    exact ⟨s1, by rw [if_pos hc]; exact h1, h2⟩
  · rename_i hc
    exact ⟨s, by rw [if_neg hc]; rfl, h⟩

theorem attlistLoop_step {snl : Nat} {el : Bytes} : ∀ (fuel : Nat) {s s' : St σ}, attlistLoop E H snl el fuel s = .ok () s' → 0 ∉ s.cur →
    (∃ t evs, LooseDefs E el t evs ∧ Step H s s' t evs) ∨ (∃ r, s.cur = 62 :: r ∧ s' = s)
  | 0, _, _, h, _ => (diverge_ok.1 h).elim
  | fuel + 1, s, s', h, h0 => by
    unfold attlistLoop at h
    run at h
    split at h
    · rename_i hc
      cases h
      have m := peek_moves hc (by decide : (62 : Nat) ≠ 0 ∧ (62 : Nat) ≠ 0xFFFD)
      exact .inr ⟨_, m.2, rfl⟩
    refine .inl ?_
    bnd h nm s1 k1
    obtain ⟨n, e1, rfl, m1⟩ := parseName_moves (orElse_ok.1 k1) h0
    bnd h u s2 k2
    obtain ⟨w1, hw1, hb1, m2, -⟩ := needBlanks_moves k2
    have m12 := m1.trans m2
    bnd h te s3 k3
    obtain ⟨t, ht, m3⟩ := parseAttributeType_moves (wrap_ok.1 k3) (m12.nul h0)
    have m13 := m12.trans m3
    bnd h u s4 k4
    obtain ⟨w2, hw2, hb2, m4, -⟩ := needBlanks_moves k4
    have m14 := m13.trans m4
    bnd h dv s5 k5
    obtain ⟨u, look, hu, hlk, m5⟩ := parseDefaultDecl_step (wrap_ok.1 k5) (m14.nul h0)
    have m15 := m14.step.trans m5
    bnd h v s6 k6
    have e6 : s6 = s5 ∧ v = declaredAs te.1 dv.2 := by
      unfold declaredAs
      split at k6
      · rename_i hn
        rw [if_neg hn]
        by_cases hs : dv.2 = [] ∨ ∃ c ∈ dv.2, c ≠ 32
        · rw [C43_normalize_partial dv.2 s5 hs] at k6
          cases k6
          exact ⟨rfl, rfl⟩
        · simp only [not_or, not_exists, not_and, Decidable.not_not] at hs
          rw [C43_spaces_panic dv.2 s5 hs.1 hs.2] at k6
          cases k6
      · rename_i hn
        rw [if_pos (Decidable.not_not.1 hn)]
        obtain ⟨rfl, rfl⟩ := pure_ok.1 k6
        exact ⟨rfl, rfl⟩
    obtain ⟨e6, rfl⟩ := e6
    subst e6
    bnd h cc s7 k7
    obtain ⟨rfl, rfl⟩ := peek_ok.1 k7
    obtain ⟨s8, k8, h'⟩ := opt_ok h
    clear h
    have h := h'
    clear h'
    have h8 : ∃ w3, Blank w3 ∧ Moves s7 s8 w3 ∧ (s8.cur.getD 0 E.eof ≠ 62 → w3 ≠ []) := by
      split at k8
      · obtain ⟨w3, hw3, hb3, m, -⟩ := needBlanks_moves k8
        exact ⟨w3, hb3, m, fun _ => hw3⟩
      · rename_i hc
        cases k8
        exact ⟨[], blank_nil, .refl _, fun hx => (hx (Classical.not_not.1 hc)).elim⟩
    obtain ⟨w3, hb3, m8, hw3⟩ := h8
    bnd h z s9 k9
    have m9 := cb_step k9
    obtain ⟨s10, k10, h'⟩ := opt_ok h
    clear h
    have h := h'
    clear h'
    have m10 : Step H s9 s10 [] [] := by
      split at k10
      · exact addAttributeDefault_step k10
      · cases k10; exact .refl _
    run at h
    have hcur : s10.cur = s8.cur := by
      have h1 := m9.cur
      have h2 := m10.cur
      simp only [List.nil_append] at h1 h2
      rw [h1, h2]
    have mall := ((m15.trans m8.step).trans m9).trans m10
    split at h
    · rename_i hc
      cases h
      have m11 := peek_moves (s := s10) hc (by decide : (62 : Nat) ≠ 0 ∧ (62 : Nat) ≠ 0xFFFD)
      refine ⟨_, _, .last e1 hw1 hb1 ht hw2 hb2 hu hb3 hlk, ?_⟩
      have m12 : Step H s10 { s10 with cur := s10.cur.drop 1, attsSpecial := mapSet s10.attsSpecial (specialKey el (encodeRunes n)) te.1 } [62] [] :=
        ⟨m11.2, ⟨[], by simp, rfl⟩, rfl, rfl, fun x => x.heap rfl (Tabs.refl _ _)⟩
      simpa using mall.trans m12
    · rename_i hc
      have m12 : Step H s10 { s10 with attsSpecial := mapSet s10.attsSpecial (specialKey el (encodeRunes n)) te.1 } [] [] :=
        ⟨rfl, ⟨[], by simp, rfl⟩, rfl, rfl, fun x => x.heap rfl (Tabs.refl _ _)⟩
      have m := mall.trans m12
      rcases attlistLoop_step fuel h (m.nul h0) with ⟨r, evs, g1, g2⟩ | ⟨r, g1, -⟩
      · refine ⟨_, _, .more e1 hw1 hb1 ht hw2 hb2 hu (hw3 (by rw [← hcur]; exact hc)) hb3 hlk g1, ?_⟩
        simpa using m.trans g2
      · exact (hc (by simp only at g1; rw [g1]; rfl)).elim

/-- either an attribute-list declaration, or nothing, or one without attributes, after which the cursor is at the `>`. -/
theorem parseAttributeListDecl_step {snl : Nat} {s s' : St σ} (h : parseAttributeListDecl E H snl s = .ok () s') (h0 : 0 ∉ s.cur) :
    (∃ t evs, LooseDecl E t evs ∧ Step H s s' t evs) ∨ (∃ r, s'.cur = 62 :: r) ∨ s' = s := by
  unfold parseAttributeListDecl at h
  bnd h b s1 k1
  cases b with
  | false =>
    obtain ⟨rfl, -⟩ := consume_stays k1
    cases h
    exact .inr (.inr rfl)
  | true =>
    have m1 := consume_moves k1
    simp only [if_true] at h
    bnd h u s2 k2
    obtain ⟨w1, hw1, hb1, m2, -⟩ := needBlanks_moves k2
    have m12 := m1.trans m2
    bnd h nm s3 k3
    obtain ⟨cur', rfl, c, a, r0, p1, -, -, -, -, p2, p3⟩ := parseName_sound E (wrap_ok.1 k3)
    obtain ⟨n, e1, rfl, m3⟩ := parseName_moves (wrap_ok.1 k3) (m12.nul h0)
    have m13 := m12.trans m3
    bnd h b s4 k4
    obtain ⟨w2, hb2, m4, -, -⟩ := skipBlanks_ok k4
    have m14 := m13.trans m4
    run at h
    rcases attlistLoop_step _ h (m14.nul h0) with ⟨t, evs, g1, g2⟩ | ⟨r, g1, rfl⟩
    · refine .inl ⟨_, _, .attlist hw1 hb1 e1 ?_ hb2 g1, by simpa using m14.step.trans g2⟩
      rintro rfl
      have e4 : s4.cur = cur' := by have := m4.2; simpa using this.symm
      have hr : cur' = r0 := by
        rcases p2 with p2 | ⟨p2, -⟩
        · exact p2
        · refine (m12.nul h0 ?_).elim
          rw [p1]
          exact List.mem_append_right _ (List.mem_of_mem_head? p2)
      obtain ⟨c', t', g3, g4⟩ : ∃ c' t', t = c' :: t' ∧ NameStartChar E c' := by
        cases g1 with
        | last h1 => obtain ⟨c', a', rfl, h2, -⟩ := h1; exact ⟨c', _, rfl, h2⟩
        | more h1 => obtain ⟨c', a', rfl, h2, -⟩ := h1; exact ⟨c', _, rfl, h2⟩
      have h5 : r0.head? = some c' := by rw [← hr, ← e4, g2.cur, g3]; rfl
      refine p3 c' h5 ⟨nameStart_nameChar g4, fun hz => ?_⟩
      refine m12.nul h0 ?_
      rw [p1]
      exact List.mem_append_right _ (List.mem_of_mem_head? (hz ▸ h5))
    · exact .inr (.inl ⟨r, g1⟩)

/-! ### the internal subset -/

/-- from `s` to `s'` a piece of an internal subset is read. -/
def Piece (H : Handler σ) (E : Env) (seen seen' : Bool) (s s' : St σ) : Prop :=
  ∃ t mid, s'.trace = s.trace ++ mid ∧ Step H s s' t (mid.map (·.1)) ∧ ∀ r mid', LooseSubset E seen' r mid' → LooseSubset E seen (t ++ r) (mid ++ mid')

theorem Piece.refl (seen : Bool) (s : St σ) : Piece H E seen seen s s := ⟨[], [], by simp, .refl s, fun _ _ h => h⟩

theorem Piece.trans {a b c : Bool} {s s' s'' : St σ} (h1 : Piece H E a b s s') (h2 : Piece H E b c s' s'') : Piece H E a c s s'' := by
  obtain ⟨t, mid, g0, g1, g2⟩ := h1
  obtain ⟨t', mid', g5, g3, g4⟩ := h2
  refine ⟨t ++ t', mid ++ mid', by rw [g5, g0, List.append_assoc], by rw [List.map_append]; exact g1.trans g3, fun r x hr => ?_⟩
  have := g2 _ _ (g4 r x hr)
  simpa using this

theorem Piece.nul {a b : Bool} {s s' : St σ} (h : Piece H E a b s s') (h0 : 0 ∉ s.cur) : 0 ∉ s'.cur := by
  obtain ⟨t, evs, -, g, -⟩ := h
  exact g.nul h0

theorem Piece.decl {a : Bool} {s s' : St σ} {t : List Nat} {evs : List Ev} (h : LooseDecl E t evs) (hs : Step H s s' t evs) : Piece H E a a s s' := by
  obtain ⟨mid, h1, rfl⟩ := hs.ext
  exact ⟨t, mid, h1, hs, fun _ _ hr => .decl h hr⟩

theorem Piece.blank {a : Bool} {s s' : St σ} {w : List Nat} (h : Blank w) (hs : Step H s s' w []) : Piece H E a a s s' := by
  obtain ⟨mid, h1, h2⟩ := hs.ext
  have h2 := List.map_eq_nil_iff.1 h2
  subst h2
  refine ⟨w, [], h1, hs, fun r evs hr => ?_⟩
  clear hs
  induction w with
  | nil => exact hr
  | cons c w ih => exact .space (h c (by simp)) (ih (fun x hx => h x (by simp [hx])))

theorem ask_exact {ev : Ev} {s s' : St σ} {r : Except Err (Option ERef)} (h : ask H ev s = .ok r s') :
    ∃ o, s'.trace = s.trace ++ [(ev, o)] ∧ ∀ e, r = .ok (some e) → o = .ent (some e) := by
  obtain ⟨mid, h1, h2⟩ := (ask_step h).ext
  unfold ask callback at h
  obtain ⟨o, t, h3, h4⟩ := bind_ok.1 h
  simp only [Out.ok.injEq] at h3
  obtain ⟨rfl, rfl⟩ := h3
  refine ⟨(H s.view ev s.hc).1, ?_, ?_⟩
  · cases hr : (H s.view ev s.hc).1 <;> rw [hr] at h4 <;> simp only [pure_ok, panic_ok, diverge_ok] at h4
    all_goals (obtain ⟨-, rfl⟩ := h4; simp [hr])
  · intro e he
    subst he
    cases hr : (H s.view ev s.hc).1 <;> rw [hr] at h4 <;> simp only [pure_ok, panic_ok, diverge_ok] at h4
    all_goals (obtain ⟨h5, rfl⟩ := h4; simp at h5)
    subst h5
    rfl

/-- no external subset, and references to parameter entities only if `seen`. -/
def SubReady (nm : Bytes) (seen : Bool) (s : St σ) : Prop := s.dtdHead = (false, nm, [], []) ∧ (s.hasPERefs = true → seen = true)

variable {nm : Bytes}

theorem SubReady.noExt {seen : Bool} {s : St σ} (h : SubReady nm seen s) : s.hasExternalSubset = false := congrArg (·.1) h.1

theorem SubReady.same {seen : Bool} {s s' : St σ} (h : SubReady nm seen s) (hs : SameFlags s s') : SubReady nm seen s' :=
  ⟨hs.2.trans h.1, fun hp => h.2 (hs.1.symm.trans hp)⟩

theorem parsePEReference_piece {seen : Bool} {s s' : St σ} (h : parsePEReference E H s = .ok () s') (h0 : 0 ∉ s.cur) (hr : SubReady nm seen s) :
    ∃ seen', Piece H E seen seen' s s' ∧ SubReady nm seen' s' := by
  unfold parsePEReference at h
  run at h
  split at h
  · rename_i hc
    have m1 := peek_moves hc (by decide : (37 : Nat) ≠ 0 ∧ (37 : Nat) ≠ 0xFFFD)
    bnd h nm s2 k2
    have hf := Fl.ok (Fl.wrap (Fl.parseName E)) k2
    obtain ⟨n, e1, rfl, m2⟩ := parseName_moves (wrap_ok.1 k2) (m1.nul h0)
    run at h
    bnd h u s3 k3
    obtain ⟨hc3, rfl⟩ := need_ok.1 k3
    have m3 := peek_moves (eq_of_beq hc3) (by decide : (59 : Nat) ≠ 0 ∧ (59 : Nat) ≠ 0xFFFD)
    run at h
    bnd h ent s4 k4
    have hf4 := Fl.ok (Fl.ask H _) k4
    have m4 := ask_step k4
    have r4 : SubReady nm seen s4 := (hr.same (s' := { s3 with cur := s3.cur.drop 1 }) hf).same hf4
    run at h
    have key : s' = { s4 with hasPERefs := true } ∧ (seen = true ∨ ∃ e, ent = .ok (some e)) := by
      rcases ent with e | (_ | e)
      · simp only [Bool.not_false, Bool.true_and, r4.noExt] at h
        split at h
        · exact (raw_ok.1 h).elim
        · rename_i hc; cases h; simp at hc; exact ⟨rfl, .inl (r4.2 hc.2)⟩
      · simp only [Bool.not_false, Bool.true_and, r4.noExt] at h
        split at h
        · exact (raw_ok.1 h).elim
        · rename_i hc; cases h; simp at hc; exact ⟨rfl, .inl (r4.2 hc.2)⟩
      · simp only [Bool.not_true, Bool.false_and, Bool.false_eq_true, if_false] at h
        cases h
        exact ⟨rfl, .inr ⟨e, rfl⟩⟩
    obtain ⟨rfl, key⟩ := key
    obtain ⟨o, ho1, ho2⟩ := ask_exact k4
    refine ⟨true, ⟨37 :: (n ++ [59]), [(.getParameterEntity (encodeRunes n), o)], ?_, ?_, ?_⟩, r4.1, fun _ => rfl⟩
    · obtain ⟨mid, h5, h6⟩ := ((m1.trans m2).trans m3).step (H := H)|>.ext
      rw [List.map_eq_nil_iff.1 h6] at h5
      show s4.trace = _
      rw [ho1]
      simpa using h5
    · have m5 : Step H s4 { s4 with hasPERefs := true } [] [] := ⟨rfl, ⟨[], by simp, rfl⟩, rfl, rfl, fun x => x.heap rfl (Tabs.refl _ _)⟩
      simpa using ((((m1.trans m2).trans m3).step.trans m4).trans m5)
    · intro r evs' hl
      have hor : seen = true ∨ ∃ e, o = .ent (some e) := by
        rcases key with h1 | ⟨e, rfl⟩
        · exact .inl h1
        · exact .inr ⟨e, ho2 e rfl⟩
      have := LooseSubset.pe e1 hor hl
      simpa using this
  · cases h
    exact ⟨seen, .refl _ _, hr⟩

theorem parsePEReference_stays {s s' : St σ} (h : parsePEReference E H s = .ok () s') (hc : s.cur = [] ∨ ∃ r, s.cur = 62 :: r) : s' = s := by
  unfold parsePEReference at h
  run at h
  split at h
  · rename_i hp
    rcases hc with hc | ⟨r, hc⟩
    · rw [hc] at hp
      rcases E.eof_spec with he | he <;> simp [he] at hp
    · rw [hc] at hp; simp at hp
  · cases h; rfl

theorem two_chars {l : List Nat} {a b : Nat} (h1 : l.getD 0 E.eof = a) (h2 : l.getD 1 E.eof = b) (ha : a ≠ 0 ∧ a ≠ 0xFFFD) (hb : b ≠ 0 ∧ b ≠ 0xFFFD) :
    ∃ r, l = [a, b] ++ r := by
  have he : E.eof = 0 ∨ E.eof = 0xFFFD := E.eof_spec
  match l with
  | [] => simp at h1; omega
  | [x] => simp at h2; omega
  | x :: y :: r =>
    simp at h1 h2
    exact ⟨r, by rw [h1, h2]; rfl⟩

theorem parseMarkupDecl_piece {seen : Bool} {snl : Nat} {s s' : St σ} (h : parseMarkupDecl E H snl s = .ok () s') (h0 : 0 ∉ s.cur) (hr : SubReady nm seen s) :
    (∃ seen', Piece H E seen seen' s s' ∧ SubReady nm seen' s') ∨ (∃ r, s'.cur = 62 :: r) ∨ s'.cur = [] := by
  unfold parseMarkupDecl at h
  bnd h c1 t1 k1
  obtain ⟨e1, rfl⟩ := peekN_ok.1 k1
  bnd h c2 t2 k2
  obtain ⟨e2, rfl⟩ := peekN_ok.1 k2
  bnd h c3 t3 k3
  obtain ⟨e3, rfl⟩ := peekN_ok.1 k3
  bnd h c4 t4 k4
  obtain ⟨e4, rfl⟩ := peekN_ok.1 k4
  have hdecl : ∀ {p : P σ Unit}, Fl p → (M.wrap p >>= fun _ => M.wrap (parsePEReference E H)) t4 = .ok () s' →
      (∀ {s1}, p t4 = .ok () s1 → (∃ t evs, LooseDecl E t evs ∧ Step H t4 s1 t evs) ∨ ((∃ r, s1.cur = 62 :: r) ∨ s1.cur = []) ∨ s1 = t4) →
      (∃ seen', Piece H E seen seen' t4 s' ∧ SubReady nm seen' s') ∨ (∃ r, s'.cur = 62 :: r) ∨ s'.cur = [] := by
    clear h
    intro p hp h hst
    obtain ⟨u, s1, k1, k2⟩ := bind_ok.1 h
    clear h
    have k1 := wrap_ok.1 k1
    have r1 := hr.same (Fl.ok hp k1)
    have h := wrap_ok.1 k2
    clear k2
    rcases hst k1 with ⟨t, evs, g1, g2⟩ | g | rfl
    · obtain ⟨seen', g3, g4⟩ := parsePEReference_piece h (g2.nul h0) r1
      exact .inl ⟨seen', (Piece.decl g1 g2).trans g3, g4⟩
    · have := parsePEReference_stays h (g.symm)
      subst this
      exact .inr g
    · exact .inl (parsePEReference_piece h h0 r1)
  dsimp only at h
  split at h
  · rename_i hc
    obtain ⟨r, hr1⟩ := two_chars (E := E) (l := t4.cur) (hc.1 ▸ e1).symm (hc.2 ▸ e2).symm (by decide) (by decide)
    obtain ⟨t, ev, g1, g2⟩ := parsePI_step ⟨r, hr1.symm⟩ h0 h
    exact .inl ⟨seen, .decl (.pi g1) g2, hr.same (Fl.ok (Fl.parsePI E H) h)⟩
  · split at h
    · split at h
      · exact hdecl (Fl.parseElementDecl E H) h (fun k => .inl (parseElementDecl_step k h0))
      · split at h
        · exact hdecl (Fl.parseEntityDecl E H) h (fun k => .inl (parseEntityDecl_step k h0))
        · split at h
          · refine hdecl (Fl.parseAttributeListDecl E H snl) h (fun k => ?_)
            rcases parseAttributeListDecl_step k h0 with g | g | g
            · exact .inl g
            · exact .inr (.inl (.inl g))
            · exact .inr (.inr g)
          · split at h
            · refine hdecl (Fl.parseComment H) h (fun k => ?_)
              have hp : b!"<!--" <+: t4.cur := by
                apply List.isPrefixOf_iff_prefix.1
                cases hb : List.isPrefixOf b!"<!--" t4.cur with
                | true => rfl
                | false =>
                  unfold parseComment at k
                  bnd k b s2 k2
                  rcases consume_ok.1 k2 with ⟨-, h1, -⟩ | ⟨rfl, -, -⟩
                  · rw [hb] at h1; cases h1
                  · exact (cerr_ok.1 k).elim
              rcases parseComment_step hp k with ⟨t, ev, g1, g2⟩ | ⟨g, -⟩
              · exact .inl ⟨t, [ev], .comment g1, g2⟩
              · exact .inr (.inl (.inr g))
            · exact .inl (parsePEReference_piece (wrap_ok.1 h) h0 hr)
    · exact .inl (parsePEReference_piece (wrap_ok.1 h) h0 hr)

theorem internalSubsetLoop_stuck {snl : Nat} : ∀ (fuel : Nat) {s s' : St σ} {r : List Nat}, internalSubsetLoop E H snl fuel s = .ok () s' → s.cur ≠ 62 :: r
  | 0, _, _, _, h, _ => (diverge_ok.1 h).elim
  | fuel + 1, s, s', r, h, hc => by
    unfold internalSubsetLoop at h
    run at h
    rw [if_neg (by rw [hc]; simp), if_neg (by rw [hc]; simp)] at h
    have e1 : ({ s with cur := s.cur.dropWhile isBlank } : St σ) = s := by
      have : s.cur.dropWhile isBlank = s.cur := by rw [hc]; rfl
      rw [this]
    rw [e1] at h
    bnd h u s1 k1
    replace k1 := wrap_ok.1 k1
    unfold parseMarkupDecl at k1
    obtain ⟨c1, t1, k2, j1⟩ := bind_ok.1 k1
    obtain ⟨e1, rfl⟩ := peekN_ok.1 k2
    obtain ⟨c2, t2, k2, j2⟩ := bind_ok.1 j1
    obtain ⟨e2, rfl⟩ := peekN_ok.1 k2
    obtain ⟨c3, t3, k2, j3⟩ := bind_ok.1 j2
    obtain ⟨e3, rfl⟩ := peekN_ok.1 k2
    obtain ⟨c4, t4, k2, j4⟩ := bind_ok.1 j3
    obtain ⟨e4, rfl⟩ := peekN_ok.1 k2
    have h1 : ¬ c1 = 60 := by rw [e1, hc]; simp
    dsimp only at j4
    rw [if_neg (fun h => h1 h.1), if_neg (fun h => h1 h.1)] at j4
    have := parsePEReference_stays (wrap_ok.1 j4) (.inr ⟨r, hc⟩)
    subst this
    bnd h u s2 k3
    have := parsePEReference_stays (wrap_ok.1 k3) (.inr ⟨r, hc⟩)
    subst this
    exact internalSubsetLoop_stuck fuel h hc

theorem internalSubsetLoop_exit {snl : Nat} : ∀ (fuel : Nat) {s s' : St σ}, internalSubsetLoop E H snl fuel s = .ok () s' → s'.cur = [] ∨ s'.cur.getD 0 E.eof = 93
  | 0, _, _, h => (diverge_ok.1 h).elim
  | fuel + 1, s, s', h => by
    unfold internalSubsetLoop at h
    run at h
    split at h
    · rename_i hc
      cases h
      exact .inl (by simpa using hc)
    split at h
    · rename_i hc
      cases h
      exact .inr hc
    bnd h u s2 k2
    bnd h u s3 k3
    exact internalSubsetLoop_exit fuel h

theorem internalSubsetLoop_step {snl : Nat} : ∀ (fuel : Nat) {seen : Bool} {s s' : St σ}, internalSubsetLoop E H snl fuel s = .ok () s' → 0 ∉ s.cur →
    SubReady nm seen s → s'.cur ≠ [] →
    ∃ t mid, s'.trace = s.trace ++ mid ∧ Step H s s' t (mid.map (·.1)) ∧ LooseSubset E seen t mid ∧ ∃ seen', SubReady nm seen' s'
  | 0, _, _, _, h, _, _, _ => (diverge_ok.1 h).elim
  | fuel + 1, seen, s, s', h, h0, hr, hne => by
    unfold internalSubsetLoop at h
    run at h
    split at h
    · rename_i hc
      cases h
      exact (hne (by simpa using hc)).elim
    split at h
    · cases h
      exact ⟨[], [], by simp, .refl _, .nil, seen, hr⟩
    obtain ⟨w, hw, m1, -, -⟩ := skipBlanks_ok (s := s) (b := _) rfl
    have r1 : SubReady nm seen { s with cur := s.cur.dropWhile isBlank } := hr
    have p1 : Piece H E seen seen s { s with cur := s.cur.dropWhile isBlank } := .blank hw m1.step
    bnd h u s2 k2
    bnd h u s3 k3
    have k3 := wrap_ok.1 k3
    rcases parseMarkupDecl_piece (wrap_ok.1 k2) (p1.nul h0) r1 with ⟨seen2, p2, r2⟩ | g | g
    · obtain ⟨seen3, p3, r3⟩ := parsePEReference_piece k3 (p2.nul (p1.nul h0)) r2
      have p := (p1.trans p2).trans p3
      obtain ⟨t, mid, g0, g1, g2, gr⟩ := internalSubsetLoop_step fuel h (p.nul h0) r3 hne
      obtain ⟨t', mid', g5, g3, g4⟩ := p
      exact ⟨t' ++ t, mid' ++ mid, by rw [g0, g5, List.append_assoc], by rw [List.map_append]; exact g3.trans g1, g4 t mid g2, gr⟩
    · have := parsePEReference_stays k3 (.inr g)
      subst this
      obtain ⟨r, hr⟩ := g
      exact (internalSubsetLoop_stuck fuel h hr).elim
    · have := parsePEReference_stays k3 (.inl g)
      subst this
      cases fuel with
      | zero => exact (diverge_ok.1 h).elim
      | succ n =>
        unfold internalSubsetLoop at h
        run at h
        rw [if_pos (by rw [g]; rfl)] at h
        cases h
        exact (hne g).elim

theorem parseInternalSubset_step {snl : Nat} {s s' : St σ} {r : List Nat} (h : parseInternalSubset E H snl s = .ok () s') (hc : s.cur = 91 :: r) (h0 : 0 ∉ s.cur)
    (hr : SubReady nm false s) :
    ∃ t w mid, s'.trace = s.trace ++ mid ∧ Step H s s' (91 :: (t ++ 93 :: (w ++ [62]))) (mid.map (·.1)) ∧ Blank w ∧ LooseSubset E false t mid ∧
      ∃ seen, SubReady nm seen s' := by
  unfold parseInternalSubset at h
  run at h
  rw [if_pos (by rw [hc]; rfl)] at h
  have m1 : Moves s { s with cur := s.cur.drop 1 } [91] := .mk (by rw [hc]; rfl)
  bnd h u s1 k1
  run at h
  split at h
  · rename_i h93
    have m2 := peek_moves h93 (by decide : (93 : Nat) ≠ 0 ∧ (93 : Nat) ≠ 0xFFFD)
    obtain ⟨t, mid, g0, g1, g2, seen, gr⟩ := internalSubsetLoop_step (seen := false) _ k1 (m1.nul h0) hr (by rw [m2.2]; simp)
    obtain ⟨w, hw, m3, -, -⟩ := skipBlanks_ok (s := { s1 with cur := s1.cur.drop 1 }) (b := _) rfl
    bnd h u s2 k2
    obtain ⟨hc2, rfl⟩ := need_ok.1 k2
    have m4 := peek_moves (E := E) (s := { s1 with cur := (s1.cur.drop 1).dropWhile isBlank }) (eq_of_beq hc2)
      (by decide : (62 : Nat) ≠ 0 ∧ (62 : Nat) ≠ 0xFFFD)
    cases h
    refine ⟨t, w, mid, g0, ?_, hw, g2, seen, gr⟩
    simpa using (m1.step.trans g1).trans ((m2.trans m3).trans m4).step
  · rename_i h93
    bnd h u s2 k2
    obtain ⟨hc2, rfl⟩ := need_ok.1 k2
    have hc2 := eq_of_beq hc2
    rcases internalSubsetLoop_exit _ k1 with g | g
    · rw [g] at hc2
      rcases E.eof_spec with he | he <;> simp [he] at hc2
    · exact (h93 g).elim

theorem Step.nop {s : St σ} (f : St σ → St σ) (h1 : (f s).cur = s.cur) (h2 : (f s).trace = s.trace) (h3 : (f s).nodes = s.nodes) (h4 : (f s).inSubset = s.inSubset)
    (h5 : (f s).hc = s.hc) :
    Step H s (f s) [] [] := ⟨h1.symm, ⟨[], by rw [h2]; simp, rfl⟩, h3, h4, fun x => x.heap h2 (by rw [h5]; exact Tabs.refl _ _)⟩

/-- the declaration itself, without its internal subset. -/
theorem parseDocTypeDecl_step {s s' : St σ} (h : parseDocTypeDecl E H s = .ok () s') (h0 : 0 ∉ s.cur) (he : s.hasExternalSubset = false) (hpe : s.hasPERefs = false) :
    ∃ n w1 w2 t, LooseName E n ∧ Blank w1 ∧ Blank w2 ∧ Step H s s' (b!"<!DOCTYPE" ++ (w1 ++ (n ++ (w2 ++ t)))) [.internalSubset (encodeRunes n) [] []] ∧
      SubReady (encodeRunes n) false s' ∧ (t = [62] ∨ t = [] ∧ ∃ r, s'.cur = 91 :: r) := by
  unfold parseDocTypeDecl at h
  bnd h b s1 k1
  cases b with
  | false => exact (cerr_ok.1 h).elim
  | true =>
    have m1 := consume_moves k1
    have f1 := Fl.ok (Fl.consume _) k1
    simp only [if_true] at h
    bnd h b s2 k2
    obtain ⟨w1, hw1, m2, -, -⟩ := skipBlanks_ok k2
    have f2 := Fl.ok Fl.skipBlanks k2
    have m12 := m1.trans m2
    bnd h nm s3 k3
    have f3 := Fl.ok (Fl.parseName E) (orElse_ok.1 k3)
    obtain ⟨n, e1, rfl, m3⟩ := parseName_moves (orElse_ok.1 k3) (m12.nul h0)
    have m13 := m12.trans m3
    unfold parseExternalID at h
    bnd h u s4 k4
    obtain ⟨-, rfl⟩ := modify_ok.1 k4
    bnd h b s5 k5
    obtain ⟨w2, hw2, m5, -, -⟩ := skipBlanks_ok k5
    have f5 := Fl.ok Fl.skipBlanks k5
    bnd h x s6 k6
    obtain ⟨rfl, rfl⟩ := pure_ok.1 (wrap_ok.1 k6)
    bnd h u s7 k7
    obtain ⟨-, rfl⟩ := modify_ok.1 k7
    bnd h b s8 k8
    obtain ⟨w3, hw3, m8, -, -⟩ := skipBlanks_ok k8
    have f8 := Fl.ok Fl.skipBlanks k8
    bnd h u s9 k9
    have f9 := Fl.ok (Fl.cb H _) k9
    have m9 := cb_step k9
    have st := (((m13.step.trans (.nop (fun s => { s with intSubName := encodeRunes n }) rfl rfl rfl rfl rfl)).trans m5.step).trans (.nop (fun s =>
      { s with hasExternalSubset := (s.hasExternalSubset || ([] : Bytes) != [] || ([] : Bytes) != []), extSubURI := [], extSubSystem := [] }) rfl rfl rfl rfl rfl)).trans
      (m8.step.trans m9)
    have hd : s3.hasExternalSubset = false := (congrArg (·.1) (f1.2 ▸ f2.2 ▸ f3.2 : s3.dtdHead = s.dtdHead)).trans he
    have hd5 : s5.dtdHead = (false, encodeRunes n, s3.extSubSystem, s3.extSubURI) := by rw [f5.2]; show (_, _, _, _) = _; rw [hd]
    have hr : SubReady (encodeRunes n) false s9 := by
      refine ⟨?_, fun hp => ?_⟩
      · rw [f9.2, f8.2]
        have h1 : s5.hasExternalSubset = false := congrArg (·.1) hd5
        have h2 : s5.intSubName = encodeRunes n := congrArg (·.2.1) hd5
        show (_, _, _, _) = _
        rw [h1, h2]
        rfl
      · rw [f9.1, f8.1, show s5.hasPERefs = false from f5.1.trans (f3.1.trans (f2.1.trans (f1.1.trans hpe)))] at hp
        cases hp
    have hbl : Blank (w2 ++ w3) := blank_append hw2 hw3
    run at h
    split at h
    · rename_i hc
      cases h
      have m10 := peek_moves hc (by decide : (91 : Nat) ≠ 0 ∧ (91 : Nat) ≠ 0xFFFD)
      exact ⟨n, w1, w2 ++ w3, [], e1, hw1, hbl, by simpa using st, hr, .inr ⟨rfl, _, m10.2⟩⟩
    · bnd h u s10 k10
      obtain ⟨hc, rfl⟩ := need_ok.1 k10
      have m10 := peek_moves (eq_of_beq hc) (by decide : (62 : Nat) ≠ 0 ∧ (62 : Nat) ≠ 0xFFFD)
      obtain ⟨-, rfl⟩ := adv_ok.1 h
      exact ⟨n, w1, w2 ++ w3, [62], e1, hw1, hbl, by simpa using st.trans m10.step, hr, .inl rfl⟩

theorem Step.setSub {s s' : St σ} {t : List Nat} {evs : List Ev} (h : Step H s s' t evs) (i : Nat) :
    Step H { s with inSubset := i } { s' with inSubset := i } t evs :=
  ⟨h.cur, h.ext, h.nodes, rfl, fun x => Safe.heap (s := s') (h.safe (Safe.heap x rfl (Tabs.refl _ _))) rfl (Tabs.refl _ _)⟩

/-- a document type declaration with what follows it in the prolog. -/
theorem parseDoctypePart_step {snl : Nat} {s s' : St σ} (h : parseDoctypePart E H snl s = .ok () s') (h0 : 0 ∉ s.cur)
    (he : s.hasExternalSubset = false) (hpe : s.hasPERefs = false) (hs : s.inSubset = 0) :
    (s' = s ∧ ¬ List.isPrefixOf b!"<!DOCTYPE" s.cur = true) ∨ ∃ n dt mid m2 e2, LooseMisc E m2 e2 ∧ mid <:+: s'.trace ∧
      Step H s s' (dt ++ m2) ((.internalSubset (encodeRunes n) [] [] :: (mid.map (·.1) ++ [.externalSubset (encodeRunes n) [] []])) ++ e2) ∧
      (s'.cur ≠ [] → ∀ ws, Blank ws → LooseMisc E (m2 ++ ws) e2) ∧
      LooseDoctype E n dt mid := by
  unfold parseDoctypePart at h
  run at h
  split at h
  · refine .inr ?_
    bnd h u s1 k1
    obtain ⟨n, w1, w2, t, e1, hw1, hw2, st1, r1, hor⟩ := parseDocTypeDecl_step (wrap_ok.1 k1) h0 he hpe
    have es : ({ s with inSubset := 0 } : St σ) = s := by rw [← hs]
    have st1' := st1.setSub 0
    rw [show ({ ({ s with inSubset := 1 } : St σ) with inSubset := 0 } : St σ) = s from es] at st1'
    have key : ∀ {s2 : St σ} {dt mid}, s2.trace = s1.trace ++ mid → Step H s1 s2 dt (mid.map (·.1)) → (∃ seen, SubReady (encodeRunes n) seen s2) →
        LooseDoctype E n (b!"<!DOCTYPE" ++ (w1 ++ (n ++ (w2 ++ (t ++ dt))))) mid → (do
          M.modify (fun s => { s with inSubset := 2 })
          let s ← M.get
          cb H (.externalSubset s.intSubName s.extSubSystem s.extSubURI)
          M.modify (fun s => { s with inSubset := 0, attsSpecial := s.attsSpecial.filter (fun p => p.2 != 1) })
          M.wrap (parseMisc E H) : P σ Unit) s2 = .ok () s' →
        ∃ n dt mid m2 e2, LooseMisc E m2 e2 ∧ mid <:+: s'.trace ∧
          Step H s s' (dt ++ m2) ((.internalSubset (encodeRunes n) [] [] :: (mid.map (·.1) ++ [.externalSubset (encodeRunes n) [] []])) ++ e2) ∧
          (s'.cur ≠ [] → ∀ ws, Blank ws → LooseMisc E (m2 ++ ws) e2) ∧
          LooseDoctype E n dt mid := by
      clear h
      intro s2 dt mid st0 st2 hr hd h
      obtain ⟨seen, hr⟩ := hr
      run at h
      have q1 : s2.intSubName = encodeRunes n := congrArg (·.2.1) hr.1
      have q2 : s2.extSubSystem = [] := congrArg (·.2.2.1) hr.1
      have q3 : s2.extSubURI = [] := congrArg (·.2.2.2) hr.1
      have q : [Ev.externalSubset s2.intSubName s2.extSubSystem s2.extSubURI] = [.externalSubset (encodeRunes n) [] []] := by rw [q1, q2, q3]
      bnd h u s3 k3
      have st3 := (cb_step k3).setSub 0
      have st3 : Step H { s2 with inSubset := 0 } { s3 with inSubset := 0 } [] [.externalSubset (encodeRunes n) [] []] := by rw [← q]; exact st3
      run at h
      have st4 : Step H { s3 with inSubset := 0 } { s3 with inSubset := 0, attsSpecial := s3.attsSpecial.filter (fun p => p.2 != 1) } [] [] :=
        .nop (fun s => { s with attsSpecial := s.attsSpecial.filter (fun p => p.2 != 1) }) rfl rfl rfl rfl rfl
      have st5 := ((st1'.trans (st2.setSub 0)).trans st3).trans st4
      obtain ⟨m2, e2, g1, g2, g3⟩ := parseMisc_step (wrap_ok.1 h) (st5.nul h0)
      have stx := ((st3.trans st4).trans g2)
      obtain ⟨mx, hx, -⟩ := stx.ext
      refine ⟨n, _, mid, m2, e2, g1, ⟨s1.trace, mx, ?_⟩, ?_, g3, hd⟩
      · rw [hx]; show _ = s2.trace ++ _; rw [st0]
      simpa using st5.trans g2
    have hb : ∀ {x}, t = [62] ∨ t = [] ∧ x → t = [] ∨ t = [62] := fun hx => hx.elim .inr (fun h => .inl h.1)
    run at h
    split at h
    · rename_i hc
      obtain ⟨r, hr⟩ := List.isPrefixOf_iff_prefix.1 hc
      bnd h u s2 k2
      obtain ⟨tt, w, mid, g0, g1, g2, g3, g4⟩ := parseInternalSubset_step (wrap_ok.1 k2) hr.symm (st1'.nul h0) r1
      exact key g0 g1 g4 (.subset hw1 e1 hw2 (hb hor) g3 g2) h
    · rename_i hc
      refine key (mid := []) (by simp) (.refl _) ⟨_, r1⟩ ?_ h
      rcases hor with rfl | ⟨rfl, r, hr⟩
      · exact .plain hw1 e1 hw2
      · exact (hc (by rw [hr]; rfl)).elim
  · rename_i hc; cases h; exact .inl ⟨rfl, hc⟩

/-! ### the root element is not in the document type declaration -/

theorem lookup_not_subset (ev : Ev) (h : ev.lookup) : ¬ IsSubset ev := by
  cases ev <;> simp [Ev.lookup, IsSubset] at h ⊢

abbrev SL (H : Handler σ) : Logic false H := TL H false (fun ev => ¬ IsSubset ev) lookup_not_subset

theorem SL_admits : Admits (SL H) := by
  refine Admits.of (fun ev h _ => ?_)
  show ¬ IsSubset ev
  cases ev <;> simp [Ev.inner, IsSubset] at h ⊢

theorem SL_flat (E : Env) : Flat E (SL H) (fun _ => True) :=
  TL_flat (H := H) (G := fun ev => ¬ IsSubset ev) E (SL_admits (H := H)) (fun _ _ => trivial) (fun _ _ => trivial)
    (fun _ _ _ _ _ => trivial) (fun _ _ _ _ _ _ _ => id)

theorem tail_noSubset {fuel : Nat} {s s' : St σ} (h : parseTail E H fuel s = .ok () s') : ∃ mid, s'.trace = s.trace ++ mid ∧ ∀ x ∈ mid, ¬ IsSubset x.1 := by
  have := (SatI.parseTail E (SL_flat (H := H) E).toFrame (fun _ h => SatI.parseReference E (SL_flat E) h)
    (fun _ h => SatI.parseElementW E (SL_flat E).toFrame (TL_tags (by simp [IsSubset]) (by simp [IsSubset])) h) id fuel).sat s
  rw [h] at this
  obtain ⟨_, mid, h1, h2⟩ := this
  exact ⟨mid, h1, fun x hx => (h2 x hx).1⟩

end
end Helium
