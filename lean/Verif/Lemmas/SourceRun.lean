import Verif.Spec.Source
import Verif.Props.Markup
import Verif.Model.Parser.Content
import Verif.Lemmas.WordsRun
/-! Running the parser on the text of a well-formed document: attribute values, references, tags. -/
namespace Helium
open Spec
section
variable {σ : Type} (E : Env) (H : Handler σ)

theorem Spec.Legal.isChar {c : Nat} (h : Legal c) : isChar c = true := isChar_of_xml h.1 h.2

theorem Spec.Legal.scalar {c : Nat} (h : Legal c) : isScalar c := by
  have := h.1
  unfold XmlChar at this
  unfold isScalar; omega

/-- the two kinds of references that denote a character. -/
theorem ref_cases {b : List Nat} {v : Nat} (h : refValue b = some v) :
    (∃ hex ds, 38 :: b = refOpen hex ++ ds ∧ refNumber hex ds = some v) ∨ ∃ p : Predef, b = p.name ∧ p.content = [v] := by
  unfold refValue at h
  split at h
  · cases h; rename_i hb; exact Or.inr ⟨.amp, hb, rfl⟩
  · split at h
    · cases h; rename_i hb; exact Or.inr ⟨.lt, hb, rfl⟩
    · split at h
      · cases h; rename_i hb; exact Or.inr ⟨.gt, hb, rfl⟩
      · split at h
        · cases h; rename_i hb; exact Or.inr ⟨.quot, hb, rfl⟩
        · split at h
          · cases h; rename_i hb; exact Or.inr ⟨.apos, hb, rfl⟩
          · split at h
            · left
              unfold charRefNum at h
              split at h
              · cases h
              · cases h
              · exact ⟨true, _, rfl, h⟩
              · exact ⟨false, _, rfl, h⟩
            · cases h

theorem predef_name (p : Predef) : Name E p.name := by
  have hl : ∀ c, 97 ≤ c → c ≤ 122 → E.isLetter c = true := by
    intro c h1 h2
    rw [E.letter_ascii c (by omega)]
    simp; omega
  cases p <;> refine ⟨⟨_, _, rfl, Or.inl (hl _ (by decide) (by decide))⟩, ?_, by decide⟩ <;>
    (intro c hc; left; simp [Predef.name] at hc; exact hl c (by omega) (by omega))

theorem semi_notName : ¬ NameChar E 59 := by
  intro h
  rcases h with h | h | h
  · rw [E.letter_ascii 59 (by decide)] at h; revert h; decide
  · rw [E.digit_ascii 59 (by decide)] at h; revert h; decide
  · revert h; decide

theorem parseEntityRef_predef (p : Predef) {r : List Nat} (s : St σ) (hs : s.cur = 38 :: (p.name ++ 59 :: r)) :
    parseEntityRef E H s = .ok (.pre p) { s with cur := r } := by
  unfold parseEntityRef
  run
  rw [hs]
  rw [need_bind (by rfl)]
  run
  have h1 := parseName_run E (predef_name E p) (r := 59 :: r) (by
    intro c hc; cases hc; exact ⟨by decide, semi_notName E⟩) { s with cur := p.name ++ 59 :: r } rfl
  have h2 : M.orElse (parseName E) .nameRequired { s with cur := p.name ++ 59 :: r } = _ := orElse_run h1
  rw [hs]
  simp only [List.drop_succ_cons, List.drop_zero]
  rw [bind_run h2]
  run
  rw [need_bind (by rfl)]
  run
  have h3 : resolvePredef (encodeRunes p.name) = some p := by cases p <;> decide
  rw [h3]
  rfl

/-- a reference that denotes a character, read as a reference. -/
theorem parseReference_run (body : P σ Unit) {b r : List Nat} {v : Nat} (hb : refValue b = some v) (hv : Legal v) (s : St σ)
    (hs : s.cur = 38 :: (b ++ 59 :: r)) : parseReference E H body s = cb H (.characters (encodeRunes [v])) { s with cur := r } := by
  have he : encodeRunes [v] = encodeRune v := by simp [encodeRunes]
  unfold parseReference
  run
  rw [hs]
  rw [need_bind (by rfl)]
  run
  rw [hs]
  rcases ref_cases hb with ⟨hex, ds, h1, h2⟩ | ⟨p, rfl, h2⟩
  · have h3 : (38 :: (b ++ 59 :: r)) = refOpen hex ++ (ds ++ 59 :: r) := by
      rw [← List.cons_append, h1, List.append_assoc]
    have h4 : (38 :: (b ++ 59 :: r)).getD (2 - 1) E.eof = 35 := by rw [h3]; cases hex <;> rfl
    rw [if_pos h4]
    rw [bind_run (wrap_run (C18_delivered h2 hv.1 hv.2 s (by rw [hs, h3])))]
    rw [he]
  · have h4 : (38 :: (p.name ++ 59 :: r)).getD (2 - 1) E.eof ≠ 35 := by cases p <;> simp [Predef.name]
    rw [if_neg h4]
    rw [bind_run (wrap_run (parseEntityRef_predef E H p s hs))]
    run
    have h5 : (ERef.pre p).typ s.hc.heap = 6 := rfl
    have h6 : (ERef.pre p).content s.hc.heap = [v] := h2
    have h7 : v < 128 := by
      cases p <;> simp [Predef.content] at h2 <;> omega
    simp only [h5, h6, or_true, if_true]
    have h8 : encodeRune v = [v] := by unfold encodeRune; simp [h7]
    rw [he, h8]
    rfl

/-! ### attribute values -/

theorem reported_cons (v : Nat) (w : List Nat) :
    reported (v :: w) = (if v = 38 then b!"&#38;" else encodeRune v) ++ reported w := by
  unfold reported
  rw [List.flatMap_cons, encodeRunes_append]
  split
  · rfl
  · simp [encodeRunes]

theorem reported_space {w : List Nat} (h : w = [] ∨ ∃ c ∈ w, c ≠ 32) : reported w = [] ∨ ∃ c ∈ reported w, c ≠ 32 := by
  rcases h with rfl | ⟨c, hc, h⟩
  · exact .inl rfl
  · right
    by_cases h38 : c = 38
    · refine ⟨38, ?_, by decide⟩
      unfold reported
      rw [mem_encodeRunes_ascii _ 38 (by decide), List.mem_flatMap]
      exact ⟨c, hc, by simp [h38]⟩
    · obtain ⟨b, t, hb⟩ := List.exists_cons_of_ne_nil (encodeRune_ne_nil c)
      refine ⟨b, ?_, ?_⟩
      · unfold reported encodeRunes
        rw [List.mem_flatMap]
        refine ⟨c, List.mem_flatMap.2 ⟨c, hc, by simp [h38]⟩, by rw [hb]; simp⟩
      · rintro rfl
        exact h ((mem_encodeRune_ascii c 32 (by decide)).1 (by rw [hb]; simp)).symm

theorem words_run : ∀ (l acc t : Bytes), 32 ∉ l → words acc (l ++ t) = words (l.reverse ++ acc) t
  | [], acc, t, _ => rfl
  | a :: l, acc, t, h => by
    have ha : a ≠ 32 := by rintro rfl; exact h (by simp)
    have hl : 32 ∉ l := fun hc => h (by simp [hc])
    have : words acc (a :: (l ++ t)) = words (a :: acc) (l ++ t) := by cases acc <;> simp [words, ha]
    rw [List.cons_append, this, words_run l (a :: acc) t hl]
    simp

theorem words_flatMap {g : Nat → Bytes} (g0 : g 32 = [32]) (g1 : ∀ c, c ≠ 32 → g c ≠ [] ∧ 32 ∉ g c) : ∀ (w acc acc' : Bytes),
    acc'.reverse = acc.reverse.flatMap g → (acc = [] ↔ acc' = []) → words acc' (w.flatMap g) = (words acc w).map (·.flatMap g)
  | [], acc, acc', h, he => by
    cases acc with
    | nil => rw [he.1 rfl]; rfl
    | cons a acc =>
      cases acc' with
      | nil => exact absurd (he.2 rfl) (by simp)
      | cons a' acc' => simp only [List.flatMap_nil, words, List.map_cons, List.map_nil, h]
  | c :: w, acc, acc', h, he => by
    rw [List.flatMap_cons]
    by_cases hc : c = 32
    · subst hc
      rw [g0]
      cases acc with
      | nil =>
        rw [he.1 rfl]
        simp only [List.cons_append, List.nil_append, words, if_true]
        exact words_flatMap g0 g1 w [] [] rfl Iff.rfl
      | cons a acc =>
        cases acc' with
        | nil => exact absurd (he.2 rfl) (by simp)
        | cons a' acc' =>
          simp only [List.cons_append, List.nil_append, words, if_true, List.map_cons, h]
          rw [words_flatMap g0 g1 w [] [] rfl Iff.rfl]
    · obtain ⟨k1, k2⟩ := g1 c hc
      rw [words_run _ _ _ k2]
      have : words acc (c :: w) = words (c :: acc) w := by cases acc <;> simp [words, hc]
      rw [this]
      exact words_flatMap g0 g1 w (c :: acc) _ (by simp [h]) (by simp [k1])

theorem unwords_flatMap {g : Nat → Bytes} (g0 : g 32 = [32]) : ∀ ws : List Bytes, unwords (ws.map (·.flatMap g)) = (unwords ws).flatMap g
  | [] => rfl
  | [w] => rfl
  | w :: x :: ws => by
    have := unwords_flatMap g0 (x :: ws)
    simp only [List.map_cons] at this
    simp only [List.map_cons, unwords, List.flatMap_append, List.flatMap_cons, g0, List.cons_append, List.nil_append, this]

theorem reported_flatMap (w : List Nat) : reported w = w.flatMap (fun c => encodeRunes (if c = 38 then [38, 35, 51, 56, 59] else [c])) := by
  unfold reported encodeRunes
  rw [List.flatMap_assoc]

theorem reported_unwords (w : List Nat) : unwords (words [] (reported w)) = reported (unwords (words [] w)) := by
  have g0 : (fun c => encodeRunes (if c = 38 then [38, 35, 51, 56, 59] else [c])) 32 = [32] := rfl
  have g1 : ∀ c, c ≠ 32 → (fun c => encodeRunes (if c = 38 then [38, 35, 51, 56, 59] else [c])) c ≠ [] ∧
      32 ∉ (fun c => encodeRunes (if c = 38 then [38, 35, 51, 56, 59] else [c])) c := by
    intro c hc
    simp only
    split
    · exact ⟨by decide, by decide⟩
    · refine ⟨by simp [encodeRunes, encodeRune_ne_nil], ?_⟩
      rw [mem_encodeRunes_ascii _ 32 (by decide)]
      simp
      exact fun h => hc h.symm
  rw [reported_flatMap, reported_flatMap, words_flatMap g0 g1 w [] [] rfl Iff.rfl, unwords_flatMap g0]

theorem attrValueLoop_run {q : Nat} (hq : q = 34 ∨ q = 39) (r : List Nat) {l w : List Nat} (hv : Value q l w) :
    ∀ (fuel : Nat) (b : Bytes) (sp : Bool) (n : Nat) (s : St σ), l.length < fuel → s.cur = l ++ q :: r →
      ∃ n' sp', attrValueLoop E H q false fuel b sp n s = .ok (b ++ reported w, n', sp') { s with cur := q :: r } := by
  induction hv with
  | nil =>
    intro fuel b sp n s hf hs
    cases fuel with
    | zero => cases hf
    | succ fuel =>
      unfold attrValueLoop
      run
      rw [hs]
      refine ⟨n, sp, ?_⟩
      have h1 : ([] ++ q :: r).getD 0 E.eof = q := rfl
      have hs' : s = { s with cur := q :: r } := by
        have hs : s.cur = q :: r := hs
        rw [← hs]
      rw [h1, if_pos (Or.inl ⟨by omega, rfl⟩), List.nil_append] at *
      rw [show reported [] = [] from rfl, List.append_nil, ← hs]
  | @char c l w hc h1 h2 h3 h4 hv ih =>
    intro fuel b sp n s hf hs
    cases fuel with
    | zero => cases hf
    | succ fuel =>
      unfold attrValueLoop
      run
      rw [hs]
      have h0 : ((c :: l) ++ q :: r).getD 0 E.eof = c := rfl
      rw [h0, if_neg (by rintro (h | h | h); exact h1 h.2; rw [hc.isChar] at h; cases h; exact h3 h), if_neg h2]
      by_cases hw : Ws c
      · rw [if_pos (by unfold Ws at hw; omega)]
        simp only [or_true, if_true, true_or]
        obtain ⟨n', sp', h⟩ := ih fuel (b ++ [32]) true n { s with cur := l ++ q :: r } (by simp at hf; omega) rfl
        refine ⟨n', sp', ?_⟩
        rw [if_pos hw, reported_cons, show (if (32 : Nat) = 38 then b!"&#38;" else encodeRune 32) = [32] from rfl, ← List.append_assoc]
        exact h
      · rw [if_neg (by unfold Ws at hw; omega)]
        obtain ⟨n', sp', h⟩ := ih fuel (b ++ encodeRune c) false n { s with cur := l ++ q :: r } (by simp at hf; omega) rfl
        refine ⟨n', sp', ?_⟩
        rw [if_neg hw, reported_cons, if_neg h2]
        simpa using h
  | @ref bd v l w hb h59 hlg hv ih =>
    intro fuel b sp n s hf hs
    cases fuel with
    | zero => cases hf
    | succ fuel =>
      unfold attrValueLoop
      run
      rw [hs]
      have hlen : l.length < fuel := by simp at hf; omega
      have h0 : ((38 :: (bd ++ 59 :: l)) ++ q :: r).getD 0 E.eof = 38 := rfl
      rw [h0, if_neg (by rintro (h | h | h); omega; revert h; decide; revert h; decide), if_pos rfl]
      have hs1 : s.cur = 38 :: (bd ++ 59 :: (l ++ q :: r)) := by rw [hs]; simp
      rcases ref_cases hb with ⟨hex, ds, e1, e2⟩ | ⟨p, rfl, e2⟩
      · have h3 : (38 :: (bd ++ 59 :: (l ++ q :: r))) = refOpen hex ++ (ds ++ 59 :: (l ++ q :: r)) := by
          rw [← List.cons_append, e1, List.append_assoc]
        have h4 : (s.cur).getD (2 - 1) E.eof = 35 := by rw [hs1, h3]; cases hex <;> rfl
        rw [← hs, if_pos h4]
        rw [bind_run (wrap_run (C18_delivered e2 hlg.1 hlg.2 s (by rw [hs1, h3])))]
        obtain ⟨n', sp', h⟩ := ih fuel (b ++ if v = 38 then b!"&#38;" else encodeRune v) false (n + 1) { s with cur := l ++ q :: r } hlen rfl
        refine ⟨n', sp', ?_⟩
        rw [reported_cons, ← List.append_assoc]
        exact h
      · have h4 : (s.cur).getD (2 - 1) E.eof ≠ 35 := by rw [hs1]; cases p <;> simp [Predef.name]
        rw [← hs, if_neg h4]
        rw [bind_run (wrap_run (parseEntityRef_predef E H p s hs1))]
        run
        have h5 : (ERef.pre p).typ s.hc.heap = 6 := rfl
        have h6 : (ERef.pre p).content s.hc.heap = [v] := e2
        have h7 : v < 128 := by cases p <;> simp [Predef.content] at e2 <;> omega
        have h8 : encodeRune v = [v] := by unfold encodeRune; simp [h7]
        simp only [h5, h6, if_true]
        obtain ⟨n', sp', h⟩ := ih fuel (b ++ if v = 38 then b!"&#38;" else encodeRune v) false (n + 1) { s with cur := l ++ q :: r } hlen rfl
        refine ⟨n', sp', ?_⟩
        rw [reported_cons, ← List.append_assoc, ← h, h8]
        congr 2
        by_cases hv38 : v = 38 <;> simp [hv38]

theorem parseAttributeValue_run {q : Nat} (hq : q = 34 ∨ q = 39) {l w r : List Nat} (hv : Value q l w) (s : St σ)
    (hs : s.cur = q :: (l ++ q :: r)) : ∃ n, parseAttributeValue E H false s = .ok (reported w, n) { s with cur := r } := by
  unfold parseAttributeValue
  run
  rw [hs]
  have h0 : (q :: (l ++ q :: r)).getD 0 E.eof = q := rfl
  rw [h0, if_pos hq]
  simp only [List.drop_succ_cons, List.drop_zero]
  obtain ⟨n, sp, h⟩ := attrValueLoop_run E H hq r hv ((l ++ q :: r).length + 1) [] false 0 { s with cur := l ++ q :: r } (by simp; omega) rfl
  have h1 : parseAttributeValueInternal E H q false { s with cur := l ++ q :: r } = .ok (reported w, n) { s with cur := q :: r } := by
    unfold parseAttributeValueInternal
    run
    rw [bind_run h]
    simp
    rfl
  rw [bind_run (attempt_run h1)]
  run
  have h2 : (q :: r).getD 0 E.eof = q := rfl
  rw [h2, if_pos rfl]
  exact ⟨n, rfl⟩

theorem attrValueLoop_norm {q : Nat} (hq : q = 34 ∨ q = 39) (r : List Nat) {l w : List Nat} (hv : Value q l w) :
    ∀ (fuel : Nat) (b : Bytes) (sp : Bool) (n : Nat) (s : St σ), l.length < fuel → s.cur = l ++ q :: r →
      (sp = true → b.getLast? = some 32) → (n = 0 → Canon (wst b) b sp) →
      ∃ b' n' sp', attrValueLoop E H q true fuel b sp n s = .ok (b', n', sp') { s with cur := q :: r } ∧
        wst b' = (reported w).foldl wstep (wst b) ∧ (sp' = true → b'.getLast? = some 32) ∧ (n' = 0 → Canon (wst b') b' sp') ∧
        (w = [] → n' = n) := by
  induction hv with
  | nil =>
    intro fuel b sp n s hf hs h1 h2
    cases fuel with
    | zero => cases hf
    | succ fuel =>
      refine ⟨b, n, sp, ?_, rfl, h1, h2, fun _ => rfl⟩
      unfold attrValueLoop
      run
      rw [hs]
      have e1 : ([] ++ q :: r).getD 0 E.eof = q := rfl
      rw [e1, if_pos (Or.inl ⟨by omega, rfl⟩)]
      have hs : s.cur = q :: r := hs
      rw [← hs]
  | @char c l w hc k1 k2 k3 k4 hv ih =>
    intro fuel b sp n s hf hs h1 h2
    cases fuel with
    | zero => cases hf
    | succ fuel =>
      unfold attrValueLoop
      run
      rw [hs]
      have h0 : ((c :: l) ++ q :: r).getD 0 E.eof = c := rfl
      have hlen : l.length < fuel := by simp at hf; omega
      rw [h0, if_neg (by rintro (h | h | h); exact k1 h.2; rw [hc.isChar] at h; cases h; exact k3 h), if_neg k2]
      by_cases hw : Ws c
      · rw [if_pos (by unfold Ws at hw; omega), if_pos hw]
        have er : reported (32 :: w) = 32 :: reported w := by rw [reported_cons]; rfl
        rw [er, List.foldl_cons]
        by_cases hb : b = []
        · subst hb
          have hsp : sp = false := by
            cases sp with
            | false => rfl
            | true => cases h1 rfl
          subst hsp
          obtain ⟨b', n', sp', g1, g2, g3, g4, g5⟩ := ih fuel [] false n { s with cur := l ++ q :: r } hlen rfl h1 h2
          refine ⟨b', n', sp', ?_, g2, g3, g4, by simp⟩
          simpa using g1
        · cases sp with
          | true =>
            obtain ⟨b', n', sp', g1, g2, g3, g4, g5⟩ := ih fuel b true n { s with cur := l ++ q :: r } hlen rfl h1 h2
            refine ⟨b', n', sp', ?_, ?_, g3, g4, by simp⟩
            · simpa [hb] using g1
            · rw [wstep_idem (wst_last (h1 rfl))]; exact g2
          | false =>
            have e32 : wst (b ++ [32]) = wstep (wst b) 32 := by rw [wst_append]; rfl
            obtain ⟨b', n', sp', g1, g2, g3, g4, g5⟩ := ih fuel (b ++ [32]) true n { s with cur := l ++ q :: r } hlen rfl (by simp)
              (fun hn => by rw [e32]; exact (h2 hn).space hb)
            refine ⟨b', n', sp', ?_, ?_, g3, g4, by simp⟩
            · simpa [hb] using g1
            · rw [g2, e32]
      · rw [if_neg (by unfold Ws at hw; omega), if_neg hw]
        have h32 : 32 ∉ encodeRune c := by
          intro h
          have := (mem_encodeRune_ascii c 32 (by decide)).1 h
          exact hw (by unfold Ws; omega)
        have er : reported (c :: w) = encodeRune c ++ reported w := by rw [reported_cons, if_neg k2]
        have e1 : wst (b ++ encodeRune c) = ((wst b).1, (wst b).2 ++ encodeRune c) := by rw [wst_append, foldl_word _ _ h32]
        obtain ⟨b', n', sp', g1, g2, g3, g4, g5⟩ := ih fuel (b ++ encodeRune c) false n { s with cur := l ++ q :: r } hlen rfl (by simp)
          (fun hn => by rw [e1]; exact (h2 hn).word (encodeRune_ne_nil c))
        refine ⟨b', n', sp', ?_, ?_, g3, g4, by simp⟩
        · simpa using g1
        · rw [g2, er, List.foldl_append, wst_append]
  | @ref bd v l w hb h59 hlg hv ih =>
    intro fuel b sp n s hf hs h1 h2
    cases fuel with
    | zero => cases hf
    | succ fuel =>
      unfold attrValueLoop
      run
      rw [hs]
      have hlen : l.length < fuel := by simp at hf; omega
      have h0 : ((38 :: (bd ++ 59 :: l)) ++ q :: r).getD 0 E.eof = 38 := rfl
      rw [h0, if_neg (by rintro (h | h | h); omega; revert h; decide; revert h; decide), if_pos rfl]
      have hs1 : s.cur = 38 :: (bd ++ 59 :: (l ++ q :: r)) := by rw [hs]; simp
      obtain ⟨b', n', sp', g1, g2, g3, g4, g5⟩ := ih fuel (b ++ if v = 38 then b!"&#38;" else encodeRune v) false (n + 1) { s with cur := l ++ q :: r } hlen rfl
        (by simp) (by simp)
      refine ⟨b', n', sp', ?_, ?_, g3, g4, by simp⟩
      · rcases ref_cases hb with ⟨hex, ds, e1, e2⟩ | ⟨p, rfl, e2⟩
        · have h3 : (38 :: (bd ++ 59 :: (l ++ q :: r))) = refOpen hex ++ (ds ++ 59 :: (l ++ q :: r)) := by
            rw [← List.cons_append, e1, List.append_assoc]
          have h4 : (s.cur).getD (2 - 1) E.eof = 35 := by rw [hs1, h3]; cases hex <;> rfl
          rw [← hs, if_pos h4]
          rw [bind_run (wrap_run (C18_delivered e2 hlg.1 hlg.2 s (by rw [hs1, h3])))]
          exact g1
        · have h4 : (s.cur).getD (2 - 1) E.eof ≠ 35 := by rw [hs1]; cases p <;> simp [Predef.name]
          rw [← hs, if_neg h4]
          rw [bind_run (wrap_run (parseEntityRef_predef E H p s hs1))]
          run
          have h5 : (ERef.pre p).typ s.hc.heap = 6 := rfl
          have h6 : (ERef.pre p).content s.hc.heap = [v] := e2
          have h7 : v < 128 := by cases p <;> simp [Predef.content] at e2 <;> omega
          have h8 : encodeRune v = [v] := by unfold encodeRune; simp [h7]
          simp only [h5, h6, if_true]
          rw [← g1, h8]
          congr 2
          by_cases hv38 : v = 38 <;> simp [hv38]
      · rw [g2, reported_cons, List.foldl_append, wst_append]

/-- the value of a tokenised attribute before the second pass. -/
theorem parseAttributeValue_norm {q : Nat} (hq : q = 34 ∨ q = 39) {l w r : List Nat} (hv : Value q l w) (s : St σ)
    (hs : s.cur = q :: (l ++ q :: r)) : ∃ x n, parseAttributeValue E H true s = .ok (x, n) { s with cur := r } ∧
      words [] x = words [] (reported w) ∧ (n = 0 → x = unwords (words [] (reported w))) ∧ (w = [] → n = 0) := by
  unfold parseAttributeValue
  run
  rw [hs]
  have h0 : (q :: (l ++ q :: r)).getD 0 E.eof = q := rfl
  rw [h0, if_pos hq]
  simp only [List.drop_succ_cons, List.drop_zero]
  obtain ⟨b, n, sp, h, g2, g3, g4, g5⟩ := attrValueLoop_norm E H hq r hv ((l ++ q :: r).length + 1) [] false 0 { s with cur := l ++ q :: r } (by simp; omega) rfl
    (by simp) (fun _ => .start)
  have hwd : words [] b = words [] (reported w) := by rw [words_wst, words_wst, g2]; rfl
  have key : ∃ x, parseAttributeValueInternal E H q true { s with cur := l ++ q :: r } = .ok (x, n) { s with cur := q :: r } ∧
      words [] x = words [] (reported w) ∧ (n = 0 → x = unwords (words [] (reported w))) := by
    unfold parseAttributeValueInternal
    run
    rw [bind_run h]
    cases sp with
    | false =>
      refine ⟨b, rfl, hwd, fun hn => ?_⟩
      have := (g4 hn).text
      rw [← words_wst, hwd] at this
      simpa using this
    | true =>
      have hb : b ≠ [] := by rintro rfl; cases g3 rfl
      refine ⟨trimRight b, ?_, by rw [words_trim, hwd], fun hn => ?_⟩
      · simp [hb]
        rfl
      · have := (g4 hn).text
        rw [← words_wst, hwd] at this
        simp only [if_true] at this
        rw [this, trimRight_unwords _ (words_mem [] _ (by simp))]
  obtain ⟨x, h1, h2, h3⟩ := key
  rw [bind_run (attempt_run h1)]
  run
  have h2' : (q :: r).getD 0 E.eof = q := rfl
  rw [h2', if_pos rfl]
  exact ⟨x, n, rfl, h2, h3, g5⟩

/-- what the table of attribute types says about an attribute. -/
def tokOf (sp : List (Bytes × Nat)) (e a : Bytes) : Bool :=
  match mapGet sp (specialKey e a) with
  | some t => t ≠ 0
  | none => false

theorem parseAttribute_eq (elem : Bytes) : parseAttribute E H elem = (do
    let q ← M.wrap (parseQName E)
    let s ← M.get
    let _ ← skipBlanks
    adv 1
    let _ ← skipBlanks
    let v ← M.wrap (parseAttributeValue E H (tokOf s.attsSpecial elem q.1))
    if tokOf s.attsSpecial elem q.1 = true ∧ v.2 > 0 then
      let v' ← attrNormalizeSpace v.1
      pure (q.1, q.2, v')
    else pure (q.1, q.2, v.1)) := rfl

/-- an attribute, with any white space around `=`; `sp` is the table of attribute types. -/
theorem parseAttribute_norm (elem : Bytes) {n p l w1 w2 v w r : List Nat} {q : Nat} (hn : QName E n p l) (h1 : Blank w1) (h2 : Blank w2)
    (hq : q = 34 ∨ q = 39) (hv : Value q v w) (s : St σ) {sp : List (Bytes × Nat)} (hsp : s.attsSpecial = sp)
    (hw : tokOf sp elem (encodeRunes l) = true → reported w = [] ∨ ∃ c ∈ reported w, c ≠ 32)
    (hs : s.cur = n ++ (w1 ++ 61 :: (w2 ++ q :: (v ++ q :: r)))) :
    parseAttribute E H elem s = .ok (encodeRunes l, encodeRunes p,
      if tokOf sp elem (encodeRunes l) then unwords (words [] (reported w)) else reported w) { s with cur := r } := by
  have heq : ¬ NameChar E 61 := by
    intro h
    rcases h with h | h | h
    · rw [E.letter_ascii 61 (by decide)] at h; revert h; decide
    · rw [E.digit_ascii 61 (by decide)] at h; revert h; decide
    · revert h; decide
  have hr : ∀ c, (w1 ++ 61 :: (w2 ++ q :: (v ++ q :: r))).head? = some c → c ≠ 0 ∧ ¬ NameChar E c := by
    intro c hc
    cases w1 with
    | nil => cases hc; exact ⟨by decide, heq⟩
    | cons x w1 =>
      cases hc
      exact ws_notName E (h1 _ (by simp))
  have h3 : parseQName E s = .ok (encodeRunes l, encodeRunes p) { s with cur := w1 ++ 61 :: (w2 ++ q :: (v ++ q :: r)) } := by
    rcases hn with ⟨hl, ⟨rfl, rfl⟩ | ⟨hp, rfl⟩⟩
    · exact parseQName_run E hl hr s hs
    · exact parseQName_run_prefixed E hp hl (fun c hc => ⟨(hr c hc).1, fun h => absurd h (hr c hc).2⟩) s (by rw [hs]; simp)
  subst hsp
  rw [parseAttribute_eq]
  rw [bind_run (wrap_run h3)]
  run
  rw [dropWhile_blank h1 (by intro c hc; cases hc; decide)]
  simp only [List.drop_succ_cons, List.drop_zero]
  rw [dropWhile_blank h2 (by intro c hc; cases hc; rcases hq with rfl | rfl <;> decide)]
  cases ht : tokOf s.attsSpecial elem (encodeRunes l) with
  | false =>
    obtain ⟨k, h4⟩ := parseAttributeValue_run E H hq hv { s with cur := q :: (v ++ q :: r) } rfl
    rw [bind_run (wrap_run h4)]
    rfl
  | true =>
    obtain ⟨x, k, h4, h5, h6, h7⟩ := parseAttributeValue_norm E H hq hv { s with cur := q :: (v ++ q :: r) } rfl
    rw [bind_run (wrap_run h4)]
    by_cases hk : k = 0
    · rw [h6 hk]
      simp [hk]
      rfl
    · have hx : x = [] ∨ ∃ c ∈ x, c ≠ 32 := by
        apply Classical.byContradiction
        intro hne
        have hall : ∀ c ∈ x, c = 32 := fun c hc => Classical.byContradiction (fun h => hne (Or.inr ⟨c, hc, h⟩))
        have := words_spaces hall
        rw [h5] at this
        have hall' := words_nil this
        rcases hw ht with h | ⟨c, hc, h⟩
        · refine hk (h7 ?_)
          cases w with
          | nil => rfl
          | cons c w =>
            rw [reported_cons] at h
            have := (List.append_eq_nil_iff.1 h).1
            split at this
            · cases this
            · exact absurd this (encodeRune_ne_nil _)
        · exact h (hall' c hc)
      have h8 := C43_normalize_partial x ({ s with cur := r } : St σ) hx
      rw [h5] at h8
      simp only [Nat.pos_of_ne_zero hk, and_self, if_true]
      rw [bind_run h8]
      rfl

/-- the same without declarations. -/
theorem parseAttribute_run (elem : Bytes) {n p l w1 w2 v w r : List Nat} {q : Nat} (hn : QName E n p l) (h1 : Blank w1) (h2 : Blank w2)
    (hq : q = 34 ∨ q = 39) (hv : Value q v w) (s : St σ) (hsp : s.attsSpecial = [])
    (hs : s.cur = n ++ (w1 ++ 61 :: (w2 ++ q :: (v ++ q :: r)))) :
    parseAttribute E H elem s = .ok (encodeRunes l, encodeRunes p, reported w) { s with cur := r } := by
  have h0 : tokOf [] elem (encodeRunes l) = false := rfl
  have := parseAttribute_norm E H elem hn h1 h2 hq hv s hsp (by rw [h0]; simp) hs
  rw [h0] at this
  exact this

/-! ### start tags -/

theorem uniqueLookup_new {ns : List (Bytes × Bytes)} {p : Bytes} (h : p ∉ ns.map (·.1)) : uniqueLookup ns p = none := by
  unfold uniqueLookup
  rw [List.find?_eq_none]
  intro x hx he
  exact h (List.mem_map.2 ⟨x, List.mem_reverse.1 hx, by simpa using he⟩)

theorem nsPush_new {ns : List (Bytes × Bytes)} {p u : Bytes} (h : p ∉ ns.map (·.1)) : nsPush ns p u = ns ++ [(p, u)] := by
  unfold nsPush uniquePush
  rw [uniqueLookup_new h]

theorem nsLookup_none {ns : List (Bytes × Bytes)} {p : Bytes} (h : p ∉ ns.map (·.1)) : nsLookup ns p = [] := by
  unfold nsLookup
  rw [uniqueLookup_new h]
  rfl

theorem nsLookup_some {ns : List (Bytes × Bytes)} {p u : Bytes} (hn : (ns.map (·.1)).Nodup) (h : (p, u) ∈ ns) : nsLookup ns p = u := by
  unfold nsLookup uniqueLookup
  have h1 : ∃ x, ns.reverse.find? (fun x => x.1 == p) = some x := by
    cases hf : ns.reverse.find? (fun x => x.1 == p) with
    | some x => exact ⟨x, rfl⟩
    | none =>
      rw [List.find?_eq_none] at hf
      have := hf _ (List.mem_reverse.2 h)
      simp at this
  obtain ⟨x, hx⟩ := h1
  rw [hx]
  have h2 := List.mem_reverse.1 (List.mem_of_find?_eq_some hx)
  have h3 : x.1 = p := by simpa using List.find?_some hx
  have h4 : x = (p, u) := by
    clear hx
    induction ns with
    | nil => cases h2
    | cons y ns ih =>
      rw [List.map_cons, List.nodup_cons] at hn
      rcases List.mem_cons.1 h with rfl | h
      · rcases List.mem_cons.1 h2 with h2 | h2
        · exact h2
        · exact absurd (List.mem_map.2 ⟨x, h2, h3⟩) hn.1
      · rcases List.mem_cons.1 h2 with h2 | h2
        · exact absurd (List.mem_map.2 ⟨_, h, by rw [← h2, h3]⟩) hn.1
        · exact ih hn.2 h h2
  rw [h4]
  rfl

theorem dropWhile_idem (p : Nat → Bool) (l : List Nat) : (l.dropWhile p).dropWhile p = l.dropWhile p := by
  induction l with
  | nil => rfl
  | cons c l ih =>
    by_cases h : p c = true
    · simp [h, ih]
    · simp [h]

theorem attrsLoop_blanks (loc : Bytes) (fuel nb : Nat) (ats : List AttrD) (s : St σ) :
    attrsLoop E H loc fuel nb ats { s with cur := s.cur.dropWhile isBlank } = attrsLoop E H loc fuel nb ats s := by
  cases fuel with
  | zero => rfl
  | succ fuel =>
    unfold attrsLoop
    simp only [skipBlanks_bind]
    rw [dropWhile_idem]

theorem reported_plain {w : List Nat} (h : 38 ∉ w) : reported w = encodeRunes w := by
  unfold reported
  congr 1
  induction w with
  | nil => rfl
  | cons c w ih =>
    simp only [List.mem_cons, not_or] at h
    rw [List.flatMap_cons, ih h.2, if_neg (Ne.symm h.1)]
    rfl

theorem ncname_head {n : List Nat} (h : NCName E n) : ∃ c t, n = c :: t ∧ ¬ Ws c ∧ c ≠ 62 ∧ c ≠ 47 ∧ c ≠ 60 ∧ c ≠ 38 := by
  obtain ⟨c, t, rfl, hc⟩ := h.start
  have h1 := (h.chars c (by simp)).1
  refine ⟨c, t, rfl, fun hw => (ws_notName E hw).2 h1, (nameChar_range E h1).2.2.1, (nameChar_range E h1).2.2.2.1, ?_, ?_⟩
  · rintro rfl
    rcases hc with hc | hc
    · rw [E.letter_ascii 60 (by decide)] at hc; revert hc; decide
    · cases hc
  · rintro rfl
    rcases hc with hc | hc
    · rw [E.letter_ascii 38 (by decide)] at hc; revert hc; decide
    · cases hc

theorem qname_head {n p l : List Nat} (h : QName E n p l) : ∃ c t, n = c :: t ∧ ¬ Ws c ∧ c ≠ 62 ∧ c ≠ 47 ∧ c ≠ 60 ∧ c ≠ 38 := by
  rcases h with ⟨hl, ⟨rfl, rfl⟩ | ⟨hp, rfl⟩⟩
  · exact ncname_head E hl
  · obtain ⟨c, t, rfl, h⟩ := ncname_head E hp
    exact ⟨c, t ++ 58 :: l, rfl, h⟩

/-- end of a start tag: `>` is consumed by the loop, `/>` is not. -/
def TagEnd (tail out : List Nat) : Prop := tail = 62 :: out ∨ tail = out ∧ ∃ r, out = b!"/>" ++ r

theorem TagEnd.head {tail out : List Nat} (h : TagEnd tail out) : ∀ c, tail.head? = some c → ¬ Ws c ∧ c ≠ 0 ∧ ¬ NameChar E c := by
  have h1 : ∀ c : Nat, c = 62 ∨ c = 47 → ¬ Ws c ∧ c ≠ 0 ∧ ¬ NameChar E c := by
    intro c hc
    refine ⟨by unfold Ws; omega, by omega, fun h => ?_⟩
    have := nameChar_range E h
    omega
  intro c hc
  rcases h with rfl | ⟨rfl, r, rfl⟩
  · cases hc; exact h1 _ (Or.inl rfl)
  · cases hc; exact h1 _ (Or.inr rfl)

theorem blank_head {ws r : List Nat} {c : Nat} (h1 : ws ≠ []) (h2 : Blank ws) (hc : (ws ++ r).head? = some c) : Ws c := by
  cases ws with
  | nil => exact absurd rfl h1
  | cons x ws => cases hc; exact h2 _ (by simp)

theorem atts_head {used : List (Bytes × Bytes)} {a : List Nat} {as : List AttrD} {ds : List (Bytes × Bytes)} (h : Atts E used a as ds) :
    ∀ c, a.head? = some c → Ws c := by
  intro c hc
  cases h with
  | nil hb => exact hb c (List.mem_of_mem_head? hc)
  | attr h1 h2 => exact blank_head h1 h2 hc
  | decl h1 h2 => exact blank_head h1 h2 hc
  | dflt h1 h2 => exact blank_head h1 h2 hc

/-- after an `xmlns:` attribute: white space is skipped or the tag ends. -/
theorem afterNs_run {used : List (Bytes × Bytes)} {a tail out : List Nat} {as : List AttrD} {ds : List (Bytes × Bytes)}
    (h : Atts E used a as ds) (ht : TagEnd tail out) (s : St σ) (hs : s.cur = a ++ tail) :
    ∃ b, afterNs E s = .ok b { s with cur := s.cur } ∨ afterNs E s = .ok b { s with cur := s.cur.dropWhile isBlank } := by
  unfold afterNs
  run
  cases a with
  | nil =>
    rcases ht with rfl | ⟨rfl, r, rfl⟩
    · rw [hs]
      exact ⟨false, Or.inl rfl⟩
    · rw [hs]
      exact ⟨false, Or.inl rfl⟩
  | cons c a =>
    have hw := atts_head E h c rfl
    have h1 : s.cur.getD 0 E.eof = c := by rw [hs]; rfl
    rw [h1, if_neg (by unfold Ws at hw; omega)]
    have h2 : (b!"/>").isPrefixOf s.cur = false := by
      rw [hs]
      have : (47 == c) = false := by unfold Ws at hw; simp; omega
      simp [List.isPrefixOf, this]
    rw [h2]
    simp only [Bool.false_eq_true, if_false]
    refine ⟨true, Or.inr ?_⟩
    unfold needBlanks
    have h3 : isBlank (s.cur.getD 0 E.eof) = true := by rw [h1]; exact (isBlank_iff c).2 hw
    have h4 : (do
        M.need (isBlank (← peek E)) .spaceRequired
        let _ ← skipBlanks
        pure () : P σ Unit) s = .ok () { s with cur := s.cur.dropWhile isBlank } := by
      run
      rw [need_bind h3]
      rfl
    rw [bind_run h4]
    rfl

theorem ncname_enc_ne {p : List Nat} (h : NCName E p) : encodeRunes p ≠ [] := by
  obtain ⟨c, t, rfl, _⟩ := h.start
  rw [encodeRunes_cons]
  exact fun hc => encodeRune_ne_nil _ (List.append_eq_nil_iff.1 hc).1

theorem xmlns_ncname : NCName E b!"xmlns" := by
  have hl : ∀ c, 97 ≤ c → c ≤ 122 → E.isLetter c = true := by
    intro c h1 h2
    rw [E.letter_ascii c (by omega)]
    simp; omega
  refine ⟨⟨_, _, rfl, Or.inl (hl _ (by decide) (by decide))⟩, ?_, by decide⟩
  intro c hc
  simp at hc
  exact ⟨Or.inl (hl c (by omega) (by omega)), by omega⟩

theorem attrsLoop_end (loc : Bytes) {tail out : List Nat} (ht : TagEnd tail out) {ws : List Nat} (hb : Blank ws) (fuel nb : Nat) (ats : List AttrD) (s : St σ)
    (hf : 0 < fuel) (hs : s.cur = ws ++ tail) : attrsLoop E H loc fuel nb ats s = .ok (nb, ats) { s with cur := out } := by
  cases fuel with
  | zero => cases hf
  | succ fuel =>
    unfold attrsLoop
    run
    rw [hs, dropWhile_blank hb (fun c hc => (ht.head E c hc).1)]
    rcases ht with rfl | ⟨rfl, r, rfl⟩
    · rw [bind_run (consume_run (l := b!">") (r := out) rfl)]
      rfl
    · rw [bind_run (consume_run_false (l := b!">") (by rintro ⟨z, hz⟩; simp at hz))]
      simp only [Bool.false_eq_true, if_false]
      run
      rfl

theorem attrsLoop_run (loc : Bytes) {tail out : List Nat} (ht : TagEnd tail out) {used : List (Bytes × Bytes)} {a : List Nat} {as : List AttrD}
    {ds : List (Bytes × Bytes)} (h : Atts E used a as ds) {sp : List (Bytes × Nat)} : ∀ (fuel nb : Nat) (ats : List AttrD) (s : St σ), a.length < fuel →
      s.cur = a ++ tail → s.ns = used → s.attsSpecial = sp →
      (∀ p n v, .parsed p n v ∈ as → tokOf sp loc n = true → v = [] ∨ ∃ c ∈ v, c ≠ 32) → (∀ p u, (p, u) ∈ ds → tokOf sp loc (if p = [] then b!"xmlns" else p) = false) →
      attrsLoop E H loc fuel nb ats s = .ok (nb + ds.length, ats ++ as.map (tokenValue (tokOf sp loc))) { s with cur := out, ns := used ++ ds } := by
  induction h with
  | @nil used ws hb =>
    intro fuel nb ats s hf hs hns hsp hta htd
    rw [attrsLoop_end E H loc ht hb fuel nb ats s (by omega) hs]
    subst hns
    simp
  | @attr used ws n p l w1 w2 q v w r as ds h1 h2 h3 h4 h5 h6 h7 h8 h9 h10 ih =>
    intro fuel nb ats s hf hs hns hsp hta htd
    cases fuel with
    | zero => cases hf
    | succ fuel =>
      obtain ⟨c, t, hn, c1, c2, c3, _⟩ := qname_head E h3
      unfold attrsLoop
      run
      rw [hs, List.append_assoc, dropWhile_blank h2 (by intro x hx; rw [hn] at hx; cases hx; exact c1)]
      rw [bind_run (consume_run_false (l := b!">") (by rintro ⟨z, hz⟩; rw [hn] at hz; simp at hz; exact c2 hz.1.symm))]
      simp only [Bool.false_eq_true, if_false]
      run
      have e1 : (b!"/>").isPrefixOf (n ++ (w1 ++ 61 :: (w2 ++ q :: (v ++ q :: r))) ++ tail) = false := by
        have : (47 == c) = false := by simpa using Ne.symm c3
        rw [hn]
        simp [List.isPrefixOf, this]
      rw [e1]
      simp only [Bool.false_eq_true, if_false]
      have e2 := parseAttribute_norm E H loc h3 h6 h7 h8 h9 (r := r ++ tail)
        { s with cur := n ++ (w1 ++ 61 :: (w2 ++ q :: (v ++ q :: r))) ++ tail } hsp (hta _ _ _ (List.mem_cons_self ..)) (by simp)
      rw [bind_run (wrap_run e2)]
      have e3 : ¬ (encodeRunes l = b!"xmlns" ∧ encodeRunes p = []) := fun hh =>
        h5 (by
          cases p with
          | nil => rfl
          | cons x p =>
            have := hh.2
            rw [encodeRunes_cons] at this
            exact absurd (List.append_eq_nil_iff.1 this).1 (encodeRune_ne_nil _)) hh.1
      simp only [if_neg e3, if_neg h4]
      have e4 : r.length < fuel := by simp at hf; omega
      refine Eq.trans (ih fuel nb (ats ++ [tokenValue (tokOf sp loc) (.parsed (encodeRunes p) (encodeRunes l) (reported w))]) { s with cur := r ++ tail } e4 rfl hns hsp
        (fun p n v hm => hta p n v (by simp [hm])) htd) ?_
      simp
  | @decl used ws p w1 w2 q v w r as ds h1 h2 h3 h4 h5 h6 h7 h8 h9 h10 h11 h12 h13 h14 h15 ih =>
    intro fuel nb ats s hf hs hns hsp hta htd
    cases fuel with
    | zero => cases hf
    | succ fuel =>
      have hx : NCName E b!"xmlns" := by
        have hl : ∀ c, 97 ≤ c → c ≤ 122 → E.isLetter c = true := by
          intro c h1 h2
          rw [E.letter_ascii c (by omega)]
          simp; omega
        refine ⟨⟨_, _, rfl, Or.inl (hl _ (by decide) (by decide))⟩, ?_, by decide⟩
        intro c hc
        simp at hc
        exact ⟨Or.inl (hl c (by omega) (by omega)), by omega⟩
      have hq : QName E (b!"xmlns" ++ 58 :: p) b!"xmlns" p := ⟨h3, Or.inr ⟨hx, rfl⟩⟩
      unfold attrsLoop
      run
      rw [hs, List.append_assoc, dropWhile_blank h2 (by intro x hx; cases hx; decide)]
      rw [bind_run (consume_run_false (l := b!">") (by rintro ⟨z, hz⟩; simp at hz))]
      simp only [Bool.false_eq_true, if_false]
      run
      have e1 : (b!"/>").isPrefixOf (b!"xmlns" ++ 58 :: p ++ (w1 ++ 61 :: (w2 ++ q :: (v ++ q :: r))) ++ tail) = false := rfl
      rw [e1]
      simp only [Bool.false_eq_true, if_false]
      have e0 : tokOf sp loc (encodeRunes p) = false := by
        have := htd _ _ (List.mem_cons_self ..)
        rwa [if_neg (ncname_enc_ne E h3)] at this
      have e2 := parseAttribute_norm E H loc hq h6 h7 h8 h9 (r := r ++ tail)
        { s with cur := b!"xmlns" ++ 58 :: p ++ (w1 ++ 61 :: (w2 ++ q :: (v ++ q :: r))) ++ tail } hsp (by rw [e0]; simp) (by simp)
      rw [e0] at e2
      simp only [Bool.false_eq_true, if_false] at e2
      rw [bind_run (wrap_run e2), reported_plain h11]
      have e3 : ¬ (encodeRunes p = b!"xmlns" ∧ b!"xmlns" = []) := fun hh => by cases hh.2
      have e5 : encodeRunes b!"xmlns" = b!"xmlns" := by decide
      simp only [e5, if_neg e3, if_true]
      rw [get_bind]
      have e6 : nsDeclCheck E s.ns (encodeRunes p) (encodeRunes w) = none := by
        unfold nsDeclCheck
        have hw : encodeRunes w ≠ [] := by
          cases w with
          | nil => exact absurd rfl h10
          | cons x w =>
            rw [encodeRunes_cons]
            exact fun hc => encodeRune_ne_nil _ (List.append_eq_nil_iff.1 hc).1
        rw [if_neg h4, if_neg h5, if_neg h13, if_neg hw, if_neg (by rw [h12]; decide), hns, nsLookup_none h14, if_neg (by simp)]
      simp only [e6]
      rw [modify_bind]
      have e4 : r.length < fuel := by simp at hf; omega
      have e7 : nsPush s.ns (encodeRunes p) (encodeRunes w) = used ++ [(encodeRunes p, encodeRunes w)] := by rw [hns, nsPush_new h14]
      simp only [e7]
      obtain ⟨b, e8⟩ := afterNs_run E h15 ht { s with cur := r ++ tail, ns := used ++ [(encodeRunes p, encodeRunes w)] } rfl
      have e9 := ih fuel (nb + 1) ats { s with cur := r ++ tail, ns := used ++ [(encodeRunes p, encodeRunes w)] } e4 rfl rfl hsp
        hta (fun p u hm => htd p u (by simp [hm]))
      have e10 := attrsLoop_blanks E H loc fuel (nb + 1) ats { s with cur := r ++ tail, ns := used ++ [(encodeRunes p, encodeRunes w)] }
      rcases e8 with e8 | e8
      · rw [bind_run e8]
        refine Eq.trans e9 ?_
        simp
        omega
      · rw [bind_run e8]
        refine Eq.trans e10 (Eq.trans e9 ?_)
        simp
        omega
  | @dflt used ws w1 w2 q v w h1 h2 h6 h7 h8 h9 h10 h11 h14 =>
    intro fuel nb ats s hf hs hns hsp hta htd
    cases fuel with
    | zero => cases hf
    | succ fuel =>
      have hq : QName E b!"xmlns" [] b!"xmlns" := ⟨xmlns_ncname E, Or.inl ⟨rfl, rfl⟩⟩
      unfold attrsLoop
      run
      rw [hs, List.append_assoc, dropWhile_blank h2 (by intro x hx; cases hx; decide)]
      rw [bind_run (consume_run_false (l := b!">") (by rintro ⟨z, hz⟩; simp at hz))]
      simp only [Bool.false_eq_true, if_false]
      run
      have e1 : (b!"/>").isPrefixOf (b!"xmlns" ++ (w1 ++ 61 :: (w2 ++ q :: (v ++ [q]))) ++ tail) = false := rfl
      rw [e1]
      simp only [Bool.false_eq_true, if_false]
      have e0 : tokOf sp loc b!"xmlns" = false := htd [] _ (List.mem_cons_self ..)
      have e2 := parseAttribute_norm E H loc hq h6 h7 h8 h9 (r := tail)
        { s with cur := b!"xmlns" ++ (w1 ++ 61 :: (w2 ++ q :: (v ++ [q]))) ++ tail } hsp (by rw [show encodeRunes b!"xmlns" = b!"xmlns" from by decide, e0]; simp) (by simp)
      have e5 : encodeRunes b!"xmlns" = b!"xmlns" := by decide
      rw [e5, e0] at e2
      simp only [Bool.false_eq_true, if_false] at e2
      rw [bind_run (wrap_run e2), reported_plain h11]
      simp only [show encodeRunes [] = [] from rfl, and_self, if_true]
      rw [modify_bind]
      have e7 : nsPush s.ns [] (encodeRunes w) = used ++ [([], encodeRunes w)] := by rw [hns, nsPush_new h14]
      simp only [e7]
      have e8 : afterNs E ({ s with cur := tail, ns := used ++ [([], encodeRunes w)] } : St σ) = .ok false { s with cur := tail, ns := used ++ [([], encodeRunes w)] } := by
        unfold afterNs
        run
        rcases ht with rfl | ⟨rfl, r, rfl⟩ <;> rfl
      rw [bind_run e8]
      simp only [Bool.false_eq_true, if_false]
      refine Eq.trans (attrsLoop_end E H loc ht (ws := []) (by simp [Blank]) fuel (nb + 1) ats _ (by simp at hf; omega) rfl) ?_
      simp

end
end Helium
