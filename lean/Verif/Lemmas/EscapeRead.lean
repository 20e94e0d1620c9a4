import Verif.Lemmas.Escape
/-! Reading back escaped text with the specification readers. -/
namespace Helium
open Spec

/-! ### helpers for the specification reader -/

theorem readText_append_lit (c : Nat) (h1 : c ≠ 38) (h2 : c ≠ 60) (h3 : c ≠ 62) (rest : List Nat) :
    readText none (c :: rest) = (readText none rest).map (c :: ·) := by
  simp [readText, h1, h2, h3]

theorem readText_ref_aux (body : List Nat) (acc : List Nat) (h : 59 ∉ body) (rest : List Nat) :
    readText (some acc) (body ++ 59 :: rest) =
      (match refValue (acc ++ body) with | some v => (readText none rest).map (v :: ·) | none => none) := by
  induction body generalizing acc with
  | nil => simp only [List.nil_append, readText, if_true, List.append_nil]; cases refValue acc <;> rfl
  | cons c t ih =>
    have hc : c ≠ 59 := by intro e; exact h (by simp [e])
    simp only [List.cons_append, readText, hc, if_false]
    rw [ih _ (fun hm => h (by simp [hm]))]
    simp

theorem readAttr_ref_aux (body : List Nat) (acc : List Nat) (h : 59 ∉ body) (rest : List Nat) :
    readAttr (some acc) (body ++ 59 :: rest) =
      (match refValue (acc ++ body) with | some v => (readAttr none rest).map (v :: ·) | none => none) := by
  induction body generalizing acc with
  | nil => simp only [List.nil_append, readAttr, if_true, List.append_nil]; cases refValue acc <;> rfl
  | cons c t ih =>
    have hc : c ≠ 59 := by intro e; exact h (by simp [e])
    simp only [List.cons_append, readAttr, hc, if_false]
    rw [ih _ (fun hm => h (by simp [hm]))]
    simp

theorem readText_ref (body : List Nat) (v : Nat) (h : 59 ∉ body) (hv : refValue body = some v) (rest : List Nat) :
    readText none (38 :: (body ++ 59 :: rest)) = (readText none rest).map (v :: ·) := by
  simp only [readText, if_true]
  rw [readText_ref_aux _ _ h]
  simp [hv]

theorem readAttr_ref (body : List Nat) (v : Nat) (h : 59 ∉ body) (hv : refValue body = some v) (rest : List Nat) :
    readAttr none (38 :: (body ++ 59 :: rest)) = (readAttr none rest).map (v :: ·) := by
  simp only [readAttr, if_true]
  rw [readAttr_ref_aux _ _ h]
  simp [hv]

theorem readAttr_append_lit (c : Nat) (h1 : c ≠ 38) (h2 : c ≠ 60) (h3 : c ≠ 34) (h4 : ¬(c = 9 ∨ c = 10 ∨ c = 13))
    (rest : List Nat) : readAttr none (c :: rest) = (readAttr none rest).map (c :: ·) := by
  simp [readAttr, h1, h2, h3, h4]

theorem hexBody_val (r : Nat) (h : r < 0xE0) : 59 ∉ (35 :: 120 :: hexUpper r) ∧ refValue (35 :: 120 :: hexUpper r) = some r := by
  revert r; decide +kernel

theorem hexRef_eq (r : Nat) : hexRef r = 38 :: ((35 :: 120 :: hexUpper r) ++ [59]) := by simp [hexRef]

/-- what a character becomes: itself unless it is undecodable or outside the character range. -/
def sanitize (s : Nat × Nat) : Nat :=
  if isInCharacterRange s.1 = false ∧ ¬ s.1 < 0xE0 ∨ (s.1 = 0xFFFD ∧ s.2 = 1) then 0xFFFD else s.1

theorem readText_step (nl : Bool) (s : Nat × Nat) (rest : List Nat) :
    readText none (escRunes (textEsc nl) s ++ rest) = (readText none rest).map (sanitize s :: ·) := by
  obtain ⟨r, w⟩ := s
  unfold escRunes textEsc
  by_cases h38 : r = 38
  · subst h38; simpa [sanitize] using readText_ref b!"amp" 38 (by decide) (by decide) rest
  by_cases h60 : r = 60
  · subst h60; simpa [sanitize] using readText_ref b!"lt" 60 (by decide) (by decide) rest
  by_cases h62 : r = 62
  · subst h62; simpa [sanitize] using readText_ref b!"gt" 62 (by decide) (by decide) rest
  by_cases h10 : r = 10
  · subst h10
    cases nl
    · simpa [sanitize] using readText_append_lit 10 (by decide) (by decide) (by decide) rest
    · simpa [sanitize] using readText_ref b!"#10" 10 (by decide) (by decide) rest
  by_cases h13 : r = 13
  · subst h13; simpa [sanitize] using readText_ref b!"#13" 13 (by decide) (by decide) rest
  simp only [h38, h60, h62, h10, h13, if_false]
  by_cases hE : ¬(r = 9 ∨ (0x20 ≤ r ∧ r < 0x80)) ∧ r < 0xE0
  · simp only [hE, if_true, not_false_eq_true, and_self]
    have hne : hexRef r ≠ [239, 191, 189] := by simp [hexRef]
    have hs : sanitize (r, w) = r := by
      unfold sanitize; simp only; rw [if_neg]; omega
    obtain ⟨a, b⟩ := hexBody_val r hE.2
    simp only [hne, if_false, hs]
    rw [hexRef_eq, List.cons_append, List.append_assoc]
    exact readText_ref _ r a b rest
  · simp only [hE, if_false]
    by_cases hb : isInCharacterRange r = false ∨ (r = 0xFFFD ∧ w = 1)
    · simp only [hb, if_true]
      have hs : sanitize (r, w) = 0xFFFD := by
        unfold sanitize; simp only
        rw [if_pos]
        rcases hb with hb | hb
        · left; refine ⟨hb, fun hlt => hE ⟨?_, hlt⟩⟩
          intro h9
          have : isInCharacterRange r = true := by
            unfold isInCharacterRange
            rcases h9 with h | h
            · subst h; decide
            · simp only [Bool.or_eq_true, Bool.and_eq_true, decide_eq_true_eq]; omega
          rw [this] at hb; cases hb
        · exact Or.inr hb
      rw [hs]
      exact readText_append_lit 0xFFFD (by decide) (by decide) (by decide) rest
    · simp only [hb, if_false]
      have hs : sanitize (r, w) = r := by
        unfold sanitize; simp only; rw [if_neg]
        intro h; rcases h with h | h
        · exact hb (Or.inl h.1)
        · exact hb (Or.inr h)
      rw [hs]
      exact readText_append_lit r h38 h60 h62 rest

theorem readAttr_step (s : Nat × Nat) (rest : List Nat) :
    readAttr none (escRunes attrEsc s ++ rest) = (readAttr none rest).map (sanitize s :: ·) := by
  obtain ⟨r, w⟩ := s
  unfold escRunes attrEsc
  by_cases h34 : r = 34
  · subst h34; simpa [sanitize] using readAttr_ref b!"#34" 34 (by decide) (by decide) rest
  by_cases h38 : r = 38
  · subst h38; simpa [sanitize] using readAttr_ref b!"amp" 38 (by decide) (by decide) rest
  by_cases h60 : r = 60
  · subst h60; simpa [sanitize] using readAttr_ref b!"lt" 60 (by decide) (by decide) rest
  by_cases h62 : r = 62
  · subst h62; simpa [sanitize] using readAttr_ref b!"gt" 62 (by decide) (by decide) rest
  by_cases h10 : r = 10
  · subst h10; simpa [sanitize] using readAttr_ref b!"#10" 10 (by decide) (by decide) rest
  by_cases h13 : r = 13
  · subst h13; simpa [sanitize] using readAttr_ref b!"#13" 13 (by decide) (by decide) rest
  by_cases h9 : r = 9
  · subst h9; simpa [sanitize] using readAttr_ref b!"#9" 9 (by decide) (by decide) rest
  simp only [h34, h38, h60, h62, h10, h13, h9, if_false]
  by_cases hE : ¬(0x20 ≤ r ∧ r < 0x80) ∧ r < 0xE0
  · simp only [hE, if_true, not_false_eq_true, and_self]
    have hne : hexRef r ≠ [239, 191, 189] := by simp [hexRef]
    have hs : sanitize (r, w) = r := by
      unfold sanitize; simp only; rw [if_neg]; omega
    obtain ⟨a, b⟩ := hexBody_val r hE.2
    simp only [hne, if_false, hs]
    rw [hexRef_eq, List.cons_append, List.append_assoc]
    exact readAttr_ref _ r a b rest
  · simp only [hE, if_false]
    by_cases hb : isInCharacterRange r = false ∨ (r = 0xFFFD ∧ w = 1)
    · simp only [hb, if_true]
      have hs : sanitize (r, w) = 0xFFFD := by
        unfold sanitize; simp only
        rw [if_pos]
        rcases hb with hb | hb
        · left; refine ⟨hb, fun hlt => hE ⟨?_, hlt⟩⟩
          intro h9
          have : isInCharacterRange r = true := by
            unfold isInCharacterRange
            simp only [Bool.or_eq_true, Bool.and_eq_true, decide_eq_true_eq]; omega
          rw [this] at hb; cases hb
        · exact Or.inr hb
      rw [hs]
      exact readAttr_append_lit 0xFFFD (by decide) (by decide) (by decide) (by decide) rest
    · simp only [hb, if_false]
      have hs : sanitize (r, w) = r := by
        unfold sanitize; simp only; rw [if_neg]
        intro h; rcases h with h | h
        · exact hb (Or.inl h.1)
        · exact hb (Or.inr h)
      rw [hs]
      exact readAttr_append_lit r h38 h60 h34 (by omega) rest

theorem readText_steps (nl : Bool) (l : List (Nat × Nat)) :
    readText none (l.flatMap (escRunes (textEsc nl))) = some (l.map sanitize) := by
  induction l with
  | nil => rfl
  | cons s t ih => rw [List.flatMap_cons, readText_step, ih]; rfl

theorem readAttr_steps (l : List (Nat × Nat)) : readAttr none (l.flatMap (escRunes attrEsc)) = some (l.map sanitize) := by
  induction l with
  | nil => rfl
  | cons s t ih => rw [List.flatMap_cons, readAttr_step, ih]; rfl

theorem xmlChar_scalar {c : Nat} (h : XmlChar c) : isScalar c := by
  unfold XmlChar at h; unfold isScalar; omega

theorem sanitize_legal (r : Nat) (h : XmlChar r) : sanitize (r, (encodeRune r).length) = r := by
  have hr : isInCharacterRange r = true := by
    unfold XmlChar at h
    unfold isInCharacterRange
    simp only [Bool.or_eq_true, Bool.and_eq_true, decide_eq_true_eq, beq_iff_eq]; omega
  unfold sanitize
  simp only [hr]
  rw [if_neg]
  rintro (h | ⟨h, h'⟩)
  · simp at h
  · subst h; revert h'; decide


theorem xmlChar_of_range {r : Nat} (h : isInCharacterRange r = true) (hs : isScalar r) : XmlChar r := by
  unfold isInCharacterRange at h
  simp only [Bool.or_eq_true, Bool.and_eq_true, decide_eq_true_eq, beq_iff_eq] at h
  unfold isScalar at hs
  unfold XmlChar; omega

theorem range_of_xmlChar {r : Nat} (h : XmlChar r) : isInCharacterRange r = true := by
  unfold XmlChar at h
  unfold isInCharacterRange
  simp only [Bool.or_eq_true, Bool.and_eq_true, decide_eq_true_eq, beq_iff_eq]; omega

theorem hexRef_legal (r : Nat) (h : r < 0xE0) : (∀ c ∈ hexRef r, XmlChar c) ∧ ∀ c ∈ [34, 60, 9, 13, 10], c ∉ hexRef r := by
  revert r; decide +kernel

/-- the runes written by the attribute escaper are legal and contain none of the five dangerous characters. -/
theorem escRunes_attr (s : Nat × Nat) (hs : isScalar s.1) :
    ∀ c ∈ escRunes attrEsc s, XmlChar c ∧ c ∉ [34, 60, 9, 13, 10] := by
  intro c hm
  obtain ⟨r, w⟩ := s
  unfold escRunes at hm
  cases he : attrEsc r w with
  | some e =>
    simp only [he] at hm
    split at hm
    · simp at hm; subst hm; decide
    · unfold attrEsc at he
      repeat' split at he
      all_goals first
        | (simp only [Option.some.injEq] at he; subst he; revert c; decide)
        | (simp only [Option.some.injEq] at he; subst he; contradiction)
        | (simp only [Option.some.injEq] at he; subst he
           exact ⟨(hexRef_legal r (by omega)).1 c hm, fun hc => (hexRef_legal r (by omega)).2 c hc hm⟩)
        | cases he
  | none =>
    simp only [he] at hm; simp only [List.mem_singleton] at hm; subst hm
    unfold attrEsc at he
    repeat' split at he
    all_goals first
      | cases he; done
      | skip
    rename_i hr
    refine ⟨xmlChar_of_range (by simpa using fun h => hr (Or.inl h)) hs, ?_⟩
    simp only [List.mem_cons, List.not_mem_nil, or_false]; omega

/-- the runes written by the text escaper are legal; no LF if asked for. -/
theorem escRunes_text (nl : Bool) (s : Nat × Nat) (hs : isScalar s.1) :
    ∀ c ∈ escRunes (textEsc nl) s, XmlChar c ∧ (nl = true → c ≠ 10) := by
  intro c hm
  obtain ⟨r, w⟩ := s
  unfold escRunes at hm
  cases he : textEsc nl r w with
  | some e =>
    simp only [he] at hm
    split at hm
    · simp at hm; subst hm; exact ⟨by decide, fun _ => by decide⟩
    · unfold textEsc at he
      repeat' split at he
      all_goals first
        | (simp only [Option.some.injEq] at he; subst he; revert c; revert nl; decide)
        | (simp only [Option.some.injEq] at he; subst he; contradiction)
        | (simp only [Option.some.injEq] at he; subst he
           exact ⟨(hexRef_legal r (by omega)).1 c hm, fun _ hc => (hexRef_legal r (by omega)).2 c (by simp [hc]) hm⟩)
        | cases he
  | none =>
    simp only [he] at hm; simp only [List.mem_singleton] at hm; subst hm
    unfold textEsc at he
    repeat' split at he
    all_goals first
      | cases he; done
      | skip
    · rename_i h10 hnl
      subst h10; exact ⟨by decide, fun h => absurd h hnl⟩
    · rename_i hr
      exact ⟨xmlChar_of_range (by simpa using fun h => hr (Or.inl h)) hs, fun _ => by omega⟩


end Helium
