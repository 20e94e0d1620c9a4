import Verif.Model.Utf8
/-! Helper lemmas about UTF-8. -/
namespace Helium

theorem encodeRune_ne_nil (r : Rune) : encodeRune r ≠ [] := by
  unfold encodeRune; repeat' split
  all_goals simp

theorem decodeRune_encodeRune (r : Rune) (h : isScalar r) (t : Bytes) :
    decodeRune (encodeRune r ++ t) = (r, (encodeRune r).length) := by
  unfold isScalar at h
  unfold encodeRune
  split
  · simp [decodeRune, *]
  split
  · have h1 : ¬ (0xC0 + r / 64 < 0x80) := by omega
    have h2 : ¬ (0xC0 + r / 64 < 0xC2) := by omega
    have h3 : (0xC0 + r / 64 < 0xE0) := by omega
    simp only [List.cons_append, decodeRune, h1, h2, h3, if_true, if_false, isCont, Bool.and_eq_true, decide_eq_true_eq,
      List.length_cons, List.length_nil]
    rw [if_pos (by omega)]
    rw [Prod.mk.injEq]; exact ⟨by omega, rfl⟩
  split
  · omega
  split
  · have h1 : ¬ (0xE0 + r / 4096 < 0x80) := by omega
    have h2 : ¬ (0xE0 + r / 4096 < 0xC2) := by omega
    have h3 : ¬ (0xE0 + r / 4096 < 0xE0) := by omega
    have h4 : (0xE0 + r / 4096 < 0xF0) := by omega
    simp only [List.cons_append, decodeRune, h1, h2, h3, h4, if_true, if_false, isCont, Bool.and_eq_true, decide_eq_true_eq,
      List.length_cons, List.length_nil]
    rw [if_pos]
    · rw [Prod.mk.injEq]; exact ⟨by omega, rfl⟩
    · refine ⟨⟨?_, ?_⟩, by omega, by omega⟩
      · split <;> omega
      · split <;> omega
  · have h1 : ¬ (0xF0 + r / 262144 < 0x80) := by omega
    have h2 : ¬ (0xF0 + r / 262144 < 0xC2) := by omega
    have h3 : ¬ (0xF0 + r / 262144 < 0xE0) := by omega
    have h4 : ¬ (0xF0 + r / 262144 < 0xF0) := by omega
    have h5 : (0xF0 + r / 262144 < 0xF5) := by omega
    simp only [List.cons_append, decodeRune, h1, h2, h3, h4, h5, if_true, if_false, isCont, Bool.and_eq_true, decide_eq_true_eq,
      List.length_cons, List.length_nil]
    rw [if_pos]
    · rw [Prod.mk.injEq]; exact ⟨by omega, rfl⟩
    · refine ⟨⟨⟨?_, ?_⟩, by omega, by omega⟩, by omega, by omega⟩
      · split <;> omega
      · split <;> omega

theorem decodeRunesAux_mono (n m : Nat) (b : Bytes) (hn : b.length ≤ n) (hm : b.length ≤ m) :
    decodeRunesAux n b = decodeRunesAux m b := by
  induction n generalizing m b with
  | zero =>
    have : b = [] := List.length_eq_zero_iff.1 (by omega)
    subst this; cases m <;> rfl
  | succ n ih =>
    cases b with
    | nil => cases m <;> rfl
    | cons x t =>
      cases m with
      | zero => simp at hm
      | succ m =>
        simp only [decodeRunesAux]
        have := decodeRune_width_pos x t
        rw [ih m]
        · simp only [List.length_drop, List.length_cons] at *; omega
        · simp only [List.length_drop, List.length_cons] at *; omega

theorem decodeRunes_nil : decodeRunes [] = [] := rfl

theorem decodeRunes_eq (b : Bytes) (h : b ≠ []) :
    decodeRunes b = (decodeRune b).1 :: decodeRunes (b.drop (decodeRune b).2) := by
  cases b with
  | nil => exact absurd rfl h
  | cons x t =>
    have := decodeRune_width_pos x t
    simp only [decodeRunes, List.length_cons, decodeRunesAux]
    rw [decodeRunesAux_mono]
    · simp only [List.length_drop, List.length_cons] at *; omega
    · simp

theorem decodeRunes_encodeRune (r : Rune) (h : isScalar r) (t : Bytes) :
    decodeRunes (encodeRune r ++ t) = r :: decodeRunes t := by
  have hne : encodeRune r ++ t ≠ [] := by simp [encodeRune_ne_nil]
  rw [decodeRunes_eq _ hne, decodeRune_encodeRune r h t]
  simp

theorem decodeRunes_append (rs : List Rune) (h : ∀ r ∈ rs, isScalar r) (t : Bytes) :
    decodeRunes (encodeRunes rs ++ t) = rs ++ decodeRunes t := by
  induction rs with
  | nil => simp [encodeRunes]
  | cons r rs ih =>
    simp only [encodeRunes, List.flatMap_cons, List.append_assoc, List.cons_append] at *
    rw [decodeRunes_encodeRune r (h r (by simp)), ih (fun x hx => h x (by simp [hx]))]

theorem decodeRunes_encodeRunes (rs : List Rune) (h : ∀ r ∈ rs, isScalar r) :
    decodeRunes (encodeRunes rs) = rs := by
  have := decodeRunes_append rs h []
  simpa [decodeRunes_nil] using this

theorem encodeRunes_append (a b : List Rune) : encodeRunes (a ++ b) = encodeRunes a ++ encodeRunes b := by
  simp [encodeRunes]

theorem encodeRunes_cons (a : Rune) (b : List Rune) : encodeRunes (a :: b) = encodeRune a ++ encodeRunes b := by
  simp [encodeRunes]

@[simp] theorem encodeRunes_nil : encodeRunes [] = [] := rfl

/-- Every decoded rune is a scalar value. -/
theorem decodeRune_scalar (b : Bytes) : isScalar (decodeRune b).1 := by
  unfold decodeRune
  split
  · simp [isScalar, runeError]
  · repeat' split
    all_goals simp_all [isScalar, runeError, isCont]
    all_goals try omega
    all_goals (repeat' split at *)
    all_goals omega

theorem decodeRunesAux_scalar (n : Nat) (b : Bytes) : ∀ r ∈ decodeRunesAux n b, isScalar r := by
  induction n generalizing b with
  | zero => simp [decodeRunesAux]
  | succ n ih =>
    cases b with
    | nil => simp [decodeRunesAux]
    | cons x t =>
      intro r hr
      rcases List.mem_cons.1 hr with h | h
      · subst h; exact decodeRune_scalar _
      · exact ih _ r h

theorem decodeRunes_scalar (b : Bytes) : ∀ r ∈ decodeRunes b, isScalar r := decodeRunesAux_scalar _ _

theorem encodeRunes_injective {a b : List Rune} (ha : ∀ r ∈ a, isScalar r) (hb : ∀ r ∈ b, isScalar r)
    (h : encodeRunes a = encodeRunes b) : a = b := by
  rw [← decodeRunes_encodeRunes a ha, h, decodeRunes_encodeRunes b hb]

/-- ASCII runes are their own encoding. -/
theorem encodeRune_ascii (r : Rune) (h : r < 0x80) : encodeRune r = [r] := by simp [encodeRune, h]

theorem encodeRunes_ascii (rs : List Rune) (h : ∀ r ∈ rs, r < 0x80) : encodeRunes rs = rs := by
  induction rs with
  | nil => rfl
  | cons r rs ih =>
    rw [encodeRunes_cons, encodeRune_ascii r (h r (by simp)), ih (fun x hx => h x (by simp [hx]))]; rfl

/-- a byte below 0x80 in an encoding is an ASCII rune -/
theorem mem_encodeRune_ascii (r : Rune) (b : Nat) (hb : b < 0x80) : b ∈ encodeRune r ↔ b = r := by
  unfold encodeRune
  repeat' split
  all_goals simp
  all_goals omega

theorem mem_encodeRunes_ascii (rs : List Rune) (b : Nat) (hb : b < 0x80) : b ∈ encodeRunes rs ↔ b ∈ rs := by
  induction rs with
  | nil => simp
  | cons r rs ih => rw [encodeRunes_cons, List.mem_append, mem_encodeRune_ascii r b hb, ih, List.mem_cons]

theorem encodeRune_lt256 (r : Rune) : ∀ b ∈ encodeRune r, b < 256 := by
  unfold encodeRune
  repeat' split
  all_goals (intro b hb; simp at hb; omega)

end Helium
