import Verif.Model.Env
import Verif.Lemmas.Utf8
/-! A concrete environment, used for witnesses and to show that the assumptions of `Env` can be met. -/
namespace Helium

/-- ASCII-only character tables, UTF-8 decoding for every charset, identity map order, and the given sentinel past the end of
input (0 or U+FFFD; which of the two strcursor answers is left open). Stands in for external code only. -/
def asciiEnv (eof : Nat) (he : eof = 0 ∨ eof = 0xFFFD) : Env where
  eof := eof
  beof := eof
  isLetter c := (decide (65 ≤ c) && decide (c ≤ 90)) || (decide (97 ≤ c) && decide (c ≤ 122))
  isDigit c := decide (48 ≤ c) && decide (c ≤ 57)
  isExtender _ := false
  decode _ b := decodeRunes b
  urlOk _ := true
  order l := l
  eof_spec := he
  beof_spec := he
  letter_ascii := by intros; rfl
  digit_ascii := by intros; rfl
  extender_ascii := by intros; rfl
  letter_scalar := by intro c h; simp at h; unfold isScalar; omega
  letter_char := by intro c h; simp at h; omega
  digit_char := by intro c h; simp at h; omega
  digit_scalar := by intro c h; simp at h; unfold isScalar; omega
  extender_scalar := by intro c h; simp at h
  decode_utf8 := fun rs h => decodeRunes_encodeRunes rs h
  order_perm := fun l => List.Perm.refl l

/-- sentinel NUL. -/
def env0 : Env := asciiEnv 0 (Or.inl rfl)

/-- sentinel U+FFFD. -/
def envF : Env := asciiEnv 0xFFFD (Or.inr rfl)

end Helium
