import Verif.Lemmas.EscapeRead
import Mathlib.Tactic.ByContra
/-!
Properties C10, C11, C12, C13 (escaping and quoting) and C46 (UTF-8).
-/
namespace Helium
open Spec

/-! ### C10 -/

/-- **C10.** For every text made of legal XML characters: the escaped form, read as XML character data (literal characters and
references only, with any literal `<` or `>` and any `&` that does not start a character or predefined entity reference being
refused), denotes exactly the original text; and when line feeds are to be escaped no literal LF remains. -/
theorem C10_escapeText_reversible (nl : Bool) (rs : List Nat) (h : ∀ r ∈ rs, XmlChar r) :
    readText none (decodeRunes (escapeText nl (encodeRunes rs))) = some rs ∧
    (nl = true → 10 ∉ decodeRunes (escapeText nl (encodeRunes rs))) := by
  have hs : ∀ r ∈ rs, isScalar r := fun r hr => xmlChar_scalar (h r hr)
  unfold escapeText
  rw [decode_escLoop _ (textEsc_ok nl)]
  refine ⟨?_, ?_⟩
  · rw [decodeSteps_encodeRunes rs hs _ (Nat.le_refl _), readText_steps, List.map_map]
    congr 1
    conv => rhs; rw [← List.map_id rs]
    exact List.map_congr_left (fun r hr => sanitize_legal r (h r hr))
  · intro hnl hm
    obtain ⟨s, hs, hm⟩ := List.mem_flatMap.mp hm
    exact (escRunes_text nl s (decodeSteps_scalar _ _ s hs) 10 hm).2 hnl rfl

example : ∀ r ∈ [60, 38, 0x20AC, 0x1F600, 13, 10, 0xFFFD, 93, 62], XmlChar r := by decide
example : escapeText true (encodeRunes [60, 10, 0x20AC]) = b!"&lt;&#10;" ++ [0xE2, 0x82, 0xAC] := by decide +kernel

/-! ### C11 -/

/-- **C11.** For every attribute value made of legal XML characters the escaped form contains no `"`, `<`, tab, CR or LF, and
read as an attribute value (references replaced, literal white space normalised to a space) it is the original value. -/
theorem C11_escapeAttrValue_reversible (rs : List Nat) (h : ∀ r ∈ rs, XmlChar r) :
    readAttr none (decodeRunes (escapeAttrValue (encodeRunes rs))) = some rs ∧
    ∀ c ∈ [34, 60, 9, 13, 10], c ∉ escapeAttrValue (encodeRunes rs) := by
  have hs : ∀ r ∈ rs, isScalar r := fun r hr => xmlChar_scalar (h r hr)
  refine ⟨?_, ?_⟩
  · unfold escapeAttrValue
    rw [decode_escLoop _ attrEsc_ok, decodeSteps_encodeRunes rs hs _ (Nat.le_refl _)]
    rw [readAttr_steps, List.map_map]
    congr 1
    conv => rhs; rw [← List.map_id rs]
    exact List.map_congr_left (fun r hr => sanitize_legal r (h r hr))
  · intro c hc hm
    unfold escapeAttrValue at hm
    rw [escLoop_eq _ attrEsc_ok] at hm
    have hc80 : c < 0x80 := by
      simp only [List.mem_cons, List.not_mem_nil, or_false] at hc; omega
    rw [mem_encodeRunes_ascii _ _ hc80] at hm
    obtain ⟨s, hs, hm⟩ := List.mem_flatMap.mp hm
    exact (escRunes_attr s (decodeSteps_scalar _ _ s hs) c hm).2 hc

example : ∀ r ∈ [34, 60, 9, 10, 13, 32, 38, 0xE9, 0x20AC], XmlChar r := by decide
example : escapeAttrValue (encodeRunes [34, 9, 38, 0xE9]) = b!"&#34;&#9;&amp;" ++ [0xC3, 0xA9] := by decide +kernel

/-! ### C12 -/

/-- what the claim asks for: an illegal character becomes one U+FFFD, the rest stays. -/
def replaceIllegal (r : Nat) : Nat := if XmlChar r then r else 0xFFFD

/-- C0 controls other than tab, LF, CR. -/
def C0 (r : Nat) : Prop := r < 0x20 ∧ r ≠ 9 ∧ r ≠ 10 ∧ r ≠ 13

/-- **C12, what holds.** For arbitrary bytes the output of both escapers is valid UTF-8 and every character of it is a legal XML
character. If no C0 control occurs in the input, the output denotes the input with every undecodable byte (each decodes to
U+FFFD) and every illegal character replaced by exactly one U+FFFD. Missing from the full claim: C0 controls, which are written
as references such as `&#x1;` (see `C12_refuted`). -/
theorem C12_escape_total_partial (nl : Bool) (b : Bytes) :
    (encodeRunes (decodeRunes (escapeText nl b)) = escapeText nl b ∧ ∀ c ∈ decodeRunes (escapeText nl b), XmlChar c) ∧
    (encodeRunes (decodeRunes (escapeAttrValue b)) = escapeAttrValue b ∧ ∀ c ∈ decodeRunes (escapeAttrValue b), XmlChar c) ∧
    ((∀ r ∈ decodeRunes b, ¬ C0 r) →
      readText none (decodeRunes (escapeText nl b)) = some ((decodeRunes b).map replaceIllegal) ∧
      readAttr none (decodeRunes (escapeAttrValue b)) = some ((decodeRunes b).map replaceIllegal)) := by
  have hsc := decodeSteps_scalar b.length b
  have hsan : ∀ s ∈ decodeSteps b.length b, ¬ C0 s.1 → sanitize s = replaceIllegal s.1 := by
    rintro ⟨r, w⟩ hs hc
    unfold sanitize replaceIllegal
    have hr := hsc _ hs
    simp only at hr hc ⊢
    unfold C0 at hc
    by_cases hx : XmlChar r
    · have hin := range_of_xmlChar hx
      simp only [hx, if_true, hin]
      by_cases hw : r = 0xFFFD ∧ w = 1
      · simp [hw]
      · simp [hw]
    · have hin : isInCharacterRange r = false := by
        by_contra hc; exact hx (xmlChar_of_range (by simpa using hc) hr)
      simp only [hx, if_false, hin]
      rw [if_pos]; left
      refine ⟨trivial, fun hlt => hx ?_⟩
      unfold XmlChar; omega
  unfold escapeText escapeAttrValue
  rw [decode_escLoop _ (textEsc_ok nl), decode_escLoop _ attrEsc_ok]
  refine ⟨⟨(escLoop_eq _ (textEsc_ok nl) _ _).symm, ?_⟩, ⟨(escLoop_eq _ attrEsc_ok _ _).symm, ?_⟩, ?_⟩
  · intro c hm
    obtain ⟨s, hs, hm⟩ := List.mem_flatMap.mp hm
    exact (escRunes_text nl s (hsc s hs) c hm).1
  · intro c hm
    obtain ⟨s, hs, hm⟩ := List.mem_flatMap.mp hm
    exact (escRunes_attr s (hsc s hs) c hm).1
  · intro hc
    have hm : (decodeSteps b.length b).map sanitize = (decodeRunes b).map replaceIllegal := by
      unfold decodeRunes
      rw [← decodeSteps_fst, List.map_map]
      refine List.map_congr_left (fun s hs => hsan s hs (hc s.1 ?_))
      unfold decodeRunes
      rw [← decodeSteps_fst]; exact List.mem_map_of_mem hs
    rw [readText_steps, readAttr_steps, hm]
    exact ⟨rfl, rfl⟩

/-- undecodable bytes, a surrogate encoded in UTF-8, U+FFFF and ordinary text. -/
example : ∀ r ∈ decodeRunes [0xFF, 65, 0xED, 0xA0, 0x80, 0xEF, 0xBF, 0xBF, 0xC3], ¬ C0 r := by
  simp only [C0]; decide +kernel

/-- **C12 refuted in full**: the control character U+0001 is not replaced by U+FFFD but written as a reference to itself. -/
theorem C12_refuted :
    ¬ ∀ b : Bytes, readText none (decodeRunes (escapeText false b)) = some ((decodeRunes b).map replaceIllegal) := by
  intro h
  have := h [1]
  revert this; decide +kernel

/-! ### C13 -/

/-- **C13, what holds.** A string that does not contain both kinds of quotes is read back from its quoted form. -/
theorem C13_quoted_partial (s : Bytes) (h : 34 ∉ s ∨ 39 ∉ s) : readQuoted (dumpQuotedString s) = some s := by
  unfold dumpQuotedString
  by_cases h1 : s.all (· != 34) = true
  · rw [if_pos h1]
    have : 34 ∉ s := by intro hm; have := List.all_eq_true.mp h1 34 hm; simp at this
    simp [readQuoted, this]
  · rw [if_neg h1]
    have h34 : 34 ∈ s := by
      by_contra hc; exact h1 (List.all_eq_true.mpr (fun x hx => by
        simp only [bne_iff_ne, ne_eq]; intro e; exact hc (e ▸ hx)))
    have h39 : 39 ∉ s := by rcases h with h | h; exact absurd h34 h; exact h
    have h2 : s.all (· != 39) = true := List.all_eq_true.mpr (fun x hx => by
        simp only [bne_iff_ne, ne_eq]; intro e; exact h39 (e ▸ hx))
    rw [if_pos h2]
    simp [readQuoted, h39]

example : 34 ∉ b!"it's" ∨ 39 ∉ b!"it's" := by decide

/-- **C13 refuted in full**: a string with both quotes loses its double quotes. -/
theorem C13_refuted : ¬ ∀ s : Bytes, readQuoted (dumpQuotedString s) = some s := by
  intro h
  have := h b!"a\"b'c"
  revert this; decide

/-- **C13, the remaining case exactly**: with both quotes present, what is read back is the string without its double quotes. -/
theorem C13_both_quotes (s : Bytes) (h : 34 ∈ s ∧ 39 ∈ s) : readQuoted (dumpQuotedString s) = some (s.filter (· != 34)) := by
  have h1 : ¬ s.all (· != 34) = true := by
    intro hc; have := List.all_eq_true.mp hc 34 h.1; simp at this
  have h2 : ¬ s.all (· != 39) = true := by
    intro hc; have := List.all_eq_true.mp hc 39 h.2; simp at this
  unfold dumpQuotedString
  rw [if_neg h1, if_neg h2]
  simp [readQuoted, dropDq]

example : 34 ∈ b!"a\"b'c" ∧ 39 ∈ b!"a\"b'c" := by decide

/-! ### C46 -/

/-- **C46.** Decoding the UTF-8 encoding of scalar values gives them back; every decoding step consumes at least one byte; and
what is decoded are scalar values. -/
theorem C46_utf8_inverse :
    (∀ rs : List Nat, (∀ r ∈ rs, r < 0xD800 ∨ (0xE000 ≤ r ∧ r ≤ 0x10FFFF)) → decodeRunes (encodeRunes rs) = rs) ∧
    (∀ b : Bytes, b ≠ [] → 0 < (decodeRune b).2) ∧
    (∀ b : Bytes, ∀ r ∈ decodeRunes b, r < 0xD800 ∨ (0xE000 ≤ r ∧ r ≤ 0x10FFFF)) := by
  refine ⟨fun rs h => decodeRunes_encodeRunes rs h, ?_, fun b => decodeRunes_scalar b⟩
  intro b hb
  cases b with
  | nil => exact absurd rfl hb
  | cons x t => exact decodeRune_width_pos x t

example : ∀ r ∈ [0, 0x7F, 0x80, 0x7FF, 0x800, 0xD7FF, 0xE000, 0xFFFF, 0x10000, 0x10FFFF],
    r < 0xD800 ∨ (0xE000 ≤ r ∧ r ≤ 0x10FFFF) := by decide

end Helium
