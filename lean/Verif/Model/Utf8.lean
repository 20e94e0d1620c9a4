/-
Bytes, runes and UTF-8 as used by helium through Go's `unicode/utf8` and `bytes.Buffer.WriteRune`.
A Go string / []byte is a `List Nat` (each element is meant to be < 256; nothing below depends on it unless said so),
a rune is a `Nat`.
-/
namespace Helium

/-- Go `string` / `[]byte` (used everywhere in /repo). -/
abbrev Bytes := List Nat

/-- Go `rune` restricted to the non-negative values the cursor delivers (/repo/parserctx.go:231-241). -/
notation "Rune" => Nat

/-- `b!"..."`: the UTF-8 bytes of a string literal, spelled out as a list of numerals when the file is elaborated
(notation for Go string literals; no counterpart in /repo). For ASCII text the runes and the bytes coincide. -/
macro:max "b!" s:str : term => do
  let bs := s.getString.toUTF8.toList
  let ts : Array (Lean.TSyntax `term) := (bs.map (fun b => Lean.Syntax.mkNumLit (toString b.toNat))).toArray
  `(([$ts,*] : List Nat))

/-- `utf8.RuneError`, used in /repo/parserctx.go:1909 and /repo/dump.go:121,181. -/
def runeError : Rune := 0xFFFD

/-- Go `utf8.EncodeRune` as used by `bytes.Buffer.WriteRune` (/repo/parserctx.go:632 and others):
surrogates and values above U+10FFFF are written as U+FFFD. -/
def encodeRune (r : Rune) : Bytes :=
  if r < 0x80 then [r]
  else if r < 0x800 then [0xC0 + r / 64, 0x80 + r % 64]
  else if 0x10FFFF < r ∨ (0xD800 ≤ r ∧ r ≤ 0xDFFF) then [0xEF, 0xBF, 0xBD]
  else if r < 0x10000 then [0xE0 + r / 4096, 0x80 + r / 64 % 64, 0x80 + r % 64]
  else [0xF0 + r / 262144, 0x80 + r / 4096 % 64, 0x80 + r / 64 % 64, 0x80 + r % 64]

/-- `bytes.Buffer.WriteRune` over a rune slice: `string([]rune)` (/repo/parserctx.go:632 and others). -/
def encodeRunes (rs : List Rune) : Bytes := rs.flatMap encodeRune

/-- continuation byte in the default accept range of Go's utf8 tables. -/
def isCont (b : Nat) : Bool := 0x80 ≤ b && b ≤ 0xBF

/-- Go `utf8.DecodeRune` (used at /repo/dump.go:82,144, /repo/parserctx.go:4471): rune and width; `(RuneError, 0)` for empty input,
`(RuneError, 1)` for an invalid sequence. -/
def decodeRune : Bytes → Rune × Nat
  | [] => (runeError, 0)
  | b0 :: t =>
    if b0 < 0x80 then (b0, 1)
    else if b0 < 0xC2 then (runeError, 1)
    else if b0 < 0xE0 then
      match t with
      | b1 :: _ => if isCont b1 then ((b0 - 0xC0) * 64 + (b1 - 0x80), 2) else (runeError, 1)
      | _ => (runeError, 1)
    else if b0 < 0xF0 then
      match t with
      | b1 :: b2 :: _ =>
        if (if b0 = 0xE0 then 0xA0 else 0x80) ≤ b1 && b1 ≤ (if b0 = 0xED then 0x9F else 0xBF) && isCont b2 then
          ((b0 - 0xE0) * 4096 + (b1 - 0x80) * 64 + (b2 - 0x80), 3)
        else (runeError, 1)
      | _ => (runeError, 1)
    else if b0 < 0xF5 then
      match t with
      | b1 :: b2 :: b3 :: _ =>
        if (if b0 = 0xF0 then 0x90 else 0x80) ≤ b1 && b1 ≤ (if b0 = 0xF4 then 0x8F else 0xBF) && isCont b2 && isCont b3 then
          ((b0 - 0xF0) * 262144 + (b1 - 0x80) * 4096 + (b2 - 0x80) * 64 + (b3 - 0x80), 4)
        else (runeError, 1)
      | _ => (runeError, 1)
    else (runeError, 1)

theorem decodeRune_width_pos (b : Nat) (t : Bytes) : 0 < (decodeRune (b :: t)).2 := by
  simp only [decodeRune]
  repeat' split
  all_goals simp

/-- loop of `decodeRunes`; the first argument bounds the number of steps (the number of bytes always suffices). -/
def decodeRunesAux : Nat → Bytes → List Rune
  | 0, _ => []
  | _ + 1, [] => []
  | n + 1, x :: t => (decodeRune (x :: t)).1 :: decodeRunesAux n ((x :: t).drop (decodeRune (x :: t)).2)

/-- Decoding a whole byte string rune by rune, the way a `RuneCursor` over valid UTF-8 delivers it (/repo/parserctx.go:339-371
for the set-up; the cursor itself is external). Invalid bytes become U+FFFD one at a time. -/
def decodeRunes (b : Bytes) : List Rune := decodeRunesAux b.length b

/-- Unicode scalar value: what UTF-8 can carry. -/
def isScalar (r : Rune) : Prop := r < 0xD800 ∨ (0xDFFF < r ∧ r ≤ 0x10FFFF)

instance (r : Rune) : Decidable (isScalar r) := by unfold isScalar; infer_instance

end Helium
