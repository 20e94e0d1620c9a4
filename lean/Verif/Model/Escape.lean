import Verif.Model.Base
/-! Escaping and quoting: /repo/dump.go:19-195. -/
namespace Helium

/-- the loop of `dumpQuotedString` for strings with both quotes (/repo/dump.go:41-49): the text with every double quote
dropped. -/
def dropDq (s : Bytes) : Bytes := s.filter (· != 34)

/-- `dumpQuotedString` (/repo/dump.go:19-52). -/
def dumpQuotedString (s : Bytes) : Bytes :=
  if s.all (· != 34) then 34 :: (s ++ [34])
  else if s.all (· != 39) then 39 :: (s ++ [39])
  else 34 :: (dropDq s ++ [34])

/-- `isInCharacterRange` (/repo/dump.go:66-76). -/
def isInCharacterRange (r : Nat) : Bool :=
  r == 0x09 || r == 0x0A || r == 0x0D || (0x20 ≤ r && r ≤ 0xDF77) || (0xE000 ≤ r && r ≤ 0xFFFD) ||
    (0x10000 ≤ r && r ≤ 0x10FFFF)

/-- one upper-case hexadecimal digit. -/
def hexDigit (n : Nat) : Nat := if n < 10 then 48 + n else 55 + n

/-- `%X` of fmt for the values below 0x100 that reach it (/repo/dump.go:111, 171). -/
def hexUpper (n : Nat) : Bytes := if n < 16 then [hexDigit n] else [hexDigit (n / 16), hexDigit (n % 16)]

/-- `fmt.Sprintf("&#x%X;", r)`. -/
def hexRef (r : Nat) : Bytes := b!"&#x" ++ hexUpper r ++ [59]

/-- the `switch` of `escapeAttrValue` (/repo/dump.go:93-121): the replacement, or `none` to keep the input bytes. -/
def attrEsc (r width : Nat) : Option Bytes :=
  if r = 34 then some b!"&#34;"
  else if r = 38 then some b!"&amp;"
  else if r = 60 then some b!"&lt;"
  else if r = 62 then some b!"&gt;"
  else if r = 10 then some b!"&#10;"
  else if r = 13 then some b!"&#13;"
  else if r = 9 then some b!"&#9;"
  else if ¬(0x20 ≤ r ∧ r < 0x80) ∧ r < 0xE0 then some (hexRef r)
  else if isInCharacterRange r = false ∨ (r = 0xFFFD ∧ width = 1) then some [0xEF, 0xBF, 0xBD]
  else none

/-- the `switch` of `escapeText` (/repo/dump.go:154-181). -/
def textEsc (escapeNewline : Bool) (r width : Nat) : Option Bytes :=
  if r = 38 then some b!"&amp;"
  else if r = 60 then some b!"&lt;"
  else if r = 62 then some b!"&gt;"
  else if r = 10 then (if escapeNewline then some b!"&#10;" else none)
  else if r = 13 then some b!"&#13;"
  else if ¬(r = 9 ∨ (0x20 ≤ r ∧ r < 0x80)) ∧ r < 0xE0 then some (hexRef r)
  else if isInCharacterRange r = false ∨ (r = 0xFFFD ∧ width = 1) then some [0xEF, 0xBF, 0xBD]
  else none

/-- the loop shared by both (/repo/dump.go:91-135, 153-195): decode a rune, write its replacement or its own bytes. Writing the
pending bytes late, as the code does, gives the same output. -/
def escLoop (f : Nat → Nat → Option Bytes) : Nat → Bytes → Bytes
  | 0, _ => []
  | _ + 1, [] => []
  | n + 1, x :: t =>
    let d := decodeRune (x :: t)
    (match f d.1 d.2 with
      | some e => e
      | none => (x :: t).take d.2) ++ escLoop f n ((x :: t).drop d.2)

/-- `escapeAttrValue` (/repo/dump.go:78-135). -/
def escapeAttrValue (s : Bytes) : Bytes := escLoop attrEsc s.length s

/-- `escapeText` (/repo/dump.go:137-195). -/
def escapeText (escapeNewline : Bool) (s : Bytes) : Bytes := escLoop (textEsc escapeNewline) s.length s

end Helium
