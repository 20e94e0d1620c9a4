/-!
Specifications taken from the XML 1.0 recommendation, written without reference to the model. Text is a list of code points.
-/
namespace Helium.Spec

/-- XML 1.0 production [2] Char. -/
def XmlChar (c : Nat) : Prop :=
  c = 0x9 ∨ c = 0xA ∨ c = 0xD ∨ (0x20 ≤ c ∧ c ≤ 0xD7FF) ∨ (0xE000 ≤ c ∧ c ≤ 0xFFFD) ∨ (0x10000 ≤ c ∧ c ≤ 0x10FFFF)

instance (c : Nat) : Decidable (XmlChar c) := by unfold XmlChar; infer_instance

/-- XML 1.0 production [3] S (one character). -/
def Ws (c : Nat) : Prop := c = 0x20 ∨ c = 0x9 ∨ c = 0xA ∨ c = 0xD

instance (c : Nat) : Decidable (Ws c) := by unfold Ws; infer_instance

/-- value of a decimal digit. -/
def decDigit (c : Nat) : Option Nat := if 48 ≤ c ∧ c ≤ 57 then some (c - 48) else none

/-- value of a hexadecimal digit. -/
def hexDigitVal (c : Nat) : Option Nat :=
  if 48 ≤ c ∧ c ≤ 57 then some (c - 48)
  else if 97 ≤ c ∧ c ≤ 102 then some (c - 97 + 10)
  else if 65 ≤ c ∧ c ≤ 70 then some (c - 65 + 10) else none

/-- the natural number written by a digit string (no bound), `none` if some digit is bad. -/
def digitsVal (base : Nat) (dig : Nat → Option Nat) : Nat → List Nat → Option Nat
  | acc, [] => some acc
  | acc, c :: t => match dig c with
    | some d => digitsVal base dig (acc * base + d) t
    | none => none

/-- the number denoted by the inside of a character reference, i.e. what stands between `&#` and `;` (production [66]). -/
def charRefNum : List Nat → Option Nat
  | [] => none
  | [120] => none
  | 120 :: ds => digitsVal 16 hexDigitVal 0 ds
  | ds => digitsVal 10 decDigit 0 ds

/-- meaning of a reference, given what stands between `&` and `;`: the five predefined entities (4.6) and character
references. -/
def refValue (b : List Nat) : Option Nat :=
  if b = [97, 109, 112] then some 38            -- amp
  else if b = [108, 116] then some 60           -- lt
  else if b = [103, 116] then some 62           -- gt
  else if b = [113, 117, 111, 116] then some 34 -- quot
  else if b = [97, 112, 111, 115] then some 39  -- apos
  else match b with
    | 35 :: d => charRefNum d
    | _ => none

/-- Reading markup-free character data: literal characters stand for themselves, references for the character they denote. The
first argument is the reference being read. A literal `<` or `>` is refused (stricter than XML), as is an unfinished
reference. -/
def readText : Option (List Nat) → List Nat → Option (List Nat)
  | none, [] => some []
  | some _, [] => none
  | none, c :: t =>
    if c = 38 then readText (some []) t
    else if c = 60 ∨ c = 62 then none
    else (readText none t).map (c :: ·)
  | some b, c :: t =>
    if c = 59 then
      match refValue b with
      | some v => (readText none t).map (v :: ·)
      | none => none
    else readText (some (b ++ [c])) t

/-- Reading a double-quoted attribute value of type CDATA (3.3.3): literal white space becomes a space, references stand for the
character they denote. A literal quote or `<` is refused. -/
def readAttr : Option (List Nat) → List Nat → Option (List Nat)
  | none, [] => some []
  | some _, [] => none
  | none, c :: t =>
    if c = 38 then readAttr (some []) t
    else if c = 60 ∨ c = 34 then none
    else (readAttr none t).map ((if c = 9 ∨ c = 10 ∨ c = 13 then 32 else c) :: ·)
  | some b, c :: t =>
    if c = 59 then
      match refValue b with
      | some v => (readAttr none t).map (v :: ·)
      | none => none
    else readAttr (some (b ++ [c])) t

/-- a quoted literal: a quote, text without that quote, the same quote (productions [9]-[11]). Returns the text. -/
def readQuoted : List Nat → Option (List Nat)
  | [] => none
  | q :: t =>
    if (q = 34 ∨ q = 39) ∧ t.getLast? = some q ∧ q ∉ t.dropLast then some t.dropLast else none

end Helium.Spec
