import Verif.Spec.Source
/-! Inputs on which the parser is shown to finish, and handlers which do not themselves hang or panic. -/
namespace Helium.Spec
open Helium

/-- a character the loop of `parseNmtoken` would not leave. -/
def TokenChar (E : Env) (c : Nat) : Prop := NameChar E c ∨ E.isExtender c = true

instance (E : Env) (c : Nat) : Decidable (TokenChar E c) := by unfold TokenChar; infer_instance

/-- `l` contains none of the constructs on which the parser is known to loop for ever; when `pn` is false, none of those on which it is
known to panic either.
* A colon is followed by something that cannot continue a name, or by the start of a name of reasonable length.
* A CDATA section ends (or the end of input reads as NUL, or there is a NUL).
* A document type declaration has no internal subset: no `[` comes before, or directly after, its `>`.
* Without panics: references are to predefined entities, and the word `xmlns` is followed by a colon. -/
structure Safe (E : Env) (pn : Bool) (l : List Nat) : Prop where
  colon : ∀ c u, 58 :: c :: u <:+ l → TokenChar E c →
    NameStartChar E c ∧ ∀ v w, u = v ++ w → (∀ x ∈ v, NameChar E x) → v.length ≤ 40000
  cdata : ∀ u, b!"<![CDATA[" ++ u <:+ l → E.eof = 0 ∨ 0 ∈ u ∨ b!"]]>" <:+: u
  doctype : ∀ u v, b!"<!DOCTYPE" ++ (u ++ 91 :: v) <:+ l → 62 ∈ u.dropLast
  entity : pn = false → ∀ n u, 38 :: (n ++ 59 :: u) <:+ l → (∀ c ∈ n, NameChar E c ∨ c = 0) →
    n ∈ [[], b!"lt", b!"gt", b!"amp", b!"apos", b!"quot"]
  xmlns : pn = false → ∀ u, b!"xmlns" ++ u <:+ l → u.head? = some 58

/-- no character reference stands for a space; numbers are taken modulo 2^32, and the `;` may be missing at the end. -/
def NoSpaceRef (l : List Nat) : Prop := ∀ ds u n, u = [] ∨ (∃ r, u = 59 :: r) →
  b!"&#" ++ (ds ++ u) <:+ l ∧ digitsVal 10 decDigit 0 ds = some n ∨ b!"&#x" ++ (ds ++ u) <:+ l ∧ digitsVal 16 hexDigitVal 0 ds = some n → n % 2 ^ 32 ≠ 32

/-- the callback returns; unless `pn`, it does not panic either. -/
def Tame (pn : Bool) (o : HOut) : Prop := o ≠ .diverge ∧ (pn = false → o ≠ .panic)

/-- no error was returned. -/
def NoErr (o : HOut) : Prop := o = .ok ∨ o = .unspecified ∨ ∃ e, o = .ent e

/-- an attribute of a start tag with a value of less than `B` bytes, or the node of a declared default. -/
def TagAttr (B : Nat) (h : Heap) (a : AttrD) : Prop := ShortAttr B a ∨ ∃ i, a = .dflt i ∧ i < h.size ∧ (h.at' i).isDefault = true

/-- A handler for documents without internal subset that always returns: `G n c` says that between events `c` is a sound handler
context inside `n` elements; `F c` that it is one before the start of the document. `B` bounds the length of attribute values. It may
answer any event with an error, knows no entities, and unless `pn` it does not panic. -/
structure Sturdy {σ : Type} (pn : Bool) (B : Nat) (H : Handler σ) (F : HC σ → Prop) (G : Nat → HC σ → Prop) : Prop where
  locator : ∀ {v c}, F c → Tame pn (H v .setDocumentLocator c).1 ∧ (NoErr (H v .setDocumentLocator c).1 → F (H v .setDocumentLocator c).2)
  startDoc : ∀ {v c}, F c → Tame pn (H v .startDocument c).1 ∧ (NoErr (H v .startDocument c).1 → G 0 (H v .startDocument c).2)
  endDoc : ∀ {v c}, G 0 c → Tame pn (H v .endDocument c).1
  internalSubset : ∀ {v c b}, v.inSubset = 1 → G 0 c →
    Tame pn (H v (.internalSubset b [] []) c).1 ∧ (NoErr (H v (.internalSubset b [] []) c).1 → G 0 (H v (.internalSubset b [] []) c).2)
  externalSubset : ∀ {v c b}, v.inSubset = 2 → G 0 c →
    Tame pn (H v (.externalSubset b [] []) c).1 ∧ (NoErr (H v (.externalSubset b [] []) c).1 → G 0 (H v (.externalSubset b [] []) c).2)
  start : ∀ {n v c l p u ns as}, v.inSubset = 0 → G n c → (∀ a ∈ as, TagAttr B c.heap a) → (pn = false → ∀ x ∈ ns, x ≠ none) →
    Tame pn (H v (.startElement l p u ns as) c).1 ∧ (NoErr (H v (.startElement l p u ns as) c).1 → G (n + 1) (H v (.startElement l p u ns as) c).2)
  stop : ∀ {n v c l p u}, v.inSubset = 0 → G (n + 1) c →
    Tame pn (H v (.endElement l p u) c).1 ∧ (NoErr (H v (.endElement l p u) c).1 → G n (H v (.endElement l p u) c).2)
  comment : ∀ {n v c b}, v.inSubset = 0 → G n c → Tame pn (H v (.comment b) c).1 ∧ (NoErr (H v (.comment b) c).1 → G n (H v (.comment b) c).2)
  pi : ∀ {n v c t d}, v.inSubset = 0 → G n c → Tame pn (H v (.pi t d) c).1 ∧ (NoErr (H v (.pi t d) c).1 → G n (H v (.pi t d) c).2)
  text : ∀ {n v c b}, v.inSubset = 0 → G (n + 1) c →
    Tame pn (H v (.characters b) c).1 ∧ (NoErr (H v (.characters b) c).1 → G (n + 1) (H v (.characters b) c).2)
  blank : ∀ {n v c b}, v.inSubset = 0 → G (n + 1) c →
    Tame pn (H v (.ignorable b) c).1 ∧ (NoErr (H v (.ignorable b) c).1 → G (n + 1) (H v (.ignorable b) c).2)
  cdata : ∀ {n v c b}, v.inSubset = 0 → G (n + 1) c →
    Tame pn (H v (.cdata b) c).1 ∧ (NoErr (H v (.cdata b) c).1 → G (n + 1) (H v (.cdata b) c).2)
  entity : ∀ {n v c b}, pn = true → v.inSubset = 0 → G n c → ((H v (.getEntity b) c).1 = .unspecified ∨ ∃ e, (H v (.getEntity b) c).1 = .err e) ∧
    G n (H v (.getEntity b) c).2
  reference : ∀ {n v c b}, pn = true → v.inSubset = 0 → G n c → (H v (.reference b) c).1 ≠ .diverge

end Helium.Spec
