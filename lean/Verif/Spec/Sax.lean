import Verif.Model.Env
import Verif.Spec.Xml
/-! What it means for a sequence of SAX events to be well formed. Only the event type is taken from the model. -/
namespace Helium.Spec
open Helium

/-- Reading an event sequence with a stack of open elements (innermost first): `none` when an end event does not close the innermost
open element, otherwise the elements still open. -/
def nest : List (Bytes × Bytes × Bytes) → List Ev → Option (List (Bytes × Bytes × Bytes))
  | st, [] => some st
  | st, .startElement l p u _ _ :: t => nest ((l, p, u) :: st) t
  | [], .endElement _ _ _ :: _ => none
  | x :: st, .endElement l p u :: t => if x = (l, p, u) then nest st t else none
  | st, _ :: t => nest st t

/-- the data of a declaration fit together. Elements: one of the four kinds of content, or 0 for none given; `EMPTY` (1), `ANY` (2) and none
come without content model. Attributes: one of the ten types and of the four kinds of default; tokens are listed exactly for enumerations (9)
and notations (10), and `#REQUIRED` (2) and `#IMPLIED` (3) come without value. Entities: internal general (1) or parameter (4) ones, or what
the parser takes for external ones (5), without identifiers; no colon in the name. -/
def DeclOK : Ev → Prop
  | .elementDecl _ t ec => t ≤ 4 ∧ (t ≤ 2 → ec = .nil)
  | .attributeDecl _ _ t df v en => (1 ≤ t ∧ t ≤ 10) ∧ (1 ≤ df ∧ df ≤ 4) ∧ (en = [] ↔ t ≠ 9 ∧ t ≠ 10) ∧ (df = 2 ∨ df = 3 → v = [])
  | .entityDecl n t p s _ => (t = 1 ∨ t = 4 ∨ t = 5) ∧ p = [] ∧ s = [] ∧ 58 ∉ n
  | _ => True

/-- start or end of an element. -/
def IsTag : Ev → Prop
  | .startElement .. | .endElement .. => True
  | _ => False

/-- the events around the document. -/
def IsEnvelope : Ev → Prop
  | .setDocumentLocator | .startDocument | .endDocument => True
  | _ => False

/-- the two events that are questions, not notifications. -/
def IsLookup : Ev → Prop
  | .getEntity _ | .getParameterEntity _ => True
  | _ => False

/-- the characters of text events are legal XML characters (in UTF-8). -/
def LegalText : Ev → Prop
  | .characters d | .ignorable d => ∃ rs : List Nat, d = encodeRunes rs ∧ ∀ c ∈ rs, XmlChar c
  | _ => True

end Helium.Spec
