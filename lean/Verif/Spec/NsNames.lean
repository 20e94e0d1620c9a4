import Verif.Model.Env
/-! Names reserved by Namespaces in XML (section 3), in start tags as reported. -/
namespace Helium.Spec
open Helium

/-- the namespace bound to `xml`. -/
def xmlURI : Bytes := b!"http://www.w3.org/XML/1998/namespace"
/-- the namespace bound to `xmlns`. -/
def xmlnsURI : Bytes := b!"http://www.w3.org/2000/xmlns/"

/-- what may be declared: `xml` for its own namespace only and no other prefix for that; never `xmlns` nor its namespace; no empty namespace for a
prefix. -/
def Bindable (p u : Bytes) : Prop :=
  (p = b!"xml" ↔ u = xmlURI) ∧ p ≠ b!"xmlns" ∧ u ≠ xmlnsURI ∧ (p ≠ [] → u ≠ [])

/-- a declaration is not an attribute. -/
def NotDeclaration : AttrD → Prop
  | .parsed p l _ => p ≠ b!"xmlns" ∧ (p = [] → l ≠ b!"xmlns")
  | _ => True

/-- a start tag whose declarations may be made, whose prefix is bound to a namespace, and whose attributes are attributes. -/
def ReservedKept : Ev → Prop
  | .startElement _ p u ns as => (∀ q v, some (q, v) ∈ ns → Bindable q v) ∧ (p ≠ [] → Bindable p u) ∧ ∀ a ∈ as, NotDeclaration a
  | _ => True

/-- what is checked: prefixes other than `xml` and `xmlns`, bound to a namespace that is a URI and neither empty nor that of `xmlns`. -/
def Checked (E : Env) (p u : Bytes) : Prop := p ≠ b!"xml" ∧ p ≠ b!"xmlns" ∧ u ≠ [] ∧ u ≠ xmlnsURI ∧ E.urlOk u = true

/-- as `ReservedKept`, as far as it is checked: nothing about the default namespace. -/
def ReservedChecked (E : Env) : Ev → Prop
  | .startElement _ p u ns as => (∀ q v, some (q, v) ∈ ns → q ≠ [] → Checked E q v) ∧ (p ≠ [] → Checked E p u) ∧
      ∀ q l v, .parsed q l v ∈ as → q ≠ b!"xmlns"
  | _ => True

end Helium.Spec
