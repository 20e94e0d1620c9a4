import Verif.Model.Env
/-! Namespace declarations as seen in the sequence of SAX events. -/
namespace Helium.Spec
open Helium

/-- the declaration of prefix `p` in the list that comes with a start tag. -/
def declIn (p : Bytes) (ns : List (Option (Bytes × Bytes))) : Option Bytes :=
  ((ns.filterMap id).find? (fun x => x.1 == p)).map (·.2)

/-- the first declaration of prefix `p` in document order. -/
def firstDecl (p : Bytes) : List Ev → Option Bytes
  | [] => none
  | .startElement _ _ _ ns _ :: t => (declIn p ns).or (firstDecl p t)
  | _ :: t => firstDecl p t

/-- the declarations of the elements that are open after the events, innermost first. -/
def openScopes : List (List (Option (Bytes × Bytes))) → List Ev → List (List (Option (Bytes × Bytes)))
  | sc, [] => sc
  | sc, .startElement _ _ _ ns _ :: t => openScopes (ns :: sc) t
  | sc, .endElement .. :: t => openScopes sc.tail t
  | sc, _ :: t => openScopes sc t

/-- the innermost declaration of `p` in a list of scopes. -/
def innermost (p : Bytes) : List (List (Option (Bytes × Bytes))) → Option Bytes
  | [] => none
  | ns :: t => (declIn p ns).or (innermost p t)

/-- no reference to an entity other than the predefined ones has been met. -/
def NoEntities (tr : List (Ev × HOut)) : Prop := ∀ x ∈ tr, ∀ n, x.1 ≠ .getEntity n

end Helium.Spec
