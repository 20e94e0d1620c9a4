import Verif.Spec.Atts
import Verif.Spec.Tree
/-!
Declarations in the tree: the document type declaration of a document and its children, each of which is one declaration, and which of them
the serialiser can write so that they are read back.
-/
namespace Helium.Spec
open Helium

/-- node `i` is the declaration `d` of one thing: an element type, an entity with its literal, one attribute. -/
def HoldsNode (h : Heap) (i : Nat) : Decl → Prop
  | .element n typ e => HoldsDecl h i (.elementDecl n typ e)
  | .entity p n l v => HoldsDecl h i (.entityDecl n (if p then 4 else 1) [] [] v) ∧ (h.at' i).orig = l
  | .attlist n [a] => HoldsDecl h i (.attributeDecl n a.name a.typ a.deflt a.value a.names)
  | _ => False

/-- the sibling nodes `l` are the declarations `ds`. -/
def HoldsNodes (h : Heap) : List Nat → List Decl → Prop
  | [], [] => True
  | i :: l, d :: ds => HoldsNode h i d ∧ HoldsNodes h l ds
  | _, _ => False

/-- the document type declaration of document `d`, one of its children, holds the declarations `ds` in order; it knows of some declaration if there
is one. -/
def HoldsDtd (h : Heap) (d : Nat) (ds : List Decl) : Prop :=
  ∃ t m ks, (h.at' d).intSubset = some t ∧ (h.at' t).kind = .dtd ∧ (h.at' t).parent = some d ∧ ChildList h d ks ∧ t ∈ ks ∧ ChildList h t m ∧
    HoldsNodes h m ds ∧
    (ds ≠ [] → ¬ ((h.at' t).entities = [] ∧ (h.at' t).elements = [] ∧ (h.at' t).pentities = [] ∧ (h.at' t).attributes = []))

/-- one declaration for each thing declared. Comments and processing instructions are not among the children of a document type declaration. -/
def nodesOf : List Decl → List Decl
  | [] => []
  | .attlist n as :: ds => as.map (fun a => .attlist n [a]) ++ nodesOf ds
  | .comment _ :: ds => nodesOf ds
  | .pi _ _ :: ds => nodesOf ds
  | d :: ds => d :: nodesOf ds

/-- the kind and name of each entity declared. -/
def entityNames : List Decl → List (Bool × Bytes)
  | [] => []
  | .entity p n _ _ :: ds => (p, n) :: entityNames ds
  | _ :: ds => entityNames ds

/-- an attribute definition that survives: not of type ENTITIES, the default value neither empty nor with both kinds of quotes, and without
characters that would have to be escaped. -/
def AttDef.Survives (a : AttDef) : Prop :=
  a.typ ≠ 6 ∧ (a.deflt = 1 ∨ a.deflt = 4 → a.value ≠ []) ∧ (34 ∉ a.value ∨ 39 ∉ a.value) ∧ ∀ c ∈ a.value, c ≠ 60 ∧ c ≠ 9 ∧ c ≠ 10 ∧ c ≠ 13

/-- the declarations that survive serialisation. -/
def Decl.Survives : Decl → Prop
  | .element _ typ e => Kept typ e
  | .attlist _ as => ∀ a ∈ as, a.Survives
  | _ => True

/-- the values of attributes that the declarations give another type than CDATA have single spaces between words only, and no namespace declaration
goes by the name of such an attribute. -/
def Settled (ds : List Decl) : XTree → Prop
  | .nil => True
  | .node (.elem l _ _ nsd as) k r => ((∀ q n v, (qualified q n, v) ∈ as → 58 ∉ n → tokenised ds l n = true → unwords (words [] v) = v) ∧
      (∀ p u, (p, u) ∈ nsd → tokenised ds l (if p = [] then b!"xmlns" else p) = false)) ∧ Settled ds k ∧ Settled ds r
  | .node _ k r => Settled ds k ∧ Settled ds r

end Helium.Spec
