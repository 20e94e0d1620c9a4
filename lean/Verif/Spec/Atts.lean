import Verif.Spec.Decl
/-! Attribute declarations: what they say about the attributes of an element (XML 1.0, 3.3). -/
namespace Helium.Spec

/-- the attribute definitions of a list of declarations, in order, each with its element type. -/
def attDefs (ds : List Decl) : List (Bytes × AttDef) :=
  ds.flatMap (fun d => match d with
    | .attlist n as => as.map (fun a => (n, a))
    | _ => [])

/-- the definitions that are not preceded by one of the same attribute of the same element type. -/
def firsts : List (Bytes × Bytes) → List (Bytes × AttDef) → List (Bytes × AttDef)
  | _, [] => []
  | seen, x :: xs => if (x.1, x.2.name) ∈ seen then firsts seen xs else x :: firsts ((x.1, x.2.name) :: seen) xs

/-- "When more than one definition is provided for the same attribute of a given element type, the first declaration is binding" (3.3). -/
def binding (ds : List Decl) : List (Bytes × AttDef) := firsts [] (attDefs ds)

/-- is the attribute `a` of elements `e` declared with another type than CDATA? -/
def tokenised (ds : List Decl) (e a : Bytes) : Bool := (binding ds).any (fun x => x.1 == e && x.2.name == a && x.2.typ != 1)

/-- the declared attributes of elements `e` that have a default value (3.3.2). -/
def defaults (ds : List Decl) (e : Bytes) : List AttDef :=
  ((binding ds).filter (fun x => x.1 == e && (x.2.deflt == 1 || x.2.deflt == 4))).map (·.2)

/-- a name with a prefix. -/
def qualified (p l : Bytes) : Bytes := if p = [] then l else p ++ 58 :: l

/-- the attribute node `i` is the default attribute that `x` declares: its name, split at the first colon, and its value. -/
def Carries (h : Heap) (i : Nat) (x : AttDef) : Prop :=
  (h.at' i).isDefault = true ∧ (∃ p, (h.at' i).ns = some (p, []) ∧ (p = [] ∧ x.name = (h.at' i).name ∨ x.name = p ++ 58 :: (h.at' i).name)) ∧
    ∃ w, StandsFor x.value w ∧ contentF h (h.size + 1) i = some w

/-- lists of the same length, related position by position. -/
inductive Pairs {α β : Type} (R : α → β → Prop) : List α → List β → Prop
  | nil : Pairs R [] []
  | cons {a b l m} : R a b → Pairs R l m → Pairs R (a :: l) (b :: m)

/-- the handler leaves the heap alone. -/
def KeepsHeap {σ : Type} (H : Handler σ) : Prop := ∀ v ev c, (H v ev c).2.heap = c.heap

/-- the reported attributes `got` are, in some order, the default attributes `want` declare. -/
def SuppliedBy (h : Heap) (want : List AttDef) (got : List AttrD) : Prop :=
  ∃ ptrs, got.Perm (ptrs.map .dflt) ∧ Pairs (fun x i => Carries h i x) want ptrs

/-- the qualified name of an attribute of a start tag. -/
def attrName : AttrD → Option Bytes
  | .parsed p l _ => some (qualified p l)
  | .dflt _ => none

/-- is the attribute written in the tag? -/
def inTag : AttrD → Bool
  | .parsed .. => true
  | .dflt _ => false

/-- 3.3.2: an attribute with a declared default value that is not in the tag is reported with that value, and no other attribute is added. -/
def Completes (h : Heap) (ds : List Decl) : Ev → Ev → Prop
  | .startElement l p u ns as, ev => ∃ as' extra, ev = .startElement l p u ns (as' ++ extra) ∧ as'.map attrName = as.map attrName ∧
      SuppliedBy h ((defaults ds (qualified p l)).filter (fun x => some x.name ∉ as.map attrName)) extra
  | ev, ev' => ev' = ev

/-- 3.3.3: the value of an attribute that is not of type CDATA has single spaces between its words only. -/
def normalised (ds : List Decl) : Ev → Ev
  | .startElement l p u ns as => .startElement l p u ns (as.map (fun a => match a with
      | .parsed q n v => .parsed q n (if tokenised ds (qualified p l) (qualified q n) then unwords (words [] v) else v)
      | a => a))
  | ev => ev

/-- an event without the attributes that are not written in the tag. -/
def asWritten : Ev → Ev
  | .startElement l p u ns as => .startElement l p u ns (as.filter inTag)
  | ev => ev

/-- the element types declared. -/
def elementNames : List Decl → List Bytes
  | [] => []
  | .element n _ _ :: ds => n :: elementNames ds
  | _ :: ds => elementNames ds

/-- declarations the tree builder takes: nothing is declared twice (XML allows that for attributes), no name begins with a colon, element types
with attributes have no colon in their name, attributes named `xml:id` are of type ID, and there is no processing instruction. -/
structure Declarable (ds : List Decl) : Prop where
  elements : (elementNames ds).Nodup
  attributes : ((attDefs ds).map (fun x => (x.1, x.2.name))).Nodup
  elementColon : ∀ n ∈ elementNames ds, n.head? ≠ some 58
  attributeColon : ∀ x ∈ attDefs ds, 58 ∉ x.1 ∧ x.2.name.head? ≠ some 58
  ids : ∀ x ∈ attDefs ds, x.2.name = b!"xml:id" → x.2.typ = 2
  noPI : ∀ n b, .pi n b ∉ ds

end Helium.Spec
