import Verif.Model.Dom
/-! Specification vocabulary for document type declarations: histories of declarations and what a declaration table should show. -/
namespace Helium.Spec

/-- one declaration handed to a DTD (`AddEntity`, `AddElementDecl`, `addAttributeDecl`). -/
inductive DOp
  | entity (name : Bytes) (typ : Nat) (pub sys content : Bytes)
  | element (name : Bytes) (typ : Nat) (ec : EC)
  | attr (elem name pfx : Bytes) (atype deflt : Nat) (value : Bytes) (tree : List Bytes)

/-- what an entity declaration says. -/
structure EntData where
  name : Bytes
  typ : Nat
  pub : Bytes
  sys : Bytes
  content : Bytes
  deriving DecidableEq

/-- what an attribute declaration says. -/
structure AttData where
  elem : Bytes
  name : Bytes
  pfx : Bytes
  atype : Nat
  deflt : Nat
  value : Bytes
  tree : List Bytes
  deriving DecidableEq

/-- element types: EMPTY (1) and ANY (2) come without, MIXED (3) and ELEMENT (4) with a content model. -/
def Consistent (typ : Nat) (ec : EC) : Prop := ((typ = 1 ∨ typ = 2) ∧ ec = .nil) ∨ ((typ = 3 ∨ typ = 4) ∧ ec ≠ .nil)

instance (typ : Nat) (ec : EC) : Decidable (Consistent typ ec) := by unfold Consistent; infer_instance

/-- a declaration of the general entity `n` (internal, external parsed, external unparsed). -/
def DOp.general (n : Bytes) : DOp → Option EntData
  | .entity m typ p s c => if m = n ∧ (typ = 1 ∨ typ = 2 ∨ typ = 3) then some ⟨m, typ, p, s, c⟩ else none
  | _ => none

/-- a declaration of the parameter entity `n` (internal, external). -/
def DOp.parameter (n : Bytes) : DOp → Option EntData
  | .entity m typ p s c => if m = n ∧ (typ = 4 ∨ typ = 5) then some ⟨m, typ, p, s, c⟩ else none
  | _ => none

/-- a consistent declaration of an element type; `q` is the name split at its first colon. -/
def DOp.elementType (q : Bytes × Bytes) : DOp → Option (Nat × EC)
  | .element m typ ec => if splitColon m = q ∧ Consistent typ ec then some (typ, ec) else none
  | _ => none

/-- a declaration of the attribute `(elem, name, prefix)` with a legal type. -/
def DOp.attribute (elem name pfx : Bytes) : DOp → Option AttData
  | .attr e n p ty d v tr =>
    if (e = elem ∧ n = name ∧ p = pfx) ∧ 1 ≤ ty ∧ ty ≤ 10 then some ⟨e, n, p, ty, d, v, tr⟩ else none
  | _ => none

/-- hand a declaration to DTD `t`. -/
def DOp.run (t : Nat) : DOp → HM Nat
  | .entity n ty p s c => dtdAddEntity t n ty p s c
  | .element n ty ec => dtdAddElementDecl t n ty ec
  | .attr e n p ty d v tr => addAttributeDecl (some t) e n p ty d v tr

/-- a history of declarations; the result of every call is kept, errors do not end the history. -/
def history (t : Nat) : List DOp → HM (List (Except Err Nat))
  | [] => pure []
  | op :: ops => do
    let r ← M.attempt (op.run t)
    let rs ← history t ops
    pure (r :: rs)

/-- what `LookupEntity` returns (/repo/dtd.go:158-161). -/
def generalOf (h : Heap) (t : Nat) (n : Bytes) : Option EntData :=
  (mapGet (h.at' t).entities n).map (fun i => ⟨(h.at' i).name, (h.at' i).entType, (h.at' i).externalID, (h.at' i).systemID, (h.at' i).content⟩)

/-- what `LookupParameterEntity` returns (/repo/dtd.go:163-166). -/
def parameterOf (h : Heap) (t : Nat) (n : Bytes) : Option EntData :=
  (mapGet (h.at' t).pentities n).map (fun i => ⟨(h.at' i).name, (h.at' i).entType, (h.at' i).externalID, (h.at' i).systemID, (h.at' i).content⟩)

/-- what `LookupElement(name, prefix)` returns (/repo/dtd.go:124-131); `q = (prefix, name)`. -/
def elementOf (h : Heap) (t : Nat) (q : Bytes × Bytes) : Option (Nat × EC) :=
  (mapGet (h.at' t).elements (elemKey q.2 q.1)).map (fun i => ((h.at' i).declType, (h.at' i).ec))

/-- what `LookupAttribute(name, prefix, elem)` returns (/repo/dtd.go:138-145). -/
def attributeOf (h : Heap) (t : Nat) (elem name pfx : Bytes) : Option AttData :=
  (mapGet (h.at' t).attributes (attrKey name pfx elem)).map (fun i =>
    ⟨(h.at' i).elem, (h.at' i).name, (h.at' i).pfx, (h.at' i).atype, (h.at' i).defType, (h.at' i).defValue, (h.at' i).tree⟩)

/-- a DTD as made by `CreateInternalSubset`/`newDTD`: nothing declared, no children; and (as no code assigns `extSubset`) not the
external subset of a document. -/
structure FreshDtd (h : Heap) (t : Nat) : Prop where
  alloc : t < h.size
  kind : (h.at' t).kind = .dtd
  first : (h.at' t).first = none
  last : (h.at' t).last = none
  entities : (h.at' t).entities = []
  pentities : (h.at' t).pentities = []
  elements : (h.at' t).elements = []
  attributes : (h.at' t).attributes = []
  ext : ∀ d, (h.at' d).extSubset ≠ some t

/-- the last entry of `l` that `f` selects. -/
def lastSome {α β : Type} (f : α → Option β) (l : List α) : Option β := l.reverse.findSome? f

end Helium.Spec
