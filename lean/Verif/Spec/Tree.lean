import Verif.Spec.Attr
import Verif.Spec.Dom
import Verif.Spec.Sax
import Verif.Model.Env
/-!
Documents as plain trees: what they are, which tree a sequence of SAX events describes, and what it means for the pointer heap to hold
such a tree.
-/
namespace Helium.Spec
open Helium

/-- a node without its relatives. Attributes are pairs of a full name and the value as given; the document type declaration appears with its
name and identifiers, its declarations are described by `HoldsDecls`; a reference to an entity is a leaf. -/
inductive XData
  | elem (loc pfx uri : Bytes) (nsDefs : List (Bytes × Bytes)) (attrs : List (Bytes × Bytes))
  | text (b : Bytes)
  | comment (b : Bytes)
  | pi (target data : Bytes)
  | dtd (name eid sid : Bytes)
  | ref (name : Bytes)
  deriving DecidableEq

/-- nodes whose children are not part of the tree: below the document type declaration there are declarations, below a reference to an
entity there is the entity. -/
def XData.shut : XData → Bool
  | .dtd _ _ _ | .ref _ => true
  | _ => false

/-- ordered lists of trees: empty, or a node with its children and the remaining trees. -/
inductive XTree
  | nil
  | node (d : XData) (kids rest : XTree)
  deriving DecidableEq

namespace XTree

/-- one more tree at the end. -/
def snoc : XTree → XData → XTree → XTree
  | nil, d, k => node d k nil
  | node d0 k0 r, d, k => node d0 k0 (r.snoc d k)

/-- text at the end: it extends a text that is last already. -/
def addText : XTree → Bytes → XTree
  | nil, b => node (.text b) nil nil
  | node (.text b0) k nil, b => node (.text (b0 ++ b)) k nil
  | node d k r, b => node d k (r.addText b)

end XTree

/-- the tree read so far: the elements that are still open, innermost first, each with the children it has up to now; and the finished
children of the document. -/
structure Partial where
  inner : List (XData × XTree)
  top : XTree

/-- add a finished tree to the innermost open element. -/
def Partial.add (s : Partial) (d : XData) (k : XTree) : Partial :=
  match s.inner with
  | [] => { s with top := s.top.snoc d k }
  | (d', k') :: r => { s with inner := (d', k'.snoc d k) :: r }

/-- the attributes reported with an element; those with a declared default only are not part of the tree. -/
def givenAttrs : List AttrD → List (Bytes × Bytes)
  | [] => []
  | .parsed p l v :: as => (if p = [] then l else p ++ 58 :: l, v) :: givenAttrs as
  | .dflt _ :: as => givenAttrs as

/-- what one event adds to the tree; `none` for text, a reference or an end tag outside of any element, and for a document type declaration
inside of one.
The declarations themselves are not part of the tree, but the comments between them are: they follow it. -/
def Partial.step (s : Partial) : Ev → Option Partial
  | .startElement l p u ns as => some { s with inner := (.elem l p u (ns.filterMap id) (givenAttrs as), .nil) :: s.inner }
  | .endElement _ _ _ =>
    match s.inner with
    | [] => none
    | (d, k) :: r => some ({ s with inner := r }.add d k)
  | .characters b | .ignorable b | .cdata b =>
    match s.inner with
    | [] => none
    | (d, k) :: r => some { s with inner := (d, k.addText b) :: r }
  | .comment b => some (s.add (.comment b) .nil)
  | .pi t d => some (s.add (.pi t d) .nil)
  | .internalSubset n e u =>
    match s.inner with
    | [] => some (s.add (.dtd n e u) .nil)
    | _ => none
  | .reference n =>
    match s.inner with
    | [] => none
    | _ => some (s.add (.ref n) .nil)
  | _ => some s

/-- a sequence of events. -/
def Partial.steps (s : Partial) : List Ev → Option Partial
  | [] => some s
  | ev :: evs => (s.step ev).bind (fun s => s.steps evs)

/-- the document described by a sequence of events, if it closes every element it opens. -/
def treeOf (evs : List Ev) : Option XTree :=
  match Partial.steps ⟨[], .nil⟩ evs with
  | some ⟨[], t⟩ => some t
  | _ => none

/-- any event but a CDATA section. -/
def notCData : Ev → Bool
  | .cdata _ => false
  | _ => true

/-- `Visible evs vis`: `vis` are the events `evs` without those of the replacement text of entities. These stand between a lookup of an
entity and the report of a reference, every element they open they also close, and the document type declaration is over. (A lookup may also
be one made for a declaration or for an attribute value, with no report of a reference.) -/
inductive Visible : List Ev → List Ev → Prop
  | nil : Visible [] []
  | keep {ev : Ev} {l v : List Ev} (hev : ∀ n, ev ≠ .reference n) (hl : Visible l v) : Visible (ev :: l) (ev :: v)
  | expand {m n : Bytes} {inner w l v : List Ev} (hi : Visible inner w) (hb : ∀ st, nest st inner = some st)
      (hs : ∀ n e u, .externalSubset n e u ∉ inner) (hl : Visible l v) :
      Visible (.getEntity m :: inner ++ .reference n :: l) (.getEntity m :: .reference n :: v)

/-- the same as a function, for sequences of events in which every lookup of an entity belongs to a reference in content: everything from
after a lookup up to the report of the reference it belongs to is left out. The number counts the references we are in. -/
def unexpanded : Nat → List Ev → List Ev
  | _, [] => []
  | 0, .getEntity m :: l => .getEntity m :: unexpanded 1 l
  | 0, ev :: l => ev :: unexpanded 0 l
  | n + 1, .getEntity _ :: l => unexpanded (n + 2) l
  | 1, .reference n :: l => .reference n :: unexpanded 0 l
  | n + 2, .reference _ :: l => unexpanded (n + 1) l
  | n + 1, _ :: l => unexpanded (n + 1) l

/-- the number of lookups of entities. -/
def lookups (evs : List Ev) : Nat := evs.countP (fun ev => match ev with | .getEntity _ => true | _ => false)

/-- the number of references to entities. -/
def references (evs : List Ev) : Nat := evs.countP (fun ev => match ev with | .reference _ => true | _ => false)

/-! ### trees in the heap -/

/-- attribute node `x` holds exactly the text `w`: no value node, or a single text node. `ok` may restrict the nodes involved. -/
def HoldsText (ok : Nat → Prop) (h : Heap) (x : Nat) (w : Bytes) : Prop :=
  w = [] ∧ (h.at' x).first = none ∨
    ∃ t, ok t ∧ t < h.size ∧ (h.at' x).first = some t ∧ (h.at' t).kind = .text ∧ (h.at' t).next = none ∧ (h.at' t).content = w

/-- the attribute nodes `l` are the attributes `as`: same names in the same order; the values are those that the given values stand
for, where that is defined. -/
def HoldsAttrs (ok : Nat → Prop) (h : Heap) : List Nat → List (Bytes × Bytes) → Prop
  | [], [] => True
  | x :: l, a :: as => ok x ∧ (h.at' x).name = a.1 ∧ (h.at' x).ns = none ∧ (∀ w, StandsFor a.2 w → HoldsText ok h x w) ∧ HoldsAttrs ok h l as
  | _, _ => False

/-- node `i` is `d`; the names of its attributes are pairwise different. A processing instruction has a target but no name
(/repo/document.go:170-175). -/
def HoldsData (ok : Nat → Prop) (h : Heap) (i : Nat) : XData → Prop
  | .elem l p u nsd as => (h.at' i).kind = .element ∧ (h.at' i).name = l ∧ (h.at' i).ns = (if u = [] then none else some (p, u)) ∧
      (h.at' i).nsDefs = nsd ∧ (as.map (·.1)).Nodup ∧ ∃ m, PropList h i m ∧ HoldsAttrs ok h m as
  | .text b => (h.at' i).kind = .text ∧ (h.at' i).content = b
  | .comment b => (h.at' i).kind = .comment ∧ (h.at' i).content = b
  | .pi t d => (h.at' i).kind = .pi ∧ (h.at' i).target = t ∧ (h.at' i).data = d ∧ (h.at' i).name = [] ∧ (h.at' i).ns = none
  | .dtd n e u => (h.at' i).kind = .dtd ∧ (h.at' i).name = n ∧ (h.at' i).externalID = e ∧ (h.at' i).systemID = u
  | .ref n => (h.at' i).kind = .entityRef ∧ (n.head? ≠ some 38 → (h.at' i).name = n)

/-- the sibling nodes `l` are the trees `t`; below the document type declaration there are no trees but declarations, and below a reference
there is the entity. -/
def HoldsTrees (h : Heap) : List Nat → XTree → Prop
  | [], .nil => True
  | i :: l, .node d k r => HoldsData (fun _ => True) h i d ∧ (if d.shut = true then k = .nil else ∃ m, ChildList h i m ∧ HoldsTrees h m k) ∧ HoldsTrees h l r
  | _, _ => False

/-- the children of document node `d` are the trees `t`, with consistent links. -/
def HoldsDoc (h : Heap) (d : Nat) (t : XTree) : Prop := (h.at' d).kind = .doc ∧ ∃ m, ChildList h d m ∧ HoldsTrees h m t

/-! ### declarations -/

/-- reports of declarations that the document type declaration keeps. -/
def isDecl : Ev → Bool
  | .elementDecl .. | .attributeDecl .. | .entityDecl .. => true
  | _ => false

/-- node `i` is the declaration reported by `ev`. -/
def HoldsDecl (h : Heap) (i : Nat) : Ev → Prop
  | .elementDecl n t ec => (h.at' i).kind = .elemDecl ∧ ((h.at' i).pfx, (h.at' i).name) = splitColon n ∧ (h.at' i).declType = t ∧ (h.at' i).ec = ec
  | .attributeDecl e a t df v en => (h.at' i).kind = .attrDecl ∧ (h.at' i).elem = e ∧ ((h.at' i).pfx, (h.at' i).name) = splitColon a ∧
      (h.at' i).atype = t ∧ (h.at' i).defType = df ∧ (h.at' i).defValue = v ∧ (h.at' i).tree = en
  | .entityDecl n t p s c => (h.at' i).kind = .entity ∧ (h.at' i).name = n ∧ (h.at' i).entType = t ∧ (h.at' i).externalID = p ∧
      (h.at' i).systemID = s ∧ (h.at' i).content = c
  | _ => False

/-- the nodes `l` are the declarations reported by `evs`. -/
def HoldsDecls (h : Heap) : List Nat → List Ev → Prop
  | [], [] => True
  | i :: l, ev :: evs => HoldsDecl h i ev ∧ HoldsDecls h l evs
  | _, _ => False

/-- the document type declaration of document `d`, one of its children, holds the declarations `evs` in order. -/
def HoldsSubset (h : Heap) (d : Nat) (evs : List Ev) : Prop :=
  ∃ t m ks, (h.at' d).intSubset = some t ∧ (h.at' t).kind = .dtd ∧ (h.at' t).parent = some d ∧ ChildList h d ks ∧ t ∈ ks ∧ ChildList h t m ∧
    HoldsDecls h m evs

/-- no processing instruction is reported between the internal and the external subset; `b`: we are between them. -/
def noPIInside : Bool → List Ev → Bool
  | _, [] => true
  | _, .internalSubset .. :: evs => noPIInside true evs
  | _, .externalSubset .. :: evs => noPIInside false evs
  | b, .pi .. :: evs => !b && noPIInside b evs
  | b, _ :: evs => noPIInside b evs

end Helium.Spec
