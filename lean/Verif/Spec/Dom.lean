import Verif.Model.Heap
/-!
The abstract tree behind the pointer heap: which nodes exist, their own data, and for each node the list of its children. The
operations below say what each DOM operation is supposed to do to it, without any pointer.
-/
namespace Helium.Spec
open Helium

/-- own data of a node: everything but the links to relatives. -/
def info (x : Node) : Node := { x with first := none, last := none, parent := none, next := none, prev := none }

/-- kinds of nodes whose children are kept in a proper child list. Attribute values, entities and entity references are linked in
other ways (/repo/document.go:112-162, 322-491). -/
def tracked : Kind → Bool
  | .attr | .entity | .entityRef => false
  | _ => true

/-- an abstract forest. -/
structure Forest where
  size : Nat
  /-- nodes that belong to the forest (attributes and their values do not) -/
  tree : Nat → Bool
  data : Nat → Node
  kids : Nat → List Nat
  /-- not linked to anything yet -/
  loose : Nat → Bool

namespace Forest

/-- a new node without relatives. -/
def alloc (a : Forest) (x : Node) : Forest :=
  { size := a.size + 1, tree := fun n => if n = a.size then true else a.tree n, data := fun n => if n = a.size then info x else a.data n,
    kids := fun n => if n = a.size then [] else a.kids n, loose := fun n => if n = a.size then true else a.loose n }

/-- put `c` at the end of the children of `p`. -/
def append (a : Forest) (p c : Nat) : Forest :=
  { a with kids := fun n => if n = p then a.kids p ++ [c] else a.kids n, loose := fun n => if n = c then false else a.loose n }

/-- append bytes to the content of `n`. -/
def addText (a : Forest) (n : Nat) (b : Bytes) : Forest :=
  { a with data := fun m => if m = n then { a.data n with content := (a.data n).content ++ b } else a.data m }

/-- replace child `n` of `p` by `c`. -/
def replace (a : Forest) (p n c : Nat) : Forest :=
  { a with kids := fun m => if m = p then (a.kids p).map (fun x => if x = n then c else x) else a.kids m,
           loose := fun m => if m = c then false else a.loose m }

/-- `p.AddChild(c)`: text after text is merged, text and comment nodes only swallow their own kind, everything else goes to the
end of the list. -/
def addChild (a : Forest) (p c : Nat) : Forest :=
  if (a.data p).kind = .text ∨ (a.data p).kind = .comment then
    if (a.data c).kind = (a.data p).kind then a.addText p (a.data c).content else a
  else
    match (a.kids p).getLast? with
    | none => a.append p c
    | some l => if (a.data l).kind = .text ∧ (a.data c).kind = .text then a.addText l (a.data c).content else a.append p c

/-- `n.AddSibling(c)` for a child `n` of `p`: merged into `n` when both are text, otherwise at the end of the list. -/
def addSibling (a : Forest) (p n c : Nat) : Forest :=
  if (a.data n).kind = .text ∧ (a.data c).kind = .text then a.addText n (a.data c).content else a.append p c

/-- `p.AddContent(b)`: text and comment nodes are extended, others get a text child. -/
def addContent (a : Forest) (p : Nat) (b : Bytes) : Forest :=
  if (a.data p).kind = .text ∨ (a.data p).kind = .comment then a.addText p b else (a.alloc (mkText b)).addChild p a.size

/-- `d.SetDocumentElement(r)`: in place of the first element child, or at the end. -/
def setDocumentElement (a : Forest) (d r : Nat) : Forest :=
  match (a.kids d).find? (fun i => (a.data i).kind = .element) with
  | none => a.append d r
  | some old => a.replace d old r

end Forest

/-! ### what it means for the pointers to be right -/

/-- the nodes `l` are the children of `p`: one doubly linked list from the first to the last child, every member knowing its
parent. -/
structure ChildList (h : Heap) (p : Nat) (l : List Nat) : Prop where
  first : (h.at' p).first = l.head?
  last : (h.at' p).last = l.getLast?
  next : ∀ a c b, l = a ++ c :: b → (h.at' c).next = b.head?
  prev : ∀ a c b, l = a ++ c :: b → (h.at' c).prev = a.getLast?
  parent : ∀ c ∈ l, (h.at' c).parent = some p
  nodup : l.Nodup
  alloc : ∀ c ∈ l, c < h.size

/-- ordered trees with node numbers: a list of trees is empty, or a node with its children followed by the remaining trees. -/
inductive Trees
  | nil
  | node (i : Nat) (kids : Trees) (rest : Trees)

namespace Trees

/-- all nodes in document order (a node before its children, those before its later siblings). -/
def ids : Trees → List Nat
  | nil => []
  | node i k r => i :: (k.ids ++ r.ids)

/-- the top level nodes. -/
def roots : Trees → List Nat
  | nil => []
  | node i _ r => i :: r.roots

end Trees

/-- starting at pointer `s`, the heap shows the trees `t`: children through `first`, siblings through `next`. -/
def Shows (h : Heap) : Option Nat → Trees → Prop
  | s, .nil => s = none
  | s, .node i k r => s = some i ∧ i < h.size ∧ Shows h (h.at' i).first k ∧ Shows h (h.at' i).next r

/-- call `f` for the nodes in order until it reports an error. -/
def visit {τ : Type} (f : Nat → τ → Option Err × τ) : List Nat → τ → Out τ Unit
  | [], t => .ok () t
  | i :: l, t =>
    match f i t with
    | (some e, t) => .err e t
    | (none, t) => visit f l t

/-! ### trees with attributes -/

/-- like `Trees`, every node with its attributes, those with their value nodes. -/
inductive ATrees
  | nil
  | node (i : Nat) (attrs kids rest : ATrees)

namespace ATrees

def ids : ATrees → List Nat
  | nil => []
  | node i a k r => i :: (a.ids ++ (k.ids ++ r.ids))

def roots : ATrees → List Nat
  | nil => []
  | node i _ _ r => i :: r.roots

end ATrees

/-- like `Shows`; elements list their attributes in `props`, and only elements have any. -/
def AShows (h : Heap) : Option Nat → ATrees → Prop
  | s, .nil => s = none
  | s, .node i a k r => s = some i ∧ i < h.size ∧ AShows h (if (h.at' i).kind = .element then (h.at' i).props else none) a ∧
      (∀ x ∈ a.roots, (h.at' x).kind = .attr) ∧ AShows h (h.at' i).first k ∧ AShows h (h.at' i).next r

/-- change the owner document of some nodes. -/
def own (h : Heap) (d : Option Nat) (l : List Nat) : Heap := ⟨h.size, fun i => if i ∈ l then { h.at' i with doc := d } else h.at' i⟩

/-- whoever belongs to `d` already has everything below it belong to `d`. -/
def OwnClosed (h : Heap) (d : Option Nat) : ATrees → Prop
  | .nil => True
  | .node i a k r => ((h.at' i).doc = d → ∀ x ∈ a.ids ++ k.ids, (h.at' x).doc = d) ∧ OwnClosed h d a ∧ OwnClosed h d k ∧ OwnClosed h d r

end Helium.Spec
