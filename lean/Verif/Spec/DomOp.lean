import Verif.Spec.Dom
/-! Histories of DOM operations and what they should do to the abstract forest. -/
namespace Helium.Spec
open Helium

/-- the nodes a client can create (/repo/document.go:12-14, 164-175, 221-235, 493-516). -/
inductive NewNode
  | element (doc : Option Nat) (name : Bytes)
  | text (b : Bytes)
  | comment (b : Bytes)
  | pi (target data : Bytes)
  | doc
  | charRef (name : Bytes)

def NewNode.node : NewNode → Node
  | .element d n => mkElement d n
  | .text b => mkText b
  | .comment b => mkComment b
  | .pi t d => mkPI t d
  | .doc => mkDoc b!"1.0" [] (-2)
  | .charRef n => { kind := .entityRef, name := n }

/-- one call. -/
inductive DomOp
  | new (x : NewNode)
  | addChild (p c : Nat)
  | addSibling (n c : Nat)
  | addContent (p : Nat) (b : Bytes)
  | replace (n c : Nat)
  | setDocumentElement (d r : Nat)

/-- the call as executed by the model. -/
def DomOp.exec : DomOp → HM Unit
  | .new x => do let _ ← newNode x.node; pure ()
  | .addChild p c => nodeAddChild p c
  | .addSibling n c => nodeAddSibling n c
  | .addContent p b => nodeAddContent p b
  | .replace n c => nodeReplace n c
  | .setDocumentElement d r => Helium.setDocumentElement d (some r)

/-- a history: an error is reported and the history goes on. -/
def execAll : List DomOp → HM (List (Option Err))
  | [] => pure []
  | op :: ops => do
    let r ← M.attempt op.exec
    let rs ← execAll ops
    pure ((match r with | .ok _ => none | .error e => some e) :: rs)

namespace Forest

def empty : Forest := ⟨0, fun _ => false, fun _ => {}, fun _ => [], fun _ => false⟩

/-- the node whose child `n` is. -/
def parentOf (a : Forest) (n : Nat) : Option Nat := (List.range a.size).find? (fun p => (a.kids p).contains n)

/-- the calls covered: existing nodes; what is linked in has not been linked before and is no document; siblings are added to, and
replaced nodes are, children of some node; only elements become document elements. -/
def valid (a : Forest) : DomOp → Bool
  | .new _ => true
  | .addChild p c => a.tree p && tracked (a.data p).kind && a.loose c && ((a.data c).kind != .doc)
  | .addSibling n c => (a.parentOf n).isSome && a.loose c && ((a.data c).kind != .doc)
  | .addContent p _ => a.tree p && tracked (a.data p).kind
  | .replace n c => (a.parentOf n).isSome && a.loose c && ((a.data c).kind != .doc)
  | .setDocumentElement d r => a.tree d && ((a.data d).kind == .doc) && a.loose r && ((a.data r).kind == .element)

/-- what a call should do. -/
def step (a : Forest) : DomOp → Forest
  | .new x => a.alloc x.node
  | .addChild p c => a.addChild p c
  | .addSibling n c => match a.parentOf n with
    | some p => a.addSibling p n c
    | none => a
  | .addContent p b => a.addContent p b
  | .replace n c => match a.parentOf n with
    | some p => a.replace p n c
    | none => a
  | .setDocumentElement d r => a.setDocumentElement d r

/-- what a call should report: only text and comment nodes refuse children, namely those of another kind. -/
def outcome (a : Forest) : DomOp → Option Err
  | .addChild p c =>
    if ((a.data p).kind = .text ∨ (a.data p).kind = .comment) ∧ (a.data c).kind ≠ (a.data p).kind then some (.k .invalidOperation) else none
  | _ => none

def validAll (a : Forest) : List DomOp → Bool
  | [] => true
  | op :: ops => a.valid op && (a.step op).validAll ops

def steps (a : Forest) : List DomOp → Forest
  | [] => a
  | op :: ops => (a.step op).steps ops

def outcomes (a : Forest) : List DomOp → List (Option Err)
  | [] => []
  | op :: ops => a.outcome op :: (a.step op).outcomes ops

end Forest

/-- calls that only append. -/
def DomOp.appends : DomOp → Bool
  | .new _ | .addChild _ _ | .addContent _ _ => true
  | _ => false

/-- no two neighbours both satisfy `p`. -/
def noAdjacent (p : Nat → Bool) : List Nat → Bool
  | x :: y :: l => !(p x && p y) && noAdjacent p (y :: l)
  | _ => true

/-! ### appending to one node -/

/-- things that can be appended: a text node, raw content, a comment, an empty element. -/
inductive Item
  | text (b : Bytes)
  | content (b : Bytes)
  | comment (b : Bytes)
  | elem (name : Bytes)

/-- append to `p` with the calls of the model. -/
def Item.add (p : Nat) : Item → HM Unit
  | .text b => do let t ← newNode (mkText b); nodeAddChild p t
  | .content b => nodeAddContent p b
  | .comment b => do let t ← newNode (mkComment b); nodeAddChild p t
  | .elem n => do let t ← newNode (mkElement none n); nodeAddChild p t

/-- the bytes of an item. -/
def Item.bytes : Item → Bytes
  | .text b | .content b | .comment b => b
  | .elem _ => []

def Item.kind : Item → Kind
  | .text _ | .content _ => .text
  | .comment _ => .comment
  | .elem _ => .element

/-- the children that should result, with their content: neighbouring texts become one. -/
def mergeOne (l : List (Kind × Bytes)) (x : Kind × Bytes) : List (Kind × Bytes) :=
  match l.getLast? with
  | some (.text, b) => if x.1 = .text then l.dropLast ++ [(.text, b ++ x.2)] else l ++ [x]
  | _ => l ++ [x]

def merge (items : List Item) : List (Kind × Bytes) := items.foldl (fun l i => mergeOne l (i.kind, i.bytes)) []

end Helium.Spec
