import Verif.Model.Base
/-!
The DOM as a pointer heap, and the node operations of /repo/node.go, text.go, comment.go, element.go, attr.go, document.go,
dtd.go and valid.go. A pointer is a `Nat` (index of an allocated node), `nil` is `none`.
-/
namespace Helium

/-- Go dynamic type of a node (/repo/interface.go:143-263). -/
inductive Kind
  | element | attr | text | comment | pi | entityRef | entity | doc | dtd | elemDecl | attrDecl
  deriving DecidableEq, Repr

/-- `Node.Type()` (/repo/node.go:89-91, /repo/pi.go:3-5) with the codes of /repo/interface.go:185-209. `newAttribute`
(/repo/attr.go:31-36) never sets the type of an attribute, so it stays 0. -/
def Kind.type : Kind → Nat
  | .element => 1 | .attr => 0 | .text => 3 | .comment => 8 | .pi => 7 | .entityRef => 5 | .entity => 6
  | .doc => 9 | .dtd => 14 | .elemDecl => 15 | .attrDecl => 16

/-- `*ElementContent` as a value (/repo/interface.go:298-307); `nil` is the nil pointer, the never-read `parent` link is
dropped. `ctype`: 1 PCDATA, 2 Element, 3 Seq, 4 Or; `occ`: 1 Once, 2 Opt, 3 Mult, 4 Plus (280-296). -/
inductive EC
  | nil
  | mk (ctype occ : Nat) (name pfx : Bytes) (c1 c2 : EC)
  deriving DecidableEq, Repr, Inhabited

/-- A DOM node: the union of the Go structs embedding `docnode`/`node` (/repo/interface.go:111-333). -/
structure Node where
  kind : Kind := .element
  /-- docnode (111-121) -/
  name : Bytes := []
  first : Option Nat := none
  last : Option Nat := none
  parent : Option Nat := none
  next : Option Nat := none
  prev : Option Nat := none
  doc : Option Nat := none
  /-- node (124-131); `content` also holds `Entity.content` -/
  content : Bytes := []
  props : Option Nat := none
  ns : Option (Bytes × Bytes) := none
  nsDefs : List (Bytes × Bytes) := []
  /-- Attribute (176-181) -/
  isDefault : Bool := false
  /-- ProcessingInstruction (153-157) -/
  target : Bytes := []
  data : Bytes := []
  /-- Document (143-151) -/
  version : Bytes := []
  encoding : Bytes := []
  standalone : Int := 0
  intSubset : Option Nat := none
  extSubset : Option Nat := none
  /-- DTD (159-167) -/
  attributes : List (Bytes × Nat) := []
  elements : List (Bytes × Nat) := []
  entities : List (Bytes × Nat) := []
  pentities : List (Bytes × Nat) := []
  externalID : Bytes := []
  systemID : Bytes := []
  /-- AttributeDecl (248-256), ElementDecl (259-266) -/
  atype : Nat := 0
  defType : Nat := 0
  defValue : Bytes := []
  tree : List Bytes := []
  pfx : Bytes := []
  elem : Bytes := []
  declType : Nat := 0
  ec : EC := .nil
  declAttrs : Option Nat := none
  /-- Entity (320-333) -/
  orig : Bytes := []
  entType : Nat := 0
  uri : Bytes := []
  checked : Nat := 0
  deriving Inhabited

/-- The heap: `size` nodes, numbered from 0. -/
structure Heap where
  size : Nat
  at' : Nat → Node

namespace Heap

def empty : Heap := ⟨0, fun _ => {}⟩

/-- overwrite node `i`. -/
def put (h : Heap) (i : Nat) (n : Node) : Heap := ⟨h.size, fun j => if j = i then n else h.at' j⟩

/-- change node `i`. -/
def upd (h : Heap) (i : Nat) (f : Node → Node) : Heap := h.put i (f (h.at' i))

/-- allocate: `&T{...}`. -/
def alloc (h : Heap) (n : Node) : Heap := ⟨h.size + 1, fun j => if j = h.size then n else h.at' j⟩

end Heap

/-- computations over the DOM. -/
abbrev HM := M Heap

/-- allocate a node and return its pointer. -/
def newNode (n : Node) : HM Nat := fun h => .ok h.size (h.alloc n)

/-- read a node (pointers handed around in /repo are never dangling). -/
def node (i : Nat) : HM Node := fun h => .ok (h.at' i) h

/-- modify a node. -/
def updNode (i : Nat) (f : Node → Node) : HM Unit := M.modify (fun h => h.upd i f)

/-- `Name()`: `prefix:name` for nodes with a prefixed namespace (/repo/node.go:230-235), the bare name otherwise (85-87). Only
elements, texts, comments, entity references and entities carry a namespace field; it is only ever set on elements. -/
def Node.fullName (n : Node) : Bytes :=
  match n.ns with
  | some (p, _) => if n.kind = .attr then n.name else if p ≠ [] then p ++ 58 :: n.name else n.name
  | none => n.name

/-! ### constructors -/

/-- `newText` (/repo/text.go:5-12). -/
def mkText (b : Bytes) : Node := { kind := .text, content := b, name := b!"(text)" }

/-- `newComment` (/repo/comment.go:3-8); the slice handed in by the parser is a fresh copy, so no aliasing is modelled. -/
def mkComment (b : Bytes) : Node := { kind := .comment, content := b }

/-- `newElement` + owner (/repo/element.go:48-53, /repo/document.go:221-225). -/
def mkElement (doc : Option Nat) (name : Bytes) : Node := { kind := .element, name := name, doc := doc }

/-- `newAttribute` (/repo/attr.go:31-36). -/
def mkAttr (name : Bytes) (ns : Option (Bytes × Bytes)) : Node := { kind := .attr, name := name, ns := ns }

/-- `CreatePI` (/repo/document.go:170-175): neither name nor owner document are set. -/
def mkPI (target data : Bytes) : Node := { kind := .pi, target := target, data := data }

/-- `NewDocument` (/repo/document.go:16-26). -/
def mkDoc (version encoding : Bytes) (standalone : Int) : Node :=
  { kind := .doc, name := b!"(document)", version := version, encoding := encoding, standalone := standalone }

/-- `CreateDocument` (/repo/document.go:12-14). -/
def createDocument : HM Nat := newNode (mkDoc b!"1.0" [] (-2))

/-- `newEntity` (/repo/entity.go:22-34). -/
def mkEntity (name : Bytes) (typ : Nat) (pub sys content orig : Bytes) : Node :=
  { kind := .entity, name := name, entType := typ, externalID := pub, systemID := sys, content := content, orig := orig }

/-! ### sibling chains and content -/

/-- Following `NextSibling` from `s`: the nodes visited, or `none` when more than `fuel` nodes are met. With
`fuel = size + 1`, `none` means that the chain is cyclic and a Go loop over it never ends. -/
def chain (h : Heap) : Nat → Option Nat → Option (List Nat)
  | _, none => some []
  | 0, some _ => none
  | f + 1, some i => (chain h f (h.at' i).next).map (i :: ·)

/-- `Content()` (/repo/node.go:50-56, /repo/text.go:48-50, /repo/comment.go:32-34, /repo/entity.go:51-53); `none` when the
structure is cyclic (endless recursion in Go). -/
def contentF (h : Heap) : Nat → Nat → Option Bytes
  | 0, _ => none
  | f + 1, i =>
    match (h.at' i).kind with
    | .text | .comment | .entity => some (h.at' i).content
    | _ =>
      match chain h (h.size + 1) (h.at' i).first with
      | none => none
      | some l => (l.mapM (contentF h f)).map List.flatten

/-- `Content()` with enough depth budget. -/
def content (i : Nat) : HM Bytes := fun h =>
  match contentF h (h.size + 1) i with
  | some b => .ok b h
  | none => .diverge

/-! ### linking -/

/-- the loop of `addSibling`: last node of the sibling chain starting at `n` (/repo/node.go:137-150). -/
def lastSibling (h : Heap) : Nat → Nat → Option Nat
  | 0, _ => none
  | f + 1, n =>
    match (h.at' n).next with
    | none => some n
    | some m => lastSibling h f m

/-- `addSibling` (/repo/node.go:137-153). -/
def addSibling (n cur : Nat) : HM Unit := fun h =>
  match lastSibling h (h.size + 1) n with
  | none => .diverge
  | some l =>
    let h := h.upd l (fun x => { x with next := some cur })
    let h := h.upd cur (fun x => { x with prev := some l })
    let p := (h.at' l).parent
    let h := h.upd cur (fun x => { x with parent := p })
    match p with
    | none => .ok () h
    | some p => .ok () (h.upd p (fun x => { x with last := some cur }))

/-- `Text.AddContent`/`Comment.AddContent` (/repo/text.go:26-35, /repo/comment.go:22-25). -/
def appendContent (n : Nat) (b : Bytes) : HM Unit := updNode n (fun x => { x with content := x.content ++ b })

/-- `AddSibling` by dynamic type (/repo/text.go:37-46, /repo/document.go:48-50, others call `addSibling`). -/
def nodeAddSibling (n cur : Nat) : HM Unit := do
  let x ← node n
  match x.kind with
  | .text =>
    let c ← node cur
    if c.kind = .text then
      let b ← content cur
      appendContent n b
    else addSibling n cur
  | .doc => M.raw .mSiblingDoc
  | _ => addSibling n cur

/-- `addChild` (/repo/node.go:101-124). -/
def addChild (n cur : Nat) : HM Unit := do
  let x ← node n
  match x.last with
  | none =>
    updNode n (fun x => { x with first := some cur })
    updNode n (fun x => { x with last := some cur })
    updNode cur (fun x => { x with parent := some n })
  | some l =>
    nodeAddSibling l cur
    let c ← node cur
    let lx ← node l
    if c.kind = .text ∧ lx.kind = .text then
      updNode n (fun x => { x with last := some l })
    else pure ()

/-- `AddChild` by dynamic type (/repo/text.go:14-24, /repo/comment.go:10-20, others call `addChild`). -/
def nodeAddChild (n cur : Nat) : HM Unit := do
  let x ← node n
  match x.kind with
  | .text =>
    let c ← node cur
    if c.kind = .text then appendContent n c.content else M.raw .invalidOperation
  | .comment =>
    let c ← node cur
    if c.kind = .comment then appendContent n c.content else M.raw .invalidOperation
  | _ => addChild n cur

/-- `AddContent` by dynamic type (/repo/node.go:58-61, /repo/text.go:26-35, /repo/comment.go:22-25). -/
def nodeAddContent (n : Nat) (b : Bytes) : HM Unit := do
  let x ← node n
  match x.kind with
  | .text => appendContent n b
  | .comment => appendContent n b
  | _ =>
    let t ← newNode (mkText b)
    nodeAddChild n t

/-- `replaceNode` (/repo/node.go:167-187). -/
def replaceNode (n cur : Nat) : HM Unit := do
  let x ← node n
  match x.next with
  | some nx =>
    updNode cur (fun c => { c with next := some nx })
    updNode nx (fun c => { c with prev := some cur })
  | none => pure ()
  let x ← node n
  match x.prev with
  | some pv =>
    updNode cur (fun c => { c with prev := some pv })
    updNode pv (fun c => { c with next := some cur })
  | none => pure ()
  let x ← node n
  match x.parent with
  | some p =>
    let px ← node p
    if px.first = some n then updNode p (fun c => { c with first := some cur }) else pure ()
    let px ← node p
    if px.last = some n then updNode p (fun c => { c with last := some cur }) else pure ()
    updNode cur (fun c => { c with parent := some p })
  | none => pure ()

/-- `Replace` by dynamic type (/repo/document.go:82-84 panics, others call `replaceNode`). -/
def nodeReplace (n cur : Nat) : HM Unit := do
  let x ← node n
  if x.kind = .doc then M.panic else replaceNode n cur

/-- `SetDocumentElement` for a non-nil document (/repo/document.go:86-110): the first element child is replaced, or the root is
appended. The result of `AddChild` is ignored. -/
def setDocumentElement (d : Nat) (root : Option Nat) : HM Unit :=
  match root with
  | none => pure ()
  | some r => do
    updNode r (fun x => { x with parent := some d })
    let h ← M.get
    match chain h (h.size + 1) (h.at' d).first with
    | none => M.diverge
    | some l =>
      match l.find? (fun i => (h.at' i).kind = .element) with
      | none =>
        let _ ← M.attempt (nodeAddChild d r)
        pure ()
      | some old => nodeReplace old r

/-! ### Walk and SetTreeDoc -/

/-- `Walk` (/repo/node.go:65-79) for a callback that does not change the tree: the callback changes a state of its own and may
return an error. Running out of depth means a cyclic structure. -/
def walk {τ : Type} (h : Heap) (f : Nat → τ → Option Err × τ) : Nat → Nat → M τ Unit
  | 0, _ => M.diverge
  | fuel + 1, n => fun t =>
    match f n t with
    | (some e, t) => .err e t
    | (none, t) =>
      match chain h (h.size + 1) (h.at' n).first with
      | none => .diverge
      | some l => (l.forM (fun c => walk h f fuel c)) t

/-- `Walk` on a possibly nil node. -/
def walkTop {τ : Type} (h : Heap) (f : Nat → τ → Option Err × τ) (n : Option Nat) : M τ Unit :=
  match n with
  | none => M.raw .nilNode
  | some n => walk h f (h.size + 1) n

/-- `setTreeDoc` together with `setListDoc` (/repo/node.go:237-272). -/
def setTreeDoc (doc : Option Nat) : Nat → Nat → HM Unit
  | 0, _ => M.diverge
  | fuel + 1, n => do
    let h ← M.get
    let x := h.at' n
    if x.doc = doc then pure () else
      if x.kind = .element then
        match chain h (h.size + 1) x.props with
        | none => M.diverge
        | some props =>
          props.forM (fun p => do
            updNode p (fun a => { a with doc := doc })
            setList fuel (h.at' p).first)
      else pure ()
      setList fuel x.first
      updNode n (fun a => { a with doc := doc })
where
  /-- `setListDoc`: every sibling whose owner differs (/repo/node.go:237-247). -/
  setList (fuel : Nat) (s : Option Nat) : HM Unit := do
    let h ← M.get
    match chain h (h.size + 1) s with
    | none => M.diverge
    | some l => l.forM (fun c => setTreeDoc doc fuel c)

/-- `SetTreeDoc`. -/
def nodeSetTreeDoc (n : Nat) (doc : Option Nat) : HM Unit := do
  let h ← M.get
  setTreeDoc doc (h.size + 1) n

end Helium
