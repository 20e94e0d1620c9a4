import Verif.Model.Parser.Content
/-! The DOM-building SAX handler (/repo/tree.go) and the top-level `Parse` (/repo/parser.go). -/
namespace Helium

/-- computations of the tree builder: they see and change the heap, `ctx.doc` and `ctx.elem`. -/
abbrev TB (σ : Type) := M (HC σ)

section
variable {σ : Type}

/-- run a DOM operation. -/
def tbH {α : Type} (p : HM α) : TB σ α := fun c =>
  match p c.heap with
  | .ok a h => .ok a { c with heap := h }
  | .err e h => .err e { c with heap := h }
  | .panic => .panic
  | .diverge => .diverge

/-- `doc := ctx.doc`, dereferenced by the first method called on it. -/
def tbDoc : TB σ Nat := do
  let c ← M.get
  M.deref c.doc

/-- add a node below the current element, or below the document (/repo/tree.go:64-72, 118-128, 203-210): results of
`AddChild` are ignored. -/
def tbAttach (d n : Nat) : TB σ Unit := do
  let c ← M.get
  let _ ← M.attempt (tbH (match c.elem with
    | none => nodeAddChild d n
    | some e => nodeAddChild e n))
  pure ()

/-- the DTD a declaration goes to (/repo/tree.go:324-344, 364-373, 517-525). -/
def tbSubset (v : HV) (d : Nat) : TB σ (Option Nat) := do
  let c ← M.get
  if v.inSubset = 1 then pure (c.heap.at' d).intSubset
  else if v.inSubset = 2 then pure (c.heap.at' d).extSubset
  else M.raw .mNotInSubset

/-- `attr.Name()` of an attribute handed to the handler (/repo/parserctx.go:19-37, /repo/node.go:85-87). -/
def AttrD.name (h : Heap) : AttrD → Bytes
  | .parsed p l _ => if p ≠ [] then p ++ 58 :: l else l
  | .dflt i => (h.at' i).name

/-- `attr.IsDefault()`. -/
def AttrD.isDefault (h : Heap) : AttrD → Bool
  | .parsed .. => false
  | .dflt i => (h.at' i).isDefault

/-- one attribute of `StartElementNS` (/repo/tree.go:106-116); `loadsubset` is 0, so default attributes are always skipped.
For a default attribute the value would be its content. -/
def tbAttr (fuel e : Nat) (a : AttrD) : TB σ Unit := do
  let c ← M.get
  if a.isDefault c.heap then pure ()
  else
    match a with
    | .parsed _ _ v => tbH (setAttribute fuel e (a.name c.heap) v)
    | .dflt i =>
      let v ← tbH (content i)
      tbH (setAttribute fuel e (a.name c.heap) v)

/-- `StartElementNS` (/repo/tree.go:76-133). A nil entry in `namespaces` panics on `ns.Prefix()`. -/
def tbStartElement (fuel : Nat) (loc pfx uri : Bytes) (ns : List (Option (Bytes × Bytes))) (attrs : List AttrD) :
    TB σ Unit := do
  let d ← tbDoc
  let e ← tbH (newNode (mkElement (some d) loc))
  if uri ≠ [] then tbH (setNamespace e pfx uri true) else pure ()
  ns.forM (fun n => do
    let n ← M.deref n
    tbH (setNamespace e n.1 n.2 false))
  attrs.forM (tbAttr fuel e)
  tbAttach d e
  M.modify (fun c => { c with elem := some e })

/-- `EndElementNS` (/repo/tree.go:135-157). -/
def tbEndElement : TB σ Unit := do
  let c ← M.get
  match c.elem with
  | none => M.raw .mNoContext
  | some e =>
    let p := match (c.heap.at' e).parent with
      | some p => if (c.heap.at' p).kind = .element then some p else none
      | none => none
    M.modify (fun c => { c with elem := p })

/-- `Characters` and, as blanks are always kept, `IgnorableWhitespace` (/repo/tree.go:159-176, 417-429). -/
def tbCharacters (b : Bytes) : TB σ Unit := do
  let c ← M.get
  match c.elem with
  | none => M.raw .mTextWrongPlace
  | some e => tbH (nodeAddContent e b)

/-- `ProcessingInstruction` (/repo/tree.go:46-74): inside the subset the node is linked into the DTD and into the document. -/
def tbPI (v : HV) (target data : Bytes) : TB σ Unit := do
  let d ← tbDoc
  let n ← tbH (newNode (mkPI target data))
  if v.inSubset = 1 ∨ v.inSubset = 2 then
    let t ← tbSubset v d
    let t ← M.deref t
    let _ ← M.attempt (tbH (nodeAddChild t n))
    pure ()
  else pure ()
  tbAttach d n

/-- `Comment` (/repo/tree.go:186-212). -/
def tbComment (b : Bytes) : TB σ Unit := do
  let c ← M.get
  match c.doc with
  | none => M.raw .mCommentWrongPlace
  | some d =>
    let n ← tbH (newNode (mkComment b))
    tbAttach d n

/-- `InternalSubset` (/repo/tree.go:214-239). -/
def tbInternalSubset (name eid uri : Bytes) : TB σ Unit := do
  let d ← tbDoc
  tbH (updNode d (fun x => { x with intSubset := none }))
  let _ ← tbH (createInternalSubset d name eid uri)
  pure ()

/-- `Reference` (/repo/tree.go:449-471): `name[0]` panics on the empty name, a nil current element in `AddChild`. -/
def tbReference (name : Bytes) : TB σ Unit := do
  let d ← tbDoc
  match name with
  | [] => M.panic
  | c :: _ =>
    let n ← tbH (if c = 35 then createCharRef (some d) name else createReference d name)
    let s ← M.get
    let p ← M.deref s.elem
    tbH (nodeAddChild p n)

/-- `AttributeDecl` (/repo/tree.go:299-354). -/
def tbAttributeDecl (v : HV) (elem attr : Bytes) (typ deflt : Nat) (value : Bytes) (enum : List Bytes) : TB σ Unit := do
  if attr = b!"xml:id" ∧ typ ≠ 2 then M.raw .mXmlId
  else
    let d ← tbDoc
    let t ← tbSubset v d
    let _ ← tbH (addAttributeDecl t elem (splitColon attr).2 (splitColon attr).1 typ deflt value enum)
    pure ()

/-- `ElementDecl` (/repo/tree.go:356-380). On a nil DTD the consistency checks of `AddElementDecl` come first, then the
dereference panics. -/
def tbElementDecl (v : HV) (name : Bytes) (typ : Nat) (ec : EC) : TB σ Unit := do
  let d ← tbDoc
  match (← tbSubset v d) with
  | some t =>
    let _ ← tbH (dtdAddElementDecl t name typ ec)
    pure ()
  | none =>
    if (typ = 1 ∨ typ = 2) ∧ ec ≠ .nil then M.raw .mContentNil
    else if (typ = 3 ∨ typ = 4) ∧ ec = .nil then M.raw .mContentNonNil
    else if typ = 1 ∨ typ = 2 ∨ typ = 3 ∨ typ = 4 then M.panic
    else M.raw .mBadContent

/-- `EntityDecl` (/repo/tree.go:509-548); on a nil DTD the table access panics (a predefined type is refused before). -/
def tbEntityDecl (v : HV) (name : Bytes) (typ : Nat) (pub sys content : Bytes) : TB σ Unit := do
  let d ← tbDoc
  match (← tbSubset v d) with
  | some t =>
    let _ ← tbH (dtdAddEntity t name typ pub sys content)
    pure ()
  | none => if typ = 6 then M.raw .mPredefined else M.panic

/-- turn a tree-builder computation into a callback result. -/
def tbOut (p : TB σ HOut) (c : HC σ) : HOut × HC σ :=
  match p c with
  | .ok o c => (o, c)
  | .err e c => (.err e, c)
  | .panic => (.panic, c)
  | .diverge => (.diverge, c)

/-- the same for callbacks returning only an error. -/
def tbUnit (p : TB σ Unit) (c : HC σ) : HOut × HC σ := tbOut (do p; pure .ok) c

/-- `TreeBuilder` as a handler: `SetDocumentLocator` (/repo/tree.go:18-21), `StartDocument` (/repo/tree.go:23-36), `EndDocument`
(/repo/tree.go:38-41), `CDataBlock` (/repo/tree.go:178-180), `ExternalSubset` (/repo/tree.go:241-243), `GetEntity` (/repo/tree.go:257-274),
`GetParameterEntity` (/repo/tree.go:276-291); the other callbacks are the functions above. `fuel` bounds `stringToNodeList`. -/
def treeBuilder (fuel : Nat) : Handler σ := fun v ev =>
  match ev with
  | .setDocumentLocator => tbUnit (pure ())
  | .startDocument => tbUnit (do
      let d ← tbH (newNode (mkDoc v.version v.encoding v.standalone))
      M.modify (fun c => { c with doc := some d }))
  | .endDocument => tbUnit (pure ())
  | .pi t d => tbUnit (tbPI v t d)
  | .startElement l p u ns as => tbUnit (tbStartElement fuel l p u ns as)
  | .endElement _ _ _ => tbUnit tbEndElement
  | .characters b => tbUnit (tbCharacters b)
  | .ignorable b => tbUnit (tbCharacters b)
  | .cdata _ => tbUnit (pure ())
  | .comment b => tbUnit (tbComment b)
  | .internalSubset n e u => tbUnit (tbInternalSubset n e u)
  | .externalSubset _ _ _ => tbUnit (pure ())
  | .getEntity n => tbOut (do
      let d ← tbDoc
      let c ← M.get
      match docGetEntity c.heap d n with
      | some e => pure (.ent (some (.ptr e)))
      | none => M.raw .entityNotFound)
  | .getParameterEntity n => tbOut (do
      let c ← M.get
      match c.doc with
      | none => M.raw .invalidDocument
      | some d =>
        match docGetParameterEntity c.heap d n with
        | some e => pure (.ent (some (.ptr e)))
        | none => M.raw .entityNotFound)
  | .attributeDecl e a t df vl en => tbUnit (tbAttributeDecl v e a t df vl en)
  | .elementDecl n t ec => tbUnit (tbElementDecl v n t ec)
  | .reference n => tbUnit (tbReference n)
  | .entityDecl n t p s c => tbUnit (tbEntityDecl v n t p s c)

end

/-! ### Parser.Parse -/

/-- What `Parse` gives back: `(doc, nil)`, `(nil, err)`, a panic, or nothing. -/
inductive ParseRes
  | done (doc : Option Nat) (err : Option Err) (heap : Heap) (trace : List (Ev × HOut))
  | panic
  | diverge

/-- `(*Parser).Parse` (/repo/parser.go:22-37) with handler `H`; `fuel` is the budget for content, `snl` the one for
`stringToNodeList`. -/
def parserParse {σ : Type} (E : Env) (H : Handler σ) (usr : σ) (fuel snl : Nat) (input : Bytes) : ParseRes :=
  match parseDocument E H fuel snl (initSt usr Heap.empty input) with
  | .ok _ s => .done s.hc.doc none s.hc.heap s.trace
  | .err e s => .done none (some e) s.hc.heap s.trace
  | .panic => .panic
  | .diverge => .diverge

/-- `helium.Parse` (/repo/parser.go:10-20): the tree builder is the handler. -/
def parse (E : Env) (fuel : Nat) (input : Bytes) : ParseRes :=
  parserParse E (treeBuilder fuel) () fuel fuel input

end Helium
