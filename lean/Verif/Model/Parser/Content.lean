import Verif.Model.Parser.Decl
import Verif.Model.Parser.Dtd
/-! Elements, content, the document and the entry points: /repo/parserctx.go:373-917, 3960-4384, /repo/parser.go. -/
namespace Helium
section
variable {σ : Type} (E : Env) (H : Handler σ)

/-! ### stacks used by the parser -/

/-- `nsTab.Push` (/repo/stack.go:38-40; unique stack: an existing prefix is kept, the new binding dropped, the error ignored). -/
def nsPush (ns : List (Bytes × Bytes)) (p u : Bytes) : List (Bytes × Bytes) := (uniquePush ns (p, u)).1

/-- `nsTab.Peek(n)`: the last `n` items, or all. -/
def nsPeek (ns : List (Bytes × Bytes)) (n : Nat) : List (Bytes × Bytes) := stackPeek ns n

/-- the slice handed to `StartElementNS`: `make([]sax.Namespace, nbNs)` filled from `Peek(nbNs)`
(/repo/parserctx.go:847-854). -/
def nsList (ns : List (Bytes × Bytes)) (nb : Nat) : List (Option (Bytes × Bytes)) :=
  let l := nsPeek ns nb
  l.map some ++ List.replicate (nb - l.length) none

/-! ### start and end tags -/

/-- after a namespace declaration: `>` or `/>` continue, otherwise blanks are required (/repo/parserctx.go:747-754,
797-803). Answers true when the tag goes on after blanks. -/
def afterNs : P σ Bool := do
  if (← peek E) = 62 then pure false
  else if (← hasPrefix b!"/>") then pure false
  else
    needBlanks E
    pure true

/-- XML namespace URI (/repo/interface.go:6). -/
def xmlNamespace : Bytes := b!"http://www.w3.org/XML/1998/namespace"

/-- the checks on `xmlns:attname="value"` (/repo/parserctx.go:760-791): `none` = declare it, `some none` = skip storing,
`some (some e)` = error. -/
def nsDeclCheck (ns : List (Bytes × Bytes)) (attname value : Bytes) : Option (Option EK) :=
  if attname = b!"xml" then (if value ≠ xmlNamespace then some (some .mXmlPrefixWrongURI) else some none)
  else if attname = b!"xmlns" then some (some .mXmlnsRedefined)
  else if value = b!"http://www.w3.org/2000/xmlns/" then some (some .mXmlnsReuse)
  else if value = [] then some (some .mEmptyNamespace)
  else if E.urlOk value = false then some (some .mInvalidURI)
  else if nsLookup ns attname ≠ [] then some (some .mDuplicateNs)
  else none

/-- attribute loop of `parseStartTag` (/repo/parserctx.go:727-818): number of namespace declarations and attributes. -/
def attrsLoop (loc : Bytes) : Nat → Nat → List AttrD → P σ (Nat × List AttrD)
  | 0, _, _ => M.diverge
  | fuel + 1, nbNs, attrs => do
    let _ ← skipBlanks
    if (← consume b!">") then pure (nbNs, attrs)
    else if (← hasPrefix b!"/>") then pure (nbNs, attrs)
    else
      let a ← M.wrap (parseAttribute E H loc)
      if a.1 = b!"xmlns" ∧ a.2.1 = [] then
        M.modify (fun s => { s with ns := nsPush s.ns [] a.2.2 })
        if (← afterNs E) then
          -- no `continue` here: the declaration is also appended as an attribute
          attrsLoop loc fuel (nbNs + 1) (attrs ++ [.parsed a.2.1 a.1 a.2.2])
        else attrsLoop loc fuel (nbNs + 1) attrs
      else if a.2.1 = b!"xmlns" then
        let s ← M.get
        match nsDeclCheck E s.ns a.1 a.2.2 with
        | some (some e) => M.cerr e
        | some none =>
          let _ ← afterNs E
          attrsLoop loc fuel nbNs attrs
        | none =>
          M.modify (fun s => { s with ns := nsPush s.ns a.1 a.2.2 })
          let _ ← afterNs E
          attrsLoop loc fuel (nbNs + 1) attrs
      else attrsLoop loc fuel nbNs (attrs ++ [.parsed a.2.1 a.1 a.2.2])

/-- defaulted attributes of an element (/repo/parserctx.go:820-834), in map order. -/
def defaultAttrs (defs : List (Bytes × List (Bytes × Nat))) (pfx loc : Bytes) : List AttrD :=
  let key := if pfx ≠ [] then pfx ++ 58 :: loc else loc
  match mapGet defs key with
  | some m => (E.order (m.map (·.2))).map .dflt
  | none => []

/-- `parseStartTag` (/repo/parserctx.go:698-868). -/
def parseStartTag : P σ Unit := do
  M.need ((← peek E) == 60) .startTagRequired
  adv 1
  let q ← M.orElse (parseQName E) .mLocalNameEmpty
  M.need (q.1 != []) .mLocalNameEmpty
  let r ← rest
  let na ← attrsLoop E H q.1 (r.length + 1) 0 []
  let s ← M.get
  let attrs := na.2 ++ defaultAttrs E s.attsDefault q.2 q.1
  let uri := nsLookup s.ns q.2
  if q.2 ≠ [] ∧ uri = [] then M.cerr .mNamespaceNotFound
  else
    cb H (.startElement q.1 q.2 uri (nsList s.ns na.1) attrs)
    M.modify (fun s => { s with nodes := s.nodes ++ [⟨q.1, q.2, uri⟩] })

/-- `parseEndTag` (/repo/parserctx.go:879-917). With an empty stack `peekNode()` is nil and its methods panic. -/
def parseEndTag : P σ Unit := do
  if (← consume b!"/>") then pure ()
  else if (← consume b!"</") then
    let s ← M.get
    let e ← M.deref s.nodes.getLast?
    if (← consume (decodeRunes e.name)) then
      M.need ((← peek E) == 62) .gtRequired
      adv 1
    else M.cerr .mEndTagExpected
  else M.cerr .ltSlashRequired
  let s ← M.get
  let e ← M.deref s.nodes.getLast?
  cb H (.endElement e.loc e.pfx e.uri)
  M.modify (fun s => { s with nodes := s.nodes.dropLast })

/-! ### entity expansion -/

/-- The document used by `parseBalancedChunkInternal`: `ctx.doc`, created if nil (/repo/parserctx.go:3984-3986). -/
def chunkDoc (s : St σ) : Nat × Heap :=
  match s.hc.doc with
  | some d => (d, s.hc.heap)
  | none => (s.hc.heap.size, s.hc.heap.alloc (mkDoc b!"1.0" [] 0))

/-- the fresh parser context for a chunk (/repo/parserctx.go:3973-4010). -/
def chunkSt (s : St σ) (d : Nat) (h : Heap) (cur : List Nat) : St σ :=
  { cur := cur, hc := ⟨s.hc.usr, h, some d, none⟩, trace := s.trace, ns := [], nodes := [⟨b!"pseudoroot", [], []⟩],
    version := [], encoding := [], detected := b!"utf8", standalone := -2, inSubset := 0, hasExternalSubset := false,
    hasPERefs := false, intSubName := [], extSubSystem := [], extSubURI := [], attsSpecial := [],
    attsDefault := s.attsDefault, depth := s.depth + 2 }

/-- back to the outer context: deferred restore of the children of the document and of `depth`. -/
def chunkBack (s : St σ) (d : Nat) (fc lc : Option Nat) (t : St σ) : St σ :=
  { s with hc := ⟨t.hc.usr, t.hc.heap.upd d (fun x => { x with first := fc, last := lc }), some d, s.hc.elem⟩, trace := t.trace }

/-- clear owner links of the nodes produced under the pseudo root (/repo/parserctx.go:4012-4020). -/
def chunkAdopt (d : Nat) : P σ Unit := do
  let s ← M.get
  let d' ← M.deref s.hc.doc
  match (s.hc.heap.at' d').first with
  | none => pure ()
  | some c =>
    match chain s.hc.heap (s.hc.heap.size + 1) (s.hc.heap.at' c).first with
    | none => M.diverge
    | some l => liftH (l.forM (fun e => do
        nodeSetTreeDoc e (some d)
        updNode e (fun x => { x with parent := none })))

/-- `parseBalancedChunkInternal` (/repo/parserctx.go:3960-4026); `body` is `parseContent`. The returned node list is not used by
the caller. `switchEncoding` on the new context loads "utf8". -/
def parseChunk (body : P σ Unit) (chunk : Bytes) : P σ Unit := fun s =>
  if s.depth + 1 > 40 then .err (.k .mEntityLoop) s
  else
    let dh := chunkDoc s
    let d := dh.1
    let fc := (dh.2.at' d).first
    let lc := (dh.2.at' d).last
    let h := dh.2.upd d (fun x => { x with first := none, last := none })
    match (do
        let root ← newNode (mkElement (some d) b!"pseudoroot")
        let _ ← M.attempt (nodeAddChild d root)
        pure () : HM Unit) h with
    | .ok _ h =>
      match (do body; chunkAdopt d : P σ Unit) (chunkSt s d h (E.decode .utf8 chunk)) with
      | .ok _ t => .ok () (chunkBack s d fc lc t)
      | .err e t => .err e (chunkBack s d fc lc t)
      | .panic => .panic
      | .diverge => .diverge
    | .err e h => .err e { s with hc := { s.hc with heap := h } }
    | .panic => .panic
    | .diverge => .diverge

/-- `parseReference` (/repo/parserctx.go:4036-4384): `options` is 0 and `replaceEntities` false. -/
def parseReference (body : P σ Unit) : P σ Unit := do
  M.need ((← peek E) == 38) .ampersandRequired
  if (← peekN E 2) = 35 then
    let v ← M.wrap parseCharRef
    cb H (.characters (encodeRune v))
  else
    let ent ← M.wrap (parseEntityRef E H)
    let s ← M.get
    let h := s.hc.heap
    if ent.name h = [] ∨ ent.typ h = 6 then
      if ent.content h = [] then pure () else cb H (.characters (ent.content h))
    else
      match ent with
      | .pre _ => pure ()
      | .ptr i =>
        if (h.at' i).checked = 0 ∧ (h.at' i).entType ≠ 2 then
          if (h.at' i).entType = 1 then
            parseChunk E body (h.at' i).content
            let s ← M.get
            cbRaw H (.reference (s.hc.heap.at' i).name)
          else M.raw .mInvalidEntityType
        else M.raw .unimplemented

/-! ### content -/

/-- `parseElement` (/repo/parserctx.go:665-696); `body` is `parseContent`. -/
def parseElementW (body : P σ Unit) : P σ Unit := do
  M.wrap (parseStartTag E H)
  if (← hasPrefix b!"/>") then pure ()
  else M.wrap body
  M.wrap (parseEndTag E H)

/-- one iteration of the loop of `parseContent` (/repo/parserctx.go:531-573). -/
def contentStep (body : P σ Unit) : P σ Unit := do
  if (← hasPrefix b!"<?") then M.wrap (parsePI E H)
  else if (← hasPrefix b!"<![CDATA[") then M.wrap (parseCDSect E H)
  else if (← hasPrefix b!"<!--") then M.wrap (parseComment H)
  else if (← hasPrefix b!"<") then M.wrap (parseElementW E H body)
  else if (← hasPrefix b!"&") then M.wrap (parseReference E H body)
  else parseCharData E H false

/-- `parseContent` (/repo/parserctx.go:519-577), with a budget for loop iterations plus nesting. -/
def parseContent : Nat → P σ Unit
  | 0 => M.diverge
  | fuel + 1 => do
    if (← isDone) then pure ()
    else if (← hasPrefix b!"</") then pure ()
    else
      contentStep E H (parseContent fuel)
      parseContent fuel

/-- `parseElement`. -/
def parseElement (fuel : Nat) : P σ Unit := parseElementW E H (parseContent E H fuel)

/-! ### the document -/

/-- the DOCTYPE part of `parseDocument` (/repo/parserctx.go:436-473). -/
def parseDoctypePart (snl : Nat) : P σ Unit := do
  if (← hasPrefix b!"<!DOCTYPE") then
    M.modify (fun s => { s with inSubset := 1 })
    M.wrap (parseDocTypeDecl E H)
    if (← hasPrefix b!"[") then M.wrap (parseInternalSubset E H snl) else pure ()
    M.modify (fun s => { s with inSubset := 2 })
    let s ← M.get
    cb H (.externalSubset s.intSubName s.extSubSystem s.extSubURI)
    M.modify (fun s => { s with inSubset := 0, attsSpecial := s.attsSpecial.filter (fun p => p.2 != 1) })
    M.wrap (parseMisc E H)
  else pure ()

/-- the part of `parseDocument` before the encoding switch (/repo/parserctx.go:380-415). -/
def parseHead : P σ Unit := do
  cb H .setDocumentLocator
  let s ← M.get
  if s.encoding = [] then
    match detectEncoding s.cur with
    | some (n, r) => M.modify (fun s => { s with detected := n, cur := r })
    | none => pure ()
  else pure ()
  if (← isDone) then M.cerr .mEmptyDocument
  else if (← hasPrefix b!"<?xml") then M.wrap (parseXMLDecl E)
  else pure ()

/-- the root element and what follows it (/repo/parserctx.go:474-515). -/
def parseTail (fuel : Nat) : P σ Unit := do
  let _ ← skipBlanks
  M.need ((← peek E) == 60) .emptyDocument
  M.wrap (parseElement E H fuel)
  M.wrap (parseMisc E H)
  M.need (← isDone) .documentEnd
  cb H .endDocument

/-- `parseDocument` (/repo/parserctx.go:375-517). -/
def parseDocument (fuel snl : Nat) : P σ Unit := do
  parseHead E H
  M.wrap (switchEncoding E)
  cb H .startDocument
  M.wrap (parseMisc E H)
  parseDoctypePart E H snl
  parseTail E H fuel

/-- context set up by `init` (/repo/parserctx.go:196-212, /repo/parser.go). -/
def initSt (usr : σ) (heap : Heap) (input : Bytes) : St σ :=
  { cur := input, hc := ⟨usr, heap, none, none⟩, trace := [], ns := [], nodes := [], version := [], encoding := [],
    detected := b!"utf8", standalone := -2, inSubset := 0, hasExternalSubset := false, hasPERefs := false, intSubName := [],
    extSubSystem := [], extSubURI := [], attsSpecial := [], attsDefault := [], depth := 0 }

end
end Helium
