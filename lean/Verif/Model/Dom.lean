import Verif.Model.Env
/-!
DOM operations that involve documents, DTDs and attributes: /repo/document.go, dtd.go, element.go, valid.go and the tree side of
/repo/parserctx.go (addAttributeDecl).
-/
namespace Helium

/-! ### content models (valid.go) -/

/-- `newElementContent` (/repo/valid.go:10-47). -/
def newElementContent (name : Bytes) (ctype : Nat) : Except Err EC :=
  if ctype = 2 then
    if name = [] then .error (.k .mElementName)
    else .ok (.mk 2 1 (splitColon name).2 (splitColon name).1 .nil .nil)
  else if ctype = 1 ∨ ctype = 3 ∨ ctype = 4 then
    if name ≠ [] then .error (.k .mElementName) else .ok (.mk ctype 1 [] [] .nil .nil)
  else .error (.k .mBadContent)

/-- `copyElementContent` (/repo/valid.go:49-89): the node itself, then its `c2` chain in a loop, copying each `c1`
recursively. -/
def copyEC : EC → EC
  | .nil => .nil
  | .mk t o n p c1 c2 => .mk t o n p (copyEC c1) (copyC2 c2)
where
  /-- the loop over `cur = elem.c2; cur = cur.c2` (/repo/valid.go:66-85). -/
  copyC2 : EC → EC
  | .nil => .nil
  | .mk t o n p c1 c2 => .mk t o n p (copyEC c1) (copyC2 c2)

/-! ### entities -/

/-- `Document.GetEntity` (/repo/document.go:247-275): the internal subset if there is one, else the external one. -/
def docGetEntity (h : Heap) (d : Nat) (name : Bytes) : Option Nat :=
  match (h.at' d).intSubset with
  | some i => mapGet (h.at' i).entities name
  | none =>
    match (h.at' d).extSubset with
    | some x => mapGet (h.at' x).entities name
    | none => none

/-- `Document.GetParameterEntity` (/repo/document.go:277-287). -/
def docGetParameterEntity (h : Heap) (d : Nat) (name : Bytes) : Option Nat :=
  match (h.at' d).intSubset with
  | some i => mapGet (h.at' i).pentities name
  | none =>
    match (h.at' d).extSubset with
    | some x => mapGet (h.at' x).pentities name
    | none => none

/-- `CreateCharRef` (/repo/document.go:493-516). The index `name[len(name)-1]` is in range because `name` is non-empty; for
the one-byte name `&` the slice `name[1:]` is empty. -/
def createCharRef (d : Option Nat) (name : Bytes) : HM Nat :=
  match name with
  | [] => M.raw .mEmptyName
  | c :: t =>
    newNode { kind := .entityRef, doc := d,
              name := if c ≠ 38 then name else if name.getLast? = some 59 then t.dropLast else t }

/-- `CreateReference` (/repo/document.go:112-133). -/
def createReference (d : Nat) (name : Bytes) : HM Nat := do
  let n ← createCharRef (some d) name
  let h ← M.get
  match docGetEntity h d (h.at' n).name with
  | some ent =>
    updNode n (fun x => { x with content := (h.at' ent).content, first := some ent, last := some ent })
    pure n
  | none => pure n

/-- one digit of `accumulateDecimalCharRef` (/repo/parserctx.go:4386-4393); `int32` wraps. -/
def accDec (val c : Nat) : Option Nat :=
  if 48 ≤ c ∧ c ≤ 57 then some ((val * 10 + (c - 48)) % 2 ^ 32) else none

/-- one digit of `accumulateHexCharRef` (/repo/parserctx.go:4395-4406). -/
def accHex (val c : Nat) : Option Nat :=
  if 48 ≤ c ∧ c ≤ 57 then some ((val * 16 + (c - 48)) % 2 ^ 32)
  else if 97 ≤ c ∧ c ≤ 102 then some ((val * 16 + (c - 97) + 10) % 2 ^ 32)
  else if 65 ≤ c ∧ c ≤ 70 then some ((val * 16 + (c - 65) + 10) % 2 ^ 32)
  else none

/-- the digit loop of `stringToNodeList` (/repo/document.go:379-391): value and rest after the `;`. -/
def snlDigits (hex : Bool) : Nat → List Nat → Except Err (Nat × List Nat)
  | _, [] => .error (.k .eof)
  | v, c :: t =>
    if c = 59 then .ok (v, t)
    else match (if hex then accHex v c else accDec v c) with
      | none => .error (.k .mCharRef)
      | some v' => snlDigits hex v' t

/-- the name loop of `stringToNodeList` (/repo/document.go:393-409): name and rest after the `;`. -/
def snlName : List Nat → Option (List Nat × List Nat)
  | [] => none
  | c :: t => if c = 59 then some ([], t) else (snlName t).map (fun p => (c :: p.1, p.2))

/-- Go `buf.WriteRune(rune(charval))` for an `int32` (out-of-range values become U+FFFD) (/repo/document.go:469). -/
def writeRune32 (v : Nat) : Bytes := encodeRune v

/-- state of the `stringToNodeList` loop: `ret`, `last`, pending text. -/
structure SNL where
  ret : Option Nat := none
  last : Option Nat := none
  buf : Bytes := []

/-- append a node to the list under construction (/repo/document.go:430-436, 458-464): `last.AddSibling(node)`, errors
ignored. -/
def snlPush (st : SNL) (n : Nat) : HM SNL :=
  match st.last with
  | none => pure { st with ret := some n, last := some n }
  | some l => do
    let _ ← M.attempt (nodeAddSibling l n)
    pure { st with last := some n }

/-- flush the pending text (/repo/document.go:419-437). -/
def snlFlush (d : Option Nat) (st : SNL) : HM SNL :=
  if st.buf = [] then pure st else do
    let t ← newNode { mkText st.buf with doc := d }
    let st ← snlPush st t
    pure { st with buf := [] }

/-- `stringToNodeList` (/repo/document.go:322-491). `d` is the receiver, `fuel` bounds loop steps plus recursion depth. The
predefined-entity branch is kept although no declared entity can have that type. -/
def stringToNodeList (d : Option Nat) : Nat → Bytes → HM (Option Nat)
  | 0, _ => M.diverge
  | fuel + 1, value => loop fuel (decodeRunes value) {}
where
  /-- the main loop over the runes still to be read. -/
  loop : Nat → List Nat → SNL → HM (Option Nat)
  | 0, _, _ => M.diverge
  | _ + 1, [], st => do
    if st.buf = [] then pure st.ret else
      let t ← newNode { mkText st.buf with doc := d }
      match st.last with
      | none => pure (some t)
      | some l =>
        let _ ← M.attempt (nodeAddSibling l t)
        pure st.ret
  | fuel + 1, c :: t, st =>
    if c ≠ 38 then loop fuel t { st with buf := st.buf ++ encodeRune c }
    else match t with
      | [] => M.raw .eof
      | 35 :: t2 =>
        match t2 with
        | [] => M.raw .eof
        | x :: t3 =>
          match (if x = 120 then snlDigits true 0 t3 else snlDigits false 0 (x :: t3)) with
          | .error e => M.fail e
          | .ok (v, rst) => loop fuel rst (if v ≠ 0 then { st with buf := st.buf ++ writeRune32 v } else st)
      | _ =>
        match snlName t with
        | none => M.raw .mEntityUnterminated
        | some (nm, rst) => do
          let val := encodeRunes nm
          -- nil receiver: d.intSubset dereferences nil
          let dd ← M.deref d
          let h ← M.get
          let ent := docGetEntity h dd val
          let isPre := match ent with | some e => (h.at' e).entType == 6 | none => false
          if isPre then
            match ent with
            | some e => loop fuel rst { st with buf := st.buf ++ (h.at' e).content }
            | none => M.panic
          else
            let st ← snlFlush d st
            let n ← createReference dd val
            match ent with
            | some e =>
              let h ← M.get
              if (h.at' e).first = none then
                let txt ← content n
                let kids ← stringToNodeList d fuel txt
                updNode e (fun x => { x with first := kids })
                let h ← M.get
                match chain h (h.size + 1) kids with
                | none => M.diverge
                | some l => l.forM (fun k => updNode k (fun x => { x with parent := some e }))
              else pure ()
            | none => pure ()
            let st ← snlPush st n
            loop fuel rst st

/-- `CreateAttribute` (/repo/document.go:135-162). The loop sets the parent of each value node and clears `lastChild` of
the last one. -/
def createAttribute (d : Option Nat) (fuel : Nat) (name value : Bytes) (ns : Option (Bytes × Bytes)) : HM Nat := do
  let a ← newNode (mkAttr name ns)
  if value = [] then pure a else
    let kids ← stringToNodeList d fuel value
    updNode a (fun x => { x with first := kids })
    let h ← M.get
    match chain h (h.size + 1) kids with
    | none => M.diverge
    | some l =>
      l.forM (fun k => do
        updNode k (fun x => { x with parent := some a })
        let x ← node k
        if x.next = none then updNode k (fun x => { x with last := none }) else pure ())
      pure a

/-- the duplicate check of `SetAttribute`: names along the property chain (/repo/element.go:109-116). -/
def setAttrScan (h : Heap) (name : Bytes) : List Nat → Option Nat → Except Err (Option Nat)
  | [], last => .ok last
  | p :: t, _ => if (h.at' p).name = name then .error (.k .duplicateAttribute) else setAttrScan h name t (some p)

/-- `Element.SetAttribute` (/repo/element.go:91-123). -/
def setAttribute (fuel : Nat) (e : Nat) (name value : Bytes) : HM Unit := do
  let x ← node e
  let a ← createAttribute x.doc fuel name value none
  let h ← M.get
  match chain h (h.size + 1) (h.at' e).props with
  | none => M.diverge
  | some [] => updNode e (fun x => { x with props := some a })
  | some l =>
    match setAttrScan h name l none with
    | .error er => M.fail er
    | .ok none => M.panic
    | .ok (some last) =>
      updNode last (fun x => { x with next := some a })
      updNode a (fun x => { x with prev := some last })

/-- `node.SetNamespace` (/repo/node.go:197-214). -/
def setNamespace (e : Nat) (pfx uri : Bytes) (activate : Bool) : HM Unit :=
  updNode e (fun x => if activate then { x with ns := some (pfx, uri) } else { x with nsDefs := x.nsDefs ++ [(pfx, uri)] })

/-! ### DTD -/

/-- `CreateInternalSubset` on a non-nil document (/repo/document.go:191-219). -/
def createInternalSubset (d : Nat) (name eid sid : Bytes) : HM Nat := do
  let x ← node d
  if x.intSubset ≠ none then M.raw .mHasSubset else
    let c ← newNode { kind := .dtd, doc := some d, name := name, externalID := eid, systemID := sid }
    updNode d (fun x => { x with intSubset := some c })
    updNode c (fun x => { x with parent := some d })
    let _ ← M.attempt (nodeAddChild d c)
    pure c

/-- `DTD.AddEntity` (/repo/dtd.go:21-43): the table entry is overwritten, the node is appended. -/
def dtdAddEntity (t : Nat) (name : Bytes) (typ : Nat) (pub sys content : Bytes) : HM Nat := do
  if typ = 6 then M.raw .mPredefined
  else if typ = 1 ∨ typ = 2 ∨ typ = 3 ∨ typ = 4 ∨ typ = 5 then
    let x ← node t
    let e ← newNode { mkEntity name typ pub sys content [] with doc := x.doc }
    if typ = 4 ∨ typ = 5 then updNode t (fun x => { x with pentities := mapSet x.pentities name e })
    else updNode t (fun x => { x with entities := mapSet x.entities name e })
    let _ ← M.attempt (nodeAddChild t e)
    pure e
  else M.raw .mInvalidEntityType

/-- key of the element table (/repo/dtd.go:84,95,125,134). -/
def elemKey (name pfx : Bytes) : Bytes := name ++ 58 :: pfx

/-- key of the attribute table (/repo/dtd.go:139,149). -/
def attrKey (name pfx elem : Bytes) : Bytes := name ++ 58 :: (pfx ++ 58 :: elem)

/-- `DTD.AddElementDecl` on a non-nil DTD (/repo/dtd.go:45-122). -/
def dtdAddElementDecl (t : Nat) (name : Bytes) (typ : Nat) (ec : EC) : HM Nat := do
  if typ = 1 ∨ typ = 2 then
    if ec ≠ .nil then M.raw .mContentNil else pure ()
  else if typ = 3 ∨ typ = 4 then
    if ec = .nil then M.raw .mContentNonNil else pure ()
  else M.raw .mBadContent
  let pfx := (splitColon name).1
  let loc := (splitColon name).2
  let h ← M.get
  -- undefined declaration left over in the internal subset: its attributes move to the new one
  let oldattrs ← (match (h.at' t).doc with
    | none => pure none
    | some d =>
      match (h.at' d).intSubset with
      | none => pure none
      | some i =>
        match mapGet (h.at' i).elements (elemKey loc pfx) with
        | none => pure none
        | some dc =>
          if (h.at' dc).declType = 0 then do
            let old := (h.at' dc).declAttrs
            updNode dc (fun x => { x with declAttrs := none })
            updNode i (fun x => { x with elements := mapDel x.elements (elemKey loc pfx) })
            pure old
          else pure none)
  let h ← M.get
  let decl ← (match mapGet (h.at' t).elements (elemKey loc pfx) with
    | some dc => if (h.at' dc).declType ≠ 0 then M.raw .mRedefinition else pure dc
    | none => do
      let dc ← newNode { kind := .elemDecl, name := loc, pfx := pfx, declAttrs := oldattrs }
      updNode t (fun x => { x with elements := mapSet x.elements (elemKey loc pfx) dc })
      pure dc)
  let x ← node t
  updNode decl (fun d => { d with declType := typ, ec := copyEC ec, doc := x.doc })
  nodeAddChild t decl
  pure decl

/-- `DTD.RegisterAttribute` (/repo/dtd.go:147-156). -/
def dtdRegisterAttribute (t a : Nat) : HM Unit := do
  let h ← M.get
  let k := attrKey (h.at' a).name (h.at' a).pfx (h.at' a).elem
  match mapGet (h.at' t).attributes k with
  | some _ => M.raw .mDupAttrDecl
  | none => updNode t (fun x => { x with attributes := mapSet x.attributes k a })

/-- `addAttributeDecl` (/repo/parserctx.go:3665-3769). The "name required"/"element required" errors are assigned but then
overwritten, as in the code. -/
def addAttributeDecl (t : Option Nat) (elem name pfx : Bytes) (atype deflt : Nat) (value : Bytes) (tree : List Bytes) :
    HM Nat := do
  match t with
  | none => M.raw .mDtdRequired
  | some t =>
    if ¬ (1 ≤ atype ∧ atype ≤ 10) then M.raw .mInvalidAttrType else
      let h ← M.get
      let clash := match (h.at' t).doc with
        | none => false
        | some d =>
          if (h.at' d).extSubset = some t then
            match (h.at' d).intSubset with
            | none => false
            | some i => (h.at' i).attributes.isEmpty && (mapGet (h.at' t).attributes (attrKey name pfx elem)).isNone
          else false
      if clash then M.raw .mAlreadyDefined else
        let a ← newNode { kind := .attrDecl, atype := atype, doc := (h.at' t).doc, name := name, pfx := pfx, elem := elem,
                          defType := deflt, tree := tree, defValue := value }
        dtdRegisterAttribute t a
        let _ ← M.attempt (nodeAddChild t a)
        pure a

/-- `IsMixedElement` (/repo/document.go:289-313): the Boolean result; an error comes with `false`. The table is consulted
with the plain name although its keys end in `:prefix`. -/
def isMixedElement (h : Heap) (d : Nat) (name : Bytes) : Bool :=
  match (h.at' d).intSubset with
  | none => false
  | some i =>
    match mapGet (h.at' i).elements name with
    | none => false
    | some dc => (h.at' dc).declType ≠ 0 && (h.at' dc).declType ≠ 4

end Helium
