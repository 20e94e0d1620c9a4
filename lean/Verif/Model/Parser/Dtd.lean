import Verif.Model.Parser.Lex
import Verif.Model.Small
/-! DTD parsing: /repo/parserctx.go:2013-3952. -/
namespace Helium
section
variable {σ : Type} (E : Env) (H : Handler σ)

/-- `parsePEReference` (/repo/parserctx.go:2232-2344). An error of `GetParameterEntity` is dropped; a found entity is not
expanded. -/
def parsePEReference : P σ Unit := do
  if (← peek E) = 37 then
    adv 1
    let name ← M.wrap (parseName E)
    M.need ((← peek E) == 59) .semicolonRequired
    adv 1
    let ent ← ask H (.getParameterEntity name)
    let found := match ent with
      | .ok (some _) => true
      | _ => false
    let s ← M.get
    if !found && (s.standalone == 1 || (!s.hasExternalSubset && !s.hasPERefs)) then M.raw .mPENotFound
    else M.modify (fun s => { s with hasPERefs := true })
  else pure ()

/-! ### content models -/

/-- an occurrence mark after a name (/repo/parserctx.go:2690-2700, 2796-2806). -/
def parseOccur (e : EC) : P σ EC := do
  let c ← peek E
  match e with
  | .mk t _ n p a b =>
    if c = 63 then do adv 1; pure (.mk t 2 n p a b)
    else if c = 42 then do adv 1; pure (.mk t 3 n p a b)
    else if c = 43 then do adv 1; pure (.mk t 4 n p a b)
    else pure e
  | .nil => pure .nil

/-- set the occurrence of a node (nil is left alone). -/
def EC.setOcc (o : Nat) : EC → EC
  | .nil => .nil
  | .mk t _ n p a b => .mk t o n p a b

/-- occurrence of a node; 0 for nil. -/
def EC.occ : EC → Nat
  | .nil => 0
  | .mk _ o _ _ _ _ => o

/-- `if e != nil && (e.coccur == Opt || e.coccur == Mult) { e.coccur = Once }` (/repo/parserctx.go:2837-2843). -/
def relaxOcc (e : EC) : EC := if e.occ = 2 ∨ e.occ = 3 then e.setOcc 1 else e

/-- does the normalisation below change anything (`found`, /repo/parserctx.go:2856-2868)? -/
def normFound : EC → Bool
  | .nil => false
  | .mk t _ _ _ a b =>
    if t = 4 then (a.occ == 2 || a.occ == 3) || (b.occ == 2 || b.occ == 3) || normFound b
    else false

/-- the normalisation loop `(a | b* | c?)* == (a | b | c)*` (/repo/parserctx.go:2836-2846, 2857-2866): along the `c2` chain of
`Or` nodes, make optional or repeated members plain. `relax` tells whether the node itself, as a `c2` member, must be
relaxed. -/
def normOr (relax : Bool) : EC → EC
  | .nil => .nil
  | .mk t o n p a b =>
    let o' := if relax ∧ (o = 2 ∨ o = 3) then 1 else o
    if t = 4 then .mk t o' n p (relaxOcc a) (normOr true b)
    else .mk t o' n p a b

/-- the chain of operators made so far, root first: `(ctype, c1)`; the `c2` of each is the next one. -/
def buildChain : List (Nat × EC) → EC → EC
  | [], last => last
  | (t, c1) :: rst, last => .mk t 1 [] [] c1 (buildChain rst last)

/-- Working state of `parseElementChildrenContentDeclPriv`: `first` is `retelem` before any separator was seen (nil when the first
member was a group: the inner `retelem` is shadowed), `ops` the operator chain, `last` the last member. -/
structure CS where
  first : EC
  ops : List (Nat × EC) := []
  last : EC := .nil
  sep : Nat := 0

/-- `createElementContent` (/repo/parserctx.go:2710-2744). -/
def CS.op (st : CS) (typ : Nat) : CS :=
  match st.last with
  | .nil =>
    let ret := match st.ops with
      | [] => st.first
      | ops => buildChain ops .nil
    { st with ops := [(typ, ret)] }
  | l => { st with ops := st.ops ++ [(typ, l)], last := .nil }

/-- the value of `retelem` after the loop. -/
def CS.result (st : CS) : EC :=
  match st.ops with
  | [] => st.first
  | ops => buildChain ops st.last

/-- the closing part after the loop (/repo/parserctx.go:2808-2874). With operators present, `curelem` at `+` is the last
operator; otherwise it is the first member (an element, which the normalisation leaves alone). -/
def childrenClose (st : CS) : P σ EC := do
  adv 1
  let ret := st.result
  let c ← peek E
  if c = 63 then
    adv 1
    pure (if ret.occ = 4 then ret.setOcc 3 else ret.setOcc 2)
  else if c = 42 then pure (normOr false (ret.setOcc 3))
  else if c = 43 then
    match ret with
    | .nil => M.panic -- retelem.coccur with retelem == nil
    | _ =>
      let ret' := ret.setOcc (if ret.occ = 2 then 3 else 4)
      match st.ops.getLast? with
      | none => pure ret'
      | some (t, c1) =>
        -- the last operator together with its c2
        let tail := EC.mk t 1 [] [] c1 st.last
        let found := normFound tail
        let ops' := st.ops.dropLast
        let tail' := normOr false tail
        let res := buildChain ops' tail'
        pure (res.setOcc (if found then 3 else if ret.occ = 2 then 3 else 4))
  else pure ret

mutual
/-- `parseElementChildrenContentDeclPriv` (/repo/parserctx.go:2648-2874). -/
def parseChildren : Nat → Nat → P σ EC
  | 0, _ => M.diverge
  | fuel + 1, depth => do
    if depth > 128 then M.raw .mDepth
    else
      let _ ← skipBlanks
      let st ← (do
        if (← peek E) = 40 then
          adv 1
          let _ ← skipBlanks
          let _ ← M.wrap (parseChildren fuel (depth + 1)) -- result lost: `retelem` is shadowed
          let _ ← skipBlanks
          pure { first := EC.nil : CS }
        else
          let name ← M.wrap (parseName E)
          match newElementContent name 2 with
          | .error e => M.fail (wrapErr e)
          | .ok e =>
            let e ← parseOccur E e
            pure { first := e : CS })
      let _ ← skipBlanks
      childrenLoop fuel depth st

/-- the loop over the members (/repo/parserctx.go:2746-2807). -/
def childrenLoop : Nat → Nat → CS → P σ EC
  | 0, _, _ => M.diverge
  | fuel + 1, depth, st => do
    if (← isDone) then childrenClose E st
    else
      let c ← peek E
      if c = 41 then childrenClose E st
      else if c = 44 ∨ c = 124 then
        if st.sep ≠ 0 ∧ st.sep ≠ c then M.cerr .mSeparator
        else
          adv 1
          let st := { st.op (if c = 44 then 3 else 4) with sep := c }
          let _ ← skipBlanks
          let last ← (do
            if (← peek E) = 40 then
              adv 1
              let _ ← skipBlanks
              let l ← M.wrap (parseChildren fuel (depth + 1))
              let _ ← skipBlanks
              pure l
            else
              let name ← M.wrap (parseName E)
              match newElementContent name 2 with
              | .error e => M.fail (wrapErr e)
              | .ok e => parseOccur E e)
          let _ ← skipBlanks
          childrenLoop fuel depth { st with last := last }
      else M.cerr .elementContentNotFinished
end

/-- `parseElementMixedContentDecl` (/repo/parserctx.go:2515-2619). A second `|` always fails, because it tries to create an element
content with an empty name. -/
def parseMixed : P σ EC := do
  if (← consume b!"#PCDATA") then
    let pc := EC.mk 1 1 [] [] .nil .nil
    if (← peek E) = 41 then
      adv 1
      if (← peek E) = 42 then do
        adv 1
        pure (pc.setOcc 3)
      else pure pc
    else if (← peek E) = 124 then
      adv 1
      let _ ← skipBlanks
      let elem ← M.wrap (parseName E)
      let _ ← skipBlanks
      if (← peek E) = 124 then do
        adv 1
        M.cerr .mElementName
      else
        let r ← rest
        if r.take 2 = [41, 42] then
          adv 2
          match newElementContent elem 2 with
          | .error e => M.fail (wrapErr e)
          | .ok e => pure (.mk 4 3 [] [] pc e)
        else pure (.mk 4 1 [] [] pc .nil)
    else
      let ret := if (← peek E) = 40 then pc else EC.nil
      let r ← rest
      if r.take 2 = [41, 42] then do
        adv 2
        pure (ret.setOcc 3)
      else pure ret
  else M.cerr .pcdataRequired

/-- `parseElementContentDecl` (/repo/parserctx.go:2473-2513). -/
def parseElementContentDecl : P σ (EC × Nat) := do
  M.need ((← peek E) == 40) .openParenRequired
  adv 1
  let _ ← skipBlanks
  let r ← (do
    if (← hasPrefix b!"#PCDATA") then
      let e ← M.wrap (parseMixed E)
      pure (e, 3)
    else
      let l ← rest
      let e ← M.wrap (parseChildren E (l.length + 2) 0)
      pure (e, 4))
  let _ ← skipBlanks
  pure r

/-- `parseElementDecl` (/repo/parserctx.go:2356-2471): without a content specification the type stays 0. -/
def parseElementDecl : P σ Unit := do
  if (← consume b!"<!ELEMENT") then
    needBlanks E
    let name ← M.wrap (parseName E)
    needBlanks E
    let ct ← (do
      if (← consume b!"EMPTY") then pure (EC.nil, 1)
      else if (← consume b!"ANY") then pure (EC.nil, 2)
      else if (← peek E) = 40 then M.wrap (parseElementContentDecl E)
      else pure (EC.nil, 0))
    let _ ← skipBlanks
    M.need ((← peek E) == 62) .gtRequired
    adv 1
    cb H (.elementDecl name ct.2 ct.1)
  else M.cerr .invalidElementDecl

/-! ### entities -/

/-- digits of `parseStringCharRef` (/repo/parserctx.go:4437-4452): running off the end is an index panic. -/
def strCharRefLoop {S : Type} (hex : Bool) : Nat → Bytes → M S (Nat × Bytes)
  | _, [] => M.panic
  | v, c :: t =>
    if c = 59 then pure (v, t)
    else match (if hex then accHex v c else accDec v c) with
      | none => M.raw .mCharRef
      | some v' => if v' < 2 ^ 31 ∧ v' > 0x10FFFF then M.raw .mCharRange else strCharRefLoop hex v' t

/-- `parseStringCharRef` (/repo/parserctx.go:4409-4463): rune and rest of the string. -/
def parseStringCharRef {S : Type} (s : Bytes) : M S (Nat × Bytes) :=
  match s with
  | 38 :: 35 :: t =>
    match t with
    | [] => M.panic
    | x :: t' => do
      let r ← (if x = 120 then strCharRefLoop true 0 t' else strCharRefLoop false 0 (x :: t'))
      if isChar r.1 then pure r else M.raw .mCharRange
  | _ => M.raw .mInvalidRef

/-- `decodeEntities(literal, SubstitutePERef)` (/repo/parserctx.go:2921-2981). `parseStringPEReference` hands the `%` itself to
`parseStringName` (4677-4690), which rejects it, so a `%` always ends in an error. -/
def decodePE {S : Type} : Nat → Bytes → M S Bytes
  | 0, _ => M.diverge
  | _ + 1, [] => pure []
  | fuel + 1, c :: t =>
    if c = 38 ∧ t.head? = some 35 then do
      let r ← parseStringCharRef (c :: t)
      let rst ← decodePE fuel r.2
      pure (encodeRune r.1 ++ rst)
    else if c = 37 then M.raw .mNameStart
    else do
      let rst ← decodePE fuel t
      pure (c :: rst)

/-- `parseEntityValueInternal` (/repo/parserctx.go:2871-2906). -/
def parseEntityValueInternal (qch : Nat) : P σ Bytes := do
  let r ← rest
  let l := r.takeWhile (fun c => isChar c && c != qch)
  adv l.length
  pure (encodeRunes l)

/-- `parseEntityValue` (/repo/parserctx.go:2992-3017), called at a quote: literal and value. A missing closing quote is not
reported. -/
def parseEntityValue : P σ (Bytes × Bytes) := do
  let q ← peek E
  adv 1
  let lit ← parseEntityValueInternal q
  if (← peek E) = q then adv 1 else pure ()
  let v ← M.wrap (decodePE (lit.length + 1) lit)
  pure (lit, v)

/-- `parseExternalID` is a stub that consumes nothing (/repo/parserctx.go:3936-3942). -/
def parseExternalID : P σ (Bytes × Bytes) := pure ([], [])

/-- `curent.SetOrig(literal)` (/repo/parserctx.go:3258-3260); the package-level predefined entities are not modelled as mutable. -/
def setOrig (e : Except Err (Option ERef)) (lit : Bytes) : P σ Unit :=
  match e with
  | .ok (some (.ptr i)) => liftH (updNode i (fun x => { x with orig := lit }))
  | _ => pure ()

/-- `parseEntityDecl` (/repo/parserctx.go:3034-3263). Since `parseExternalID` yields no URI, the branches for a non-empty URI are
unreachable and left out. -/
def parseEntityDecl : P σ Unit := do
  if (← consume b!"<!ENTITY") then
    M.need (← skipBlanks) .spaceRequired
    let isParam ← (do
      if (← peek E) = 37 then
        adv 1
        M.need (← skipBlanks) .spaceRequired
        pure true
      else pure false)
    let name ← M.wrap (parseName E)
    if (indexByte name 58).isSome then M.cerr .mColonEntity
    else
      M.need (← skipBlanks) .spaceRequired
      let c ← peek E
      let lit ← (do
        if c = 34 ∨ c = 39 then
          match (← M.attempt (parseEntityValue E)) with
          | .error _ => pure []
          | .ok (lit, v) =>
            cb H (.entityDecl name (if isParam then 4 else 1) [] [] v)
            pure lit
        else
          let x ← M.orElse parseExternalID .valueRequired
          if isParam then pure x.1
          else
            let c ← peek E
            M.need (c == 62 || isBlank c) .spaceRequired
            let _ ← skipBlanks
            if (← consume b!"NDATA") then
              M.need (← skipBlanks) .spaceRequired
              let nd ← M.wrap (parseName E)
              cb H (.entityDecl name 5 x.1 x.2 nd)
            else cb H (.entityDecl name 5 x.1 x.2 [])
            pure x.1)
      let _ ← skipBlanks
      M.need ((← peek E) == 62) .mEntityNotTerminated
      adv 1
      let cur ← ask H (if isParam then .getParameterEntity name else .getEntity name)
      setOrig cur lit
  else M.cerr .mEntityNotStarted

/-! ### attribute lists -/

/-- loop of `parseNotationType` (/repo/parserctx.go:3293-3313); the duplicate table is never filled. -/
def notationLoop : Nat → List Bytes → P σ (List Bytes)
  | 0, _ => M.diverge
  | fuel + 1, enum => do
    let name ← M.orElse (parseName E) .notationNameRequired
    let enum := enum ++ [name]
    let _ ← skipBlanks
    if (← peek E) = 124 then
      adv 1
      let _ ← skipBlanks
      notationLoop fuel enum
    else pure enum

/-- `parseNotationType` (/repo/parserctx.go:3278-3321). -/
def parseNotationType : P σ (List Bytes) := do
  M.need ((← peek E) == 40) .notationNotStarted
  adv 1
  let _ ← skipBlanks
  let r ← rest
  let enum ← notationLoop E (r.length + 1) []
  M.need ((← peek E) == 41) .notationNotFinished
  adv 1
  pure enum

/-- loop of `parseEnumerationType` (/repo/parserctx.go:3340-3360). -/
def enumLoop : Nat → List Bytes → P σ (List Bytes)
  | 0, _ => M.diverge
  | fuel + 1, enum => do
    let name ← M.orElse (parseNmtoken E) .nmtokenRequired
    let enum := enum ++ [name]
    let _ ← skipBlanks
    if (← peek E) = 124 then
      adv 1
      let _ ← skipBlanks
      enumLoop fuel enum
    else pure enum

/-- `parseEnumerationType` (/repo/parserctx.go:3323-3368). -/
def parseEnumerationType : P σ (List Bytes) := do
  M.need ((← peek E) == 40) .attrListNotStarted
  adv 1
  let _ ← skipBlanks
  let r ← rest
  let enum ← enumLoop E (r.length + 1) []
  M.need ((← peek E) == 41) .attrListNotFinished
  adv 1
  pure enum

/-- `parseAttributeType` and `parseEnumeratedType` (/repo/parserctx.go:3378-3410, 3449-3489). -/
def parseAttributeType : P σ (Nat × List Bytes) := do
  if (← consume b!"CDATA") then pure (1, [])
  else if (← consume b!"IDREFS") then pure (4, [])
  else if (← consume b!"IDREF") then pure (3, [])
  else if (← consume b!"ID") then pure (2, [])
  else if (← consume b!"ENTITY") then pure (5, [])
  else if (← consume b!"ENTITIES") then pure (6, [])
  else if (← consume b!"NMTOKENS") then pure (8, [])
  else if (← consume b!"NMTOKEN") then pure (7, [])
  else if (← consume b!"NOTATION") then
    needBlanks E
    let l ← M.wrap (parseNotationType E)
    pure (10, l)
  else
    let l ← M.wrap (parseEnumerationType E)
    pure (9, l)

/-- `parseDefaultDecl` (/repo/parserctx.go:3511-3557): 1 none, 2 required, 3 implied, 4 fixed. -/
def parseDefaultDecl : P σ (Nat × Bytes) := do
  if (← consume b!"#REQUIRED") then pure (2, [])
  else if (← consume b!"#IMPLIED") then pure (3, [])
  else
    let t ← (do
      if (← consume b!"#FIXED") then
        needBlanks E
        pure 4
      else pure 1)
    let v ← M.wrap (parseQuotedText E (fun q => parseAttributeValueInternal E H q false))
    pure (t, v.1)

/-- `nsTab.Lookup` (/repo/stack.go:42-48): the URI bound to a prefix, or "". -/
def nsLookup (ns : List (Bytes × Bytes)) (p : Bytes) : Bytes := ((uniqueLookup ns p).map (·.2)).getD []

/-- `addAttributeDefault` (/repo/parserctx.go:3771-3815). `fuel` bounds `stringToNodeList`; a failure to build the attribute
leaves an (empty) table entry for the element. -/
def addAttributeDefault (fuel : Nat) (elem attr value : Bytes) : P σ Unit := do
  let s ← M.get
  match mapGet s.attsSpecial (specialKey elem attr) with
  | some _ => pure ()
  | none =>
    M.modify (fun s => { s with attsDefault :=
      (match mapGet s.attsDefault elem with
        | some _ => s.attsDefault
        | none => mapSet s.attsDefault elem []) })
    let pl := splitColon attr
    let s ← M.get
    match (← M.attempt (liftH (createAttribute s.hc.doc fuel pl.2 value (some (pl.1, nsLookup s.ns pl.1))))) with
    | .error _ => pure ()
    | .ok a =>
      liftH (updNode a (fun x => { x with isDefault := true }))
      M.modify (fun s =>
        { s with attsDefault := mapSet s.attsDefault elem (mapSet ((mapGet s.attsDefault elem).getD []) attr a) })

/-- loop of `parseAttributeListDecl` (/repo/parserctx.go:3852-3925). -/
def attlistLoop (snl : Nat) (elem : Bytes) : Nat → P σ Unit
  | 0 => M.diverge
  | fuel + 1 => do
    if (← peek E) = 62 then pure ()
    else
      let attr ← M.orElse (parseName E) .attributeNameRequired
      needBlanks E
      let te ← M.wrap (parseAttributeType E)
      needBlanks E
      let dv ← M.wrap (parseDefaultDecl E H)
      let v ← (if te.1 ≠ 1 then attrNormalizeSpace dv.2 else pure dv.2)
      if (← peek E) ≠ 62 then needBlanks E else pure ()
      cb H (.attributeDecl elem attr te.1 dv.1 v te.2)
      if v ≠ [] ∧ dv.1 ≠ 3 ∧ dv.1 ≠ 2 then addAttributeDefault snl elem attr v else pure ()
      M.modify (fun s => { s with attsSpecial := mapSet s.attsSpecial (specialKey elem attr) te.1 })
      if (← peek E) = 62 then adv 1
      else attlistLoop snl elem fuel

/-- `parseAttributeListDecl` (/repo/parserctx.go:3826-3927). -/
def parseAttributeListDecl (snl : Nat) : P σ Unit := do
  if (← consume b!"<!ATTLIST") then
    needBlanks E
    let elem ← M.wrap (parseName E)
    let _ ← skipBlanks
    let r ← rest
    attlistLoop E H snl elem (r.length + 1)
  else pure ()

/-! ### the internal subset -/

/-- `parseMarkupDecl` (/repo/parserctx.go:2137-2208); `parseNotationDecl` is a stub (3929-3934) and `external` is false. -/
def parseMarkupDecl (snl : Nat) : P σ Unit := do
  let c1 ← peekN E 1
  let c2 ← peekN E 2
  let c3 ← peekN E 3
  let c4 ← peekN E 4
  if c1 = 60 ∧ c2 = 63 then parsePI E H
  else
    if c1 = 60 ∧ c2 = 33 then
      if c3 = 69 ∧ c4 = 76 then M.wrap (parseElementDecl E H)
      else if c3 = 69 ∧ c4 = 78 then M.wrap (parseEntityDecl E H)
      else if c3 = 65 then M.wrap (parseAttributeListDecl E H snl)
      else if c3 = 45 then M.wrap (parseComment H)
      else pure ()
    else pure ()
    M.wrap (parsePEReference E H)

/-- loop of `parseInternalSubset` (/repo/parserctx.go:2091-2100). An iteration that consumes nothing makes no callback and changes
nothing, so the loop then never ends. -/
def internalSubsetLoop (snl : Nat) : Nat → P σ Unit
  | 0 => M.diverge
  | fuel + 1 => do
    if (← isDone) then pure ()
    else if (← peek E) = 93 then pure ()
    else
      let _ ← skipBlanks
      M.wrap (parseMarkupDecl E H snl)
      M.wrap (parsePEReference E H)
      internalSubsetLoop snl fuel

/-- `parseInternalSubset` (/repo/parserctx.go:2076-2116), called at `[`. -/
def parseInternalSubset (snl : Nat) : P σ Unit := do
  if (← peek E) = 91 then
    adv 1
    let r ← rest
    internalSubsetLoop E H snl (r.length + 1)
    if (← peek E) = 93 then
      adv 1
      let _ ← skipBlanks
      pure ()
    else pure ()
  else pure ()
  M.need ((← peek E) == 62) .docTypeNotFinished
  adv 1

/-- `parseDocTypeDecl` (/repo/parserctx.go:2013-2074). -/
def parseDocTypeDecl : P σ Unit := do
  if (← consume b!"<!DOCTYPE") then
    let _ ← skipBlanks
    let name ← M.orElse (parseName E) .docTypeNameRequired
    M.modify (fun s => { s with intSubName := name })
    let _ ← skipBlanks
    let x ← M.wrap parseExternalID
    M.modify (fun s =>
      { s with hasExternalSubset := (s.hasExternalSubset || x.1 != [] || x.2 != []), extSubURI := x.1, extSubSystem := x.2 })
    let _ ← skipBlanks
    cb H (.internalSubset name x.2 x.1)
    let c ← peek E
    if c = 91 then pure ()
    else
      M.need (c == 62) .docTypeNotFinished
      adv 1
  else M.cerr .invalidDTD

end
end Helium
