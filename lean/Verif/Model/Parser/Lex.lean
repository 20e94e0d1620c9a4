import Verif.Model.Dom
/-!
Lexical layer of /repo/parserctx.go: blanks, names, quoted text, references, attribute values, comments, PIs, character data.

Loops that always consume input run on a budget of (length of the remaining input + 1) and cannot exhaust it; where a Go loop
can fail to make progress its state does not change between iterations, so exhausting that budget means it never ends.
-/
namespace Helium

/-! ### character classes -/

/-- `isBlankCh` (/repo/parserctx.go:335-337). -/
def isBlank (c : Nat) : Bool := c == 0x20 || (0x9 ≤ c && c ≤ 0xa) || c == 0xd

/-- `isChar` on an `int32` represented modulo 2^32 (/repo/parserctx.go:1908-1918). -/
def isChar (c : Nat) : Bool :=
  if c = 0xFFFD then false
  else if c < 0x100 then (0x9 ≤ c && c ≤ 0xa) || c == 0xd || 0x20 ≤ c
  else (0x100 ≤ c && c ≤ 0xd7ff) || (0xe000 ≤ c && c ≤ 0xfffd) || (0x10000 ≤ c && c ≤ 0x10ffff)

section
variable {σ : Type} (E : Env) (H : Handler σ)

/-- `isNameStartChar` (/repo/parserctx.go:1717-1719). -/
def isNameStart (c : Nat) : Bool := E.isLetter c || c == 95 || c == 58

/-- `isNameChar` (/repo/parserctx.go:1721-1725). -/
def isNameChar (c : Nat) : Bool :=
  c == 46 || c == 45 || c == 95 || c == 58 || E.isLetter c || E.isDigit c || E.isExtender c

/-- loop condition of `parseName` (/repo/parserctx.go:1625-1634). -/
def nameCh (c : Nat) : Bool :=
  !(c == 32 || c == 62 || c == 47) &&
  (E.isLetter c || E.isDigit c || c == 46 || c == 45 || c == 95 || c == 58)

/-- loop condition of `parseNCName` (/repo/parserctx.go:1802-1804). -/
def ncNameCh (c : Nat) : Bool := E.isLetter c || E.isDigit c || c == 95 || c == 45 || c == 46

/-! ### blanks -/

/-- `skipBlanks` (/repo/parserctx.go:1106-1132). `handlePEReference` (/repo/parserctx.go:4982-5140) returns at once in every parser
state that can occur (`external` is never set) and its error is dropped, so it is left out. -/
def skipBlanks : P σ Bool := fun s =>
  let r := s.cur.dropWhile isBlank
  .ok (r.length < s.cur.length) { s with cur := r }

/-- the recurring `if !isBlankCh(cur.Peek()) { return ctx.error(ErrSpaceRequired) }; ctx.skipBlanks()`. -/
def needBlanks : P σ Unit := do
  M.need (isBlank (← peek E)) .spaceRequired
  let _ ← skipBlanks
  pure ()

/-! ### names -/

/-- the scanning loop shared by `parseName` and `parseNCName` (/repo/parserctx.go:1623-1638, 1800-1808): accepted runes and
the value of `i` after the loop. A NUL (also as end-of-input sentinel) ends the loop without the `i--`. -/
def nameScan (ok : Nat → Bool) (eof : Nat) : Nat → List Nat → List Nat × Nat
  | i, [] => if eof = 0 then ([], i) else ([], i - 1)
  | i, c :: t =>
    if c = 0 then ([], i)
    else if ok c then
      let r := nameScan ok eof (i + 1) t
      (c :: r.1, r.2)
    else ([], i - 1)

/-- `parseName` (/repo/parserctx.go:1593-1647). -/
def parseName : P σ Bytes := do
  match (← rest) with
  | [] => M.cerr .mInvalidFirstLetter
  | c :: t =>
    if c = 32 ∨ c = 62 ∨ c = 47 ∨ !(E.isLetter c || c == 95 || c == 58) then M.cerr .mInvalidFirstLetter
    else
      let r := nameScan (nameCh E) E.eof 2 t
      if r.2 > 50000 then M.cerr .nameTooLong
      else
        adv r.2
        pure (encodeRunes (c :: r.1))

/-- `parseNCName` (/repo/parserctx.go:1770-1815). -/
def parseNCName : P σ Bytes := do
  match (← rest) with
  | [] => M.cerr .mNameStart
  | c :: t =>
    if c = 32 ∨ c = 62 ∨ c = 47 ∨ !(isNameStart E c) then M.cerr .mNameStart
    else
      let r := nameScan (ncNameCh E) E.eof 2 t
      if r.2 > 50000 then M.cerr .nameTooLong
      else
        adv r.2
        pure (encodeRunes (c :: r.1))

/-- `parseNmtoken` (/repo/parserctx.go:1736-1758): the loop variable `c` is never updated, so the loop either stops at once or
runs forever. -/
def parseNmtoken : P σ Bytes := do
  let c ← peek E
  if c ≠ 0 ∧ isNameChar E c then M.diverge else pure []

/-- `parseQName` (/repo/parserctx.go:1658-1715): local name and prefix. -/
def parseQName : P σ (Bytes × Bytes) := do
  match (← M.attempt (parseNCName E)) with
  | .error oerr =>
    if (← peek E) ≠ 58 then
      match (← M.attempt (parseName E)) with
      | .error _ => M.cerr .mQName
      | .ok v => pure (v, [])
    else M.fail (wrapErr oerr)
  | .ok v =>
    if (← peek E) ≠ 58 then pure (v, [])
    else
      adv 1
      match (← M.attempt (parseNCName E)) with
      | .ok l => pure (l, v)
      | .error _ =>
        match (← M.attempt (parseNmtoken E)) with
        | .ok l => pure (l, v)
        | .error _ =>
          let l ← M.wrap (parseName E)
          pure (l, v)

/-! ### references -/

/-- digit loop of `parseCharRef` (/repo/parserctx.go:4757-4770, 4775-4784): value, or `none` for a bad digit, and the rest. -/
def charRefLoop (hex : Bool) : Nat → List Nat → Option Nat × List Nat
  | v, [] => (some v, [])
  | v, c :: t =>
    if c = 59 then (some v, c :: t)
    else match (if hex then accHex v c else accDec v c) with
      | none => (none, c :: t)
      | some v' => charRefLoop hex v' t

/-- the part of `parseCharRef` after the opening (/repo/parserctx.go:4757-4773, 4775-4787, 4793-4799): a missing `;` at the end of
input is tolerated. -/
def charRefBody (hex : Bool) : P σ Nat := do
  let r ← rest
  let x := charRefLoop hex 0 r
  M.modify (fun s => { s with cur := x.2 })
  match x.1 with
  | none => M.raw .mCharRef
  | some v =>
    let _ ← consume [59]
    if isChar v && (v < 2 ^ 31 && v ≤ 0x10FFFF) then pure v else M.raw .invalidChar

/-- `parseCharRef` (/repo/parserctx.go:4743-4800). -/
def parseCharRef : P σ Nat := do
  if (← consume b!"&#x") then charRefBody true
  else if (← consume b!"&#") then charRefBody false
  else M.raw .mInvalidRef

/-- `getEntity` called with a name that is not predefined (/repo/parserctx.go:4504-4563): outside the subset it finds nothing;
inside it looks at `ctx.doc` (nil: panic). A lookup that fails in a standalone document clears its `standalone` field. The
error result is discarded by the caller. -/
def ctxGetEntity (name : Bytes) : P σ (Option Nat) := do
  let s ← M.get
  if s.inSubset = 0 then pure none
  else
    let d ← M.deref s.hc.doc
    match docGetEntity s.hc.heap d name with
    | some e => pure (some e)
    | none =>
      if (s.hc.heap.at' d).standalone = 1 ∧ s.inSubset ≠ 2 then
        liftH (updNode d (fun x => { x with standalone := 0 }))
        pure none
      else pure none

/-- `parseEntityRef` (/repo/parserctx.go:4827-4949). `instate` is never `psAttributeValue`. -/
def parseEntityRef : P σ ERef := do
  M.need ((← peek E) == 38) .ampersandRequired
  adv 1
  let name ← M.orElse (parseName E) .nameRequired
  M.need ((← peek E) == 59) .semicolonRequired
  adv 1
  match resolvePredef name with
  | some p => pure (.pre p)
  | none =>
    match (← ask H (.getEntity name)) with
    | .ok (some e) => pure e
    | .ok none => M.panic -- loadedEnt.(*Entity) on a nil interface
    | .error _ =>
      match (← ctxGetEntity name) with
      | none =>
        let s ← M.get
        if s.standalone = 1 ∨ (!s.hasExternalSubset && s.hasPERefs) then M.cerr .undeclaredEntity
        else
          if s.inSubset = 0 then cb H (.reference name) else pure ()
          M.panic
      | some e =>
        let s ← M.get
        let t := (s.hc.heap.at' e).entType
        if t = 3 then M.cerr .mUnparsed
        else if t = 5 then M.cerr .mParamEntity
        else pure (.ptr e)

/-- type of an entity (`EntityType()`), /repo/entity.go:47-49. -/
def ERef.typ (h : Heap) : ERef → Nat
  | .pre _ => 6
  | .ptr i => (h.at' i).entType

/-- content of an entity, /repo/entity.go:51-53. -/
def ERef.content (h : Heap) : ERef → Bytes
  | .pre p => p.content
  | .ptr i => (h.at' i).content

/-- name of an entity. -/
def ERef.name (h : Heap) : ERef → Bytes
  | .pre p => p.name
  | .ptr i => (h.at' i).name

/-! ### attribute values -/

/-- strip trailing spaces (/repo/parserctx.go:1021-1031). -/
def trimRight (s : Bytes) : Bytes := (s.reverse.dropWhile (· == 32)).reverse

/-- loop of `parseAttributeValueInternal` (/repo/parserctx.go:951-1017); `replaceEntities` is false. Returns the text, the number
of references and whether it ended in white space. -/
def attrValueLoop (qch : Nat) (normalize : Bool) : Nat → Bytes → Bool → Nat → P σ (Bytes × Nat × Bool)
  | 0, _, _, _ => M.diverge
  | fuel + 1, b, inSpace, ents => do
    let c ← peek E
    if (qch ≠ 0 ∧ c = qch) ∨ isChar c = false ∨ c = 60 then pure (b, ents, inSpace)
    else if c = 38 then
      if (← peekN E 2) = 35 then
        let r ← M.wrap parseCharRef
        attrValueLoop qch normalize fuel (b ++ if r = 38 then b!"&#38;" else encodeRune r) false (ents + 1)
      else
        let ent ← M.wrap (parseEntityRef E H)
        let s ← M.get
        let h := s.hc.heap
        let txt :=
          if ent.typ h = 6 then (if ent.content h = [38] then b!"&#38;" else ent.content h)
          else 38 :: (ent.name h ++ [59])
        attrValueLoop qch normalize fuel (b ++ txt) false (ents + 1)
    else if c = 32 ∨ c = 13 ∨ c = 10 ∨ c = 9 then do
      adv 1
      if b ≠ [] ∨ normalize = false then
        attrValueLoop qch normalize fuel (if normalize = false ∨ inSpace = false then b ++ [32] else b) true ents
      else attrValueLoop qch normalize fuel b inSpace ents
    else do
      adv 1
      attrValueLoop qch normalize fuel (b ++ encodeRune c) false ents

/-- `parseAttributeValueInternal` (/repo/parserctx.go:933-1036): value and number of references. -/
def parseAttributeValueInternal (qch : Nat) (normalize : Bool) : P σ (Bytes × Nat) := do
  let r ← rest
  let x ← attrValueLoop E H qch normalize (r.length + 1) [] false 0
  if x.2.2 ∧ normalize then
    if x.1 = [] then M.panic -- value[len(value)-1]
    else pure (trimRight x.1, x.2.1)
  else pure (x.1, x.2.1)

/-- `parseQuotedText` (/repo/parserctx.go:1355-1388). -/
def parseQuotedText {α : Type} (cbk : Nat → P σ α) : P σ α := do
  let q ← peek E
  if q = 34 ∨ q = 39 then
    adv 1
    let v ← cbk q
    M.needRaw ((← peek E) == q) .mStringNotClosed
    adv 1
    pure v
  else M.raw .mStringNotStarted

/-- `parseAttributeValue` (/repo/parserctx.go:919-930): the error of `parseQuotedText` (string not started / not closed) is
dropped; only the error captured by the callback is returned. -/
def parseAttributeValue (normalize : Bool) : P σ (Bytes × Nat) := do
  let q ← peek E
  if q = 34 ∨ q = 39 then
    adv 1
    let v ← M.attempt (parseAttributeValueInternal E H q normalize)
    if (← peek E) = q then adv 1 else pure ()
    match v with
    | .ok v => pure v
    | .error e => M.fail e
  else pure ([], 0)

/-- collapse runs of spaces (/repo/parserctx.go:3601-3614). -/
def collapseSp : Bytes → Bytes
  | [] => []
  | c :: t =>
    if c ≠ 32 then c :: collapseSp t
    else match t with
      | 32 :: _ => collapseSp t
      | _ => 32 :: collapseSp t

/-- `attrNormalizeSpace` (/repo/parserctx.go:3571-3622): panics on a non-empty string of spaces only. -/
def attrNormalizeSpace {S : Type} (s : Bytes) : M S Bytes :=
  if s = [] then pure s
  else
    let out := collapseSp (s.dropWhile (· == 32))
    match out.getLast? with
    | none => M.panic -- out[len(out)-1]
    | some c => pure (if c = 32 then out.dropLast else out)

/-- key of the table of non-CDATA attributes (/repo/parserctx.go:3643, 3651). -/
def specialKey (elem attr : Bytes) : Bytes := elem ++ 58 :: attr

/-- `parseAttribute` (/repo/parserctx.go:1038-1104): local name, prefix, value. A missing `=` is recorded in `err` and then
overwritten. -/
def parseAttribute (elemName : Bytes) : P σ (Bytes × Bytes × Bytes) := do
  let q ← M.wrap (parseQName E)
  let s ← M.get
  let normalize := match mapGet s.attsSpecial (specialKey elemName q.1) with
    | some t => t ≠ 0
    | none => false
  let _ ← skipBlanks
  adv 1
  let _ ← skipBlanks
  let v ← M.wrap (parseAttributeValue E H normalize)
  if normalize = true ∧ v.2 > 0 then
    let v' ← attrNormalizeSpace v.1
    pure (q.1, q.2, v')
  else pure (q.1, q.2, v.1)

/-! ### comments, processing instructions, character data -/

/-- loop of `parseComment` (/repo/parserctx.go:1979-1987): runes written; `none` is `ErrHyphenInComment`. -/
def commentLoop : Nat → Nat → List Nat → Option (List Nat)
  | _, _, [] => some []
  | q, r, c :: t =>
    if isChar c ∧ ¬(q = 45 ∧ r = 45 ∧ c = 62) then
      if q = 45 ∧ r = 45 then none else (commentLoop r c t).map (c :: ·)
    else some []

/-- `parseComment` (/repo/parserctx.go:1952-2011): the last two *bytes* of the buffer are dropped and one rune is skipped
whatever ended the loop. -/
def parseComment : P σ Unit := do
  if (← consume b!"<!--") then
    match (← rest) with
    | q :: r :: t =>
      M.need (isChar q) .invalidChar
      M.need (isChar r) .invalidChar
      match commentLoop q r t with
      | none => M.cerr .hyphenInComment
      | some l =>
        let buf := encodeRunes (q :: r :: l)
        adv (l.length + 3)
        cb H (.comment (replaceCRLF (buf.take (buf.length - 2))))
    | _ => M.cerr .invalidChar -- end of input: the sentinel is not a character
  else M.cerr .invalidComment

/-- `parsePITarget` (/repo/parserctx.go:1817-1843). -/
def parsePITarget : P σ Bytes := do
  let name ← M.wrap (parseName E)
  if name = b!"xml" then M.raw .mXmlPI
  else if name = b!"xml-stylesheet" ∨ name = b!"xml-model" then pure name
  else if (indexByte name 58).isSome then M.raw .mColonPI
  else pure name

/-- scanning loop of `parsePI` (/repo/parserctx.go:1551-1563): runes up to `?>`, NUL or an illegal character. -/
def piScan : List Nat → List Nat
  | [] => []
  | c :: t =>
    if c = 0 then []
    else if c = 63 ∧ t.head? = some 62 then []
    else if isChar c then c :: piScan t
    else []

/-- `parsePI` (/repo/parserctx.go:1507-1579). -/
def parsePI : P σ Unit := do
  if (← consume b!"<?") then
    let target ← M.wrap (parsePITarget E)
    if (← consume b!"?>") then cb H (.pi target [])
    else
      needBlanks E
      let r ← rest
      let l := piScan r
      adv l.length
      if (← consume b!"?>") then cb H (.pi target (encodeRunes l))
      else M.cerr .invalidPI
  else M.cerr .invalidPI

/-- result of the scanning loop of `parseCharData`. -/
inductive Scan
  | ok (l : List Nat)
  | misplaced
  | hang
  deriving DecidableEq, Repr

/-- prepend a rune to a scan result. -/
def Scan.cons (c : Nat) : Scan → Scan
  | .ok l => .ok (c :: l)
  | r => r

/-- scanning loop of `parseCharData` (/repo/parserctx.go:602-621). In CDATA mode nothing but NUL or `]]>` stops it, so with a
non-NUL end-of-input sentinel it never ends. -/
def cdScan (eof : Nat) (cdata : Bool) : List Nat → Scan
  | [] => if eof ≠ 0 ∧ cdata = true then .hang else .ok []
  | c :: t =>
    if c = 0 then .ok []
    else if cdata = false ∧ (c = 60 ∨ c = 38 ∨ isChar c = false) then .ok []
    else if c = 93 ∧ t.head? = some 93 ∧ t.tail.head? = some 62 then (if cdata then .ok [] else .misplaced)
    else (cdScan eof cdata t).cons c

/-- `areBlanks` (/repo/parserctx.go:1847-1905), `ctx.space` being 0. -/
def areBlanks (str : Bytes) : P σ Bool := do
  if (decodeRunes str).all isBlank then
    let s ← M.get
    match s.nodes.getLast? with
    | none => pure false
    | some e =>
      match s.hc.doc with
      | some d => pure (!(isMixedElement s.hc.heap d e.name))
      | none =>
        let c ← peek E
        pure (c == 60 || c == 13)
  else pure false

/-- `parseCharData` (/repo/parserctx.go:589-663); `instate == psCDATA` exactly when `cdata` is true. -/
def parseCharData (cdata : Bool) : P σ Unit := do
  match cdScan E.eof cdata (← rest) with
  | .hang => M.diverge
  | .misplaced => M.cerr .misplacedCDATAEnd
  | .ok [] => M.raw .mInvalidCharData
  | .ok l =>
    adv l.length
    let str := replaceCRLF (encodeRunes l)
    if cdata then cb H (.cdata str)
    else if (← areBlanks E str) then cb H (.ignorable str)
    else cb H (.characters str)

/-- `parseCDSect` (/repo/parserctx.go:1925-1950). -/
def parseCDSect : P σ Unit := do
  if (← consume b!"<![CDATA[") then
    M.wrap (parseCharData E H true)
    if (← consume b!"]]>") then pure () else M.cerr .cdataNotFinished
  else M.cerr .invalidCDSect

/-- loop of `parseMisc` (/repo/parserctx.go:1473-1500). -/
def parseMiscLoop : Nat → P σ Unit
  | 0 => M.diverge
  | fuel + 1 => do
    if (← isDone) then pure ()
    else if (← hasPrefix b!"<?") then
      M.wrap (parsePI E H)
      parseMiscLoop fuel
    else if (← hasPrefix b!"<!--") then
      M.wrap (parseComment H)
      parseMiscLoop fuel
    else if isBlank (← peek E) then
      let _ ← skipBlanks
      parseMiscLoop fuel
    else pure ()

/-- `parseMisc` (/repo/parserctx.go:1473-1500). -/
def parseMisc : P σ Unit := do
  let r ← rest
  parseMiscLoop E H (r.length + 1)

end
end Helium
