import Verif.Model.Parser.Dtd
/-! Code that `Model/Parser` leaves out because it has no effect on any run of the parser: parameter entity references between tokens and the
expansion of references in strings. It is modelled here in full, and C70 (`Props/Strings`) shows that leaving it out was right. -/
namespace Helium

/-- `parserState` (/repo/parser_interface.go:10-31). -/
inductive PState
  | eof | start | pi | content | prologue | epilogue | cdata | dtd | entityDecl | attributeValue | comment | startTag | endTag
  | systemLiteral | publicLiteral | entityValue | ignore | misc
  deriving DecidableEq, Repr

/-- what `handlePEReference` does with a `%` in each state (/repo/parserctx.go:4997-5045): nothing, an error, or read on. -/
inductive PEAction
  | nothing | error | goOn
  deriving DecidableEq, Repr

section
variable {σ : Type} (E : Env) (H : Handler σ)

/-- the `switch` of `handlePEReference` (/repo/parserctx.go:4997-5045); `c2` is the character after the `%`. -/
def peAction (st : PState) (external : Bool) (inputs c2 : Nat) : PEAction :=
  match st with
  | .cdata | .comment | .startTag | .endTag | .entityDecl | .content | .attributeValue | .pi | .systemLiteral | .publicLiteral
  | .entityValue | .ignore => .nothing
  | .eof | .prologue | .start | .misc | .epilogue => .error
  | .dtd => if !external || inputs == 1 then .nothing else if isBlank c2 || c2 == 0 then .nothing else .goOn

/-- `handlePEReference` (/repo/parserctx.go:4982-5110); `external` and the number of inputs are parameters. The code after the `panic` of
line 5108 is unreachable. Errors are dropped by the caller. -/
def handlePEReference (st : PState) (external : Bool) (inputs : Nat) : P σ Unit := do
  if (← peek E) = 37 then
    match peAction st external inputs (← peekN E 2) with
    | .nothing => pure ()
    | .error => M.raw .mPENotFound
    | .goOn =>
      adv 1
      let name ← parseName E
      if (← peek E) = 59 then
        adv 1
        let ent ← ask H (.getParameterEntity name)
        match ent with
        | .ok (some _) => M.panic
        | _ =>
          let s ← M.get
          if s.standalone == 1 || (!s.hasExternalSubset && !s.hasPERefs) then M.raw .mPENotFound else pure ()
      else M.raw .semicolonRequired
  else pure ()

/-- `skipBlanks` (/repo/parserctx.go:1106-1131), with the call of `handlePEReference`, whose error is dropped. -/
def skipBlanksPE (st : PState) (external : Bool) (inputs : Nat) : P σ Bool := do
  let moved ← skipBlanks
  if moved then
    let _ ← M.attempt (handlePEReference E H st external inputs)
    pure true
  else pure false

/-- loop of `parseStringName` (/repo/parserctx.go:4483-4495); the first argument bounds the number of steps. -/
def stringNameLoop {S : Type} : Nat → Bytes → Bytes → Nat → M S (Bytes × Nat)
  | 0, _, _, _ => M.diverge
  | fuel + 1, s, out, i =>
    let r := decodeRune s
    if r.1 = runeError then M.raw .mRuneDecode
    else if isNameChar E r.1 then stringNameLoop fuel (s.drop r.2) (out ++ encodeRune r.1) (i + r.2)
    else pure (out, i)

/-- `parseStringName` (/repo/parserctx.go:4465-4498): name and number of bytes. -/
def parseStringName {S : Type} (s : Bytes) : M S (Bytes × Nat) :=
  let r := decodeRune s
  if r.1 = runeError then M.raw .mRuneDecode
  else if isNameStart E r.1 then stringNameLoop E (s.length + 1) (s.drop r.2) (encodeRune r.1) r.2
  else M.raw .mNameStart

/-- `parseStringPEReference` (/repo/parserctx.go:4677-4731): the entity and the number of bytes. -/
def parseStringPEReference (s : Bytes) : P σ (Option ERef × Nat) := do
  if s.head? = some 37 then
    let nw ← parseStringName E s
    match s.drop nw.2 with
    | [] => M.panic
    | c :: _ =>
      if c = 59 then
        match (← ask H (.getParameterEntity nw.1)) with
        | .error e => M.fail e
        | .ok none =>
          let x ← M.get
          if x.standalone == 1 || (!x.hasExternalSubset && !x.hasPERefs) then M.raw .mPENotFound
          else do
            M.modify (fun s => { s with hasPERefs := true })
            pure (none, nw.2 + 1)
        | .ok (some e) =>
          let x ← M.get
          let t := e.typ x.hc.heap
          if t = 4 ∨ t = 5 then do
            M.modify (fun s => { s with hasPERefs := true })
            pure (some e, nw.2 + 1)
          else M.raw .mNotParam
      else M.raw .semicolonRequired
  else M.raw .mInvalidRef

/-- `parseStringEntityRef` (/repo/parserctx.go:4565-4675): the entity and the number of bytes. -/
def parseStringEntityRef (st : PState) (s : Bytes) : P σ (ERef × Nat) := do
  if s.head? = some 38 then
    let nw ← (do
      match (← M.attempt (parseStringName E s)) with
      | .ok x => pure x
      | .error _ => M.raw .mInvalidRef)
    match s.drop nw.2 with
    | [] => M.panic
    | c :: _ =>
      if c = 59 then
        let ent ← (do
          match (← ask H (.getEntity nw.1)) with
          | .ok e => pure e
          | .error _ =>
            match (← ctxGetEntity nw.1) with
            | none => pure none
            | some i => pure (some (.ptr i)))
        let x ← M.get
        match ent with
        | none => if x.standalone == 1 || (!x.hasExternalSubset && !x.hasPERefs) then M.raw .mNotDefined else M.panic
        | some e =>
          let t := e.typ x.hc.heap
          let c := e.content x.hc.heap
          if t = 3 then M.raw .mUnparsed
          else if st = .attributeValue ∧ t = 2 then M.raw .mAttrExternal
          else if st = .attributeValue ∧ c ≠ [] ∧ t = 6 ∧ (indexByte c 60).isSome then M.raw .mLtInEntity
          else if t = 4 ∨ t = 5 then M.raw .mParamEntity
          else pure (e, nw.2 + 1)
      else M.raw .semicolonRequired
  else M.raw .mInvalidRef

/-- `decodeEntitiesInternal` (/repo/parserctx.go:2920-2981), with the two bits of its second argument; `entityCheck` always returns nil
(/repo/parserctx.go:4957-4980). The first argument bounds the number of steps; the test of the depth is repeated in every step. -/
def decodeEntitiesInternal (st : PState) (ref pe : Bool) : Nat → Nat → Bytes → P σ Bytes
  | 0, _, _ => M.diverge
  | fuel + 1, depth, s =>
    if depth > 40 then M.raw .mEntityLoop
    else match s with
      | [] => pure []
      | c :: t =>
        if c = 38 ∧ t.head? = some 35 then do
          let r ← parseStringCharRef (c :: t)
          let rst ← decodeEntitiesInternal st ref pe fuel depth r.2
          pure (encodeRune r.1 ++ rst)
        else if c = 38 ∧ ref then do
          let ew ← parseStringEntityRef E H st (c :: t)
          let x ← M.get
          let con := ew.1.content x.hc.heap
          let rep ← (if ew.1.typ x.hc.heap = 6 then (if con = [] then M.raw .mPredefinedNoContent else pure con)
            else if con ≠ [] then decodeEntitiesInternal st ref pe fuel (depth + 1) con
            else pure (ew.1.name x.hc.heap))
          let rst ← decodeEntitiesInternal st ref pe fuel depth ((c :: t).drop ew.2)
          pure (rep ++ rst)
        else if c = 37 ∧ pe then do
          let ew ← parseStringPEReference E H (c :: t)
          match ew.1 with
          | none => M.panic -- ent.Content() on a nil interface
          | some e =>
            let x ← M.get
            let rep ← decodeEntitiesInternal st ref pe fuel (depth + 1) (e.content x.hc.heap)
            let rst ← decodeEntitiesInternal st ref pe fuel depth ((c :: t).drop ew.2)
            pure (rep ++ rst)
        else do
          let rst ← decodeEntitiesInternal st ref pe fuel depth t
          pure (c :: rst)

end
end Helium
