import Verif.Model.Parser.Lex
/-! The XML declaration (byte cursor): /repo/parserctx.go:1134-1471, and `switchEncoding`. -/
namespace Helium
section
variable {σ : Type} (E : Env)

/-- `cur.PeekN(n)` of the byte cursor. -/
def peekB (n : Nat) : P σ Nat := fun s => .ok (s.cur.getD (n - 1) E.beof) s

/-- `parseQuotedTextBytes` (/repo/parserctx.go:1321-1353). -/
def parseQuotedTextBytes (cbk : P σ Bytes) : P σ Bytes := do
  let q ← peekB E 1
  if q = 34 ∨ q = 39 then
    adv 1
    let v ← cbk
    M.needRaw ((← peekB E 1) == q) .mStringNotClosed
    adv 1
    pure v
  else M.raw .mStringNotStarted

/-- `parseNamedAttributeBytes` (/repo/parserctx.go:1251-1274). `skipBlankBytes` (/repo/parserctx.go:1133-1153) is `skipBlanks`: neither NUL
nor the sentinel is blank, and `handlePEReference` has no effect here (the byte cursor is taken to be a `strcursor.Cursor`, see DESIGN.md). -/
def parseNamedAttributeBytes (name : Bytes) (val : P σ Bytes) : P σ Bytes := do
  let _ ← skipBlanks
  if (← consume name) then
    let _ ← skipBlanks
    M.needRaw ((← peekB E 1) == 61) .equalSignRequired
    adv 1
    let _ ← skipBlanks
    parseQuotedTextBytes E val
  else M.fail (.parse (.attrNotFound name))

/-- ASCII digit. -/
def isDigitB (c : Nat) : Bool := 48 ≤ c && c ≤ 57

/-- `parseVersionNum` (/repo/parserctx.go:1286-1317): the runes written are ASCII digits and a dot. -/
def parseVersionNum : P σ Bytes := do
  let r ← rest
  if isDigitB (r.getD 0 E.beof) ∧ r.getD 1 E.beof = 46 ∧ isDigitB (r.getD 2 E.beof) then
    let n := 3 + ((r.drop 3).takeWhile isDigitB).length
    adv n
    pure (r.take n)
  else M.raw .invalidVersionNum

/-- ASCII letter. -/
def isAlphaB (c : Nat) : Bool := (97 ≤ c && c ≤ 122) || (65 ≤ c && c ≤ 90)

/-- loop condition of `parseEncodingName` (/repo/parserctx.go:1418-1421). -/
def encNameCh (c : Nat) : Bool := isAlphaB c || isDigitB c || c == 46 || c == 95 || c == 45

/-- `parseEncodingName` (/repo/parserctx.go:1399-1430). -/
def parseEncodingName : P σ Bytes := do
  match (← rest) with
  | [] => M.cerr .invalidEncodingName
  | c :: t =>
    if isAlphaB c then
      let r := nameScan encNameCh E.beof 2 t
      adv r.2
      pure (encodeRunes (c :: r.1))
    else M.cerr .invalidEncodingName

/-- `parseStandaloneDeclValue` (/repo/parserctx.go:1453-1471). -/
def parseStandaloneDeclValue : P σ Bytes := do
  if (← consume b!"yes") then pure b!"yes"
  else if (← consume b!"no") then pure b!"no"
  else M.raw .mInvalidStandalone

/-- `cur.Peek() == '?' && cur.PeekN(2) == '>'`, then `Advance(2)`. -/
def closeDecl : P σ Bool := consume b!"?>"

/-- `parseXMLDecl` (/repo/parserctx.go:1157-1216). An error of `parseEncodingDecl` is always either wrapped or not an
`ErrAttrNotFound`, so it is ignored; the cursor stays where that attempt left it. -/
def parseXMLDecl : P σ Unit := do
  if (← consume b!"<?xml") then
    if (← skipBlanks) then
      let v ← M.wrap (parseNamedAttributeBytes E b!"version" (parseVersionNum E))
      M.modify (fun s => { s with version := v })
      if isBlank (← peekB E 1) then
        let enc ← M.attempt (parseNamedAttributeBytes E b!"encoding" (parseEncodingName E))
        let closed ← (match enc with
          | .ok e => do
            M.modify (fun s => { s with encoding := e })
            closeDecl
          | .error _ => pure false)
        if closed then pure ()
        else
          let sd ← parseNamedAttributeBytes E b!"standalone" parseStandaloneDeclValue
          M.modify (fun s => { s with standalone := if sd = b!"yes" then 1 else 0 })
          if (← closeDecl) then pure () else M.cerr .mXMLDeclNotClosed
      else if (← closeDecl) then pure ()
      else M.cerr .spaceRequired
    else M.raw .mBlankAfterXml
  else M.cerr .invalidXMLDecl

/-- `switchEncoding` (/repo/parserctx.go:339-371). -/
def switchEncoding : P σ Unit := do
  let s ← M.get
  let name := if s.encoding ≠ [] then s.encoding else if s.detected ≠ [] then s.detected else b!"utf8"
  match encLoad name with
  | none => M.raw .mUnsupportedEncoding
  | some c => M.modify (fun s => { s with cur := E.decode c s.cur })

end
end Helium
