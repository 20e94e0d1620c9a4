import Verif.Model.Heap
import Verif.Model.Encoding
/-!
Parameters of the model (external code), the SAX callback interface and the parser state.
-/
namespace Helium

/-- External code the parser depends on, with the assumptions made about it.
* `eof`/`beof`: what `PeekN` of strcursor's rune/byte cursor answers past the end of input;
* `isLetter`, `isDigit`, `isExtender`: Go's `unicode` tables (/repo/parserctx.go:1614-1640,1717-1725,1794-1803);
* `decode`: golang.org/x/text decoders, applied to the rest of the input (/repo/parserctx.go:364);
* `urlOk`: `url.Parse` succeeded (/repo/parserctx.go:776);
* `order`: iteration order of a Go map (/repo/parserctx.go:829). -/
structure Env where
  eof : Nat
  beof : Nat
  isLetter : Nat → Bool
  isDigit : Nat → Bool
  isExtender : Nat → Bool
  decode : Charset → Bytes → List Nat
  urlOk : Bytes → Bool
  order : List Nat → List Nat
  eof_spec : eof = 0 ∨ eof = 0xFFFD
  beof_spec : beof = 0 ∨ beof = 0xFFFD
  letter_ascii : ∀ c, c < 128 → isLetter c = ((decide (65 ≤ c) && decide (c ≤ 90)) || (decide (97 ≤ c) && decide (c ≤ 122)))
  digit_ascii : ∀ c, c < 128 → isDigit c = (decide (48 ≤ c) && decide (c ≤ 57))
  extender_ascii : ∀ c, c < 128 → isExtender c = false
  letter_scalar : ∀ c, isLetter c = true → isScalar c ∧ c ≠ 0xFFFD
  /-- the noncharacters U+FFFE and U+FFFF are not letters. -/
  letter_char : ∀ c, isLetter c = true → c ≠ 0xFFFE ∧ c ≠ 0xFFFF
  /-- nor are they digits. -/
  digit_char : ∀ c, isDigit c = true → c ≠ 0xFFFE ∧ c ≠ 0xFFFF
  digit_scalar : ∀ c, isDigit c = true → isScalar c ∧ c ≠ 0xFFFD
  extender_scalar : ∀ c, isExtender c = true → isScalar c ∧ c ≠ 0xFFFD
  decode_utf8 : ∀ rs : List Nat, (∀ r ∈ rs, isScalar r) → decode .utf8 (encodeRunes rs) = rs
  order_perm : ∀ l, (order l).Perm l

/-- An attribute handed to `StartElementNS`: an `*attrData` (/repo/parserctx.go:19-37) or a default `*Attribute`
(/repo/parserctx.go:826-832), the latter by pointer. -/
inductive AttrD
  | parsed (pfx loc value : Bytes)
  | dflt (ptr : Nat)
  deriving DecidableEq, Repr

/-- The five predefined entities (/repo/interface.go:335-341). -/
inductive Predef | lt | gt | amp | apos | quot
  deriving DecidableEq, Repr

/-- content of a predefined entity (/repo/interface.go:335-341). -/
def Predef.content : Predef → Bytes
  | .lt => [60] | .gt => [62] | .amp => [38] | .apos => [39] | .quot => [34]

/-- name of a predefined entity (/repo/interface.go:335-341). -/
def Predef.name : Predef → Bytes
  | .lt => b!"lt" | .gt => b!"gt" | .amp => b!"amp" | .apos => b!"apos" | .quot => b!"quot"

/-- `resolvePredefinedEntity` (/repo/entity.go:5-20). -/
def resolvePredef (name : Bytes) : Option Predef :=
  if name = b!"lt" then some .lt else if name = b!"gt" then some .gt else if name = b!"amp" then some .amp
  else if name = b!"apos" then some .apos else if name = b!"quot" then some .quot else none

/-- An `*Entity`: one of the package-level predefined ones, or a heap node. -/
inductive ERef
  | pre (p : Predef)
  | ptr (i : Nat)
  deriving DecidableEq, Repr

/-- SAX callbacks the parser makes (/repo/sax/interface.go), with their arguments. -/
inductive Ev
  | setDocumentLocator
  | startDocument
  | endDocument
  | pi (target data : Bytes)
  | startElement (loc pfx uri : Bytes) (ns : List (Option (Bytes × Bytes))) (attrs : List AttrD)
  | endElement (loc pfx uri : Bytes)
  | characters (data : Bytes)
  | cdata (data : Bytes)
  | ignorable (data : Bytes)
  | comment (data : Bytes)
  | internalSubset (name eid uri : Bytes)
  | externalSubset (name eid uri : Bytes)
  | getEntity (name : Bytes)
  | getParameterEntity (name : Bytes)
  | attributeDecl (elem attr : Bytes) (typ deflt : Nat) (value : Bytes) (enum : List Bytes)
  | elementDecl (name : Bytes) (typ : Nat) (content : EC)
  | reference (name : Bytes)
  | entityDecl (name : Bytes) (typ : Nat) (pub sys notation' : Bytes)
  deriving DecidableEq, Repr

/-- What a callback can do: return nil (with an entity for the two lookups), `sax.ErrHandlerUnspecified`, another error,
panic, or never return. Handlers returning both an entity and an error are not modelled. -/
inductive HOut
  | ok
  | ent (e : Option ERef)
  | unspecified
  | err (e : Err)
  | panic
  | diverge
  deriving DecidableEq, Repr

/-- The part of `parserCtx` a handler can read but not write (`sax.Context`; TreeBuilder reads version, encoding, standalone,
inSubset: /repo/tree.go:33,58,299). -/
structure HV where
  version : Bytes
  encoding : Bytes
  standalone : Int
  inSubset : Nat

/-- What a handler can change: its own state, the heap, and `ctx.doc`/`ctx.elem`. -/
structure HC (σ : Type) where
  usr : σ
  heap : Heap
  doc : Option Nat
  elem : Option Nat

/-- A SAX2 handler. -/
def Handler (σ : Type) := HV → Ev → HC σ → HOut × HC σ

/-- what the parser remembers of an element on `nodeTab`: the `*Element` made by `parseStartTag`
(/repo/parserctx.go:721,842-844) never gets into the tree; only its names are read. -/
structure EInfo where
  loc : Bytes
  pfx : Bytes
  uri : Bytes
  deriving DecidableEq, Repr

/-- `Element.Name()` of such an element (/repo/node.go:230-235). -/
def EInfo.name (e : EInfo) : Bytes := if e.pfx ≠ [] then e.pfx ++ 58 :: e.loc else e.loc

/-- Parser state (/repo/parser_interface.go:108-150). `cur` is the input not yet consumed (bytes before
`switchEncoding`, runes after); `trace` is a ghost record of all callbacks made and what
they returned, oldest first. Fields never read or never
changed (`options`, `pedantic`, `replaceEntities`, `loadsubset`, `space`, `external`, `keepBlanks`...) are constants of the
model. -/
structure St (σ : Type) where
  cur : List Nat
  hc : HC σ
  trace : List (Ev × HOut)
  ns : List (Bytes × Bytes)
  nodes : List EInfo
  version : Bytes
  encoding : Bytes
  detected : Bytes
  standalone : Int
  inSubset : Nat
  hasExternalSubset : Bool
  hasPERefs : Bool
  intSubName : Bytes
  extSubSystem : Bytes
  extSubURI : Bytes
  attsSpecial : List (Bytes × Nat)
  attsDefault : List (Bytes × List (Bytes × Nat))
  depth : Nat

/-- parser computations. -/
abbrev P (σ : Type) := M (St σ)

section
variable {σ : Type}

/-- the read-only view given to handlers. -/
def St.view (s : St σ) : HV := ⟨s.version, s.encoding, s.standalone, s.inSubset⟩

/-- run a callback and record it. -/
def callback (H : Handler σ) (ev : Ev) : M (St σ) HOut := fun s =>
  let r := H s.view ev s.hc
  .ok r.1 { s with hc := r.2, trace := s.trace ++ [(ev, r.1)] }

/-- `switch err := s.X(...); err { case nil, sax.ErrHandlerUnspecified: default: return ctx.error(err) }`. -/
def cb (H : Handler σ) (ev : Ev) : P σ Unit := do
  match (← callback H ev) with
  | .ok | .ent _ | .unspecified => pure ()
  | .err e => M.fail (wrapErr e)
  | .panic => M.panic
  | .diverge => M.diverge

/-- the same with `return err` (/repo/parserctx.go:4214-4220). -/
def cbRaw (H : Handler σ) (ev : Ev) : P σ Unit := do
  match (← callback H ev) with
  | .ok | .ent _ | .unspecified => pure ()
  | .err e => M.fail e
  | .panic => M.panic
  | .diverge => M.diverge

/-- `ent, err := s.GetEntity(...)`: an error is a value, nil entity is `none`. -/
def ask (H : Handler σ) (ev : Ev) : P σ (Except Err (Option ERef)) := do
  match (← callback H ev) with
  | .ok => pure (.ok none)
  | .ent e => pure (.ok e)
  | .unspecified => pure (.error (.k .handlerUnspecified))
  | .err e => pure (.error e)
  | .panic => M.panic
  | .diverge => M.diverge

/-- run a DOM computation inside the parser. -/
def liftH {α : Type} (p : HM α) : P σ α := fun s =>
  match p s.hc.heap with
  | .ok a h => .ok a { s with hc := { s.hc with heap := h } }
  | .err e h => .err e { s with hc := { s.hc with heap := h } }
  | .panic => .panic
  | .diverge => .diverge

/-! ### cursor operations (github.com/lestrrat-go/strcursor) -/

/-- `cur.Advance(n)`. -/
def adv (n : Nat) : P σ Unit := M.modify (fun s => { s with cur := s.cur.drop n })

/-- `cur.PeekN(n)` of the rune cursor. -/
def peekN (E : Env) (n : Nat) : P σ Nat := fun s => .ok (s.cur.getD (n - 1) E.eof) s

/-- `cur.Peek()` of the rune cursor. -/
def peek (E : Env) : P σ Nat := peekN E 1

/-- `cur.Done()`. -/
def isDone : P σ Bool := fun s => .ok s.cur.isEmpty s

/-- `cur.HasPrefixString(lit)`. -/
def hasPrefix (lit : List Nat) : P σ Bool := fun s => .ok (lit.isPrefixOf s.cur) s

/-- `cur.ConsumeString(lit)`: skip `lit` if it is next. -/
def consume (lit : List Nat) : P σ Bool := fun s =>
  if lit.isPrefixOf s.cur then .ok true { s with cur := s.cur.drop lit.length } else .ok false s

/-- the input not yet consumed (used by the scanning loops, which look ahead with `PeekN(i+1)` before one `Advance`). -/
def rest : P σ (List Nat) := fun s => .ok s.cur s

end
end Helium
