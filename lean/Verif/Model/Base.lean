import Verif.Model.Utf8
/-!
Result type, error values and the state monad shared by the whole model.

* An error return is a value `err e s`: the state is kept, because many callers in /repo ignore or replace errors.
* A Go panic (nil dereference, index out of range, explicit `panic`, failed type assertion) is `panic`.
* `diverge` means "has not returned": loops and recursions that are not structurally bounded carry a step budget, and a run
  of the Go code fails to terminate exactly when the model answers `diverge` for every budget. A fatal stack overflow
  (unbounded recursion) is also reported as `diverge`.
-/
namespace Helium

/-- Error identities. The named ones are the variables of /repo/parser_interface.go:35-80, /repo/interface.go:77-81,
/repo/parserctx.go:1920-1923,3957 and /repo/sax (ErrHandlerUnspecified); the ones starting with `m` stand for
ad hoc `errors.New`/`fmt.Errorf` values (their text is not modelled). -/
inductive EK
  | ampersandRequired | attrListNotFinished | attrListNotStarted | attributeNameRequired | byteCursorRequired
  | docTypeNameRequired | docTypeNotFinished | documentEnd | eof | elementContentNotFinished | emptyDocument
  | entityNotFound | equalSignRequired | gtRequired | hyphenInComment | invalidChar | invalidComment | invalidCDSect
  | invalidDocument | invalidDTD | invalidElementDecl | invalidEncodingName | invalidName | invalidPI
  | invalidVersionNum | invalidXMLDecl | ltSlashRequired | misplacedCDATAEnd | nameTooLong | nameRequired
  | nmtokenRequired | notationNameRequired | notationNotFinished | notationNotStarted | openParenRequired
  | pcdataRequired | percentRequired | prematureEOF | undeclaredEntity | semicolonRequired | spaceRequired
  | startTagRequired | valueRequired | cdataNotFinished | parseSucceeded | handlerUnspecified | unimplemented
  | nilNode | invalidOperation | duplicateAttribute | dtdDupToken
  | mEmptyDocument | mUnsupportedEncoding | mInvalidCharData | mLocalNameEmpty | mXmlPrefixWrongURI | mXmlnsRedefined
  | mXmlnsReuse | mEmptyNamespace | mInvalidURI | mDuplicateNs | mNamespaceNotFound | mEndTagExpected
  | mBlankAfterXml | mXMLDeclNotClosed | mStringNotStarted | mStringNotClosed | mInvalidStandalone | mInvalidFirstLetter
  | mNameStart | mQName | mXmlPI | mColonPI | mPENotFound | mDepth | mSeparator | mEntityLoop | mPredefinedNoContent
  | mEntityNotStarted | mColonEntity | mFragment | mEntityNotTerminated | mDtdRequired | mInvalidAttrType
  | mAlreadyDefined | mCharRef | mCharRange | mInvalidRef | mRuneDecode | mNotDefined | mUnparsed | mAttrExternal
  | mLtInEntity | mParamEntity | mNotParam | mInvalidEntityType | mEntityUnterminated | mEOFReading | mEmptyName
  | mNoSubset | mContentNil | mContentNonNil | mRedefinition | mPredefined | mDupAttrDecl | mSiblingDoc | mSiblingNil
  | mNoContext | mTextWrongPlace | mCommentWrongPlace | mXmlId | mNotInSubset | mHasSubset | mNoIntSubset
  | mBadContent | mBadDecl | mElementName | mDetect
  deriving DecidableEq, Repr

/-- A Go `error` value. `parse` is `ErrParseError{Err: e}` (/repo/parser_interface.go:90-96, position fields dropped),
`attrNotFound` is `ErrAttrNotFound{Token}` (86-88), `user n` is an error made by a caller-supplied handler. -/
inductive Err
  | k (e : EK)
  | attrNotFound (tok : Bytes)
  | user (n : Nat)
  | parse (e : Err)
  deriving DecidableEq, Repr

/-- `(*parserCtx).error`: wrap once (/repo/parserctx.go:214-227; line/column fields dropped). -/
def wrapErr : Err → Err
  | .parse e => .parse e
  | e => .parse e

/-- Outcome of a run in state space `S`. -/
inductive Out (S : Type) (α : Type)
  | ok (a : α) (s : S)
  | err (e : Err) (s : S)
  | panic
  | diverge

/-- State-passing computations with the outcomes above. -/
def M (S α : Type) := S → Out S α

namespace M
variable {S α β : Type}

@[inline] def run (p : M S α) (s : S) : Out S α := p s

def pure (a : α) : M S α := fun s => .ok a s

def bind (p : M S α) (f : α → M S β) : M S β := fun s =>
  match p s with
  | .ok a s' => f a s'
  | .err e s' => .err e s'
  | .panic => .panic
  | .diverge => .diverge

instance : Monad (M S) where
  pure := M.pure
  bind := M.bind

/-- Go `return err`. -/
def fail (e : Err) : M S α := fun s => .err e s
/-- a Go run-time panic. -/
def panic : M S α := fun _ => .panic
/-- a computation that does not return. -/
def diverge : M S α := fun _ => .diverge
def get : M S S := fun s => .ok s s
def set (s : S) : M S Unit := fun _ => .ok () s
def modify (f : S → S) : M S Unit := fun s => .ok () (f s)

/-- `return ctx.error(e)` for a named error. -/
def cerr (e : EK) : M S α := fail (.parse (.k e))

/-- `return errors.New(..)`: not wrapped. -/
def raw (e : EK) : M S α := fail (.k e)

/-- `if !cond { return ctx.error(e) }`. -/
def need (c : Bool) (e : EK) : M S Unit := if c then M.pure () else cerr e

/-- `if !cond { return e }`. -/
def needRaw (c : Bool) (e : EK) : M S Unit := if c then M.pure () else raw e

/-- `if err := p(); err != nil { return ctx.error(err) }`. -/
def wrap (p : M S α) : M S α := fun s =>
  match p s with
  | .err e s' => .err (wrapErr e) s'
  | o => o

/-- `if err := p(); err != nil { return ctx.error(E) }`: the error is replaced. -/
def orElse (p : M S α) (e : EK) : M S α := fun s =>
  match p s with
  | .err _ s' => .err (.parse (.k e)) s'
  | o => o

/-- run `p` and hand its error to the caller as a value. -/
def attempt (p : M S α) : M S (Except Err α) := fun s =>
  match p s with
  | .ok a s' => .ok (.ok a) s'
  | .err e s' => .ok (.error e) s'
  | .panic => .panic
  | .diverge => .diverge

/-- nil-pointer dereference check. -/
def deref (o : Option α) : M S α := match o with
  | some a => M.pure a
  | none => M.panic

end M

/-! ### strings -/

/-- `strings.IndexByte` (/repo/dump.go:20 and others): position of the first occurrence. -/
def indexByte (s : Bytes) (b : Nat) : Option Nat := s.findIdx? (· == b)

/-- `strings.Replace(s, "\r\n", "\n", -1)` (/repo/parserctx.go:620, 1996). -/
def replaceCRLF : Bytes → Bytes
  | [] => []
  | 13 :: 10 :: t => 10 :: replaceCRLF t
  | x :: t => x :: replaceCRLF t

/-- split a name at its first colon: `prefix, local` (/repo/dtd.go:64-68, /repo/tree.go:313-320, /repo/valid.go:23-28,
/repo/parserctx.go:3787-3794). Without a colon the prefix is empty. -/
def splitColon (s : Bytes) : Bytes × Bytes :=
  match indexByte s 58 with
  | some i => (s.take i, s.drop (i + 1))
  | none => ([], s)

/-- Go map with string keys as an association list: lookup. -/
def mapGet {α : Type} (m : List (Bytes × α)) (k : Bytes) : Option α :=
  (m.find? (fun p => p.1 == k)).map (·.2)

/-- Go map assignment `m[k] = v` (overwrites in place, else appends). -/
def mapSet {α : Type} (m : List (Bytes × α)) (k : Bytes) (v : α) : List (Bytes × α) :=
  match m with
  | [] => [(k, v)]
  | (k', v') :: t => if k' = k then (k, v) :: t else (k', v') :: mapSet t k v

/-- Go `delete(m, k)`. -/
def mapDel {α : Type} (m : List (Bytes × α)) (k : Bytes) : List (Bytes × α) := m.filter (fun p => p.1 != k)

end Helium
