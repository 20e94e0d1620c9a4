import Verif.Model.Escape
import Verif.Model.Heap
/-!
The serialiser: /repo/dump.go:197-738. State is the output written so far (writes to the `io.Writer` are assumed to succeed); an
error or panic keeps what was written before it, as in the code.
-/
namespace Helium

/-- computations that write output. -/
abbrev DM := M Bytes

/-- `io.WriteString(out, s)`. -/
def emit (s : Bytes) : DM Unit := M.modify (fun o => o ++ s)

/-- `dumpDocContent` (/repo/dump.go:224-250). -/
def dumpDocContent (d : Node) : Bytes :=
  b!"<?xml version=\"" ++ (if d.version = [] then b!"1.0" else d.version) ++ [34] ++
  (if d.encoding ≠ [] then b!" encoding=\"" ++ d.encoding ++ [34] else []) ++
  (if d.standalone = 0 then b!" standalone=\"no\"" else if d.standalone = 1 then b!" standalone=\"yes\"" else []) ++
  b!"?>\n"

/-- `dumpEnumeration` (/repo/dump.go:286-296). -/
def dumpEnumeration : List Bytes → Bytes
  | [] => [41]
  | [v] => v ++ [41]
  | v :: t => v ++ b!" | " ++ dumpEnumeration t

/-- suffix for an occurrence (/repo/dump.go:381-390). -/
def occSuffix (o : Nat) : Bytes := if o = 2 then [63] else if o = 3 then [42] else if o = 4 then [43] else []

/-- `dumpElementContent` (/repo/dump.go:307-393): a nil member of a sequence or choice panics at `n.c1.ctype`. -/
def dumpElementContent (glob : Bool) : EC → DM Unit
  | .nil => pure ()
  | .mk t o n p c1 c2 => do
    if glob then emit [40] else pure ()
    if t = 1 then emit b!"#PCDATA"
    else if t = 2 then emit (if p ≠ [] then p ++ 58 :: n else n)
    else if t = 3 then
      match c1 with
      | .nil => M.panic
      | .mk t1 _ _ _ _ _ =>
        dumpElementContent (t1 == 3 || t1 == 4) c1
        emit b!" , "
        match c2 with
        | .nil => M.panic
        | .mk t2 o2 _ _ _ _ => dumpElementContent (t2 == 4 || (t2 == 3 && o2 != 1)) c2
    else if t = 4 then
      match c1 with
      | .nil => M.panic
      | .mk t1 _ _ _ _ _ =>
        dumpElementContent (t1 == 3 || t1 == 4) c1
        emit b!" | "
        match c2 with
        | .nil => M.panic
        | .mk t2 o2 _ _ _ _ => dumpElementContent (t2 == 3 || (t2 == 4 && o2 != 1)) c2
    else M.raw .mBadContent
    if glob then emit [41] else pure ()
    emit (occSuffix o)

/-- `dumpEntityContent` (/repo/dump.go:395-432). -/
def dumpEntityContent (c : Bytes) : Bytes :=
  if c.all (· != 37) then dumpQuotedString c
  else 34 :: (c.flatMap (fun b => if b = 34 then b!"&quot;" else if b = 37 then b!"&#x25;" else [b]) ++ [34])

/-- original or content of an internal entity (/repo/dump.go:444-449, 477-482). -/
def dumpEntityText (e : Node) : Bytes := if e.orig ≠ [] then dumpQuotedString e.orig else dumpEntityContent e.content

/-- `dumpEntityDecl` (/repo/dump.go:434-500). The test for an external identifier of general entities is inverted, and the last
case lacks the closing bracket, as in the code. -/
def dumpEntityDecl (e : Node) : DM Unit :=
  if e.entType = 1 then emit (b!"<!ENTITY " ++ e.name ++ [32] ++ dumpEntityText e ++ b!">\n")
  else if e.entType = 2 ∨ e.entType = 3 then
    emit (b!"<!ENTITY " ++ e.name ++
      (if e.externalID = [] then b!" PUBLIC " ++ dumpQuotedString e.externalID ++ [32] ++ dumpQuotedString e.systemID
       else b!" SYSTEM " ++ dumpQuotedString e.systemID) ++
      (if e.entType = 3 ∧ e.content ≠ [] then b!" NDATA " ++ (if e.orig ≠ [] then e.orig else e.content) else []) ++
      b!">\n")
  else if e.entType = 4 then emit (b!"<!ENTITY % " ++ e.name ++ [32] ++ dumpEntityText e ++ b!">\n")
  else if e.entType = 5 then
    emit (b!"<!ENTITY % " ++ e.name ++
      (if e.externalID ≠ [] then b!" PUBLIC " ++ dumpQuotedString e.externalID ++ [32] ++ dumpQuotedString e.systemID
       else b!" SYSTEM " ++ dumpQuotedString e.systemID))
  else M.raw .mInvalidEntityType

/-- `dumpElementDeclPrologue` (/repo/dump.go:298-305). -/
def dumpElementDeclPrologue (n : Node) : Bytes := b!"<!ELEMENT " ++ (if n.pfx ≠ [] then n.pfx ++ [58] else []) ++ n.name

/-- `dumpElementDecl` (/repo/dump.go:502-521). -/
def dumpElementDecl (n : Node) : DM Unit :=
  if n.declType = 1 then emit (dumpElementDeclPrologue n ++ b!" EMPTY>\n")
  else if n.declType = 2 then emit (dumpElementDeclPrologue n ++ b!" ANY>\n")
  else if n.declType = 3 ∨ n.declType = 4 then do
    emit (dumpElementDeclPrologue n ++ [32])
    dumpElementContent true n.ec
    emit b!">\n"
  else M.raw .mBadDecl

/-- the type part of `dumpAttributeDecl` (/repo/dump.go:532-559); `ENTITIES` (6) is missing there. -/
def attrTypeText (n : Node) : Option Bytes :=
  match n.atype with
  | 1 => some b!" CDATA"
  | 2 => some b!" ID"
  | 3 => some b!" IDREF"
  | 4 => some b!" IDREFS"
  | 5 => some b!" ENTITY"
  | 7 => some b!" NMTOKEN"
  | 8 => some b!" NMTOKENS"
  | 9 => some (b!" (" ++ dumpEnumeration n.tree)
  | 10 => some (b!" NOTATION (" ++ dumpEnumeration n.tree)
  | _ => none

/-- the default part (/repo/dump.go:561-572). -/
def attrDefaultText (n : Node) : Option Bytes :=
  match n.defType with
  | 1 => some []
  | 2 => some b!" #REQUIRED"
  | 3 => some b!" #IMPLIED"
  | 4 => some b!" #FIXED"
  | _ => none

/-- `dumpAttributeDecl` (/repo/dump.go:523-580). -/
def dumpAttributeDecl (n : Node) : DM Unit := do
  emit (b!"<!ATTLIST " ++ n.elem ++ [32] ++ (if n.pfx ≠ [] then n.pfx ++ [58] else []) ++ n.name)
  match attrTypeText n with
  | none => M.raw .mInvalidAttrType
  | some t =>
    emit t
    match attrDefaultText n with
    | none => M.raw .mInvalidAttrType
    | some d =>
      emit (d ++ (if n.defValue ≠ [] then 32 :: dumpQuotedString n.defValue else []) ++ b!">\n")

/-- `dumpNs` (/repo/dump.go:591-608). -/
def dumpNs (ns : Bytes × Bytes) : Bytes :=
  if ns.2 = [] then []
  else (if ns.1 = [] then b!" xmlns" else b!" xmlns:" ++ ns.1) ++ [61] ++ dumpQuotedString ns.2

/-- opening part of `dumpDTD` (/repo/dump.go:252-267). -/
def dumpDTDHead (x : Node) : Bytes :=
  b!"<!DOCTYPE " ++ x.name ++ [32] ++
  (if x.externalID ≠ [] then b!" PUBLIC " ++ x.externalID ++ [32]
   else if x.systemID ≠ [] then b!" SYSTEM " ++ x.systemID ++ [32] else [])

/-- name written by `DumpNode` for an element-like node (/repo/dump.go:672-684): nodes embedding `node` print `prefix:local`,
attributes (which embed only `docnode`) and PIs print `Name()`, which is empty for a PI. -/
def dumpName (x : Node) : Bytes := x.fullName

/-- run `f` over a sibling chain; a cyclic chain never ends. -/
def forChain (h : Heap) (s : Option Nat) (f : Nat → DM Unit) : DM Unit :=
  match chain h (h.size + 1) s with
  | none => M.diverge
  | some l => l.forM f

/-- `DumpNode` (/repo/dump.go:610-738); `fuel` bounds the depth. -/
def dumpNode (h : Heap) : Nat → Nat → DM Unit
  | 0, _ => M.diverge
  | fuel + 1, i =>
    let x := h.at' i
    match x.kind with
    | .doc => emit (dumpDocContent x)
    | .dtd => do
      emit (dumpDTDHead x)
      if x.entities.isEmpty ∧ x.elements.isEmpty ∧ x.pentities.isEmpty ∧ x.attributes.isEmpty then emit [62]
      else
        emit b!"[\n"
        forChain h x.first (dumpNode h fuel)
        emit b!"]>"
    | .comment => emit (b!"<!--" ++ x.content ++ b!"-->")
    | .entityRef => emit (38 :: (x.fullName ++ [59]))
    | .text => if x.content = b!"textnoenc" then M.panic else emit (escapeText false x.content)
    | .elemDecl => dumpElementDecl x
    | .attrDecl => dumpAttributeDecl x
    | .entity => dumpEntityDecl x
    | .element => do
      emit (60 :: dumpName x)
      emit (x.nsDefs.flatMap dumpNs)
      forChain h x.props (fun a => do
        emit (32 :: ((h.at' a).name ++ b!"=\""))
        forChain h (h.at' a).first (fun c =>
          if (h.at' c).kind = .text then emit (escapeAttrValue (h.at' c).content)
          else do
            let _ ← M.attempt (dumpNode h fuel c)
            pure ())
        emit [34])
      if x.first = none then emit b!"/>"
      else
        emit [62]
        forChain h x.first (dumpNode h fuel)
        emit (b!"</" ++ dumpName x ++ [62])
    | .pi | .attr => do
      emit (60 :: dumpName x)
      emit [62]
      forChain h x.first (dumpNode h fuel)
      emit (b!"</" ++ dumpName x ++ [62])

/-- `DumpDoc` (/repo/dump.go:205-222). -/
def dumpDoc (h : Heap) (d : Nat) : DM Unit := do
  dumpNode h (h.size + 1) d
  forChain h (h.at' d).first (fun c => do
    dumpNode h (h.size + 1) c
    emit [10])

/-- `Document.XMLString` (/repo/document.go:28-46): the output as a string, or an error. -/
def xmlString (h : Heap) (d : Nat) : Out Bytes Unit := dumpDoc h d []

end Helium
