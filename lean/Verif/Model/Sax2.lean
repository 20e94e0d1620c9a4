import Verif.Model.Env
/-!
The callback table of /repo/sax/sax2.go. `Error`, `HasExternalSubset`, `HasInternalSubset`, `IsStandalone`, `NotationDecl`, `ResolveEntity` and
`UnparsedEntityDecl` (/repo/sax/sax2.go:133-138, 161-173, 189-201, 217-222, 245-250) are never called by the parser and are left out.
-/
namespace Helium
section
variable {σ : Type}

/-- a registered function, its own arguments already supplied: what it does with the context (/repo/sax/interface.go:46-82). -/
abbrev Call (σ : Type) := HV → HC σ → HOut × HC σ

/-- `SAX2`: a table of functions, each of which may be nil (/repo/sax/sax2.go:44-70); `New` (/repo/sax/sax2.go:73-75) gives
the table with nothing in it. -/
structure Sax2 (σ : Type) where
  attributeDecl : Option (Bytes → Bytes → Nat → Nat → Bytes → List Bytes → Call σ) := none
  cdataBlock : Option (Bytes → Call σ) := none
  characters : Option (Bytes → Call σ) := none
  comment : Option (Bytes → Call σ) := none
  elementDecl : Option (Bytes → Nat → EC → Call σ) := none
  endDocument : Option (Call σ) := none
  endElementNS : Option (Bytes → Bytes → Bytes → Call σ) := none
  entityDecl : Option (Bytes → Nat → Bytes → Bytes → Bytes → Call σ) := none
  externalSubset : Option (Bytes → Bytes → Bytes → Call σ) := none
  getEntity : Option (Bytes → Call σ) := none
  getParameterEntity : Option (Bytes → Call σ) := none
  ignorableWhitespace : Option (Bytes → Call σ) := none
  internalSubset : Option (Bytes → Bytes → Bytes → Call σ) := none
  processingInstruction : Option (Bytes → Bytes → Call σ) := none
  reference : Option (Bytes → Call σ) := none
  setDocumentLocator : Option (Call σ) := none
  startDocument : Option (Call σ) := none
  startElementNS : Option (Bytes → Bytes → Bytes → List (Option (Bytes × Bytes)) → List AttrD → Call σ) := none

/-- `if h := s.XHandler; h != nil { return h(...) }; return ErrHandlerUnspecified`, the body of every method
(/repo/sax/sax2.go:77-250). -/
def called {α : Type} (h : Option α) (args : α → Call σ) : Call σ := match h with
  | some f => args f
  | none => fun _ c => (.unspecified, c)

/-- `SAX2` as a handler: `AttributeDecl`, `CDataBlock`, `Characters`, `Comment`, `ElementDecl`, `EndDocument`, `EndElementNS`, `EntityDecl`
(/repo/sax/sax2.go:77-131), `ExternalSubset`, `GetEntity`, `GetParameterEntity` (140-159), `IgnorableWhitespace`, `InternalSubset`
(175-187), `ProcessingInstruction`, `Reference` (203-215), `SetDocumentLocator`, `StartDocument`, `StartElementNS` (224-243). -/
def Sax2.handler (s : Sax2 σ) : Handler σ := fun v ev => match ev with
  | .attributeDecl el a t d x en => called s.attributeDecl (fun f => f el a t d x en) v
  | .cdata b => called s.cdataBlock (fun f => f b) v
  | .characters b => called s.characters (fun f => f b) v
  | .comment b => called s.comment (fun f => f b) v
  | .elementDecl n t ec => called s.elementDecl (fun f => f n t ec) v
  | .endDocument => called s.endDocument (fun f => f) v
  | .endElement l p u => called s.endElementNS (fun f => f l p u) v
  | .entityDecl n t pub sys x => called s.entityDecl (fun f => f n t pub sys x) v
  | .externalSubset n e u => called s.externalSubset (fun f => f n e u) v
  | .getEntity n => called s.getEntity (fun f => f n) v
  | .getParameterEntity n => called s.getParameterEntity (fun f => f n) v
  | .ignorable b => called s.ignorableWhitespace (fun f => f b) v
  | .internalSubset n e u => called s.internalSubset (fun f => f n e u) v
  | .pi t d => called s.processingInstruction (fun f => f t d) v
  | .reference n => called s.reference (fun f => f n) v
  | .setDocumentLocator => called s.setDocumentLocator (fun f => f) v
  | .startDocument => called s.startDocument (fun f => f) v
  | .startElement l p u ns as => called s.startElementNS (fun f => f l p u ns as) v

end
end Helium
