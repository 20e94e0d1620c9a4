import Verif.Model.Sax2
import Verif.Model.TreeBuilder
/-! What the callback table, observers and repeated parses are compared with. -/
namespace Helium.Spec
variable {σ ρ : Type}

/-- does nothing and returns nil. -/
def idle : Call σ := fun _ c => (.ok, c)

/-- does nothing and returns error `e`. -/
def refuse (e : Err) : Call σ := fun _ c => (.err e, c)

/-- every function missing from the table is supplied: the two lookups fail with `e`, the others do nothing. -/
def filled (e : Err) (s : Sax2 σ) : Sax2 σ where
  attributeDecl := some (s.attributeDecl.getD fun _ _ _ _ _ _ => idle)
  cdataBlock := some (s.cdataBlock.getD fun _ => idle)
  characters := some (s.characters.getD fun _ => idle)
  comment := some (s.comment.getD fun _ => idle)
  elementDecl := some (s.elementDecl.getD fun _ _ _ => idle)
  endDocument := some (s.endDocument.getD idle)
  endElementNS := some (s.endElementNS.getD fun _ _ _ => idle)
  entityDecl := some (s.entityDecl.getD fun _ _ _ _ _ => idle)
  externalSubset := some (s.externalSubset.getD fun _ _ _ => idle)
  getEntity := some (s.getEntity.getD fun _ => refuse e)
  getParameterEntity := some (s.getParameterEntity.getD fun _ => refuse e)
  ignorableWhitespace := some (s.ignorableWhitespace.getD fun _ => idle)
  internalSubset := some (s.internalSubset.getD fun _ _ _ => idle)
  processingInstruction := some (s.processingInstruction.getD fun _ _ => idle)
  reference := some (s.reference.getD fun _ => idle)
  setDocumentLocator := some (s.setDocumentLocator.getD idle)
  startDocument := some (s.startDocument.getD idle)
  startElementNS := some (s.startElementNS.getD fun _ _ _ _ _ => idle)

/-- the table whose functions pass their arguments on to the methods of `H`. -/
def forward (H : Handler σ) : Sax2 σ where
  attributeDecl := some fun el a t d x en v => H v (.attributeDecl el a t d x en)
  cdataBlock := some fun b v => H v (.cdata b)
  characters := some fun b v => H v (.characters b)
  comment := some fun b v => H v (.comment b)
  elementDecl := some fun n t ec v => H v (.elementDecl n t ec)
  endDocument := some fun v => H v .endDocument
  endElementNS := some fun l p u v => H v (.endElement l p u)
  entityDecl := some fun n t pub sys x v => H v (.entityDecl n t pub sys x)
  externalSubset := some fun n e u v => H v (.externalSubset n e u)
  getEntity := some fun n v => H v (.getEntity n)
  getParameterEntity := some fun n v => H v (.getParameterEntity n)
  ignorableWhitespace := some fun b v => H v (.ignorable b)
  internalSubset := some fun n e u v => H v (.internalSubset n e u)
  processingInstruction := some fun t d v => H v (.pi t d)
  reference := some fun n v => H v (.reference n)
  setDocumentLocator := some fun v => H v .setDocumentLocator
  startDocument := some fun v => H v .startDocument
  startElementNS := some fun l p u ns as v => H v (.startElement l p u ns as)

/-- a handler that passes everything on to `H` and notes every callback in a state of its own. -/
def observed (note : ρ → Ev × HOut → ρ) (H : Handler σ) : Handler (σ × ρ) := fun v ev c =>
  let r := H v ev ⟨c.usr.1, c.heap, c.doc, c.elem⟩
  (r.1, ⟨(r.2.usr, note c.usr.2 (ev, r.1)), r.2.heap, r.2.doc, r.2.elem⟩)

/-- two results with the same document, error and events; what the callbacks returned may differ. -/
def SameParse : ParseRes → ParseRes → Prop
  | .done d e h tr, .done d' e' h' tr' => d = d' ∧ e = e' ∧ h = h' ∧ tr.map (·.1) = tr'.map (·.1)
  | .panic, .panic => True
  | .diverge, .diverge => True
  | _, _ => False

end Helium.Spec
