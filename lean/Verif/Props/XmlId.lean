import Verif.Lemmas.Answers
import Verif.Props.Sax
import Verif.Props.AcceptDtd
/-! C62: an attribute `xml:id` is declared with type ID or not at all. -/
namespace Helium
open Spec

theorem treeBuilder_xmlId {σ : Type} (fuel : Nat) (v : HV) (el : Bytes) {t : Nat} (ht : t ≠ 2) (d : Nat) (dv : Bytes) (en : List Bytes) (c : HC σ) :
    (treeBuilder fuel v (.attributeDecl el b!"xml:id" t d dv en) c).1 = .err (.k .mXmlId) := by
  unfold treeBuilder
  simp only
  unfold tbUnit tbOut tbAttributeDecl
  rw [if_pos ⟨rfl, ht⟩]
  rfl

/-- **C62.** If the document type declaration gives an attribute `xml:id` a type other than ID (2), that declaration is the last thing the parser
looks at, no document is returned, and the error says so. -/
theorem C62_rejected (E : Env) (fuel : Nat) (input : Bytes) (doc : Option Nat) (err : Option Err) (heap : Heap) (trace : List (Ev × HOut))
    (h : parse E fuel input = .done doc err heap trace) (pre post : List (Ev × HOut)) (el : Bytes) (t d : Nat) (dv : Bytes) (en : List Bytes) (o : HOut)
    (htr : trace = pre ++ (.attributeDecl el b!"xml:id" t d dv en, o) :: post) (ht : t ≠ 2) :
    post = [] ∧ doc = none ∧ err = some (.parse (.k .mXmlId)) := by
  obtain ⟨v, c, ho⟩ := honest_trace E (treeBuilder fuel) () fuel fuel input h (.attributeDecl el b!"xml:id" t d dv en, o) (by rw [htr]; simp)
  have ho : o = .err (.k .mXmlId) := ho.trans (treeBuilder_xmlId fuel v el ht d dv en c)
  subst ho
  exact C04_handler_error_aborts E (treeBuilder fuel) () fuel fuel input h pre post _ _ htr (fun h => h)

/-- **C62** for what is accepted: no document with such a declaration is. -/
theorem C62_accepted (E : Env) (fuel : Nat) (input : Bytes) (doc : Option Nat) (heap : Heap) (trace : List (Ev × HOut))
    (h : parse E fuel input = .done doc none heap trace) (el : Bytes) (t d : Nat) (dv : Bytes) (en : List Bytes)
    (hin : Ev.attributeDecl el b!"xml:id" t d dv en ∈ trace.map (·.1)) : t = 2 := by
  obtain ⟨⟨ev, o⟩, h1, h2⟩ := List.mem_map.1 hin
  simp only at h2
  subst h2
  obtain ⟨pre, post, h3⟩ := List.append_of_mem h1
  apply Classical.byContradiction
  intro ht
  obtain ⟨-, -, h4⟩ := C62_rejected E fuel input doc none heap trace h pre post el t d dv en o h3 ht
  cases h4

/-- both sides occur. -/
example : ((parse env0 99 b!"<!DOCTYPE a [<!ATTLIST a xml:id ID #IMPLIED>]><a/>").events.map fun evs =>
    evs.contains (.attributeDecl b!"a" b!"xml:id" 2 3 [] [])) = some true := by decide +kernel
example : (parse env0 99 b!"<!DOCTYPE a [<!ATTLIST a xml:id CDATA #IMPLIED>]><a/>").view = some (false, some (.parse (.k .mXmlId)),
    [.setDocumentLocator, .startDocument, .internalSubset b!"a" [] [], .attributeDecl b!"a" b!"xml:id" 1 3 [] []]) := by decide +kernel

end Helium
