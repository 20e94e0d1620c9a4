import Verif.Lemmas.DtdWrites
import Verif.Lemmas.Accepted
import Verif.Props.Values
import Verif.Props.DtdDump
/-! # Reported declarations (C72) and serialising documents with a document type declaration (C50) -/
namespace Helium
open Spec

/-- **C72**, for every handler and however the parse ends: the data of each reported declaration fit together (`Spec.DeclOK`). -/
theorem C72_reported {σ : Type} (E : Env) (H : Handler σ) (usr : σ) (fuel snl : Nat) (input : Bytes) {doc : Option Nat} {err : Option Err}
    {h : Heap} {tr : List (Ev × HOut)} (hr : parserParse E H usr fuel snl input = .done doc err h tr) : ∀ ev ∈ tr.map (·.1), DeclOK ev := by
  intro ev hev
  obtain ⟨x, hx, rfl⟩ := List.mem_map.1 hev
  exact white_trace E H usr fuel snl input hr x hx

/-- **C72**, for documents accepted with the tree builder: each declared element has one of the four types, and a content model exactly if its
type is mixed (3) or element content (4). -/
theorem C72_accepted {σ : Type} (E : Env) (tf fuel snl : Nat) (usr : σ) (input : Bytes) {doc : Option Nat} {h : Heap} {tr : List (Ev × HOut)}
    (hr : parserParse E (treeBuilder tf) usr fuel snl input = .done doc none h tr) {n : Bytes} {t : Nat} {ec : EC}
    (hev : .elementDecl n t ec ∈ tr.map (·.1)) : (1 ≤ t ∧ t ≤ 4) ∧ (ec = .nil ↔ t ≤ 2) := by
  obtain ⟨⟨ev, o⟩, hx, he⟩ := List.mem_map.1 hev
  cases he
  exact agreed_element (agreed_trace E _ usr fuel snl input hr _ hx)

/-- there is at most one document type declaration. -/
theorem parsed_one_dtd {σ : Type} (E : Env) (tf fuel snl : Nat) (usr : σ) (input : Bytes) {doc : Option Nat} {h : Heap}
    {tr : List (Ev × HOut)} (hr : parserParse E (treeBuilder tf) usr fuel snl input = .done doc none h tr)
    (hp : noPIInside false (tr.map (·.1)) = true) : (tr.map (·.1)).countP isInt ≤ 1 := by
  unfold parserParse at hr
  cases hq : parseDocument E (treeBuilder tf) fuel snl (initSt usr Heap.empty input) with
  | ok a s =>
    rw [hq] at hr
    cases hr
    obtain ⟨_, _, _, _, _, _, _, _, _, h⟩ := parse_tree E hq hp
    exact h
  | err e s => rw [hq] at hr; cases hr
  | panic => rw [hq] at hr; cases hr
  | diverge => rw [hq] at hr; cases hr

/-- **C50** for documents with a document type declaration, references in content included. The serialiser ends without error if no text of the
tree is the word `textnoenc`, and panics otherwise. Assumed: no processing instruction inside the document type declaration, all attribute
values without references to entities, content models without missing member, and no attribute declared of type `ENTITIES` (6). -/
theorem C50_doctype_partial (E : Env) (fuel : Nat) (input : Bytes) {doc : Option Nat} {h : Heap} {tr : List (Ev × HOut)}
    (hp : parse E fuel input = .done doc none h tr) (hpi : noPIInside false (tr.map (·.1)) = true)
    (hv : ∀ l p u ns as, .startElement l p u ns as ∈ tr.map (·.1) → ∀ q n v, .parsed q n v ∈ as → ∃ w, StandsFor v w)
    (hec : ∀ n t ec, .elementDecl n t ec ∈ tr.map (·.1) → ECWritable ec)
    (hat : ∀ e n t df v en, .attributeDecl e n t df v en ∈ tr.map (·.1) → t ≠ 6) :
    ∃ d vis x, doc = some d ∧ Visible (tr.map (·.1)) vis ∧ treeOf (vis.filter notCData) = some x ∧
      (x.NoMarker → ∃ out, xmlString h d = .ok () out) ∧ (¬ x.NoMarker → xmlString h d = .panic) := by
  obtain ⟨d, vis, x, e1, e2, e3, e4, e5, _, _⟩ := C45_tree_entities_partial E fuel fuel fuel () input hp hpi
  obtain ⟨r1, r2⟩ := read_tree (V := fun v => ∃ w, StandsFor v w) e3 (fun l p u ns as hm a ha => by
    obtain ⟨q, n, ha⟩ := givenAttrs_source ha
    exact hv l p u ns as (e2.sub _ (List.mem_filter.1 hm).1) q n a.2 ha)
  have hcount : x.dtds ≤ (tr.map (·.1)).countP isInt := by
    rw [r2]
    refine Nat.le_trans ?_ e2.countInt
    exact List.filter_sublist.countP_le
  refine ⟨d, vis, x, e1, e2, e3, ?_⟩
  refine xmlString_writes e4 r1 (Nat.le_trans hcount (parsed_one_dtd E fuel fuel fuel () input hp hpi)) (fun hne => e5 ?_) (fun ev hev => ?_)
  · obtain ⟨ev, hev, hi⟩ := List.countP_pos_iff.1 (Nat.lt_of_lt_of_le (Nat.pos_of_ne_zero hne) hcount)
    refine ⟨ev, hev, ?_⟩
    cases ev <;> trivial
  · have hev := (List.mem_filter.1 hev).1
    have hd := C72_reported E _ () fuel fuel input hp ev hev
    cases ev with
    | elementDecl n t ec => exact ⟨by have := (C72_accepted E fuel fuel fuel () input hp hev).1; omega, hec n t ec hev⟩
    | attributeDecl e n t df v en => exact ⟨⟨hd.1.1, hd.1.2, hat _ _ _ _ _ _ hev⟩, hd.2.1⟩
    | entityDecl n t p s c => obtain ⟨h1, _⟩ := hd; exact ⟨by omega, by omega⟩
    | _ => trivial

/-- **C50** for documents that declare no general entity: nothing is assumed of the attribute values. -/
theorem C50_subset_partial (E : Env) (fuel : Nat) (input : Bytes) {doc : Option Nat} {h : Heap} {tr : List (Ev × HOut)}
    (hp : parse E fuel input = .done doc none h tr) (hpi : noPIInside false (tr.map (·.1)) = true)
    (hn : ∀ n, ¬ Declared tr n) (hec : ∀ n t ec, .elementDecl n t ec ∈ tr.map (·.1) → ECWritable ec)
    (hat : ∀ e n t df v en, .attributeDecl e n t df v en ∈ tr.map (·.1) → t ≠ 6) :
    ∃ d vis x, doc = some d ∧ Visible (tr.map (·.1)) vis ∧ treeOf (vis.filter notCData) = some x ∧
      (x.NoMarker → ∃ out, xmlString h d = .ok () out) ∧ (¬ x.NoMarker → xmlString h d = .panic) :=
  C50_doctype_partial E fuel input hp hpi (fun _ _ _ _ _ hm _ _ _ ha => by
    obtain ⟨w, hw, _⟩ := C69_meaning E fuel fuel fuel () input hp hn hm ha
    exact ⟨_, hw⟩) hec hat

/-- the sample document: a content model, an entity referred to in content, an attribute with default value, a comment in the subset. -/
def sampleWrites : Bytes :=
  b!"<!DOCTYPE a [<!ELEMENT a (b,c+)><!ENTITY e '<!--c-->'><!ATTLIST a n ID 'i'><!--c-->]><a n='&amp;'>x&e;y</a>"

theorem sampleWrites_events : (parse env0 60 sampleWrites).events = some [.setDocumentLocator, .startDocument, .internalSubset b!"a" [] [],
    .elementDecl b!"a" 4 (.mk 3 1 [] [] (.mk 2 1 b!"b" [] .nil .nil) (.mk 2 4 b!"c" [] .nil .nil)), .entityDecl b!"e" 1 [] [] b!"<!--c-->",
    .getEntity b!"e", .attributeDecl b!"a" b!"n" 2 1 b!"i" [], .comment b!"c", .externalSubset b!"a" [] [],
    .startElement b!"a" [] [] [] [.parsed [] b!"n" b!"&#38;", .dflt 5], .characters b!"x", .getEntity b!"e", .comment b!"c", .reference b!"e",
    .characters b!"y", .endElement b!"a" [] [], .endDocument] := by decide +kernel

/-- the hypotheses of C72 and of `C50_doctype_partial` hold for the sample, and it is written. -/
example : ∃ d h tr, parse env0 60 sampleWrites = .done (some d) none h tr ∧ noPIInside false (tr.map (·.1)) = true ∧
    (∀ l p u ns as, .startElement l p u ns as ∈ tr.map (·.1) → ∀ q n v, .parsed q n v ∈ as → ∃ w, StandsFor v w) ∧
    (∀ n t ec, .elementDecl n t ec ∈ tr.map (·.1) → ECWritable ec) ∧
    (∀ e n t df v en, .attributeDecl e n t df v en ∈ tr.map (·.1) → t ≠ 6) ∧ ∃ out, xmlString h d = .ok () out := by
  obtain ⟨doc, h, tr, h1, h2⟩ := ParseRes.good_of_events sampleWrites_events
  have w : (parse env0 60 sampleWrites).written.isSome = true := by decide +kernel
  cases doc with
  | none => rw [h1] at w; cases w
  | some d =>
    refine ⟨d, h, tr, h1, by rw [h2]; rfl, ?_, ?_, ?_, ?_⟩
    · rw [h2]
      intro l p u ns as hm q n v hv
      simp only [List.mem_cons, List.not_mem_nil, reduceCtorEq, or_false, false_or] at hm
      cases hm
      simp only [List.mem_cons, List.not_mem_nil, reduceCtorEq, or_false] at hv
      cases hv
      exact ⟨_, (reported_stands (w := [38]) (by decide))⟩
    · rw [h2]
      intro n t ec hm
      simp only [List.mem_cons, List.not_mem_nil, reduceCtorEq, or_false, false_or] at hm
      cases hm
      simp [ECWritable]
    · rw [h2]
      intro e n t df v en hm
      simp only [List.mem_cons, List.not_mem_nil, reduceCtorEq, or_false, false_or] at hm
      cases hm
      decide
    · rw [h1] at w
      simp only [ParseRes.written] at w
      split at w
      · exact ⟨_, by assumption⟩
      · cases w

/-- content models must be complete: in `((b),c)` the inner group is lost, and the serialiser panics. -/
theorem C50_group_lost : dumpPanics (parse env0 60 b!"<!DOCTYPE a [<!ELEMENT a ((b),c)>]><a/>") = true ∧
    (parse env0 60 b!"<!DOCTYPE a [<!ELEMENT a ((b),c)>]><a/>").events = some [.setDocumentLocator, .startDocument, .internalSubset b!"a" [] [],
      .elementDecl b!"a" 4 (.mk 3 1 [] [] .nil (.mk 2 1 b!"c" [] .nil .nil)), .externalSubset b!"a" [] [], .startElement b!"a" [] [] [] [],
      .endElement b!"a" [] [], .endDocument] := by
  constructor <;> decide +kernel

/-- attributes declared of type `ENTITIES` are refused by the serialiser. -/
theorem C50_entities_refused : (parse env0 60 b!"<!DOCTYPE a [<!ATTLIST a b ENTITIES #IMPLIED>]><a/>").events.isSome = true ∧
    (parse env0 60 b!"<!DOCTYPE a [<!ATTLIST a b ENTITIES #IMPLIED>]><a/>").written = none := by
  constructor <;> decide +kernel

/-- without the tree builder's check a declaration without content specification is accepted; its type is 0. -/
theorem C72_no_type : (parserParse env0 nullHandler () 20 9 b!"<!DOCTYPE a [<!ELEMENT a >]><a/>").view = some (false, none, [.setDocumentLocator,
    .startDocument, .internalSubset b!"a" [] [], .elementDecl b!"a" 0 .nil, .externalSubset b!"a" [] [], .startElement b!"a" [] [] [] [],
    .endElement b!"a" [] [], .endDocument]) := by decide +kernel

/-! ### C13: entity values -/

namespace Spec

/-- the two references with which the serialiser writes quotes and percent signs, read. -/
def readQuotPercent : Bytes → Bytes
  | 38 :: 113 :: 117 :: 111 :: 116 :: 59 :: r => 34 :: readQuotPercent r
  | 38 :: 35 :: 120 :: 50 :: 53 :: 59 :: r => 37 :: readQuotPercent r
  | b :: r => b :: readQuotPercent r
  | [] => []

end Spec

theorem entity_content_read : ∀ {c : Bytes}, 38 ∉ c →
    readQuotPercent (c.flatMap (fun b => if b = 34 then b!"&quot;" else if b = 37 then b!"&#x25;" else [b])) = c
  | [], _ => rfl
  | b :: c, h => by
    simp only [List.mem_cons, not_or] at h
    have ih := entity_content_read h.2
    rw [List.flatMap_cons]
    by_cases h1 : b = 34
    · rw [if_pos h1, h1]
      exact congrArg (34 :: ·) ih
    · rw [if_neg h1]
      by_cases h2 : b = 37
      · rw [if_pos h2, h2]
        exact congrArg (37 :: ·) ih
      · rw [if_neg h2, List.singleton_append, readQuotPercent, ih]
        all_goals (intro r e; exact absurd e.symm h.1)

/-- **C13**, entity values with a percent sign: whatever quotes they contain they are written as one literal without a percent sign (which would be
a reference), and with the two references read they are what they were. -/
theorem C13_entity_percent (c : Bytes) (h : 37 ∈ c) (ha : 38 ∉ c) :
    ∃ s, readQuoted (dumpEntityContent c) = some s ∧ 34 ∉ s ∧ 37 ∉ s ∧ readQuotPercent s = c := by
  have h1 : ¬ c.all (· != 37) = true := by
    intro hc; have := List.all_eq_true.mp hc 37 h; simp at this
  unfold dumpEntityContent
  rw [if_neg h1]
  have hq : ∀ x ∈ [34, 37], x ∉ c.flatMap (fun b => if b = 34 then b!"&quot;" else if b = 37 then b!"&#x25;" else [b]) := by
    intro x hx hm
    obtain ⟨b, _, hm⟩ := List.mem_flatMap.1 hm
    simp only [List.mem_cons, List.not_mem_nil, or_false] at hx
    split at hm
    · rcases hx with rfl | rfl <;> revert hm <;> decide
    · split at hm
      · rcases hx with rfl | rfl <;> revert hm <;> decide
      · rw [List.mem_singleton] at hm
        omega
  refine ⟨_, ?_, hq 34 (by simp), hq 37 (by simp), entity_content_read ha⟩
  simp [readQuoted, hq 34]

example : 37 ∈ b!"it's \"5%\"" ∧ 38 ∉ b!"it's \"5%\"" := by decide

/-- **C13**, entity values without a percent sign: as other quoted literals. -/
theorem C13_entity_plain (c : Bytes) (h : 37 ∉ c) : dumpEntityContent c = dumpQuotedString c := by
  unfold dumpEntityContent
  rw [if_pos]
  exact List.all_eq_true.2 (fun x hx => by
    simp only [bne_iff_ne, ne_eq]
    rintro rfl
    exact h hx)

end Helium
