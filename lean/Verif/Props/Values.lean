import Verif.Lemmas.ValLogic
import Verif.Lemmas.Marker
import Verif.Props.Dump
/-! # Attribute values (C69) and what they mean for serialisation (C50) -/
namespace Helium
open Spec

/-- **C69**: as long as a document declares no general entity, whatever else it contains and however the parse ends, the value of every
attribute handed to the application is a sequence of legal characters in which every ampersand is written `&#38;`. -/
theorem C69_values {σ : Type} (E : Env) (tf fuel snl : Nat) (usr : σ) (input : Bytes) {doc : Option Nat} {err : Option Err} {h : Heap}
    {tr : List (Ev × HOut)} (hr : parserParse E (treeBuilder tf) usr fuel snl input = .done doc err h tr) (hn : ∀ n, ¬ Declared tr n)
    {l p u : Bytes} {ns : List (Option (Bytes × Bytes))} {as : List AttrD} (hev : .startElement l p u ns as ∈ tr.map (·.1))
    {q n v : Bytes} (ha : .parsed q n v ∈ as) : ∃ w, v = reported w ∧ ∀ c ∈ w, Legal c := by
  obtain ⟨⟨ev, o⟩, hx, he⟩ := List.mem_map.1 hev
  cases he
  obtain ⟨pre, suf, rfl⟩ := List.append_of_mem hx
  refine (soundTrace_parse E hr pre _ o suf rfl v ⟨q, n, ha⟩).chars (fun m hm => hn m ?_)
  exact declared_mono hm

/-- **C69** for default values: the same of the value in every declaration of an attribute. -/
theorem C69_defaults {σ : Type} (E : Env) (tf fuel snl : Nat) (usr : σ) (input : Bytes) {doc : Option Nat} {err : Option Err} {h : Heap}
    {tr : List (Ev × HOut)} (hr : parserParse E (treeBuilder tf) usr fuel snl input = .done doc err h tr) (hn : ∀ n, ¬ Declared tr n)
    {el a v : Bytes} {t d : Nat} {es : List Bytes} (hev : .attributeDecl el a t d v es ∈ tr.map (·.1)) : ∃ w, v = reported w ∧ ∀ c ∈ w, Legal c := by
  obtain ⟨⟨ev, o⟩, hx, he⟩ := List.mem_map.1 hev
  cases he
  obtain ⟨pre, suf, rfl⟩ := List.append_of_mem hx
  exact (soundTrace_parse E hr pre _ o suf rfl v rfl).chars (fun m hm => hn m (declared_mono hm))

/-- the values stand for the text they mean: replacing every `&#38;` by an ampersand. -/
theorem C69_meaning {σ : Type} (E : Env) (tf fuel snl : Nat) (usr : σ) (input : Bytes) {doc : Option Nat} {err : Option Err} {h : Heap}
    {tr : List (Ev × HOut)} (hr : parserParse E (treeBuilder tf) usr fuel snl input = .done doc err h tr) (hn : ∀ n, ¬ Declared tr n)
    {l p u : Bytes} {ns : List (Option (Bytes × Bytes))} {as : List AttrD} (hev : .startElement l p u ns as ∈ tr.map (·.1))
    {q n v : Bytes} (ha : .parsed q n v ∈ as) : ∃ w, StandsFor v (encodeRunes w) ∧ ∀ c ∈ w, Legal c := by
  obtain ⟨w, rfl, hw⟩ := C69_values E tf fuel snl usr input hr hn hev ha
  exact ⟨w, reported_stands hw, hw⟩

theorem not_declared {tr : List (Ev × HOut)} (h : ∀ ev ∈ tr.map (·.1), ∀ n t p s c, ev ≠ .entityDecl n t p s c) : ∀ n, ¬ Declared tr n := by
  rintro n ⟨t, p, s, c, o, hm, _⟩
  exact h _ (List.mem_map.2 ⟨_, hm, rfl⟩) n t p s c rfl

theorem ParseRes.of_view {r : ParseRes} {b : Bool} {e : Option Err} {evs : List Ev} (h : r.view = some (b, e, evs)) :
    ∃ doc hp tr, r = .done doc e hp tr ∧ tr.map (·.1) = evs := by
  cases r <;> cases h
  exact ⟨_, _, _, rfl, rfl⟩

/-- the hypotheses hold for a document with declared attributes, a tokenised value, references of all kinds, and a wrong end tag. -/
example : ∃ doc e h tr, parserParse env0 (treeBuilder 60) () 60 60
      b!"<!DOCTYPE a [<!ATTLIST a n NMTOKENS #IMPLIED>]><a n=' x  y' m='&lt;&#38;&amp;\t'><b c='&apos;'/></x>" = .done doc (some e) h tr ∧
    (∀ n, ¬ Declared tr n) ∧
    .startElement b!"a" [] [] [] [.parsed [] b!"n" b!"x y", .parsed [] b!"m" b!"<&#38;&#38; "] ∈ tr.map (·.1) := by
  have hv : (parserParse env0 (treeBuilder 60) () 60 60
      b!"<!DOCTYPE a [<!ATTLIST a n NMTOKENS #IMPLIED>]><a n=' x  y' m='&lt;&#38;&amp;\t'><b c='&apos;'/></x>").view =
    some (false, some (.parse (.k .mEndTagExpected)), [.setDocumentLocator, .startDocument, .internalSubset b!"a" [] [],
      .attributeDecl b!"a" b!"n" 8 3 [] [], .externalSubset b!"a" [] [],
      .startElement b!"a" [] [] [] [.parsed [] b!"n" b!"x y", .parsed [] b!"m" b!"<&#38;&#38; "],
      .startElement b!"b" [] [] [] [.parsed [] b!"c" b!"'"], .endElement b!"b" [] []]) := by decide +kernel
  obtain ⟨doc, h, tr, h1, h2⟩ := ParseRes.of_view hv
  refine ⟨doc, _, h, tr, h1, not_declared ?_, ?_⟩
  · rw [h2]; simp
  · rw [h2]; simp

/-- the hypotheses of `C69_defaults` hold for a document with a default value for a tokenised attribute. -/
example : ∃ doc h tr, parserParse env0 (treeBuilder 60) () 60 60 b!"<!DOCTYPE a [<!ATTLIST a b NMTOKENS ' &lt;  y&amp; '>]><a/>" = .done doc none h tr ∧
    (∀ n, ¬ Declared tr n) ∧ .attributeDecl b!"a" b!"b" 8 1 b!"< y&#38;" [] ∈ tr.map (·.1) := by
  have hv : (parserParse env0 (treeBuilder 60) () 60 60 b!"<!DOCTYPE a [<!ATTLIST a b NMTOKENS ' &lt;  y&amp; '>]><a/>").view =
    some (true, none, [.setDocumentLocator, .startDocument, .internalSubset b!"a" [] [], .attributeDecl b!"a" b!"b" 8 1 b!"< y&#38;" [],
      .externalSubset b!"a" [] [], .startElement b!"a" [] [] [] [.dflt 3], .endElement b!"a" [] [], .endDocument]) := by decide +kernel
  obtain ⟨doc, h, tr, h1, h2⟩ := ParseRes.of_view hv
  refine ⟨doc, h, tr, h1, not_declared ?_, ?_⟩
  · rw [h2]; simp
  · rw [h2]; simp

/-- a declared entity stays a reference: the value is not of this kind. -/
theorem C69_declared : ∃ doc h tr, parserParse env0 (treeBuilder 60) () 60 60 b!"<!DOCTYPE a [<!ENTITY e 'x'>]><a b='&e;'/>" = .done doc none h tr ∧
    .startElement b!"a" [] [] [] [.parsed [] b!"b" b!"&e;"] ∈ tr.map (·.1) ∧ ¬ ∃ w, b!"&e;" = reported w := by
  have hv : (parserParse env0 (treeBuilder 60) () 60 60 b!"<!DOCTYPE a [<!ENTITY e 'x'>]><a b='&e;'/>").view =
    some (true, none, [.setDocumentLocator, .startDocument, .internalSubset b!"a" [] [], .entityDecl b!"e" 1 [] [] b!"x", .getEntity b!"e",
      .externalSubset b!"a" [] [], .getEntity b!"e", .startElement b!"a" [] [] [] [.parsed [] b!"b" b!"&e;"], .endElement b!"a" [] [],
      .endDocument]) := by decide +kernel
  obtain ⟨doc, h, tr, h1, h2⟩ := ParseRes.of_view hv
  refine ⟨doc, h, tr, h1, by rw [h2]; simp, ?_⟩
  rintro ⟨w, hw⟩
  cases w with
  | nil => cases hw
  | cons c w =>
    have : reported (c :: w) = (if c = 38 then b!"&#38;" else encodeRune c) ++ reported w := by
      unfold reported encodeRunes
      rw [List.flatMap_cons, List.flatMap_append]
      by_cases h : c = 38 <;> simp [h, encodeRune]
    rw [this] at hw
    split at hw
    · cases hw
    · rename_i hc
      cases he : encodeRune c with
      | nil => exact encodeRune_ne_nil c he
      | cons x y =>
        rw [he] at hw
        injection hw with h1 _
        exact hc ((mem_encodeRune_ascii c 38 (by decide)).1 (by rw [he, ← h1]; simp)).symm

/-! without document type declaration there are no declared entities -/

theorem no_decl {σ : Type} (E : Env) (tf fuel snl : Nat) (usr : σ) (input : Bytes) {doc : Option Nat} {h : Heap}
    {tr : List (Ev × HOut)} (hr : parserParse E (treeBuilder tf) usr fuel snl input = .done doc none h tr)
    (hd : ∀ ev ∈ tr.map (·.1), ¬ IsDoctype ev) : ∀ n, ¬ Declared tr n := by
  unfold parserParse at hr
  cases hq : parseDocument E (treeBuilder tf) fuel snl (initSt usr Heap.empty input) with
  | ok a s =>
    rw [hq] at hr
    cases hr
    have hs : ∀ x ∈ s.trace, ∀ n e u, x.1 ≠ .internalSubset n e u := fun x hx n e u he =>
      hd x.1 (List.mem_map.2 ⟨_, hx, rfl⟩) (by rw [he]; trivial)
    obtain ⟨_, st, o, _, e1, ⟨I, _, hi⟩, ho, _⟩ := parse_tree E hq (noPI_of_no_doctype hd)
    obtain ⟨a, fs, i1, R, T, i5, i6, Z, D, _⟩ := I
    unfold DtdPart at D
    rw [hi, ho.2 hs] at D
    rintro n ⟨t, p, y, c, o, hm, _⟩
    have : Ev.entityDecl n t p y c ∈ (s.trace.map (·.1)).filter isDecl := List.mem_filter.2 ⟨List.mem_map.2 ⟨_, hm, rfl⟩, rfl⟩
    rw [D] at this
    cases this
  | err e0 s => rw [hq] at hr; cases hr
  | panic => rw [hq] at hr; cases hr
  | diverge => rw [hq] at hr; cases hr

/-- the tree of a document without document type declaration: the values are known. -/
theorem parsed_good {σ : Type} (E : Env) (tf fuel snl : Nat) (usr : σ) (input : Bytes) {doc : Option Nat} {h : Heap}
    {tr : List (Ev × HOut)} (hr : parserParse E (treeBuilder tf) usr fuel snl input = .done doc none h tr)
    (hd : ∀ ev ∈ tr.map (·.1), ¬ IsDoctype ev) {x : XTree} (hx : treeOf ((tr.map (·.1)).filter notCData) = some x) :
    x.Parsed (fun v => ∃ w, StandsFor v w) := by
  have hn := no_decl E tf fuel snl usr input hr hd
  have hno : ∀ n, .reference n ∉ tr.map (·.1) := by
    obtain ⟨_, _, _, _, _, _, _, _, h5, _⟩ := C45_tree_entities_partial E tf fuel snl usr input hr (noPI_of_no_doctype hd)
    exact (h5 hd).2
  unfold treeOf at hx
  cases hs : Partial.steps ⟨[], .nil⟩ ((tr.map (·.1)).filter notCData) with
  | none => rw [hs] at hx; cases hx
  | some s =>
    rw [hs] at hx
    obtain ⟨i, t⟩ := s
    cases i with
    | cons => cases hx
    | nil =>
      cases hx
      refine (goodPartial_steps (V := fun v => ∃ w, StandsFor v w) (s := ⟨[], .nil⟩) ⟨trivial, nofun⟩
        (fun ev hev => hd ev (List.mem_filter.1 hev).1) (fun n hev => hno n (List.mem_filter.1 hev).1) (fun l p u ns as hev a ha => ?_) hs).1
      obtain ⟨q, n, ha⟩ := givenAttrs_source ha
      obtain ⟨w, hw, _⟩ := C69_meaning E tf fuel snl usr input hr hn (List.mem_filter.1 hev).1 ha
      exact ⟨_, hw⟩

/-- **C50** for documents without document type declaration: serialising a parsed document does not fail, panic or loop if no text is the
word `textnoenc`. Missing: documents with a document type declaration; the word itself, see `C50_refuted`. -/
theorem C50_parsed_partial (E : Env) (fuel : Nat) (input : Bytes) {doc : Option Nat} {h : Heap} {tr : List (Ev × HOut)}
    (hp : parse E fuel input = .done doc none h tr) (hd : ∀ ev ∈ tr.map (·.1), ¬ IsDoctype ev)
    (hx : ∀ x, treeOf ((tr.map (·.1)).filter notCData) = some x → x.NoMarker) :
    ∃ d x, doc = some d ∧ treeOf ((tr.map (·.1)).filter notCData) = some x ∧
      xmlString h d = .ok () (dumpDocContent (h.at' d) ++ writtenTop x) := by
  refine C50_serialises_partial E fuel input hp hd (fun x ht => ?_)
  exact (parsed_good E fuel fuel fuel () input hp hd ht).dumpable (hx x ht)

/-- **C50** for documents without document type declaration, exactly: the serialiser writes the document if no text is the word
`textnoenc`, and panics otherwise. -/
theorem C50_exactly_partial (E : Env) (fuel : Nat) (input : Bytes) {doc : Option Nat} {h : Heap} {tr : List (Ev × HOut)}
    (hp : parse E fuel input = .done doc none h tr) (hd : ∀ ev ∈ tr.map (·.1), ¬ IsDoctype ev) :
    ∃ d x, doc = some d ∧ treeOf ((tr.map (·.1)).filter notCData) = some x ∧
      (x.NoMarker → xmlString h d = .ok () (dumpDocContent (h.at' d) ++ writtenTop x)) ∧ (¬ x.NoMarker → xmlString h d = .panic) := by
  obtain ⟨d, x, e1, e2, e3⟩ := C45_tree_partial E fuel fuel fuel () input hp hd
  have hg := parsed_good E fuel fuel fuel () input hp hd e2
  exact ⟨d, x, e1, e2, fun hn => xmlString_run e3 (hg.dumpable hn), fun hn => xmlString_panics e3 hg hn⟩

/-- both cases occur. -/
example : ∃ d h tr x, parse env0 20 b!"<a b='&amp;'>text<b/>noenc</a>" = .done (some d) none h tr ∧
    (∀ ev ∈ tr.map (·.1), ¬ IsDoctype ev) ∧ treeOf ((tr.map (·.1)).filter notCData) = some x ∧ x.NoMarker := by
  have hv : (parse env0 20 b!"<a b='&amp;'>text<b/>noenc</a>").events = some [.setDocumentLocator, .startDocument,
      .startElement b!"a" [] [] [] [.parsed [] b!"b" b!"&#38;"], .characters b!"text", .startElement b!"b" [] [] [] [],
      .endElement b!"b" [] [], .characters b!"noenc", .endElement b!"a" [] [], .endDocument] := by decide +kernel
  obtain ⟨doc, h, tr, h1, h2⟩ := ParseRes.good_of_events hv
  have hd : ∀ ev ∈ tr.map (·.1), ¬ IsDoctype ev := by rw [h2]; decide
  obtain ⟨d, x, e1, e2, _⟩ := C50_exactly_partial env0 20 _ h1 hd
  refine ⟨d, h, tr, x, by rw [h1, e1], hd, e2, ?_⟩
  rw [h2] at e2
  have e2 : some (XTree.node (.elem [97] [] [] [] [([98], b!"&#38;")]) (.node (.text b!"text") .nil (.node (.elem [98] [] [] [] []) .nil
    (.node (.text b!"noenc") .nil .nil))) .nil) = some x := e2
  cases e2
  exact ⟨⟨by decide, trivial, trivial, by decide, trivial, trivial⟩, trivial⟩

example : ∃ d h tr x, parse env0 20 b!"<a>textnoenc</a>" = .done (some d) none h tr ∧
    (∀ ev ∈ tr.map (·.1), ¬ IsDoctype ev) ∧ treeOf ((tr.map (·.1)).filter notCData) = some x ∧ ¬ x.NoMarker := by
  have hv : (parse env0 20 b!"<a>textnoenc</a>").events = some [.setDocumentLocator, .startDocument,
      .startElement b!"a" [] [] [] [], .characters b!"textnoenc", .endElement b!"a" [] [], .endDocument] := by decide +kernel
  obtain ⟨doc, h, tr, h1, h2⟩ := ParseRes.good_of_events hv
  have hd : ∀ ev ∈ tr.map (·.1), ¬ IsDoctype ev := by rw [h2]; decide
  obtain ⟨d, x, e1, e2, _⟩ := C50_exactly_partial env0 20 _ h1 hd
  refine ⟨d, h, tr, x, by rw [h1, e1], hd, e2, ?_⟩
  rw [h2] at e2
  have e2 : some (XTree.node (.elem [97] [] [] [] []) (.node (.text b!"textnoenc") .nil .nil) .nil) = some x := e2
  cases e2
  exact fun h => h.1.1 rfl

end Helium
