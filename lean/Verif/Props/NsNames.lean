import Verif.Lemmas.NsNames
import Verif.Props.Ns
import Verif.Props.Refs
/-! Reserved names of namespaces (C76). -/
namespace Helium
open Spec

/-- **C76**: no start tag is reported that breaks the rules on reserved prefixes and namespaces. -/
def C76_statement : Prop := ∀ (σ : Type) (E : Env) (H : Handler σ) (usr : σ) (fuel snl : Nat) (input : Bytes) (d : Option Nat) (e : Option Err) (h : Heap)
  (t : List (Ev × HOut)), parserParse E H usr fuel snl input = .done d e h t → ∀ x ∈ t, ReservedKept x.1

/-- **C76 (partial)**: for every handler and however the parse ends, entities included, no start tag reports a declaration of the prefix `xml` or `xmlns`, a prefix
declared as empty, as the namespace of `xmlns` or as something that is no URI; every prefix of an element is bound to a namespace other than
these; declarations of prefixes are not reported as attributes. Missing: the namespace of `xml` under another prefix, and the default namespace (`C76_xml_renamed`,
`C76_default_unchecked`, `C76_default_attribute`). -/
theorem C76_reserved_partial {σ : Type} {E : Env} {H : Handler σ} {usr : σ} {fuel snl : Nat} {input : Bytes} {d : Option Nat} {e : Option Err} {h : Heap}
    {t : List (Ev × HOut)} (hp : parserParse E H usr fuel snl input = .done d e h t) : ∀ x ∈ t, ReservedChecked E x.1 := reserved_parse E hp

/-- in terms of the rules: a declaration of a prefix for another namespace than that of `xml` keeps them. -/
theorem C76_prefix_partial {σ : Type} {E : Env} {H : Handler σ} {usr : σ} {fuel snl : Nat} {input : Bytes} {d : Option Nat} {e : Option Err} {h : Heap}
    {t : List (Ev × HOut)} (hp : parserParse E H usr fuel snl input = .done d e h t) {l p u : Bytes} {ns : List (Option (Bytes × Bytes))} {as : List AttrD} {o : HOut}
    (hm : (.startElement l p u ns as, o) ∈ t) :
    (∀ q v, some (q, v) ∈ ns → q ≠ [] → v ≠ xmlURI → Bindable q v) ∧ (p ≠ [] → u ≠ xmlURI → Bindable p u) := by
  have hb : ∀ {q v : Bytes}, Checked E q v → v ≠ xmlURI → Bindable q v := fun hc hx =>
    ⟨⟨fun h => absurd h hc.1, fun h => absurd h hx⟩, hc.2.1, hc.2.2.2.1, fun _ => hc.2.2.1⟩
  obtain ⟨h1, h2, _⟩ := C76_reserved_partial hp _ hm
  exact ⟨fun q v hq hne hx => hb (h1 q v hq hne) hx, fun hne hx => hb (h2 hne) hx⟩

/-- the namespace of `xml` may be given another prefix. -/
theorem C76_xml_renamed : (parse env0 9 b!"<p:a xmlns:p='http://www.w3.org/XML/1998/namespace'/>").accepted = some [.setDocumentLocator, .startDocument,
    .startElement b!"a" b!"p" xmlURI [some (b!"p", xmlURI)] [], .endElement b!"a" b!"p" xmlURI, .endDocument] := by decide +kernel

/-- the default namespace may be that of `xmlns`. -/
theorem C76_default_unchecked : (parse env0 9 b!"<a xmlns='http://www.w3.org/2000/xmlns/'/>").accepted = some [.setDocumentLocator, .startDocument,
    .startElement b!"a" [] xmlnsURI [some ([], xmlnsURI)] [], .endElement b!"a" [] xmlnsURI, .endDocument] := by decide +kernel

/-- a declaration of the default namespace that is followed by an attribute is also reported as an attribute. -/
theorem C76_default_attribute : (parse env0 9 b!"<a xmlns='u' b='c'/>").accepted = some [.setDocumentLocator, .startDocument,
    .startElement b!"a" [] b!"u" [some ([], b!"u")] [.parsed [] b!"xmlns" b!"u", .parsed [] b!"b" b!"c"], .endElement b!"a" [] b!"u", .endDocument] := by decide +kernel

/-- prefixes of attributes need not be bound, and two attributes may have the same expanded name. -/
theorem C76_attributes_unchecked : (parse env0 9 b!"<a xmlns:p='u' xmlns:q='u' p:b='1' q:b='2' r:c='3'/>").accepted = some [.setDocumentLocator, .startDocument,
    .startElement b!"a" [] [] [some (b!"p", b!"u"), some (b!"q", b!"u")] [.parsed b!"p" b!"b" b!"1", .parsed b!"q" b!"b" b!"2", .parsed b!"r" b!"c" b!"3"],
    .endElement b!"a" [] [], .endDocument] := by decide +kernel

/-- `xml` is bound without a declaration; the parser refuses it as the prefix of an element. -/
theorem C76_xml_refused : (parse env0 9 b!"<xml:a/>").refused = true := by decide +kernel

theorem C76_refuted : ¬ C76_statement := by
  intro h
  obtain ⟨d, hp, t, e1, e2⟩ := ParseRes.accepted_some C76_xml_renamed
  have hm : Ev.startElement b!"a" b!"p" xmlURI [some (b!"p", xmlURI)] [] ∈ t.map (·.1) := by rw [e2]; simp
  obtain ⟨x, hx, e3⟩ := List.mem_map.1 hm
  have := h _ env0 _ _ _ _ _ _ _ _ _ e1 x hx
  rw [e3] at this
  exact absurd (this.2.1 (by decide)).1 (by decide)

/-- a document to which the partial claims apply: nested declarations and prefixes. -/
example : ∃ d h t, parserParse env0 (treeBuilder 9) () 9 9 b!"<r xmlns:x=\"u\"><x:a xmlns:y=\"v\"><y:b/></x:a></r>" = .done d none h t ∧
    Ev.startElement b!"a" b!"x" b!"u" [some (b!"y", b!"v")] [] ∈ t.map (·.1) ∧ Bindable b!"x" b!"u" := by
  obtain ⟨d, hp, t, e1, e2⟩ := ParseRes.accepted_some nested_ns
  have hm : Ev.startElement b!"a" b!"x" b!"u" [some (b!"y", b!"v")] [] ∈ t.map (·.1) := by rw [e2]; simp
  obtain ⟨⟨ev, o⟩, hx, rfl⟩ := List.mem_map.1 hm
  exact ⟨d, hp, t, e1, hm, (C76_prefix_partial (E := env0) (H := treeBuilder 9) (usr := ()) e1 hx).2 (by decide) (by decide)⟩

end Helium
