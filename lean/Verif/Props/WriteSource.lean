import Verif.Lemmas.WriteSrc

/-! # C09 from the text: well-formed documents read, written and read again -/

namespace Helium
open Spec

/-- **C09** from the text: any well-formed document (without document type declaration, as specified by `Document`) is accepted; if its
tree avoids the known losses (`Writable`: processing instructions, the text `textnoenc`, a declared default namespace beside attributes,
namespace names that would have to be escaped), the serialiser succeeds, what it writes is accepted, and the tree and the XML declaration
read back are those read before, the version 1.0 standing for a missing declaration. Nothing is assumed about how the document is written:
references, line ends, either kind of quotes, white space in tags, CDATA sections. -/
theorem C09_source_partial (E : Env) {t v e : List Nat} {sd : Int} {evs : List Ev} (h : Document E t v e sd evs) (fuel : Nat)
    (hf : (encodeRunes t).length + 1 < fuel) :
    ∃ d heap tr x, parse E fuel (encodeRunes t) = .done (some d) none heap tr ∧ treeOf (evs.filter notCData) = some x ∧ HoldsDoc heap d x ∧
      (x.Writable → ∃ out, xmlString heap d = .ok () out ∧ ∀ fuel', out.length + 1 < fuel' →
        ∃ d' heap' tr', parse E fuel' out = .done (some d') none heap' tr' ∧ HoldsDoc heap' d' x ∧
          (heap'.at' d').version = (if v = [] then b!"1.0" else v) ∧ (heap'.at' d').encoding = e ∧ (heap'.at' d').standalone = sd ∧
          xmlString heap' d' = .ok () out) := by
  obtain ⟨d, heap, tr, x, k1, _, k3, k4, k5, k6, k7⟩ := C51_tree E h fuel hf
  refine ⟨d, heap, tr, x, k1, k3, k4, fun hw => ?_⟩
  have hx := document_plain h k3 hw
  have hh : (v = [] ∨ Version v) ∧ (e = [] ∨ Utf8Name e) ∧ (sd = -2 ∨ sd = 1 ∨ sd = 0) := by
    obtain ⟨_, _, _, _, _, _, _, _, _, ⟨_, _, _, _, hd⟩, _⟩ := h
    rcases hd with ⟨_, _, _, _, h1, _, h2, h3⟩ | ⟨_, rfl, rfl, rfl, _⟩
    · refine ⟨.inr h1, h2.imp (·.2) (·.1), ?_⟩
      rcases h3 with h3 | h3 | h3
      · exact .inl h3.2
      · exact .inr (.inl h3.2)
      · exact .inr (.inr h3.2)
    · exact ⟨.inl rfl, .inl rfl, .inl rfl⟩
  obtain ⟨out, o1, o2⟩ := C09_roundtrip_partial E hx k4 (by rw [k5]; exact hh.1) (by rw [k6]; exact hh.2.1)
  obtain ⟨out', q1, q2⟩ := C09_stable_partial E hx k4 (by rw [k5]; exact hh.1) (by rw [k6]; exact hh.2.1)
  rw [o1] at q1
  cases q1
  refine ⟨out, o1, fun fuel' hf' => ?_⟩
  obtain ⟨d', heap', tr', m1, m2, m3, m4, m5⟩ := o2 fuel' hf'
  obtain ⟨d2, heap2, tr2, n1, n2⟩ := q2 fuel' hf'
  rw [m1] at n1
  cases n1
  refine ⟨d', heap', tr', m1, m2, ?_, by rw [m4, k6], ?_, n2⟩
  · rw [m3, writtenVersion, k5]
  · rw [m5, writtenStandalone, k7]
    rcases hh.2.2 with rfl | rfl | rfl <;> rfl

/-! ### a document of this kind -/

/-- `<!--n--><a b = "1&lt;2">t&#65;<p:c xmlns:p='u' /><![CDATA[&]]> </a>` and a line end. -/
def sampleWrite : List Nat := b!"<!--n--><a b = \"1&lt;2\">t&#65;<p:c xmlns:p='u' /><![CDATA[&]]> </a>\n"

def sampleWriteEvents : List Ev := [.setDocumentLocator, .startDocument, .comment b!"n",
  .startElement b!"a" [] [] [] [.parsed [] b!"b" b!"1<2"], .characters b!"t", .characters b!"A",
  .startElement b!"c" b!"p" b!"u" [some (b!"p", b!"u")] [], .endElement b!"c" b!"p" b!"u", .cdata b!"&", .characters b!" ",
  .endElement b!"a" [] [], .endDocument]

theorem sampleWrite_document : Document env0 sampleWrite [] [] (-2) sampleWriteEvents := by
  have nc : ∀ c, 97 ≤ c → c ≤ 122 → NCName env0 [c] := fun c h1 h2 =>
    ascii_ncname rfl ⟨h1, h2⟩ (by intro x hx; simp at hx; omega) (by simp)
  have hv1 : Value 34 b!"1&lt;2" b!"1<2" :=
    .char (c := 49) (by decide) (by decide) (by decide) (by decide) (by decide)
      (.ref (b := b!"lt") (v := 60) (by decide) (by decide) (by decide)
        (.char (c := 50) (by decide) (by decide) (by decide) (by decide) (by decide) .nil))
  have ha1 : Atts env0 [] b!" b = \"1&lt;2\"" [.parsed [] b!"b" b!"1<2"] [] :=
    .attr (ws := b!" ") (n := b!"b") (p := []) (l := b!"b") (w1 := b!" ") (w2 := b!" ") (q := 34) (v := b!"1&lt;2") (w := b!"1<2") (r := [])
      (by decide) (by decide) ⟨nc 98 (by decide) (by decide), Or.inl ⟨rfl, rfl⟩⟩ (by decide) (by decide) (by decide) (by decide) (Or.inl rfl) hv1 (.nil (by decide))
  have hv2 : Value 39 b!"u" b!"u" := .char (c := 117) (by decide) (by decide) (by decide) (by decide) (by decide) .nil
  have ha2 : Atts env0 [] b!" xmlns:p='u' " [] [(b!"p", b!"u")] :=
    .decl (ws := b!" ") (p := b!"p") (w1 := []) (w2 := []) (q := 39) (v := b!"u") (w := b!"u") (r := b!" ")
      (by decide) (by decide) (nc 112 (by decide) (by decide)) (by decide) (by decide) (by decide) (by decide) (Or.inr rfl) hv2 (by decide) (by decide) rfl
      (by decide) (by decide) (.nil (by decide))
  have k5 : Src env0 false [] [(b!"p", b!"u")] [] [] [(b!"p", b!"u")] := .nil
  have k4 := Src.text (l := b!" ") ⟨by decide, by decide, by decide, noLoneCR_of (by decide)⟩ (by intro c hc; cases hc) k5
  have k3 := Src.cdata (l := b!"&") ⟨by decide, by decide, by decide, noLoneCR_of (by decide)⟩ k4
  have k2 := Src.element (Src.empty (scope := []) (used := []) (n := b!"p:c") (p := b!"p") (l := b!"c") (u := b!"u")
    ⟨nc 99 (by decide) (by decide), Or.inr ⟨nc 112 (by decide) (by decide), rfl⟩⟩ ha2 (by decide) (Or.inr (by decide))) k3
  have k1 := Src.ref (b := b!"#65") (v := 65) (by decide) (by decide) (by decide) k2
  have k0 := Src.text (l := b!"t") ⟨by decide, by decide, by decide, noLoneCR_of (by decide)⟩ (by intro c hc; cases hc; exact Or.inr rfl) k1
  have root := Src.full (scope := []) (used := []) (n := b!"a") (p := []) (l := b!"a") (u := [])
    ⟨nc 97 (by decide) (by decide), Or.inl ⟨rfl, rfl⟩⟩ ha1 (by decide) (Or.inl ⟨rfl, rfl, by simp⟩) k0 (by decide)
  refine ⟨[], b!"<!--n-->", _, b!"\n", [.comment b!"n"], _, [], _, rfl, ?_, ?_, root, ?_, by decide, rfl⟩
  · exact ⟨[], [], rfl, .inl rfl, .inr ⟨rfl, rfl, rfl, rfl, by decide⟩⟩
  · exact .comment (b := b!"n") ⟨by decide, by decide, noLoneCR_of (by decide)⟩ .nil
  · exact .space (by decide) .nil

/-- its tree is one that survives. -/
theorem sampleWrite_writable {x : XTree} (hx : treeOf (sampleWriteEvents.filter notCData) = some x) : x.Writable := by
  have : treeOf (sampleWriteEvents.filter notCData) = some (.node (.comment b!"n") .nil (.node (.elem b!"a" [] [] [] [(b!"b", b!"1<2")])
    (.node (.text b!"tA") .nil (.node (.elem b!"c" b!"p" b!"u" [(b!"p", b!"u")] []) .nil (.node (.text b!" ") .nil .nil))) .nil)) := by rfl
  rw [this] at hx
  cases hx
  refine ⟨trivial, trivial, ⟨by simp, by decide⟩, ⟨by decide, trivial, ⟨?_, by decide⟩, trivial, by decide, trivial, trivial⟩, trivial⟩
  intro y hy
  simp at hy
  subst hy
  exact ⟨by decide, by decide, by decide, by decide, by decide⟩

/-- the conclusion for it. -/
example : ∃ d heap tr out, parse env0 100 (encodeRunes sampleWrite) = .done (some d) none heap tr ∧ xmlString heap d = .ok () out ∧
    ∀ fuel, out.length + 1 < fuel → ∃ d' heap' tr', parse env0 fuel out = .done (some d') none heap' tr' ∧ xmlString heap' d' = .ok () out := by
  obtain ⟨d, heap, tr, x, h1, h2, _, h4⟩ := C09_source_partial env0 sampleWrite_document 100 (by decide)
  obtain ⟨out, h5, h6⟩ := h4 (sampleWrite_writable h2)
  refine ⟨d, heap, tr, out, h1, h5, fun fuel hf => ?_⟩
  obtain ⟨d', heap', tr', k1, _, _, _, _, k2⟩ := h6 fuel hf
  exact ⟨d', heap', tr', k1, k2⟩

end Helium
