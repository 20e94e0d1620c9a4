import Verif.Lemmas.DumpSrc
import Verif.Lemmas.XmlDeclVals
import Verif.Props.Source
import Verif.Props.Attr
/-! Properties of the serialiser on whole documents: C09, C22, C50. -/
namespace Helium
open Spec

/-! ## C09 -/

theorem plain_dumpable {E : Env} {scope used : List (Bytes × Bytes)} {x : XTree} (h : Spec.Plain E scope used x) : x.Dumpable := by
  induction h with
  | nil => trivial
  | elem _ _ has _ _ _ _ ihk ihr =>
    refine ⟨?_, ihk, ihr⟩
    intro a ha
    obtain ⟨n, p, l, w, _, _, _, hw, rfl⟩ := has a ha
    exact ⟨_, reported_stands hw⟩
  | @text _ _ w _ _ hw hne _ _ ih =>
    refine ⟨?_, trivial, ih⟩
    intro e
    apply hne
    have h1 : ∀ c ∈ w, c < 0x80 := by
      intro c hc
      refine Decidable.byContradiction fun hge => ?_
      have : ∀ r : Nat, ¬ r < 0x80 → ∃ b ∈ encodeRune r, ¬ b < 0x80 := by
        intro r hr
        unfold encodeRune
        repeat' split
        all_goals first | exact absurd ‹_› hr | exact ⟨_, List.mem_cons_self, by omega⟩
      obtain ⟨b, hb, hb'⟩ := this c hge
      have hm : b ∈ encodeRunes w := by
        unfold encodeRunes
        exact List.mem_flatMap.2 ⟨c, hc, hb⟩
      rw [e] at hm
      exact hb' ((by decide : ∀ b ∈ b!"textnoenc", b < 0x80) b hm)
    rw [encodeRunes_ascii w h1] at e
    exact e
  | comment _ _ _ ih => exact ⟨trivial, ih⟩

theorem plainTop_dumpable {E : Env} {e : Bool} {x : XTree} (h : PlainTop E e x) : x.Dumpable := by
  induction h with
  | nil => trivial
  | comment _ _ _ ih => exact ⟨trivial, ih⟩
  | root h _ ih => exact ⟨(plain_dumpable h).1, (plain_dumpable h).2.1, ih⟩

theorem pseudo_legal {name v t : List Nat} (h : Pseudo name v t) (hn : ∀ c ∈ name, Legal c) (hv : ∀ c ∈ v, Legal c) : ∀ c ∈ t, Legal c := by
  obtain ⟨ws, w1, w2, q, _, h1, h2, h3, hq, rfl⟩ := h
  have hw : ∀ {l : List Nat}, Blank l → ∀ c ∈ l, Legal c := by
    intro l hl c hc
    rcases hl c hc with rfl | rfl | rfl | rfl <;> decide
  have hql : Legal q := by rcases hq with rfl | rfl <;> decide
  intro c hc
  simp only [List.mem_append, List.mem_cons, List.not_mem_nil, or_false] at hc
  rcases hc with hc | hc | hc | rfl | hc | rfl | hc | rfl
  all_goals first | decide | exact hw ‹_› c hc | exact hn c hc | exact hv c hc | exact hql

theorem xmlDecl_legal {t v e : List Nat} {sd : Int} (h : XmlDecl t v e sd) : ∀ c ∈ t, Legal c := by
  obtain ⟨a, b, c, rfl, hv, ha, hb, hc⟩ := h
  have asc : ∀ c, 32 ≤ c ∧ c < 128 → Legal c := by
    intro c hc
    unfold Legal XmlChar
    omega
  have hv' : ∀ c ∈ v, Legal c := by
    obtain ⟨ds, _, h1, rfl⟩ := hv
    intro c hc
    rcases List.mem_append.1 hc with hc | hc
    · simp at hc; exact asc c (by omega)
    · exact asc c (by have := h1 c hc; omega)
  intro x hx
  simp only [List.mem_append] at hx
  rcases hx with hx | hx | hx | hx | hx
  · simp at hx; exact asc x (by omega)
  · exact pseudo_legal ha (by decide) hv' x hx
  · rcases hb with ⟨rfl, _⟩ | ⟨he, hb⟩
    · cases hx
    · refine pseudo_legal hb (by decide) ?_ x hx
      intro c hc
      have : (if 65 ≤ c ∧ c ≤ 90 then c + 32 else c) ∈ b!"utf-8" := by
        rw [← he]
        exact List.mem_map.2 ⟨c, hc, rfl⟩
      simp at this
      apply asc
      split at this <;> omega
  · rcases hc with ⟨rfl, _⟩ | ⟨hc, _⟩ | ⟨hc, _⟩
    · cases hx
    · exact pseudo_legal hc (by decide) (by decide) x hx
    · exact pseudo_legal hc (by decide) (by decide) x hx
  · simp at hx; exact asc x (by omega)

/-- the version written for a document. -/
def writtenVersion (n : Node) : Bytes := if n.version = [] then b!"1.0" else n.version
/-- the standalone status that can be read back. -/
def writtenStandalone (n : Node) : Int := if n.standalone = 0 ∨ n.standalone = 1 then n.standalone else -2

/-- what the serialiser writes is a well-formed document with the same tree. -/
theorem dump_document {E : Env} {x : XTree} (hx : PlainDoc E x) (n : Node) (hv : n.version = [] ∨ Version n.version)
    (he : n.encoding = [] ∨ Utf8Name n.encoding) :
    ∃ t evs, encodeRunes t = dumpDocContent n ++ writtenTop x ∧ Document E t (writtenVersion n) n.encoding (writtenStandalone n) evs ∧
      treeOf (evs.filter notCData) = some x := by
  obtain ⟨m1, root, m2, e1, e2, e3, used, h1, h2, h3, h4, h5, h6, h7⟩ := top_src hx.1 rfl hx.2
  have pseudo : ∀ name v : List Nat, Pseudo name v (32 :: (name ++ (61 :: 34 :: (v ++ [34])))) := fun name v =>
    ⟨[32], [], [], 34, by simp, by decide, by decide, by decide, Or.inl rfl, rfl⟩
  have hd : ∃ t, dumpDocContent n = t ++ [10] ∧ XmlDecl t (writtenVersion n) n.encoding (writtenStandalone n) := by
    obtain ⟨t, ht, a, b, c, k1, k2, k3, k4, k5⟩ := dumpDoc_xmlDecl n (hv.imp_right version_num) (he.imp_right utf8_encName)
    refine ⟨t, ht, a, b, c, k1, ?_, k3, ?_, k5⟩
    · unfold writtenVersion
      split
      · exact ⟨b!"0", by decide, by decide, rfl⟩
      · exact hv.resolve_left ‹_›
    · rcases k4 with k4 | ⟨k4, k6⟩
      · exact Or.inl k4
      · rcases he with he | he
        · obtain ⟨c, t, e, _⟩ := k4
          rw [he] at e
          cases e
        · exact Or.inr ⟨he, k6⟩
  obtain ⟨d, hd1, hd2⟩ := hd
  have hda := xmlDecl_ascii hd2
  refine ⟨d ++ ((10 :: m1) ++ (root ++ m2)), _, ?_, ⟨d, 10 :: m1, root, m2, e1, e2, e3, used, rfl, ?_, .space (by decide) h1, h2, h3, ?_, rfl⟩, ?_⟩
  · rw [encodeRunes_append, encodeRunes_ascii d hda, List.cons_append, encodeRunes_cons, h4, hd1, List.append_assoc]
    rfl
  · exact ⟨[], d, rfl, Or.inl rfl, Or.inl hd2⟩
  · intro c hc
    rcases List.mem_append.1 hc with hc | hc
    · exact xmlDecl_legal hd2 c hc
    rcases List.mem_append.1 hc with hc | hc
    · rcases List.mem_cons.1 hc with rfl | hc
      · decide
      · exact h5 c (List.mem_append_left _ hc)
    · exact h5 c (List.mem_append_right _ hc)
  · have hf : ([Ev.setDocumentLocator, .startDocument] ++ (e1 ++ (e2 ++ (e3 ++ [Ev.endDocument])))).filter notCData =
        [Ev.setDocumentLocator, .startDocument] ++ (e1 ++ (e2 ++ (e3 ++ [Ev.endDocument]))) := by
      rw [List.filter_eq_self]
      intro ev hev
      simp only [List.mem_append, List.mem_cons, List.not_mem_nil, or_false] at hev
      have h6' : ∀ ev, ev ∈ e1 ∨ ev ∈ e2 ∨ ev ∈ e3 → notCData ev = true := fun ev h => h6 ev (by simpa using h)
      rcases hev with (rfl | rfl) | hev | hev | hev | rfl
      · rfl
      · rfl
      · exact h6' ev (Or.inl hev)
      · exact h6' ev (Or.inr (Or.inl hev))
      · exact h6' ev (Or.inr (Or.inr hev))
      · rfl
    rw [hf]
    unfold treeOf
    have : Partial.steps ⟨[], .nil⟩ ([Ev.setDocumentLocator, .startDocument] ++ (e1 ++ (e2 ++ (e3 ++ [Ev.endDocument])))) = some ⟨[], x⟩ := by
      rw [steps_append]
      show Partial.steps ⟨[], .nil⟩ (e1 ++ (e2 ++ (e3 ++ [Ev.endDocument]))) = _
      rw [show e1 ++ (e2 ++ (e3 ++ [Ev.endDocument])) = (e1 ++ (e2 ++ e3)) ++ [.endDocument] by simp, steps_append, h7]
      rfl
    rw [this]

/-- **C09** for documents of elements, attributes, namespace declarations, text and comments (`PlainDoc`): the serialiser succeeds, and
parsing what it writes gives a document with the same tree and the same XML declaration. Missing from the full claim: the text `textnoenc`
(`C09_refuted`), several declarations of one prefix, default namespace declarations
in a tag with attributes (`C09_default_panics`), and namespace names that would have to be escaped. -/
theorem C09_roundtrip_partial (E : Env) {x : XTree} (hx : PlainDoc E x) {h : Heap} {d : Nat} (H : HoldsDoc h d x)
    (hv : (h.at' d).version = [] ∨ Version (h.at' d).version) (he : (h.at' d).encoding = [] ∨ Utf8Name (h.at' d).encoding) :
    ∃ out, xmlString h d = .ok () out ∧ ∀ fuel, out.length + 1 < fuel →
      ∃ d' heap' tr, parse E fuel out = .done (some d') none heap' tr ∧ HoldsDoc heap' d' x ∧
        (heap'.at' d').version = writtenVersion (h.at' d) ∧ (heap'.at' d').encoding = (h.at' d).encoding ∧
        (heap'.at' d').standalone = writtenStandalone (h.at' d) := by
  obtain ⟨t, evs, h1, h2, h3⟩ := dump_document hx (h.at' d) hv he
  refine ⟨_, xmlString_run H (plainTop_dumpable hx.1), ?_⟩
  intro fuel hf
  rw [← h1] at hf ⊢
  obtain ⟨d', heap', tr, y, k1, _, k3, k4, k5, k6, k7⟩ := C51_tree E h2 fuel hf
  rw [h3] at k3
  cases k3
  exact ⟨d', heap', tr, k1, k4, k5, k6, k7⟩

/-- every such tree is the tree of a parsed document. -/
theorem plainDoc_parsed (E : Env) {x : XTree} (hx : PlainDoc E x) : ∃ fuel input d heap tr,
    parse E fuel input = .done (some d) none heap tr ∧ HoldsDoc heap d x ∧ (heap.at' d).version = b!"1.0" ∧ (heap.at' d).encoding = [] := by
  obtain ⟨t, evs, h1, h2, h3⟩ := dump_document hx {} (Or.inl rfl) (Or.inl rfl)
  obtain ⟨d', heap', tr, y, k1, _, k3, k4, k5, k6, _⟩ := C51_tree E h2 _ (Nat.lt_succ_self _)
  rw [h3] at k3
  cases k3
  exact ⟨_, _, d', heap', tr, k1, k4, k5, k6⟩

/-- serialising again what was read back gives the same bytes. -/
theorem C09_stable_partial (E : Env) {x : XTree} (hx : PlainDoc E x) {h : Heap} {d : Nat} (H : HoldsDoc h d x)
    (hv : (h.at' d).version = [] ∨ Version (h.at' d).version) (he : (h.at' d).encoding = [] ∨ Utf8Name (h.at' d).encoding) :
    ∃ out, xmlString h d = .ok () out ∧ ∀ fuel, out.length + 1 < fuel →
      ∃ d' heap' tr, parse E fuel out = .done (some d') none heap' tr ∧ xmlString heap' d' = .ok () out := by
  obtain ⟨out, h1, h2⟩ := C09_roundtrip_partial E hx H hv he
  refine ⟨out, h1, fun fuel hf => ?_⟩
  obtain ⟨d', heap', tr, k1, k2, k3, k4, k5⟩ := h2 fuel hf
  refine ⟨d', heap', tr, k1, ?_⟩
  rw [xmlString_run H (plainTop_dumpable hx.1)] at h1
  cases h1
  rw [xmlString_run k2 (plainTop_dumpable hx.1)]
  have : dumpDocContent (heap'.at' d') = dumpDocContent (h.at' d) := by
    unfold dumpDocContent
    rw [k3, k4, k5]
    unfold writtenVersion writtenStandalone
    by_cases g1 : (h.at' d).version = [] <;> by_cases g2 : (h.at' d).standalone = 0 <;> by_cases g3 : (h.at' d).standalone = 1 <;> simp [g1, g2, g3]
  rw [this]

/-- `<!--n-->` and `<a b="1&lt;2"><p:c xmlns:p="u"/>t &amp;&#13;<!--m--></a>`. -/
def plainSample : XTree :=
  .node (.comment b!"n") .nil (.node (.elem b!"a" [] [] [] [(b!"b", b!"1<2")])
    (.node (.elem b!"c" b!"p" b!"u" [(b!"p", b!"u")] []) .nil (.node (.text (b!"t &" ++ [13])) .nil (.node (.comment b!"m") .nil .nil))) .nil)

theorem plainSample_plain : PlainDoc env0 plainSample := by
  have nc : ∀ c, 97 ≤ c → c ≤ 122 → NCName env0 [c] := fun c h1 h2 =>
    ascii_ncname rfl ⟨h1, h2⟩ (by intro x hx; simp at hx; omega) (by simp)
  refine ⟨.comment (b := b!"n") ⟨by decide, by decide, noLoneCR_of (by decide)⟩ (by decide) (.root ?_ .nil), by decide⟩
  refine .elem (n := b!"a") (p := []) (l := b!"a") (ds := []) (u := []) ⟨⟨nc 97 (by decide) (by decide), Or.inl ⟨rfl, rfl⟩⟩, by decide⟩ (Or.inl (by simp)) ?_ (by decide)
    (Or.inl ⟨rfl, rfl, by simp⟩) ?_ .nil
  · intro a ha
    simp at ha
    subst ha
    exact ⟨b!"b", [], b!"b", b!"1<2", ⟨⟨nc 98 (by decide) (by decide), Or.inl ⟨rfl, rfl⟩⟩, by decide⟩, by decide, by decide, by decide, rfl⟩
  · refine .elem (n := b!"p:c") (p := b!"p") (l := b!"c") (ds := [(b!"p", b!"u")]) (as := [])
      ⟨⟨nc 99 (by decide) (by decide), Or.inr ⟨nc 112 (by decide) (by decide), rfl⟩⟩, by decide⟩ (Or.inl ?_) (by simp) (by decide)
      (Or.inr (by decide)) .nil ?_
    · intro d hd
      simp at hd
      subst hd
      exact ⟨b!"p", b!"u", nc 112 (by decide) (by decide), by decide, by decide, by decide, ⟨by decide, by decide, by decide⟩, rfl, by decide, rfl⟩
    · exact .text (w := b!"t &" ++ [13]) (by decide) (by decide) (by decide) id
        (.comment (b := b!"m") ⟨by decide, by decide, noLoneCR_of (by decide)⟩ (by decide) .nil)

/-- the hypotheses of `C09_roundtrip_partial` hold for it. -/
example : ∃ h d, HoldsDoc h d plainSample ∧ Version (h.at' d).version ∧ (h.at' d).encoding = [] := by
  obtain ⟨_, _, d, h, _, _, h1, h2, h3⟩ := plainDoc_parsed env0 plainSample_plain
  exact ⟨h, d, h1, by rw [h2]; exact ⟨b!"0", by decide, by decide, rfl⟩, h3⟩

example : writtenTop plainSample = b!"<!--n-->\n<a b=\"1&lt;2\"><p:c xmlns:p=\"u\"/>t &amp;&#13;<!--m--></a>\n" := by decide +kernel

/-- no processing instruction anywhere. -/
def NoPI : XTree → Prop
  | .nil => True
  | .node (.pi _ _) _ _ => False
  | .node _ k r => NoPI k ∧ NoPI r

/-- the full claim **C09**: a parsed document of elements, attributes, text and comments is read back as it was. -/
def C09_statement : Prop := ∀ (E : Env) (fuel : Nat) (input : Bytes) (d : Nat) (h : Heap) (tr : List (Ev × HOut)) (x : XTree),
  parse E fuel input = .done (some d) none h tr → HoldsDoc h d x → NoPI x →
  ∃ out, xmlString h d = .ok () out ∧ ∃ fuel' d' h' tr', parse E fuel' out = .done (some d') none h' tr' ∧ HoldsDoc h' d' x

/-- the serialiser panics on the result of a parse. -/
def dumpPanics : ParseRes → Bool
  | .done (some d) none h _ => match xmlString h d with
    | .panic => true
    | _ => false
  | _ => false

theorem dumpPanics_of {r : ParseRes} (h : dumpPanics r = true) : ∃ d hp tr, r = .done (some d) none hp tr ∧ xmlString hp d = .panic := by
  unfold dumpPanics at h
  split at h
  · rename_i d hp tr
    refine ⟨d, hp, tr, rfl, ?_⟩
    split at h
    · assumption
    · cases h
  · cases h

theorem textnoenc_panics : dumpPanics (parse env0 20 b!"<a>textnoenc</a>") = true := by decide +kernel

/-- **C09** fails: `<a>textnoenc</a>` is parsed, but cannot be serialised: the text node is mistaken for the marker of unescaped text and
the serialiser panics. -/
theorem C09_refuted : ¬ C09_statement := by
  intro hs
  obtain ⟨d, h, tr, h1, h2⟩ := dumpPanics_of textnoenc_panics
  have h3 : (parse env0 20 b!"<a>textnoenc</a>").events = some
      [.setDocumentLocator, .startDocument, .startElement [97] [] [] [] [], .characters b!"textnoenc", .endElement [97] [] [], .endDocument] := by
    decide +kernel
  obtain ⟨doc, hp, tr', k1, k2⟩ := ParseRes.good_of_events h3
  have k1' := k1
  rw [h1] at k1'
  cases k1'
  obtain ⟨d', x, e1, e2, e3⟩ := C45_tree_partial env0 20 20 20 () b!"<a>textnoenc</a>" h1 (by rw [k2]; decide)
  cases e1
  rw [k2] at e2
  have e2 : some (XTree.node (.elem [97] [] [] [] []) (.node (.text b!"textnoenc") .nil .nil) .nil) = some x := e2
  cases e2
  obtain ⟨out, ho, _⟩ := hs env0 20 _ d h tr _ h1 e3 ⟨⟨trivial, trivial⟩, trivial⟩
  rw [h2] at ho
  cases ho

/-! ## C50 -/

/-- the full claim **C50**: a parsed document can be serialised. -/
def C50_statement : Prop := ∀ (E : Env) (fuel : Nat) (input : Bytes) (d : Nat) (h : Heap) (tr : List (Ev × HOut)),
  parse E fuel input = .done (some d) none h tr → ∃ out, xmlString h d = .ok () out

theorem C50_refuted : ¬ C50_statement := by
  intro hs
  obtain ⟨d, h, tr, h1, h2⟩ := dumpPanics_of textnoenc_panics
  obtain ⟨out, ho⟩ := hs env0 20 _ d h tr h1
  rw [h2] at ho
  cases ho

/-- **C50** for documents without document type declaration: serialising does not fail, panic or loop if no text is the word `textnoenc`
and all attribute values contain ampersands only as `&#38;` (`Dumpable`). Missing: documents with a document type declaration; that
attribute values are always of this kind. -/
theorem C50_serialises_partial (E : Env) (fuel : Nat) (input : Bytes) {doc : Option Nat} {h : Heap} {tr : List (Ev × HOut)}
    (hp : parse E fuel input = .done doc none h tr) (hd : ∀ ev ∈ tr.map (·.1), ¬ IsDoctype ev)
    (hx : ∀ x, treeOf ((tr.map (·.1)).filter notCData) = some x → x.Dumpable) :
    ∃ d x, doc = some d ∧ treeOf ((tr.map (·.1)).filter notCData) = some x ∧
      xmlString h d = .ok () (dumpDocContent (h.at' d) ++ writtenTop x) := by
  obtain ⟨d, x, e1, e2, e3⟩ := C45_tree_partial E fuel fuel fuel () input hp hd
  exact ⟨d, x, e1, e2, xmlString_run e3 (hx x e2)⟩

/-- the hypotheses hold for a document with a processing instruction, which is written without its target. -/
example : ∃ d h, xmlString h d = .ok () (dumpDocContent (h.at' d) ++ b!"<a b=\"1\">t<!--c--><d/></a>\n<></>\n") := by
  have h3 : (parse env0 9 b!"<a b='1'>t<!--c--><d/></a><?p q?>").events = some
    [.setDocumentLocator, .startDocument, .startElement [97] [] [] [] [.parsed [] [98] [49]], .characters [116], .comment [99],
      .startElement [100] [] [] [] [], .endElement [100] [] [], .endElement [97] [] [], .pi [112] [113], .endDocument] := by
    decide +kernel
  obtain ⟨doc, hp, tr, k1, k2⟩ := ParseRes.good_of_events h3
  have ht : treeOf ((tr.map (·.1)).filter notCData) = some (.node (.elem [97] [] [] [] [([98], [49])])
      (.node (.text [116]) .nil (.node (.comment [99]) .nil (.node (.elem [100] [] [] [] []) .nil .nil)))
      (.node (.pi [112] [113]) .nil .nil)) := by
    rw [k2]
    decide
  obtain ⟨d, x, e1, e2, e3⟩ := C50_serialises_partial env0 9 _ k1 (by rw [k2]; decide) (by
    intro x hx
    rw [ht] at hx
    cases hx
    refine ⟨?_, ⟨by decide, trivial, trivial, nofun, trivial, trivial⟩, trivial, trivial⟩
    · intro a ha
      simp at ha
      subst ha
      exact ⟨[49], C20_value_without_reference (rs := [49]) (by decide) (by decide)⟩)
  rw [ht] at e2
  cases e2
  exact ⟨d, hp, e3⟩

/-! ## C22 -/

/-- an XML declaration (production [23]) in UTF-8, with the white space XML allows before `?>`. -/
def LegalXmlDecl (t v e : List Nat) (sd : Int) : Prop :=
  ∃ a b c ws, t = b!"<?xml" ++ (a ++ (b ++ (c ++ (ws ++ b!"?>")))) ∧ Blank ws ∧ Version v ∧ Pseudo b!"version" v a ∧
    (b = [] ∧ e = [] ∨ Utf8Name e ∧ Pseudo b!"encoding" e b) ∧
    (c = [] ∧ sd = -2 ∨ Pseudo b!"standalone" b!"yes" c ∧ sd = 1 ∨ Pseudo b!"standalone" b!"no" c ∧ sd = 0)

/-- the full claim **C22**, second half: every legal XML declaration is accepted. -/
def C22_statement : Prop := ∀ (E : Env) (t v e : List Nat) (sd : Int), LegalXmlDecl t v e sd → ∀ fuel, t.length + 10 < fuel →
  ∃ d h tr, parse E fuel (t ++ b!"<a/>") = .done (some d) none h tr ∧ (h.at' d).version = v ∧ (h.at' d).encoding = e ∧ (h.at' d).standalone = sd

/-- **C22** fails: white space before `?>` is refused. -/
theorem C22_refuted : ¬ C22_statement := by
  intro hs
  have hl : LegalXmlDecl b!"<?xml version=\"1.0\" ?>" b!"1.0" [] (-2) :=
    ⟨b!" version=\"1.0\"", [], [], [32], rfl, by decide, ⟨b!"0", by decide, by decide, rfl⟩,
      ⟨b!" ", [], [], 34, by decide, by decide, by decide, by decide, Or.inl rfl, rfl⟩, Or.inl ⟨rfl, rfl⟩, Or.inl ⟨rfl, rfl⟩⟩
  obtain ⟨d, h, tr, h1, _⟩ := hs env0 _ _ _ _ hl 50 (by decide)
  have h2 : (parse env0 50 (b!"<?xml version=\"1.0\" ?>" ++ b!"<a/>")).events = none := by decide +kernel
  rw [h1] at h2
  cases h2

/-- **C22**, the XML declarations without white space before `?>`: they are accepted with their values, whatever the version number and
the encoding name. -/
theorem C22_accepts_partial {σ : Type} (E : Env) {t v e w : List Nat} {sd : Int} (h : XmlDeclAny t v e sd) (s : St σ) (hs : s.cur = t ++ w)
    (he : s.encoding = []) (hsd : s.standalone = -2) :
    parseXMLDecl E s = .ok () { s with cur := w, version := v, encoding := e, standalone := sd } := parseXMLDecl_run E h s hs he hsd

example : XmlDeclAny b!"<?xml version='7.25'  encoding = \"x-Y.8\"\nstandalone='no'?>" b!"7.25" b!"x-Y.8" 0 :=
  ⟨b!" version='7.25'", b!"  encoding = \"x-Y.8\"", b!"\nstandalone='no'", rfl, ⟨55, b!"25", by decide, by decide, by decide, rfl⟩,
    ⟨b!" ", [], [], 39, by decide, by decide, by decide, by decide, Or.inr rfl, rfl⟩,
    Or.inr ⟨⟨120, b!"-Y.8", rfl, by unfold AsciiLetter; decide, by unfold AsciiLetter; decide⟩,
      ⟨b!"  ", b!" ", b!" ", 34, by decide, by decide, by decide, by decide, Or.inl rfl, rfl⟩⟩,
    Or.inr (Or.inr ⟨⟨b!"\n", [], [], 39, by decide, by decide, by decide, by decide, Or.inr rfl, rfl⟩, rfl⟩)⟩

/-- **C22**, first half, in full: whatever version, encoding and standalone status reading an XML declaration has given, the serialiser
writes an XML declaration that is read back as the same values. -/
theorem C22_read_back {σ τ : Type} (E : Env) {s s' : St σ} (he : s.encoding = []) (hsd : s.standalone = -2) (h : parseXMLDecl E s = .ok () s')
    (n : Node) (h1 : n.version = s'.version) (h2 : n.encoding = s'.encoding) (h3 : n.standalone = s'.standalone) (s1 : St τ) (w : Bytes)
    (hc : s1.cur = dumpDocContent n ++ w) (he1 : s1.encoding = []) (hsd1 : s1.standalone = -2) :
    parseXMLDecl E s1 = .ok () { s1 with cur := 10 :: w, version := s'.version, encoding := s'.encoding, standalone := s'.standalone } := by
  obtain ⟨k1, k2, k3⟩ := xmlDecl_values E he hsd h
  obtain ⟨t, e1, e2⟩ := dumpDoc_xmlDecl n (Or.inr (by rw [h1]; exact k1)) (by rw [h2]; exact k2)
  have hne : n.version ≠ [] := by
    obtain ⟨_, _, _, _, _, e⟩ := k1
    rw [h1, e]
    simp
  have e3 : (if n.standalone = 0 ∨ n.standalone = 1 then n.standalone else -2) = s'.standalone := by
    rw [h3]
    rcases k3 with h | h | h <;> rw [h] <;> rfl
  rw [if_neg hne, e3, h1, h2] at e2
  exact parseXMLDecl_run E e2 s1 (by rw [hc, e1, List.append_assoc]; rfl) he1 hsd1

/-- an instance: after reading `<?xml version="1.1" standalone='yes'?>`. -/
example : ∃ s' : St Unit, parseXMLDecl env0 (initSt () Heap.empty b!"<?xml version=\"1.1\" standalone='yes'?>") = .ok () s' ∧ s'.version = b!"1.1" ∧ s'.standalone = 1 :=
  ⟨_, C22_accepts_partial env0 (v := b!"1.1") (e := []) (sd := 1) (w := [])
    ⟨b!" version=\"1.1\"", [], b!" standalone='yes'", rfl, ⟨49, b!"1", by decide, by decide, by decide, rfl⟩,
      ⟨b!" ", [], [], 34, by decide, by decide, by decide, by decide, Or.inl rfl, rfl⟩, Or.inl ⟨rfl, rfl⟩,
      Or.inr (Or.inl ⟨⟨b!" ", [], [], 39, by decide, by decide, by decide, by decide, Or.inr rfl, rfl⟩, rfl⟩)⟩ _ rfl rfl rfl, rfl, rfl⟩

end Helium
