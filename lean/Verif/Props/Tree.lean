import Verif.Lemmas.TreeParse
import Verif.Lemmas.AttOK
import Verif.Props.Sax
/-! # The tree returned by Parse (C45, parse part of C19) -/
namespace Helium
open Spec

/-- an event reporting a document type declaration. -/
def IsDoctype : Ev → Prop
  | .internalSubset .. => True
  | _ => False

instance : DecidablePred IsDoctype := fun ev => by cases ev <;> unfold IsDoctype <;> infer_instance

/-- **C45**: `Parse` returns a document node whose children, with consistent links, are exactly the trees described by the events (elements with
names, namespaces, declarations and attributes, text, comments, processing instructions, references to entities, the document type declaration
with its identifiers; nested and ordered in the same way), CDATA sections and the replacement text of entities left out: where the parser
expands a reference to a declared entity, the tree has the reference and nothing of what the replacement text reported, which has closed
every element it opened. If there is a document type declaration, its children, with consistent links, are the declarations reported, in
order and with the data reported; otherwise the document has none, and no references to entities were reported.
Missing for the full statement: CDATA sections, which the code drops, see `C45_refuted`; and documents with a processing instruction inside of
the document type declaration, see `C45_pi_refuted`. -/
theorem C45_tree_entities_partial {σ : Type} (E : Env) (tf fuel snl : Nat) (usr : σ) (input : Bytes) {doc : Option Nat} {h : Heap}
    {tr : List (Ev × HOut)} (hr : parserParse E (treeBuilder tf) usr fuel snl input = .done doc none h tr)
    (hp : noPIInside false (tr.map (·.1)) = true) :
    ∃ d vis t, doc = some d ∧ Visible (tr.map (·.1)) vis ∧ treeOf (vis.filter notCData) = some t ∧ HoldsDoc h d t ∧
      ((∃ ev ∈ tr.map (·.1), IsDoctype ev) → HoldsSubset h d ((tr.map (·.1)).filter isDecl)) ∧
      ((∀ ev ∈ tr.map (·.1), ¬ IsDoctype ev) → (h.at' d).intSubset = none ∧ ∀ n, .reference n ∉ tr.map (·.1)) ∧
      ∀ pre n e u post, tr.map (·.1) = pre ++ .externalSubset n e u :: post → ∀ m, .reference m ∉ pre := by
  obtain ⟨st0, hn, h0⟩ := C02_nesting E _ usr fuel snl input hr
  rw [h0 rfl] at hn
  unfold parserParse at hr
  cases hq : parseDocument E (treeBuilder tf) fuel snl (initSt usr Heap.empty input) with
  | ok a s =>
    rw [hq] at hr
    cases hr
    have hs : ∀ {x : Ev × HOut}, x ∈ s.trace → x.1 ∈ s.trace.map (·.1) := fun hx => List.mem_map.2 ⟨_, hx, rfl⟩
    obtain ⟨vis, st, o, v, e1, ⟨I, _, hi⟩, ho, hnr, hpre, _⟩ := parse_tree E hq hp
    rw [v.nest] at hn
    have hl := nest_steps _ _ _ _ _ hn e1 rfl
    obtain ⟨a, fs, i1, R, T, i5, i6, Z, D, _⟩ := I
    have hin : st.inner = [] := by
      cases hst : st.inner with
      | nil => rfl
      | cons x y => rw [hst] at hl; cases hl
    rw [hin] at i5
    cases fs with
    | cons x y => cases i5
    | nil =>
      refine ⟨0, vis, st.top, i1, v, ?_, ⟨Z.2.1, a.kids 0, R.childList Z.1 ?_, Z.2.2.holds R⟩, fun ⟨ev, he, hev⟩ => ?_, fun hno => ?_, hpre⟩
      · unfold treeOf
        rw [e1]
        obtain ⟨i, t⟩ := st
        have hi : i = [] := hin
        subst hi
        rfl
      · rw [← R.kind Z.1, Z.2.1]
        rfl
      · cases o with
        | none =>
          obtain ⟨x, hx, rfl⟩ := List.mem_map.1 he
          have := ho.1 rfl x hx
          unfold IsDoctype at hev
          split at hev
          · rename_i n e u he
            exact absurd he (this _ _ _)
          · exact absurd hev id
        | some t =>
          unfold DtdPart at D
          rw [hi] at D
          obtain ⟨d1, d2, d3, d4, _⟩ := D
          refine ⟨t, a.kids t, a.kids 0, hi, d2, ?_, R.childList Z.1 (by rw [← R.kind Z.1, Z.2.1]; rfl), d1, ?_, d4⟩
          · obtain ⟨x, y, hxy⟩ := List.append_of_mem d1
            exact (R.link 0 x t y hxy).2.2
          · have ht := (R.kid 0 t d1).1
            refine R.childList ht ?_
            rw [← R.kind ht, d2]
            rfl
      · have hnone := ho.2 (fun x hx n e u he => hno _ (hs hx) (by rw [he]; trivial))
        refine ⟨hi.trans hnone, fun n hmem => ?_⟩
        obtain ⟨x, hx, hxn⟩ := List.mem_map.1 hmem
        exact hnr hnone x hx n hxn
  | err e0 s => rw [hq] at hr; cases hr
  | panic => rw [hq] at hr; cases hr
  | diverge => rw [hq] at hr; cases hr

/-- **C45** for documents that have no references to entities in attribute values (after the document type declaration there are as many
lookups of entities as references in content): the tree is that of the events without those reported from after the lookup of an entity up to
the report of the reference. -/
theorem C45_tree_references_partial {σ : Type} (E : Env) (tf fuel snl : Nat) (usr : σ) (input : Bytes) {doc : Option Nat} {h : Heap}
    {tr : List (Ev × HOut)} (hr : parserParse E (treeBuilder tf) usr fuel snl input = .done doc none h tr)
    {pre post : List Ev} {n e u : Bytes} (ht : tr.map (·.1) = pre ++ .externalSubset n e u :: post) (hc : references post = lookups post)
    (hp : noPIInside false (tr.map (·.1)) = true) :
    ∃ d t, doc = some d ∧ treeOf ((pre ++ .externalSubset n e u :: unexpanded 0 post).filter notCData) = some t ∧ HoldsDoc h d t := by
  obtain ⟨d, vis, t, h1, v, h2, h3, _, _, h6⟩ := C45_tree_entities_partial E tf fuel snl usr input hr hp
  obtain ⟨va, vb, rfl, va', vb'⟩ := v.split ht
  rw [vb'.unexpanded hc, va'.eq (fun ev hev m he => h6 _ _ _ _ _ ht m (he ▸ hev))] at h2
  exact ⟨d, t, h1, h2, h3⟩

/-- **C45** for documents without references to declared entities in content: the tree is that of all events but the CDATA sections. -/
theorem C45_tree_doctype_partial {σ : Type} (E : Env) (tf fuel snl : Nat) (usr : σ) (input : Bytes) {doc : Option Nat} {h : Heap}
    {tr : List (Ev × HOut)} (hr : parserParse E (treeBuilder tf) usr fuel snl input = .done doc none h tr)
    (hd : (∀ ev ∈ tr.map (·.1), ¬ IsDoctype ev) ∨ ∀ n, .reference n ∉ tr.map (·.1)) (hp : noPIInside false (tr.map (·.1)) = true) :
    ∃ d t, doc = some d ∧ treeOf ((tr.map (·.1)).filter notCData) = some t ∧ HoldsDoc h d t ∧
      ((∃ ev ∈ tr.map (·.1), IsDoctype ev) → HoldsSubset h d ((tr.map (·.1)).filter isDecl)) ∧
      ((∀ ev ∈ tr.map (·.1), ¬ IsDoctype ev) → (h.at' d).intSubset = none) := by
  obtain ⟨d, vis, t, h1, v, h2, h3, h4, h5, _⟩ := C45_tree_entities_partial E tf fuel snl usr input hr hp
  have hno : ∀ n, .reference n ∉ tr.map (·.1) := hd.elim (fun h => (h5 h).2) id
  rw [v.eq (fun ev hev n he => hno n (he ▸ hev))] at h2
  exact ⟨d, t, h1, h2, h3, h4, fun h => (h5 h).1⟩

theorem noPI_of_no_doctype : ∀ {evs : List Ev}, (∀ ev ∈ evs, ¬ IsDoctype ev) → noPIInside false evs = true
  | [], _ => rfl
  | ev :: evs, h => by
    have h1 := noPI_of_no_doctype (fun x hx => h x (List.mem_cons_of_mem _ hx))
    have h2 := h ev List.mem_cons_self
    cases ev <;> first | exact absurd trivial h2 | exact h1

/-- **C45**, for documents without document type declaration: `Parse` returns a document node whose children, with consistent links, are
exactly the trees described by the events, CDATA sections left out. -/
theorem C45_tree_partial {σ : Type} (E : Env) (tf fuel snl : Nat) (usr : σ) (input : Bytes) {doc : Option Nat} {h : Heap}
    {tr : List (Ev × HOut)} (hr : parserParse E (treeBuilder tf) usr fuel snl input = .done doc none h tr)
    (hd : ∀ ev ∈ tr.map (·.1), ¬ IsDoctype ev) :
    ∃ d t, doc = some d ∧ treeOf ((tr.map (·.1)).filter notCData) = some t ∧ HoldsDoc h d t := by
  obtain ⟨d, t, h1, h2, h3, _⟩ := C45_tree_doctype_partial E tf fuel snl usr input hr (Or.inl hd) (noPI_of_no_doctype hd)
  exact ⟨d, t, h1, h2, h3⟩

/-- **C45**: without CDATA sections the tree is exactly that of all events. -/
theorem C45_tree_no_cdata_partial {σ : Type} (E : Env) (tf fuel snl : Nat) (usr : σ) (input : Bytes) {doc : Option Nat} {h : Heap}
    {tr : List (Ev × HOut)} (hr : parserParse E (treeBuilder tf) usr fuel snl input = .done doc none h tr)
    (hd : ∀ ev ∈ tr.map (·.1), ¬ IsDoctype ev) (hc : ∀ ev ∈ tr.map (·.1), notCData ev = true) :
    ∃ d t, doc = some d ∧ treeOf (tr.map (·.1)) = some t ∧ HoldsDoc h d t := by
  obtain ⟨d, t, h1, h2, h3⟩ := C45_tree_partial E tf fuel snl usr input hr hd
  rw [List.filter_eq_self.2 hc] at h2
  exact ⟨d, t, h1, h2, h3⟩

/-- what a successful parse gives. -/
def ParseRes.good : ParseRes → Option (Option Nat × Heap × List Ev)
  | .done d none h tr => some (d, h, tr.map (·.1))
  | _ => none

/-- events of a successful parse by the tree builder. -/
def ParseRes.events (r : ParseRes) : Option (List Ev) := r.good.map (·.2.2)

theorem ParseRes.good_of_events {r : ParseRes} {evs : List Ev} (h : r.events = some evs) :
    ∃ doc hp tr, r = .done doc none hp tr ∧ tr.map (·.1) = evs := by
  cases r with
  | done d e hp tr =>
    cases e with
    | none => exact ⟨d, hp, tr, rfl, by simpa [events, good] using h⟩
    | some e => cases h
  | panic => cases h
  | diverge => cases h

/-- the hypotheses hold for a document with attributes, text, a comment, an empty element and a processing instruction. -/
example : (parse env0 9 b!"<a b='1'>t<!--c--><d/></a><?p q?>").events = some
    [.setDocumentLocator, .startDocument, .startElement [97] [] [] [] [.parsed [] [98] [49]], .characters [116], .comment [99],
      .startElement [100] [] [] [] [], .endElement [100] [] [], .endElement [97] [] [], .pi [112] [113], .endDocument] := by
  decide +kernel
example : treeOf [.setDocumentLocator, .startDocument, .startElement [97] [] [] [] [.parsed [] [98] [49]], .characters [116], .comment [99],
      .startElement [100] [] [] [] [], .endElement [100] [] [], .endElement [97] [] [], .pi [112] [113], .endDocument] =
    some (.node (.elem [97] [] [] [] [([98], [49])])
      (.node (.text [116]) .nil (.node (.comment [99]) .nil (.node (.elem [100] [] [] [] []) .nil .nil)))
      (.node (.pi [112] [113]) .nil .nil)) := by
  decide

/-- the full claim **C45**. -/
def C45_statement : Prop := ∀ (fuel : Nat) (input : Bytes) (doc : Option Nat) (h : Heap) (tr : List (Ev × HOut)),
  parse env0 fuel input = .done doc none h tr → ∃ d t, doc = some d ∧ treeOf (tr.map (·.1)) = some t ∧ HoldsDoc h d t

/-- **C45** fails: the tree builder throws CDATA sections away. In the tree of `<a><![CDATA[x]]></a>` the element has no child. -/
theorem C45_refuted : ¬ C45_statement := by
  intro hc
  have h1 : (match parse env0 5 b!"<a><![CDATA[x]]></a>" with
    | .done (some 0) none h tr => decide (tr.map (·.1) = [.setDocumentLocator, .startDocument, .startElement [97] [] [] [] [], .cdata [120],
        .endElement [97] [] [], .endDocument] ∧ (h.at' 0).first = some 1 ∧ (h.at' 1).first = none)
    | _ => false) = true := by decide +kernel
  split at h1
  · rename_i h tr hp
    obtain ⟨d, t, e1, e2, e3⟩ := hc 5 _ _ _ _ hp
    cases e1
    have h1 := of_decide_eq_true h1
    rw [h1.1] at e2
    have e2 : some (XTree.node (.elem [97] [] [] [] []) (.node (.text [120]) .nil .nil) .nil) = some t := e2
    cases e2
    obtain ⟨_, m, C, H⟩ := e3
    cases m with
    | nil => exact H
    | cons i l =>
      obtain ⟨_, ⟨k, C2, H2⟩, _⟩ := H
      have hi : i = 1 := by have := C.first; rw [h1.2.1] at this; simpa using this.symm
      subst hi
      cases k with
      | nil => exact H2
      | cons j k => have := C2.first; rw [h1.2.2] at this; simp at this
  · cases h1

/-- a document with declarations, a comment between them, a defaulted attribute and a reference to an entity in an attribute value meets the
hypotheses of `C45_tree_doctype_partial`. -/
example : (parse env0 99 b!"<!DOCTYPE a [<!ENTITY e 'x'><!--c--><!ELEMENT a (b?)><!ATTLIST a d CDATA 'y'>]><a c='&e;'/>").events.map
    (fun evs => (noPIInside false evs, evs.filter isDecl, treeOf evs)) = some (true,
      [.entityDecl b!"e" 1 [] [] b!"x", .elementDecl b!"a" 4 (.mk 2 2 b!"b" [] .nil .nil), .attributeDecl b!"a" b!"d" 1 1 b!"y" []],
      some (.node (.dtd b!"a" [] []) .nil (.node (.comment b!"c") .nil (.node (.elem b!"a" [] [] [] [(b!"c", b!"&e;")]) .nil .nil)))) := by
  decide +kernel

/-- a document with references to declared entities in content, one of them inside of the other, meets the hypotheses of
`C45_tree_references_partial`: the tree has the outer reference where the events have an element with a comment and a reference. -/
example : (parse env0 99 b!"<!DOCTYPE a [<!ENTITY f '<!--c-->'><!ENTITY e '<b>&f;</b>'>]><a>x&e;y</a>").events.map
    (fun evs => (noPIInside false evs, references (evs.drop 8), lookups (evs.drop 8), evs.drop 7, treeOf (evs.take 8 ++ unexpanded 0 (evs.drop 8)))) =
    some (true, 2, 2,
      [.externalSubset b!"a" [] [], .startElement b!"a" [] [] [] [], .characters b!"x", .getEntity b!"e", .startElement b!"b" [] [] [] [],
        .getEntity b!"f", .comment b!"c", .reference b!"f", .endElement b!"b" [] [], .reference b!"e", .characters b!"y",
        .endElement b!"a" [] [], .endDocument],
      some (.node (.dtd b!"a" [] []) .nil (.node (.elem b!"a" [] [] [] [])
        (.node (.text b!"x") .nil (.node (.ref b!"e") .nil (.node (.text b!"y") .nil .nil))) .nil))) := by
  decide +kernel

/-- without the condition on processing instructions in the document type declaration: -/
def C45_pi_statement : Prop := ∀ (fuel : Nat) (input : Bytes) (doc : Option Nat) (h : Heap) (tr : List (Ev × HOut)),
  parse env0 fuel input = .done doc none h tr → (∀ n, .reference n ∉ tr.map (·.1)) → (∃ ev ∈ tr.map (·.1), IsDoctype ev) →
    ∃ d, doc = some d ∧ HoldsSubset h d ((tr.map (·.1)).filter isDecl)

/-- **C45** fails for processing instructions inside of the document type declaration: in the tree of `<!DOCTYPE a [<?p q?>]><a/>` the
instruction is the only child of the declaration as well as a child of the document (/repo/tree.go:46-74). -/
theorem C45_pi_refuted : ¬ C45_pi_statement := by
  intro hc
  have h1 : (match parse env0 5 b!"<!DOCTYPE a [<?p q?>]><a/>" with
    | .done (some 0) none h tr => decide (tr.map (·.1) = [.setDocumentLocator, .startDocument, .internalSubset [97] [] [], .pi [112] [113],
        .externalSubset [97] [] [], .startElement [97] [] [] [] [], .endElement [97] [] [], .endDocument] ∧ (h.at' 0).intSubset = some 1 ∧
        (h.at' 1).first = some 2 ∧ (h.at' 2).parent = some 0)
    | _ => false) = true := by decide +kernel
  split at h1
  · rename_i h tr hp
    have h1 := of_decide_eq_true h1
    obtain ⟨d, e1, t, m, _, e2, _, _, _, _, C, H⟩ := hc 5 _ _ _ _ hp (by rw [h1.1]; intro n hn; simp at hn)
      ⟨.internalSubset [97] [] [], by rw [h1.1]; simp, trivial⟩
    cases e1
    rw [h1.1] at H
    have H : HoldsDecls h m [] := H
    rw [h1.2.1] at e2
    cases e2
    cases m with
    | nil => have := C.first; rw [h1.2.2.1] at this; simp at this
    | cons i l => exact H
  · cases h1

/-! ### C19: attributes of parsed elements -/

/-- all elements have pairwise different attribute names. -/
def AttrsDistinct : XTree → Prop
  | .nil => True
  | .node d k r => (match d with
    | .elem _ _ _ _ as => (as.map (·.1)).Nodup
    | _ => True) ∧ AttrsDistinct k ∧ AttrsDistinct r

theorem Spec.HoldsTrees.distinct {h : Heap} : ∀ {t : XTree} {l : List Nat}, HoldsTrees h l t → AttrsDistinct t
  | .nil, [], _ => trivial
  | .node d k r, i :: l, H => by
    obtain ⟨h1, hk, h3⟩ := H
    have h2 : AttrsDistinct k := by
      split at hk
      · rw [hk]; trivial
      · obtain ⟨m, _, h2⟩ := hk
        exact HoldsTrees.distinct h2
    refine ⟨?_, h2, HoldsTrees.distinct h3⟩
    cases d with
    | elem _ _ _ _ as => exact h1.2.2.2.2.1
    | text => trivial
    | comment => trivial
    | pi => trivial
    | dtd => trivial
    | ref => trivial

/-- **C19**, parse part, for documents as in `C45_tree_entities_partial`: in the tree returned by `Parse` the attribute names of every
element are pairwise different. -/
theorem C19_parsed_tree_attributes_distinct {σ : Type} (E : Env) (tf fuel snl : Nat) (usr : σ) (input : Bytes) {doc : Option Nat} {h : Heap}
    {tr : List (Ev × HOut)} (hr : parserParse E (treeBuilder tf) usr fuel snl input = .done doc none h tr)
    (hp : noPIInside false (tr.map (·.1)) = true) :
    ∃ d t, doc = some d ∧ HoldsDoc h d t ∧ AttrsDistinct t := by
  obtain ⟨d, _, t, h1, _, _, h3, _⟩ := C45_tree_entities_partial E tf fuel snl usr input hr hp
  exact ⟨d, t, h1, h3, h3.2.choose_spec.2.distinct⟩

/-- **C19**, parse part, for every input, document type declarations and entities included, and even if the parse ends with an error: every
node of the heap `Parse` leaves behind has a doubly linked list of attributes whose names are pairwise different, and no attribute belongs to two
nodes. -/
theorem C19_parsed_attributes_distinct {σ : Type} (E : Env) (tf fuel snl : Nat) (usr : σ) (input : Bytes) {doc : Option Nat} {err : Option Err}
    {h : Heap} {tr : List (Ev × HOut)} (hr : parserParse E (treeBuilder tf) usr fuel snl input = .done doc err h tr) :
    ∃ m : Nat → List Nat, (∀ e, PropList h e (m e) ∧ (attrNames h (m e)).Nodup) ∧ ∀ e e', e ≠ e' → ∀ a ∈ m e, a ∉ m e' := by
  have := attOK_document E usr tf fuel snl input
  unfold parserParse at hr
  cases hp : parseDocument E (treeBuilder tf) fuel snl (initSt usr Heap.empty input) with
  | ok a s =>
    rw [hp] at hr this
    simp only [ParseRes.done.injEq] at hr
    obtain ⟨_, _, rfl, _⟩ := hr
    obtain ⟨m, A⟩ := this
    exact ⟨m, fun e => ⟨A.list e, A.names e⟩, A.disj⟩
  | err e s =>
    rw [hp] at hr this
    simp only [ParseRes.done.injEq] at hr
    obtain ⟨_, _, rfl, _⟩ := hr
    obtain ⟨m, A⟩ := this
    exact ⟨m, fun e => ⟨A.list e, A.names e⟩, A.disj⟩
  | panic => rw [hp] at hr; cases hr
  | diverge => rw [hp] at hr; cases hr

/-- **C60**: whatever the input, in the heap `Parse` leaves behind no child, no sibling of a node that is not an attribute, and no declared
entity or element is an attribute, and all of them exist. -/
theorem C60_attributes_are_no_children {σ : Type} (E : Env) (tf fuel snl : Nat) (usr : σ) (input : Bytes) {doc : Option Nat} {err : Option Err}
    {h : Heap} {tr : List (Ev × HOut)} (hr : parserParse E (treeBuilder tf) usr fuel snl input = .done doc err h tr) (i j : Nat)
    (hl : (h.at' i).first = some j ∨ (h.at' i).last = some j ∨ ((h.at' i).kind ≠ .attr ∧ (h.at' i).next = some j) ∨
      (∃ n, (n, j) ∈ (h.at' i).entities) ∨ ∃ n, (n, j) ∈ (h.at' i).elements) : j < h.size ∧ (h.at' j).kind ≠ .attr := by
  have key : ∀ h : Heap, ListsOK h → ((h.at' i).first = some j ∨ (h.at' i).last = some j ∨ ((h.at' i).kind ≠ .attr ∧ (h.at' i).next = some j) ∨
      (∃ n, (n, j) ∈ (h.at' i).entities) ∨ ∃ n, (n, j) ∈ (h.at' i).elements) → j < h.size ∧ (h.at' j).kind ≠ .attr := by
    intro h A hl
    have T := A.typed
    have : NAttr h j := by
      rcases hl with hl | hl | ⟨hk, hl⟩ | ⟨n, hl⟩ | ⟨n, hl⟩
      · exact T.first i j hl
      · exact T.last i j hl
      · exact T.next i hk j hl
      · exact T.ents i _ hl
      · exact T.elems i _ hl
    exact ⟨this.lt, this.kind⟩
  have := attOK_document E usr tf fuel snl input
  unfold parserParse at hr
  cases hp : parseDocument E (treeBuilder tf) fuel snl (initSt usr Heap.empty input) with
  | ok a s =>
    rw [hp] at hr this
    simp only [ParseRes.done.injEq] at hr
    obtain ⟨_, _, rfl, _⟩ := hr
    exact key _ this hl
  | err e s =>
    rw [hp] at hr this
    simp only [ParseRes.done.injEq] at hr
    obtain ⟨_, _, rfl, _⟩ := hr
    exact key _ this hl
  | panic => rw [hp] at hr; cases hr
  | diverge => rw [hp] at hr; cases hr

/-- a document with declarations, an entity and attributes: the element has the two attributes of its tag. -/
example : (match parse env0 99 b!"<!DOCTYPE a [<!ENTITY e 'x'><!ATTLIST a d CDATA 'y'>]><a b='&e;' c='2'/>" with
    | .done (some d) none h _ => ((h.at' d).last).map (fun e => (chain h 99 (h.at' e).props).map (fun l => l.map (fun a => (h.at' a).name)))
    | _ => none) = some (some [b!"b", b!"c"]) := by decide +kernel

/-- two attributes of the same name are refused. -/
example : (parse env0 9 b!"<a b='1' b='2'/>").view.map (·.2.1) = some (some (.parse (.k .duplicateAttribute))) := by decide +kernel

end Helium
