import Verif.Lemmas.AttDoc
import Verif.Props.Decl
/-! Attribute list declarations and the attributes of elements: default attributes (C54), normalisation of values (C55), C51 with such declarations. -/
namespace Helium
open Spec

/-! ### what is reported -/

/-- C54, C55 and C51 as the code has them: the document is parsed without error; the attributes of each start tag are reported with single spaces
between words if the first declaration with the *local* name of the element and of the attribute has another type than CDATA; *all* attributes
declared for the qualified name of the element with a non-empty default value are added, whether they are in the tag or not. Missing: element names
with colons in attribute list declarations, attributes declared again with another type (see the witnesses), values made of spaces only. -/
theorem C54_supplied_partial {σ : Type} (E : Env) {H : Handler σ} (hH : Takes H) (hK : KeepsHeap H) {t v e : List Nat} {sd : Int} {ds : List Decl}
    {evs : List Ev} (h : DtdDocument E t v e sd ds evs) (hc : ∀ x ∈ attDefs ds, 58 ∉ x.1)
    (hs : ∀ x ∈ attDefs ds, ∀ y ∈ attDefs ds, x.1 = y.1 → x.2.name = y.2.name → x.2.typ = y.2.typ)
    (hw : ∀ ev ∈ evs, Worded (tokenised ds) ev) (usr : σ) (fuel snl : Nat) (hf : t.length ≤ fuel) (hsh : ∀ d ∈ ds, d.Short snl) :
    ∃ doc heap tr dfl, parserParse E H usr fuel snl (encodeRunes t) = .done doc none heap tr ∧
      tr.map (fun x => plainEv x.1) = evs.map (declared (tokenised ds) dfl) ∧
      ∀ p l, SuppliedBy heap ((defaults ds (qualified p l)).filter (fun x => x.value ≠ [])) (dfl p l) :=
  attDocument_run hH hK h hc hs hw usr fuel snl hf hsh

/-! ### C54: default attributes -/

/-- C54: an attribute with a declared default value is reported with that value for every element of that type whose start tag does not have it, and
nothing else is added to the attributes of a start tag. -/
def C54_statement : Prop :=
  ∀ (E : Env) (σ : Type) (H : Handler σ), Takes H → KeepsHeap H → ∀ (t v e : List Nat) (sd : Int) (ds : List Decl) (evs : List Ev),
    DtdDocument E t v e sd ds evs → (∀ ev ∈ evs, Worded (tokenised ds) ev) → ∀ (usr : σ) (fuel snl : Nat), t.length ≤ fuel → (∀ d ∈ ds, d.Short snl) →
    ∃ doc heap tr, parserParse E H usr fuel snl (encodeRunes t) = .done doc none heap tr ∧
      Pairs (Completes heap ds) evs (tr.map (fun x => plainEv x.1))

theorem attrName_token (tok : Bytes → Bool) (a : AttrD) : attrName (tokenValue tok a) = attrName a := by
  cases a <;> rfl

/-- C54 for documents whose tags have none of the attributes with default value, all default values being non-empty. -/
theorem C54_partial {σ : Type} (E : Env) {H : Handler σ} (hH : Takes H) (hK : KeepsHeap H) {t v e : List Nat} {sd : Int} {ds : List Decl}
    {evs : List Ev} (h : DtdDocument E t v e sd ds evs) (hc : ∀ x ∈ attDefs ds, 58 ∉ x.1)
    (hs : ∀ x ∈ attDefs ds, ∀ y ∈ attDefs ds, x.1 = y.1 → x.2.name = y.2.name → x.2.typ = y.2.typ)
    (hw : ∀ ev ∈ evs, Worded (tokenised ds) ev)
    (hno : ∀ l p u ns as, .startElement l p u ns as ∈ evs → ∀ x ∈ defaults ds (qualified p l), x.value ≠ [] ∧ some x.name ∉ as.map attrName)
    (usr : σ) (fuel snl : Nat) (hf : t.length ≤ fuel) (hsh : ∀ d ∈ ds, d.Short snl) :
    ∃ doc heap tr, parserParse E H usr fuel snl (encodeRunes t) = .done doc none heap tr ∧ Pairs (Completes heap ds) evs (tr.map (fun x => plainEv x.1)) := by
  obtain ⟨doc, heap, tr, dfl, h1, h2, h3⟩ := C54_supplied_partial E hH hK h hc hs hw usr fuel snl hf hsh
  refine ⟨doc, heap, tr, h1, ?_⟩
  rw [h2]
  have key : ∀ l : List Ev, (∀ ev ∈ l, ev ∈ evs) → Pairs (Completes heap ds) l (l.map (declared (tokenised ds) dfl)) := by
    intro l hl
    induction l with
    | nil => exact .nil
    | cons ev l ih =>
      refine .cons ?_ (ih (fun x hx => hl x (by simp [hx])))
      have hev := hl ev (by simp)
      cases ev with
      | startElement l p u ns as =>
        refine ⟨_, dfl p l, rfl, ?_, ?_⟩
        · rw [List.map_map]
          exact List.map_congr_left (fun a _ => attrName_token _ a)
        · have := h3 p l
          have e1 : (defaults ds (qualified p l)).filter (fun x => x.value ≠ []) = defaults ds (qualified p l) :=
            List.filter_eq_self.2 (fun x hx => by simpa using (hno l p u ns as hev x hx).1)
          have e2 : (defaults ds (qualified p l)).filter (fun x => some x.name ∉ as.map attrName) = defaults ds (qualified p l) :=
            List.filter_eq_self.2 (fun x hx => decide_eq_true (hno l p u ns as hev x hx).2)
          rw [e1] at this
          rw [e2]
          exact this
      | _ => rfl
  exact key evs (fun _ h => h)

/-! ### C55: values of attributes that are not of type CDATA -/

/-- C55: the value of an attribute with a declared type other than CDATA is reported with single spaces between its words only, every other value as
it is in the tag. -/
def C55_statement : Prop :=
  ∀ (E : Env) (σ : Type) (H : Handler σ), Takes H → KeepsHeap H → ∀ (t v e : List Nat) (sd : Int) (ds : List Decl) (evs : List Ev),
    DtdDocument E t v e sd ds evs → ∀ (usr : σ) (fuel snl : Nat), t.length ≤ fuel → (∀ d ∈ ds, d.Short snl) →
    ∃ doc heap tr, parserParse E H usr fuel snl (encodeRunes t) = .done doc none heap tr ∧
      tr.map (fun x => asWritten (plainEv x.1)) = evs.map (normalised ds)

/-- every attribute of the event is written in its tag. -/
theorem atts_written {E : Env} {used : List (Bytes × Bytes)} {t : List Nat} {as : List AttrD} {dd : List (Bytes × Bytes)} (h : Atts E used t as dd) :
    ∀ a ∈ as, inTag a = true := by
  induction h with
  | nil => intro a ha; cases ha
  | attr _ _ _ _ _ _ _ _ _ _ ih =>
    intro a ha
    rcases List.mem_cons.1 ha with rfl | ha
    · rfl
    · exact ih a ha
  | decl _ _ _ _ _ _ _ _ _ _ _ _ _ _ _ ih => exact ih
  | dflt => intro a ha; cases ha

theorem src_written {E : Env} {b : Bool} {scope used used' : List (Bytes × Bytes)} {t : List Nat} {evs : List Ev} (h : Src E b scope used t evs used') :
    ∀ l p u ns as, .startElement l p u ns as ∈ evs → ∀ a ∈ as, inTag a = true := by
  induction h with
  | empty _ ha _ _ => intro l p u ns as hm; simp at hm; obtain ⟨_, _, _, _, rfl⟩ := hm; exact atts_written ha
  | full _ ha _ _ _ _ ih =>
    intro l p u ns as hm
    simp at hm
    rcases hm with ⟨_, _, _, _, rfl⟩ | hm
    · exact atts_written ha
    · exact ih _ _ _ _ _ hm
  | nil => intro l p u ns as hm; cases hm
  | element _ _ ih1 ih2 =>
    intro l p u ns as hm
    rcases List.mem_append.1 hm with hm | hm
    · exact ih1 _ _ _ _ _ hm
    · exact ih2 _ _ _ _ _ hm
  | text _ _ _ ih => intro l p u ns as hm; simp at hm; exact ih _ _ _ _ _ hm
  | ref _ _ _ _ ih => intro l p u ns as hm; simp at hm; exact ih _ _ _ _ _ hm
  | comment _ _ ih => intro l p u ns as hm; simp at hm; exact ih _ _ _ _ _ hm
  | pi _ _ ih => intro l p u ns as hm; simp at hm; exact ih _ _ _ _ _ hm
  | cdata _ _ ih => intro l p u ns as hm; simp at hm; exact ih _ _ _ _ _ hm

theorem document_written {E : Env} {t v e : List Nat} {sd : Int} {ds : List Decl} {evs : List Ev} (h : DtdDocument E t v e sd ds evs) :
    ∀ l p u ns as, .startElement l p u ns as ∈ evs → ∀ a ∈ as, inTag a = true := by
  obtain ⟨root, e3, used, hroot, key⟩ := document_starts h
  intro l p u ns as hm
  exact src_written hroot _ _ _ _ _ (key _ _ _ _ _ hm)

/-- C55 for documents in which elements with attributes, and attributes, have no prefix. Missing besides: as in `C54_supplied_partial`. -/
theorem C55_partial {σ : Type} (E : Env) {H : Handler σ} (hH : Takes H) (hK : KeepsHeap H) {t v e : List Nat} {sd : Int} {ds : List Decl}
    {evs : List Ev} (h : DtdDocument E t v e sd ds evs) (hc : ∀ x ∈ attDefs ds, 58 ∉ x.1)
    (hs : ∀ x ∈ attDefs ds, ∀ y ∈ attDefs ds, x.1 = y.1 → x.2.name = y.2.name → x.2.typ = y.2.typ)
    (hw : ∀ ev ∈ evs, Worded (tokenised ds) ev)
    (hp : ∀ l p u ns as, .startElement l p u ns as ∈ evs → ∀ q n w, .parsed q n w ∈ as → p = [] ∧ q = [])
    (usr : σ) (fuel snl : Nat) (hf : t.length ≤ fuel) (hsh : ∀ d ∈ ds, d.Short snl) :
    ∃ doc heap tr, parserParse E H usr fuel snl (encodeRunes t) = .done doc none heap tr ∧
      tr.map (fun x => asWritten (plainEv x.1)) = evs.map (normalised ds) := by
  obtain ⟨doc, heap, tr, dfl, h1, h2, h3⟩ := C54_supplied_partial E hH hK h hc hs hw usr fuel snl hf hsh
  refine ⟨doc, heap, tr, h1, ?_⟩
  have : tr.map (fun x => asWritten (plainEv x.1)) = (tr.map (fun x => plainEv x.1)).map asWritten := by rw [List.map_map]; rfl
  rw [this, h2, List.map_map]
  refine List.map_congr_left (fun ev hev => ?_)
  cases ev with
  | startElement l p u ns as =>
    obtain ⟨ptrs, hpm, _⟩ := h3 p l
    have hd : (dfl p l).filter inTag = [] := by
      rw [List.filter_eq_nil_iff]
      intro a ha
      obtain ⟨i, _, rfl⟩ := List.mem_map.1 (hpm.mem_iff.1 ha)
      simp [inTag]
    have hkeep : (as.map (tokenValue (tokenised ds l))).filter inTag = as.map (tokenValue (tokenised ds l)) := by
      rw [List.filter_eq_self]
      intro a ha
      obtain ⟨b, hb, rfl⟩ := List.mem_map.1 ha
      have := document_written h l p u ns as hev b hb
      cases b with
      | parsed => rfl
      | dflt i => cases this
    simp only [Function.comp, declared, asWritten, normalised, List.filter_append, hd, hkeep, List.append_nil]
    congr 1
    refine List.map_congr_left (fun a ha => ?_)
    cases a with
    | parsed q n w =>
      obtain ⟨rfl, rfl⟩ := hp l p u ns as hev q n w ha
      rfl
    | dflt i => rfl
  | _ => rfl

/-! ### documents with attribute list declarations -/

section Example

theorem letter_name {c : Nat} (h1 : 97 ≤ c) (h2 : c ≤ 122) : Name env0 [c] :=
  letters_name (by simp) (by intro x hx; simp at hx; omega) (by simp)

/-- a document with root element `a` that has one attribute. -/
theorem attSample {n q : Nat} {x w : List Nat} {ds : List Decl} {sub : List Nat} (hs : SubsetText env0 ds sub) (hn : 97 ≤ n ∧ n ≤ 122)
    (hq : q = 34 ∨ q = 39) (hx : Value q x w) (hl : ∀ c ∈ b!"<!DOCTYPE a [" ++ (sub ++ (b!"]><a " ++ ([n] ++ (61 :: q :: (x ++ (q :: b!"/>"))))) ), Legal c) :
    DtdDocument env0 (b!"<!DOCTYPE a [" ++ (sub ++ (b!"]><a " ++ ([n] ++ (61 :: q :: (x ++ (q :: b!"/>"))))))) [] [] (-2) ds
      ([.setDocumentLocator, .startDocument] ++ ((.internalSubset b!"a" [] [] :: (ds.flatMap Decl.events ++ [.externalSubset b!"a" [] []])) ++
        [.startElement b!"a" [] [] [] [.parsed [] [n] (reported w)], .endElement b!"a" [] [], .endDocument])) := by
  have nc : NCName env0 b!"a" := ascii_ncname (c := 97) (r := []) rfl (by decide) (by decide) (by decide)
  have ncn : NCName env0 [n] := ascii_ncname (c := n) (r := []) rfl hn (by intro c hc; rw [List.mem_singleton] at hc; subst hc; exact hn) (by simp)
  have en : encodeRunes [n] = [n] := by
    have : n < 128 := by omega
    simp [encodeRunes, encodeRune, this]
  have at1 := Atts.attr (E := env0) (used := []) (ws := [32]) (n := [n]) (p := []) (l := [n]) (w1 := []) (w2 := []) (q := q) (by simp) (by decide)
    ⟨ncn, Or.inl ⟨rfl, rfl⟩⟩ (by decide) (by intro _; rw [en]; simp) (by decide) (by decide) hq hx (.nil (ws := []) (by decide))
  rw [en] at at1
  have root := Src.empty (scope := []) (used := []) (n := b!"a") (p := []) (l := b!"a") (u := []) ⟨nc, Or.inl ⟨rfl, rfl⟩⟩ at1
    (by simp [givenAttrs]) (Or.inl ⟨rfl, rfl, by simp⟩)
  refine ⟨[], [], b!"a", b!"<!DOCTYPE" ++ ([32] ++ (b!"a" ++ ([32] ++ 91 :: (sub ++ 93 :: ([] ++ [62]))))), [], _, [], [], [], _, [], _, ?_, ?_, .nil,
    .subset (letters_name (by decide) (by decide) (by decide)) (by decide) (by decide) (by decide) (by decide) hs, .nil, root, .nil, hl, rfl⟩
  · simp
  · exact ⟨[], [], rfl, .inl rfl, .inr ⟨rfl, rfl, rfl, rfl, by simp⟩⟩

/-- `<!ATTLIST a b CDATA "x" c ID #IMPLIED>` -/
theorem sample_list : SubsetText env0 [.attlist b!"a" [⟨b!"b", 1, 1, b!"x", []⟩, ⟨b!"c", 2, 3, [], []⟩]] b!"<!ATTLIST a b CDATA \"x\" c ID #IMPLIED>" :=
  .cons (ws := []) (by decide) (.attlist (n := b!"a") ⟨[32], [32], _, by decide, by decide, by decide, by decide, letter_name (by decide) (by decide),
    .more (n := b!"b") (w1 := [32]) (w2 := [32]) (w3 := [32]) (letter_name (by decide) (by decide)) (by decide) (by decide) .cdata (by decide) (by decide)
      (.value (typ := 1) (q := 34) (l := b!"x") (w := b!"x") (.inl rfl) (.char (c := 120) (by decide) (by decide) (by decide) (by decide) (by decide) .nil)
        (.inl rfl)) (by decide) (by decide)
      (.one (n := b!"c") (w1 := [32]) (w2 := [32]) (w3 := []) (letter_name (by decide) (by decide)) (by decide) (by decide) .id (by decide) (by decide)
        .implied (by decide)), rfl⟩) (.nil (ws := []) (by decide))

theorem sample_value : Value 39 b!" y  z" b!" y  z" :=
  .char (by decide) (by decide) (by decide) (by decide) (by decide) (.char (by decide) (by decide) (by decide) (by decide) (by decide)
    (.char (by decide) (by decide) (by decide) (by decide) (by decide) (.char (by decide) (by decide) (by decide) (by decide) (by decide)
    (.char (by decide) (by decide) (by decide) (by decide) (by decide) .nil))))

theorem keeps_null : KeepsHeap nullHandler := fun _ _ _ => rfl

/-- `<!DOCTYPE a [<!ATTLIST a b CDATA "x" c ID #IMPLIED>]><a c=' y  z'/>` -/
def sampleAtt : List Nat := b!"<!DOCTYPE a [" ++ (b!"<!ATTLIST a b CDATA \"x\" c ID #IMPLIED>" ++ b!"]><a c=' y  z'/>")

theorem sample_att : DtdDocument env0 sampleAtt [] [] (-2) [.attlist b!"a" [⟨b!"b", 1, 1, b!"x", []⟩, ⟨b!"c", 2, 3, [], []⟩]]
    [.setDocumentLocator, .startDocument, .internalSubset b!"a" [] [], .attributeDecl b!"a" b!"b" 1 1 b!"x" [], .attributeDecl b!"a" b!"c" 2 3 [] [],
      .externalSubset b!"a" [] [], .startElement b!"a" [] [] [] [.parsed [] b!"c" b!" y  z"], .endElement b!"a" [] [], .endDocument] :=
  attSample sample_list (n := 99) (q := 39) (by decide) (by decide) sample_value (by decide)

theorem sample_worded : ∀ ev ∈ ([.setDocumentLocator, .startDocument, .internalSubset b!"a" [] [], .attributeDecl b!"a" b!"b" 1 1 b!"x" [],
      .attributeDecl b!"a" b!"c" 2 3 [] [], .externalSubset b!"a" [] [], .startElement b!"a" [] [] [] [.parsed [] b!"c" b!" y  z"], .endElement b!"a" [] [],
      .endDocument] : List Ev), Worded (tokenised [.attlist b!"a" [⟨b!"b", 1, 1, b!"x", []⟩, ⟨b!"c", 2, 3, [], []⟩]]) ev := by
  intro ev hev
  simp only [List.mem_cons, List.not_mem_nil, or_false] at hev
  rcases hev with rfl | rfl | rfl | rfl | rfl | rfl | rfl | rfl | rfl
  case inr.inr.inr.inr.inr.inr.inl =>
    refine ⟨fun p n v hm _ => ?_, by simp⟩
    rw [List.mem_singleton] at hm
    cases hm
    exact Or.inr ⟨121, by decide, by decide⟩
  all_goals trivial

example : ∃ doc heap tr dfl, parserParse env0 nullHandler () 100 9 (encodeRunes sampleAtt) = .done doc none heap tr ∧
    tr.map (fun x => plainEv x.1) = [.setDocumentLocator, .startDocument, .internalSubset b!"a" [] [], .attributeDecl b!"a" b!"b" 1 1 b!"x" [],
      .attributeDecl b!"a" b!"c" 2 3 [] [], .externalSubset b!"a" [] [], .startElement b!"a" [] [] [] (.parsed [] b!"c" b!"y z" :: dfl), .endElement b!"a" [] [],
      .endDocument] ∧ SuppliedBy heap [⟨b!"b", 1, 1, b!"x", []⟩] dfl := by
  obtain ⟨doc, heap, tr, dfl, h1, h2, h3⟩ := C54_supplied_partial env0 takes_null keeps_null sample_att (by decide) (by decide) sample_worded () 100 9 (by decide)
    (by intro d hd; rw [List.mem_singleton] at hd; subst hd; simp [Decl.Short])
  exact ⟨doc, heap, tr, dfl [] b!"a", h1, h2, h3 [] b!"a"⟩

example := C54_partial env0 takes_null keeps_null sample_att (by decide) (by decide) sample_worded (by
    intro l p u ns as hm
    simp at hm
    obtain ⟨rfl, rfl, rfl, rfl, rfl⟩ := hm
    decide) () 100 9 (by decide) (by intro d hd; rw [List.mem_singleton] at hd; subst hd; simp [Decl.Short])

example := C55_partial env0 takes_null keeps_null sample_att (by decide) (by decide) sample_worded (by
    intro l p u ns as hm
    simp at hm
    obtain ⟨rfl, rfl, rfl, rfl, rfl⟩ := hm
    intro q n w hm
    rw [List.mem_singleton] at hm
    cases hm
    exact ⟨rfl, rfl⟩) () 100 9 (by decide) (by intro d hd; rw [List.mem_singleton] at hd; subst hd; simp [Decl.Short])

/-! ### witnesses -/

/-- `<!ATTLIST a b CDATA "x">` -/
theorem sample_default : SubsetText env0 [.attlist b!"a" [⟨b!"b", 1, 1, b!"x", []⟩]] b!"<!ATTLIST a b CDATA \"x\">" :=
  .cons (ws := []) (by decide) (.attlist (n := b!"a") ⟨[32], [32], _, by decide, by decide, by decide, by decide, letter_name (by decide) (by decide),
    .one (n := b!"b") (w1 := [32]) (w2 := [32]) (w3 := []) (letter_name (by decide) (by decide)) (by decide) (by decide) .cdata (by decide) (by decide)
      (.value (typ := 1) (q := 34) (l := b!"x") (w := b!"x") (.inl rfl) (.char (c := 120) (by decide) (by decide) (by decide) (by decide) (by decide) .nil)
        (.inl rfl)) (by decide), rfl⟩) (.nil (ws := []) (by decide))

/-- the default attribute is reported though the tag has that attribute. -/
theorem C54_twice : (parserParse env0 nullHandler () 100 9 b!"<!DOCTYPE a [<!ATTLIST a b CDATA \"x\">]><a b=\"y\"/>").accepted =
    some [.setDocumentLocator, .startDocument, .internalSubset b!"a" [] [], .attributeDecl b!"a" b!"b" 1 1 b!"x" [], .externalSubset b!"a" [] [],
      .startElement b!"a" [] [] [] [.parsed [] b!"b" b!"y", .dflt 0], .endElement b!"a" [] [], .endDocument] := by kernel_rfl

/-- **C54 is false**: in `<!DOCTYPE a [<!ATTLIST a b CDATA "x">]><a b="y"/>` the element gets the attribute `b` twice. -/
theorem C54_refuted : ¬ C54_statement := by
  intro h
  have hv : Value 34 b!"y" b!"y" := .char (by decide) (by decide) (by decide) (by decide) (by decide) .nil
  have hd := attSample sample_default (n := 98) (q := 34) (by decide) (by decide) hv (by decide)
  obtain ⟨doc, heap, tr, h1, h2⟩ := h env0 Unit nullHandler takes_null keeps_null _ _ _ _ _ _ hd (by
    intro ev hev
    simp [Decl.events] at hev
    rcases hev with rfl | rfl | rfl | rfl | rfl | rfl | rfl | rfl
    case inr.inr.inr.inr.inr.inl => exact ⟨fun p n v hm ht => by rw [List.mem_singleton] at hm; cases hm; revert ht; decide, by simp⟩
    all_goals trivial) () 100 9 (by decide) (by intro d hd; rw [List.mem_singleton] at hd; subst hd; simp [Decl.Short])
  obtain ⟨d', hp', t', h3, h4⟩ := ParseRes.accepted_some C54_twice
  have e : parserParse env0 nullHandler () 100 9 b!"<!DOCTYPE a [<!ATTLIST a b CDATA \"x\">]><a b=\"y\"/>" = .done doc none heap tr := h1
  rw [e] at h3
  cases h3
  rw [show tr.map (fun x => plainEv x.1) = (tr.map (·.1)).map plainEv by rw [List.map_map]; rfl, h4] at h2
  simp only [List.flatMap_cons, List.flatMap_nil, Decl.events, List.map_cons, List.map_nil, List.append_nil, List.cons_append, List.nil_append, plainEv] at h2
  cases h2 with | cons _ h2 =>
  cases h2 with | cons _ h2 =>
  cases h2 with | cons _ h2 =>
  cases h2 with | cons _ h2 =>
  cases h2 with | cons _ h2 =>
  cases h2 with | cons h2 _ =>
  obtain ⟨as', extra, ha, hn, ptrs, hpm, hpr⟩ := h2
  have e0 : (defaults [.attlist b!"a" [⟨b!"b", 1, 1, b!"x", []⟩]] (qualified [] b!"a")).filter
      (fun x => some x.name ∉ [AttrD.parsed [] [98] (reported b!"y")].map attrName) = [] := by decide
  rw [e0] at hpr
  cases hpr
  have := hpm.eq_nil
  subst this
  rw [List.append_nil] at ha
  cases ha
  cases hn

/-- a default value that is empty is never supplied. -/
theorem C54_empty_lost : (parserParse env0 nullHandler () 60 9 b!"<!DOCTYPE a [<!ATTLIST a b CDATA \"\">]><a/>").accepted =
    some [.setDocumentLocator, .startDocument, .internalSubset b!"a" [] [], .attributeDecl b!"a" b!"b" 1 1 [] [], .externalSubset b!"a" [] [],
      .startElement b!"a" [] [] [] [], .endElement b!"a" [] [], .endDocument] := by kernel_rfl

/-- `<!ATTLIST a b CDATA #IMPLIED><!ATTLIST a b ID #IMPLIED>` -/
theorem sample_again : SubsetText env0 [.attlist b!"a" [⟨b!"b", 1, 3, [], []⟩], .attlist b!"a" [⟨b!"b", 2, 3, [], []⟩]]
    b!"<!ATTLIST a b CDATA #IMPLIED><!ATTLIST a b ID #IMPLIED>" :=
  .cons (ws := []) (by decide) (.attlist (n := b!"a") ⟨[32], [32], _, by decide, by decide, by decide, by decide, letter_name (by decide) (by decide),
    .one (n := b!"b") (w1 := [32]) (w2 := [32]) (w3 := []) (letter_name (by decide) (by decide)) (by decide) (by decide) .cdata (by decide) (by decide)
      .implied (by decide), rfl⟩)
    (.cons (ws := []) (by decide) (.attlist (n := b!"a") ⟨[32], [32], _, by decide, by decide, by decide, by decide, letter_name (by decide) (by decide),
    .one (n := b!"b") (w1 := [32]) (w2 := [32]) (w3 := []) (letter_name (by decide) (by decide)) (by decide) (by decide) .id (by decide) (by decide)
      .implied (by decide), rfl⟩) (.nil (ws := []) (by decide)))

/-- the type of the last declaration counts. -/
theorem C55_last_type : (parserParse env0 nullHandler () 100 9 b!"<!DOCTYPE a [<!ATTLIST a b CDATA #IMPLIED><!ATTLIST a b ID #IMPLIED>]><a b=' y  z'/>").accepted =
    some [.setDocumentLocator, .startDocument, .internalSubset b!"a" [] [], .attributeDecl b!"a" b!"b" 1 3 [] [], .attributeDecl b!"a" b!"b" 2 3 [] [],
      .externalSubset b!"a" [] [], .startElement b!"a" [] [] [] [.parsed [] b!"b" b!"y z"], .endElement b!"a" [] [], .endDocument] := by kernel_rfl

/-- **C55 is false**: in `<!DOCTYPE a [<!ATTLIST a b CDATA #IMPLIED><!ATTLIST a b ID #IMPLIED>]><a b=' y  z'/>` the attribute is of type CDATA by the
first declaration, which is binding. -/
theorem C55_refuted : ¬ C55_statement := by
  intro h
  have hd := attSample sample_again (n := 98) (q := 39) (by decide) (by decide) sample_value (by decide)
  obtain ⟨doc, heap, tr, h1, h2⟩ := h env0 Unit nullHandler takes_null keeps_null _ _ _ _ _ _ hd () 100 9 (by decide) (by
    intro d hd
    simp at hd
    rcases hd with rfl | rfl <;> simp [Decl.Short])
  obtain ⟨d', hp', t', h3, h4⟩ := ParseRes.accepted_some C55_last_type
  have e : parserParse env0 nullHandler () 100 9 b!"<!DOCTYPE a [<!ATTLIST a b CDATA #IMPLIED><!ATTLIST a b ID #IMPLIED>]><a b=' y  z'/>" =
    .done doc none heap tr := h1
  rw [e] at h3
  cases h3
  rw [show tr.map (fun x => asWritten (plainEv x.1)) = (tr.map (·.1)).map (fun x => asWritten (plainEv x)) by rw [List.map_map]; rfl, h4] at h2
  revert h2
  decide

/-- a declaration for a prefixed element does not count for it. -/
theorem C55_prefixed_element : (parserParse env0 nullHandler () 100 9 b!"<!DOCTYPE p:a [<!ATTLIST p:a b ID #IMPLIED>]><p:a xmlns:p=\"u\" b=\" x \"/>").accepted =
    some [.setDocumentLocator, .startDocument, .internalSubset b!"p:a" [] [], .attributeDecl b!"p:a" b!"b" 2 3 [] [], .externalSubset b!"p:a" [] [],
      .startElement b!"a" b!"p" b!"u" [some (b!"p", b!"u")] [.parsed [] b!"b" b!" x "], .endElement b!"a" b!"p" b!"u", .endDocument] := by kernel_rfl

/-- but one for an element with its local name does. -/
theorem C55_local_element : (parserParse env0 nullHandler () 100 9 b!"<!DOCTYPE p:a [<!ATTLIST a b ID #IMPLIED>]><p:a xmlns:p=\"u\" b=\" x \"/>").accepted =
    some [.setDocumentLocator, .startDocument, .internalSubset b!"p:a" [] [], .attributeDecl b!"a" b!"b" 2 3 [] [], .externalSubset b!"p:a" [] [],
      .startElement b!"a" b!"p" b!"u" [some (b!"p", b!"u")] [.parsed [] b!"b" b!"x"], .endElement b!"a" b!"p" b!"u", .endDocument] := by kernel_rfl

/-- nor does one for a prefixed attribute. -/
theorem C55_prefixed_attribute : (parserParse env0 nullHandler () 100 9 b!"<!DOCTYPE a [<!ATTLIST a p:b ID #IMPLIED>]><a xmlns:p=\"u\" p:b=\" x \"/>").accepted =
    some [.setDocumentLocator, .startDocument, .internalSubset b!"a" [] [], .attributeDecl b!"a" b!"p:b" 2 3 [] [], .externalSubset b!"a" [] [],
      .startElement b!"a" [] [] [some (b!"p", b!"u")] [.parsed b!"p" b!"b" b!" x "], .endElement b!"a" [] [], .endDocument] := by kernel_rfl

/-- a value made of references to spaces crashes the parser. -/
theorem C55_spaces_crash : (parserParse env0 nullHandler () 100 9 b!"<!DOCTYPE a [<!ATTLIST a b ID #IMPLIED>]><a b=\"&#32;\"/>").crashes = true := by kernel_rfl

end Example

end Helium
