import Verif.Lemmas.DtdDoc
import Verif.Props.Content
import Verif.Props.Source
import Verif.Props.Total
import Verif.Props.Ns
/-! Entity and attribute declarations, the internal subset, and documents with a document type declaration (C53, C51). -/
namespace Helium
open Spec

/-- from `s` the program succeeds, reports exactly `evs`, and leaves `r` to read. -/
def Reports {σ : Type} (p : P σ Unit) (s : St σ) (evs : List Ev) (r : List Nat) : Prop :=
  ∃ s' tr, p s = .ok () s' ∧ s'.cur = r ∧ s'.trace = s.trace ++ tr ∧ tr.map (·.1) = evs

theorem Reports.of_noted {σ : Type} {p q : P σ Unit} {s u s' : St σ} {evs : List Ev} {r : List Nat} (h : Alike r r (p s) (q u)) (hq : q u = .ok () s')
    (hu : u.trace = s.trace) (hn : Noted evs u s') : Reports p s evs r := by
  obtain ⟨tr, h1, h2⟩ := hn.trace
  rw [hq] at h
  generalize hp : p s = o at h
  generalize ho : Out.ok () s' = o' at h
  cases h with
  | ok a t ht => cases ho; exact ⟨t, tr, hp, ht, by rw [← hu]; exact h1, h2⟩
  | err e t t' ht => cases ho
  | panic => cases ho
  | diverge => cases ho

/-! ### C53: entity and attribute list declarations are reported as written -/

/-- C53 for internal entities: the handler is told the name, the kind and the value with character references replaced, and is then asked for
the entity. Missing: external entities and values with references to parameter entities (see the witnesses below). -/
theorem C53_entity_partial {σ : Type} (E : Env) {H : Handler σ} (hH : Takes H) {p : Bool} {n l v t : List Nat} (h : EntityText E p n l v t) (r : List Nat)
    (s : St σ) (hs : s.cur = t ++ r) :
    Reports (parseEntityDecl E H) s [.entityDecl (encodeRunes n) (if p then 4 else 1) [] [] (encodeRunes v),
      if p then .getParameterEntity (encodeRunes n) else .getEntity (encodeRunes n)] r := by
  obtain ⟨s', h1, h2, _⟩ := declare_noted (snl := 0) hH (d := .entity p (encodeRunes n) (encodeRunes l) (encodeRunes v)) (decl_spelled (.entity h)) trivial
    { s with cur := r }
  have := Reports.of_noted (entity_run E H 0 h s hs) h1 rfl h2
  cases p <;> exact this

/-- C53 for attribute list declarations: the handler is told each attribute with its type, kind of default, default value and names. Missing:
enumerations and empty lists (the parser never returns, see below), default values made of spaces (it panics). -/
theorem C53_attlist_partial {σ : Type} (E : Env) {H : Handler σ} (hH : Takes H) {n : List Nat} {as : List AttDef} {t : List Nat} (h : AttlistText E n as t)
    {snl : Nat} (hB : ∀ a ∈ as, a.value.length + 1 < snl) (r : List Nat) (s : St σ) (hs : s.cur = t ++ r) :
    Reports (parseAttributeListDecl E H snl) s
      (as.map (fun a => .attributeDecl (encodeRunes n) a.name a.typ a.deflt a.value a.names)) r := by
  obtain ⟨s', h1, h2, _⟩ := declare_noted (snl := snl) hH (d := .attlist (encodeRunes n) as) (decl_spelled (.attlist h)) hB { s with cur := r }
  exact Reports.of_noted (attlist_run E H snl h s hs) h1 rfl h2

/-- C53 for any declaration of the internal subset, with whatever follows but the end of the input and references to parameter entities. -/
theorem C53_declaration_partial {σ : Type} (E : Env) {H : Handler σ} (hH : Takes H) {d : Decl} {t : List Nat} (h : DeclText E d t) {snl : Nat}
    (hB : d.Short snl) {c : Nat} (hc : c ≠ 37) (r : List Nat) (s : St σ) (hs : s.cur = t ++ c :: r) : Reports (parseMarkupDecl E H snl) s d.events (c :: r) := by
  obtain ⟨s', h1, h2, _⟩ := declare_noted (snl := snl) hH (decl_spelled h) hB { s with cur := c :: r }
  exact Reports.of_noted (decl_run E H snl h ⟨c, r, rfl, hc⟩ s hs) h1 rfl h2

/-! ### C51: documents with a document type declaration -/

/-- C51 for documents with a document type declaration: they are parsed without error, and the handler gets exactly the events the document stands
for: the subsets, the declarations in order, the content. Missing: attribute list declarations (their defaults are supplied to elements and types
change values), references to declared entities in the content, handlers that refuse events (as the tree builder refuses some declarations). -/
theorem C51_dtd_events_partial {σ : Type} (E : Env) {H : Handler σ} (hH : Takes H) {t v e : List Nat} {sd : Int} {ds : List Decl} {evs : List Ev}
    (h : DtdDocument E t v e sd ds evs) (hna : ∀ d ∈ ds, d.NoAttrs) (usr : σ) (fuel snl : Nat) (hf : t.length ≤ fuel) :
    ∃ doc heap tr, parserParse E H usr fuel snl (encodeRunes t) = .done doc none heap tr ∧ tr.map (fun x => plainEv x.1) = evs := by
  obtain ⟨s, h1, ⟨sp, df, h2, rfl, rfl⟩, _⟩ := dtdDocument_run (B := (encodeRunes t).length + 2) (willing_of_takes hH _ _) h usr fuel snl
    (fun n dt hdt => ready_of_takes E hH _ _ _ _ (fun d hd => ⟨doctype_spelled hdt d hd, by
      have := hna d hd
      cases d <;> trivial⟩) hna) (fun sp df c hR ev _ => by rw [hR.1]; exact worded_none ev) trivial hf (by omega)
  rw [declared_none, List.map_id] at h2
  refine ⟨s.hc.doc, s.hc.heap, s.trace, ?_, h2⟩
  unfold parserParse
  rw [h1]

/-! ### declarations of these kinds -/

section Example

/-- `<!ENTITY e "a&#65;&b;&#x26;">` -/
def sampleEntity : List Nat := b!"<!ENTITY e \"a&#65;&b;&#x26;\">"

theorem sample_entity : EntityText env0 false b!"e" b!"a&#65;&b;&#x26;" b!"aA&b;&" sampleEntity := by
  refine ⟨[32], [32], [32], [], 34, by decide, by decide, by decide, by decide, by decide, by decide, by decide,
    letters_name (by decide) (by decide) (by decide), by decide, .inl rfl, ?_, rfl⟩
  exact .char (c := 97) (by decide) (by decide) (by decide) (by decide) (by decide)
    (.charRef (d := b!"65") (x := 65) (by decide) (by decide)
      (.ref (n := b!"b") (letters_name (by decide) (by decide) (by decide)) (by decide)
        (.charRef (d := b!"x26") (x := 38) (by decide) (by decide) .nil)))

theorem takes_null : Takes nullHandler := fun _ _ _ => .inl (.inl rfl)

example (s : St Unit) (hs : s.cur = sampleEntity ++ b!"]><a/>") : Reports (parseEntityDecl env0 nullHandler) s
    [.entityDecl b!"e" 1 [] [] b!"aA&b;&", .getEntity b!"e"] b!"]><a/>" := C53_entity_partial env0 takes_null sample_entity _ s hs

/-- `<!ATTLIST a b CDATA #IMPLIED c NMTOKENS ' x  y ' d NOTATION (m|n ) #FIXED "m">` -/
def sampleAttlist : List Nat := b!"<!ATTLIST a b CDATA #IMPLIED c NMTOKENS ' x  y ' d NOTATION (m|n ) #FIXED \"m\">"

def sampleAtts : List AttDef := [⟨b!"b", 1, 3, [], []⟩, ⟨b!"c", 8, 1, b!"x y", []⟩, ⟨b!"d", 10, 4, b!"m", [b!"m", b!"n"]⟩]

theorem sample_attlist : AttlistText env0 b!"a" sampleAtts sampleAttlist := by
  have nm : ∀ c, 97 ≤ c → c ≤ 122 → Name env0 [c] := fun c h1 h2 => letters_name (by simp) (by intro x hx; simp at hx; omega) (by simp)
  have a3 : AttDefs env0 [⟨b!"d", 10, 4, b!"m", [b!"m", b!"n"]⟩] b!"d NOTATION (m|n ) #FIXED \"m\">" :=
    .one (n := b!"d") (w1 := [32]) (w2 := [32]) (w3 := []) (nm 100 (by decide) (by decide)) (by decide) (by decide)
      (.notation (w1 := [32]) (w2 := []) (ns := [b!"m", b!"n"]) (by decide) (by decide) (by decide)
        (.more (n := b!"m") (ws := []) (w2 := []) (nm 109 (by decide) (by decide)) (by decide) (by decide)
          (.one (n := b!"n") (ws := [32]) (nm 110 (by decide) (by decide)) (by decide))))
      (by decide) (by decide)
      (.fixed (typ := 10) (ws := [32]) (q := 34) (l := b!"m") (w := b!"m") (by decide) (by decide) (.inl rfl)
        (.char (c := 109) (by decide) (by decide) (by decide) (by decide) (by decide) .nil) (.inr (.inr ⟨109, by decide, by decide⟩))) (by decide)
  have hv : Value 39 b!" x  y " b!" x  y " := .char (by decide) (by decide) (by decide) (by decide) (by decide)
    (.char (by decide) (by decide) (by decide) (by decide) (by decide) (.char (by decide) (by decide) (by decide) (by decide) (by decide)
    (.char (by decide) (by decide) (by decide) (by decide) (by decide) (.char (by decide) (by decide) (by decide) (by decide) (by decide)
    (.char (by decide) (by decide) (by decide) (by decide) (by decide) .nil)))))
  have a2 : AttDefs env0 [⟨b!"c", 8, 1, b!"x y", []⟩, ⟨b!"d", 10, 4, b!"m", [b!"m", b!"n"]⟩] b!"c NMTOKENS ' x  y ' d NOTATION (m|n ) #FIXED \"m\">" :=
    .more (n := b!"c") (w1 := [32]) (w2 := [32]) (w3 := [32]) (nm 99 (by decide) (by decide)) (by decide) (by decide) .nmtokens (by decide) (by decide)
      (.value (typ := 8) (q := 39) (.inr rfl) hv (.inr (.inr ⟨120, by decide, by decide⟩))) (by decide) (by decide) a3
  exact ⟨[32], [32], _, by decide, by decide, by decide, by decide, nm 97 (by decide) (by decide),
    .more (n := b!"b") (w1 := [32]) (w2 := [32]) (w3 := [32]) (nm 98 (by decide) (by decide)) (by decide) (by decide) .cdata (by decide) (by decide)
      .implied (by decide) (by decide) a2, rfl⟩

example (s : St Unit) (hs : s.cur = sampleAttlist ++ b!"]><a/>") : Reports (parseAttributeListDecl env0 nullHandler 9) s
    [.attributeDecl b!"a" b!"b" 1 3 [] [], .attributeDecl b!"a" b!"c" 8 1 b!"x y" [], .attributeDecl b!"a" b!"d" 10 4 b!"m" [b!"m", b!"n"]] b!"]><a/>" :=
  C53_attlist_partial env0 takes_null sample_attlist (by decide) _ s hs

example (s : St Unit) (hs : s.cur = sampleAttlist ++ b!"]><a/>") : Reports (parseMarkupDecl env0 nullHandler 9) s
    (Decl.attlist b!"a" sampleAtts).events b!"]><a/>" :=
  C53_declaration_partial env0 takes_null (.attlist sample_attlist) (by show ∀ a ∈ sampleAtts, _; decide) (c := 93) (by decide) _ s hs

/-- `<!DOCTYPE a [ <!ELEMENT list …> <!ENTITY e "a&#65;&b;&#x26;"><!--n--> ]> <a>t</a>` -/
def sampleDtd : List Nat := b!"<!DOCTYPE a [ " ++ sampleDecl ++ b!"\n" ++ sampleEntity ++ b!"<!--n--> ]> <a>t</a>"

theorem sample_dtd : DtdDocument env0 sampleDtd [] [] (-2)
    [.element b!"list" 4 sampleModel, .entity false b!"e" b!"a&#65;&b;&#x26;" b!"aA&b;&", .comment b!"n"]
    [.setDocumentLocator, .startDocument, .internalSubset b!"a" [] [], .elementDecl b!"list" 4 sampleModel, .entityDecl b!"e" 1 [] [] b!"aA&b;&",
      .getEntity b!"e", .comment b!"n", .externalSubset b!"a" [] [], .startElement b!"a" [] [] [] [], .characters b!"t", .endElement b!"a" [] [],
      .endDocument] := by
  have nc : NCName env0 b!"a" := ascii_ncname (c := 97) (r := []) rfl (by decide) (by decide) (by decide)
  have k0 := Src.text (E := env0) (scope := []) (used := []) (l := b!"t") ⟨by decide, by decide, by decide, noLoneCR_of (by decide)⟩
    (by intro c hc; cases hc) .nil
  have root := Src.full (scope := []) (used := []) (n := b!"a") (p := []) (l := b!"a") (u := []) ⟨nc, Or.inl ⟨rfl, rfl⟩⟩
    (.nil (ws := []) (by decide)) (by decide) (Or.inl ⟨rfl, rfl, by simp⟩) k0 (by decide)
  refine ⟨[], [], b!"a", b!"<!DOCTYPE a [ " ++ sampleDecl ++ b!"\n" ++ sampleEntity ++ b!"<!--n--> ]>", b!" ", _, [], [], [], _, [], _, rfl, ?_, .nil, ?_, .space (by decide) .nil, root, .nil, by decide, rfl⟩
  · exact ⟨[], [], rfl, .inl rfl, .inr ⟨rfl, rfl, rfl, rfl, by decide⟩⟩
  · exact .subset (n := b!"a") (w1 := [32]) (w2 := [32]) (w3 := []) (letters_name (by decide) (by decide) (by decide)) (by decide) (by decide) (by decide)
      (by decide) (.cons (ws := [32]) (by decide) (.element sample_decl) (.cons (ws := [10]) (by decide) (.entity sample_entity)
        (.cons (ws := []) (by decide) (.comment (b := b!"n") ⟨by decide, by decide, noLoneCR_of (by decide)⟩) (.nil (ws := [32]) (by decide)))))

example : ∃ doc heap tr, parserParse env0 nullHandler () 200 0 (encodeRunes sampleDtd) = .done doc none heap tr ∧ tr.map (fun x => plainEv x.1) =
    [.setDocumentLocator, .startDocument, .internalSubset b!"a" [] [], .elementDecl b!"list" 4 sampleModel, .entityDecl b!"e" 1 [] [] b!"aA&b;&",
      .getEntity b!"e", .comment b!"n", .externalSubset b!"a" [] [], .startElement b!"a" [] [] [] [], .characters b!"t", .endElement b!"a" [] [],
      .endDocument] :=
  C51_dtd_events_partial env0 takes_null sample_dtd (by simp [Decl.NoAttrs]) () 200 0 (by decide)

end Example

/-! What is missing from C53: declarations that XML allows and that are not reported, refused, or read for ever. -/

/-- an entity whose value has a `%` is not declared, though the document is accepted. -/
theorem C53_percent_lost : (parserParse env0 nullHandler () 9 9 b!"<!DOCTYPE a [<!ENTITY e \"a%b;\">]><a/>").accepted =
    some [.setDocumentLocator, .startDocument, .internalSubset b!"a" [] [], .getEntity b!"e", .externalSubset b!"a" [] [],
      .startElement b!"a" [] [] [] [], .endElement b!"a" [] [], .endDocument] := by kernel_rfl

/-- external entities are refused. -/
theorem C53_external_refused : (parserParse env0 nullHandler () 9 9 b!"<!DOCTYPE a [<!ENTITY e SYSTEM \"x\">]><a/>").accepted = none := by kernel_rfl

/-- external subsets are refused. -/
theorem C53_subset_refused : (parserParse env0 nullHandler () 9 9 b!"<!DOCTYPE a SYSTEM \"x\"><a/>").accepted = none := by kernel_rfl

/-- a default value of spaces for an attribute that is not of type CDATA makes the parser panic. -/
theorem C53_blank_default_panics : (parserParse env0 nullHandler () 9 9 b!"<!DOCTYPE a [<!ATTLIST a b NMTOKENS \" \">]><a/>") = .panic := by kernel_rfl

/-- an attribute list declaration without attributes is read for ever. -/
theorem C53_empty_attlist_hangs (fuel : Nat) : parserParse env0 nullHandler () fuel 9 b!"<!DOCTYPE a [<!ATTLIST a>]><a/>" = .diverge :=
  ParseRes.hangs_iff.1 (by kernel_rfl)

/-- so is a notation declaration. -/
theorem C53_notation_hangs (fuel : Nat) : parserParse env0 nullHandler () fuel 9 b!"<!DOCTYPE a [<!NOTATION n SYSTEM \"x\">]><a/>" = .diverge :=
  ParseRes.hangs_iff.1 (by kernel_rfl)

end Helium
