import Verif.Props.Accept
/-! C61: references to parameter entities and the shape of accepted document type declarations. -/
namespace Helium
open Spec
section
variable {σ : Type}

theorem looseMisc_noSubset {E : Env} {t : List Nat} {evs : List Ev} (h : LooseMisc E t evs) : ∀ ev ∈ evs, ¬ IsSubset ev := by
  induction h with
  | nil => simp
  | space _ _ ih => exact ih
  | comment h1 _ ih =>
    intro ev hev
    rcases List.mem_cons.1 hev with rfl | hev
    · cases h1 <;> exact id
    · exact ih ev hev
  | pi h1 _ ih =>
    intro ev hev
    rcases List.mem_cons.1 hev with rfl | hev
    · cases h1 <;> exact id
    · exact ih ev hev
  | «open» => simp [IsSubset]

/-- **C61**, in every accepted document with a document type declaration: the declaration is one of the grammar `LooseDoctype`, so its internal
subset consists of declarations, comments, processing instructions, white space and references to parameter entities, the report of each
follows from its text, and the first reference has been answered by the handler with an entity. Missing from the full claim: references after
the first (`C61_refuted`). Inputs with a NUL character are left out. -/
theorem C61_doctype_partial (E : Env) (H : Handler σ) (usr : σ) (fuel snl : Nat) (input : Bytes) (doc : Option Nat) (heap : Heap)
    (trace : List (Ev × HOut)) (h : parserParse E H usr fuel snl input = .done doc none heap trace) (hd : ∃ n s u, Ev.internalSubset n s u ∈ trace.map (·.1)) :
    ∃ cs rest, rest <:+ input ∧ (PlainUtf8 input → ¬ b!"<?xml" <+: input → cs = .utf8 ∧ rest = input) ∧
      (0 ∉ E.decode cs rest → ∃ m dt m2 root n mid e1 e2 er, E.decode cs rest = m ++ (dt ++ (m2 ++ root)) ∧ LooseMisc E m e1 ∧ LooseDoctype E n dt mid ∧ LooseMisc E m2 e2 ∧
        mid <:+: trace ∧ trace.map (·.1) = [.setDocumentLocator, .startDocument] ++ (e1 ++ (.internalSubset (encodeRunes n) [] [] ::
          (mid.map (·.1) ++ (.externalSubset (encodeRunes n) [] [] :: (e2 ++ er)))))) := by
  obtain ⟨cs, rest, h1, h2, h3⟩ := C05_accepted_partial E H usr fuel snl input doc heap trace h
  refine ⟨cs, rest, h1, h2, fun h0 => ?_⟩
  obtain ⟨pre, root, tail, ep, er, et, g1, g2, g3, g4, g6, g5⟩ := h3 h0
  rcases g5 with g5 | ⟨m, dt, m2, e1, e2, n, mid, rfl, a1, a2, a3, a4, rfl⟩
  · exfalso
    obtain ⟨n, s, u, hin⟩ := hd
    rw [g4] at hin
    simp only [List.cons_append, List.nil_append, List.mem_cons, List.mem_append, reduceCtorEq, false_or, List.not_mem_nil, or_false] at hin
    rcases hin with hin | hin | hin
    · exact looseMisc_noSubset g5 _ hin trivial
    · exact g6 _ (List.mem_append_left _ hin) trivial
    · exact g6 _ (List.mem_append_right _ hin) trivial
  · exact ⟨m, dt, m2, root ++ tail, n, mid, e1, e2, er ++ (et ++ [.endDocument]), by rw [g1]; simp, a1, a2, a3, a4, by rw [g4]; simp⟩

end

/-- the full claim: if, after the declarations `s`, an internal subset refers to the parameter entity `y`, and the document is accepted, then `y` has
been declared in `s`. -/
def C61_statement : Prop := ∀ (E : Env) (fuel : Nat) (s y t : List Nat) (es : List (Ev × HOut)) (doc : Option Nat) (heap : Heap) (trace : List (Ev × HOut)),
  LooseSubset E false s es → LooseName E y → parse E fuel (encodeRunes (b!"<!DOCTYPE a [" ++ (s ++ 37 :: (y ++ 59 :: t)))) = .done doc none heap trace →
  ∃ typ p q v, Ev.entityDecl (encodeRunes y) typ p q v ∈ es.map (·.1)

/-- **C61** fails: after a reference to a declared parameter entity, a reference to one that was never declared is accepted. -/
theorem C61_refuted : ¬ C61_statement := by
  intro h
  have h0 : (parse env0 99 b!"<!DOCTYPE a [<!ENTITY % x \"v\">%x;%y;]><a/>").events.isSome := by decide +kernel
  obtain ⟨evs, h0⟩ := Option.isSome_iff_exists.1 h0
  obtain ⟨d, hp, tr, h1, _⟩ := ParseRes.good_of_events h0
  have hn : ∀ c, c = 120 ∨ c = 121 → LooseName env0 [c] := fun c hc => ⟨c, [], rfl, .inl (by rcases hc with rfl | rfl <;> decide +kernel), by simp⟩
  have hlit : EntLit b!"v" (some b!"v") := ⟨by decide, b!"v", .char (by decide) (by decide) .nil, by decide⟩
  have hdecl := LooseDecl.entity (E := env0) (p := true) (w1 := b!" ") (w2 := b!" ") (n := b!"x") (w3 := b!" ") (q := 34) (l := b!"v") (v := some b!"v") (w4 := [])
    (by decide) (by simp [Blank, Ws]) (by decide) (by simp [Blank, Ws]) (hn 120 (.inl rfl)) (by decide) (by decide) (by simp [Blank, Ws]) (.inl rfl) (by decide) hlit (by simp [Blank])
  have hs := LooseSubset.decl (seen := false) (e := [(.entityDecl b!"x" 4 [] [] b!"v", .ok), (.getParameterEntity b!"x", .ent (some (.ptr 0)))]) hdecl
    (LooseSubset.pe (o := .ent (some (.ptr 0))) (hn 120 (.inl rfl)) (.inr ⟨_, rfl⟩) .nil)
  obtain ⟨typ, p, q, v, hin⟩ := h env0 99 _ b!"y" b!"]><a/>" _ d hp tr hs (hn 121 (.inr rfl)) h1
  rw [show encodeRunes b!"y" = b!"y" from by decide, show encodeRunes b!"x" = b!"x" from by decide] at hin
  simp at hin

/-- the hypotheses of `C61_doctype_partial` are met by a document with declarations of all kinds and a reference. -/
example : ∃ doc heap trace, parse env0 99 b!"<!DOCTYPE a [<!ENTITY % x \"v\">%x; <!ELEMENT a (b,c)?><!ATTLIST a b CDATA 'q'><!ENTITY e \"&#65;\"><!-- c --><?p d?>]><a/>" =
    .done doc none heap trace ∧ ∃ n s u, Ev.internalSubset n s u ∈ trace.map (·.1) := by
  have h0 : (parse env0 99 b!"<!DOCTYPE a [<!ENTITY % x \"v\">%x; <!ELEMENT a (b,c)?><!ATTLIST a b CDATA 'q'><!ENTITY e \"&#65;\"><!-- c --><?p d?>]><a/>").events.any
      (fun evs => evs.contains (.internalSubset b!"a" [] [])) = true := by decide +kernel
  cases he : (parse env0 99 b!"<!DOCTYPE a [<!ENTITY % x \"v\">%x; <!ELEMENT a (b,c)?><!ATTLIST a b CDATA 'q'><!ENTITY e \"&#65;\"><!-- c --><?p d?>]><a/>").events with
  | none => rw [he] at h0; cases h0
  | some evs =>
    rw [he] at h0
    obtain ⟨d, hp, tr, h1, h2⟩ := ParseRes.good_of_events he
    exact ⟨d, hp, tr, h1, _, _, _, by rw [h2]; simpa using h0⟩

end Helium
