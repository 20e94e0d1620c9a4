import Verif.Lemmas.EntLogic
import Verif.Props.Accept
/-! Property C38: references to unknown entities. -/
namespace Helium
open Spec

/-! ### C38 -/

theorem Spec.LooseValue.mono {E : Env} {K K' : List Nat → Bytes → Prop} {q : Nat} {t : List Nat} {v : Bytes} (hk : ∀ n x, K n x → K' n x) (h : LooseValue E K q t v) : LooseValue E K' q t v := by
  induction h with
  | nil => exact .nil
  | char h1 h2 h3 h4 _ ih => exact .char h1 h2 h3 h4 ih
  | charRef h1 _ ih => exact .charRef h1 ih
  | predefined h1 h2 _ ih => exact .predefined h1 h2 ih
  | entity h1 h2 h3 _ ih => exact .entity h1 h2 (hk _ _ h3) ih

theorem Spec.LooseAtts.mono {E : Env} {K K' : List Nat → Bytes → Prop} {t : List Nat} {ns : List (List Nat × Bytes)} (hk : ∀ n x, K n x → K' n x) (h : LooseAtts E K t ns) : LooseAtts E K' t ns := by
  induction h with
  | nil h => exact .nil h
  | attr h1 h2 _ ih =>
    refine .attr h1 ?_ ih
    obtain ⟨g1, w1, x, w2, v, g2, g3, g4, g5⟩ := h2
    refine ⟨g1, w1, x, w2, v, g2, g3, g4, ?_⟩
    rcases g5 with g5 | ⟨q, b, r, k1, k2, k3, k4⟩
    · exact Or.inl g5
    · exact Or.inr ⟨q, b, r, k1, k2.mono hk, k3, k4⟩

theorem Spec.Accepted.mono {E : Env} {K K' : List Nat → Bytes → Prop} {b : Bool} {t : List Nat} {evs : List Ev} (hk : ∀ n x, K n x → K' n x) (h : Accepted E K b t evs) : Accepted E K' b t evs := by
  induction h with
  | empty h1 h2 h3 h4 h5 h6 => exact .empty h1 h2 (h3.mono hk) h4 h5 h6
  | full h1 h2 h3 h4 h5 _ h7 ih => exact .full h1 h2 (h3.mono hk) h4 h5 ih h7
  | nil => exact .nil
  | element _ _ ih1 ih2 => exact .element ih1 ih2
  | text h1 h2 h3 h4 _ ih => exact .text h1 h2 h3 h4 ih
  | charRef h1 _ ih => exact .charRef h1 ih
  | predefined h1 h2 _ ih => exact .predefined h1 h2 ih
  | entity h1 h2 h3 _ ih => exact .entity h1 h2 (hk _ _ h3) ih
  | comment h1 _ ih => exact .comment h1 ih
  | pi h1 _ ih => exact .pi h1 ih
  | cdata h1 _ ih => exact .cdata h1 ih

/-- **C38**, order of events: whenever the tree builder finds a general entity, it has been declared before. -/
theorem C38_declared_first (E : Env) (fuel : Nat) (input : Bytes) (doc : Option Nat) (err : Option Err) (heap : Heap) (trace : List (Ev × HOut))
    (h : parse E fuel input = .done doc err heap trace) (pre suf : List (Ev × HOut)) (n : Bytes) (e : ERef)
    (ht : trace = pre ++ (Ev.getEntity n, HOut.ent (some e)) :: suf) : Declared pre n := by
  have hd := entOK_document E () fuel fuel fuel input
  unfold parse parserParse at h
  cases hp : parseDocument E (treeBuilder fuel) fuel fuel (initSt () Heap.empty input) with
  | panic => rw [hp] at h; cases h
  | diverge => rw [hp] at h; cases h
  | ok u s => rw [hp] at h hd; cases h; exact hd.old pre n e suf ht
  | err e' s => rw [hp] at h hd; cases h; exact hd.old pre n e suf ht

/-- **C38** for what is accepted: every entity reference in the root element of an accepted document names a predefined entity or a
general entity with a declaration; in attribute values the latter stand for themselves, so that the text of every attribute determines its
value (`C48_value_unique`). Missing from the full claim: documents with other references need not be rejected with an error, they
can make `Parse` panic (`C38_refuted`); inputs with a NUL character and values in the DTD are left out. -/
theorem C38_accepted_partial (E : Env) (fuel : Nat) (input : Bytes) (doc : Option Nat) (heap : Heap) (trace : List (Ev × HOut))
    (h : parse E fuel input = .done doc none heap trace) :
    ∃ cs rest, rest <:+ input ∧ (PlainUtf8 input → ¬ b!"<?xml" <+: input → cs = .utf8 ∧ rest = input) ∧
      (0 ∉ E.decode cs rest → ∃ pre root tail ep er et, E.decode cs rest = pre ++ (root ++ tail) ∧
        Accepted E (fun n x => Declared trace (encodeRunes n) ∧ x = refTo n) true root er ∧ LooseMisc E tail et ∧
        trace.map (·.1) = [.setDocumentLocator, .startDocument] ++ (ep ++ (er ++ (et ++ [.endDocument])))) := by
  obtain ⟨cs, rest, h1, h2, h3⟩ := C05_accepted_partial E _ _ _ _ _ _ _ _ h
  refine ⟨cs, rest, h1, h2, fun h0 => ?_⟩
  obtain ⟨pre, root, tail, ep, er, et, g1, g2, g3, g4, _⟩ := h3 h0
  refine ⟨pre, root, tail, ep, er, et, g1, g2.mono ?_, g3, g4⟩
  rintro n x ⟨⟨e, he⟩, hx⟩
  refine ⟨?_, hx _ rfl⟩
  obtain ⟨a, b, hab⟩ := List.append_of_mem he
  have := C38_declared_first E fuel input doc none heap trace h a b _ e hab
  rw [hab]
  exact declared_mono this

/-- **C48** for whole documents and the tree builder: the root element of an accepted document follows the grammar, and in it the text between the
quotes of an attribute determines the value, references to declared entities included. Missing: as in `C48_tag_partial`. -/
theorem C48_document_partial (E : Env) (fuel : Nat) (input : Bytes) (doc : Option Nat) (heap : Heap) (trace : List (Ev × HOut))
    (h : parse E fuel input = .done doc none heap trace) :
    ∃ (K : List Nat → Bytes → Prop) (cs : Charset) (rest : Bytes), rest <:+ input ∧ (0 ∉ E.decode cs rest → ∃ pre root tail ep er et, E.decode cs rest = pre ++ (root ++ tail) ∧
      Accepted E K true root er ∧ trace.map (·.1) = [.setDocumentLocator, .startDocument] ++ (ep ++ (er ++ (et ++ [.endDocument])))) ∧
      (∀ n x, K n x → Declared trace (encodeRunes n) ∧ x = 38 :: (encodeRunes n ++ [59])) ∧
      ∀ q t v w, LooseValue E K q t v → LooseValue E K q t w → v = w := by
  obtain ⟨cs, rest, h1, -, h3⟩ := C38_accepted_partial E fuel input doc heap trace h
  refine ⟨_, cs, rest, h1, fun h0 => ?_, fun n x hx => hx, fun q t v w => C48_value_unique E _ (fun n x y hx hy => hx.2.trans hy.2.symm) q t v w⟩
  obtain ⟨pre, root, tail, ep, er, et, g1, g2, -, g4⟩ := h3 h0
  exact ⟨pre, root, tail, ep, er, et, g1, g2, g4⟩

/-- a document with a reference to a declared entity in an attribute: the value is the reference. -/
theorem C48_sample_reference : ∃ doc heap trace, parse env0 40 b!"<!DOCTYPE a [<!ENTITY e 'x'>]><a b='1&e;2'/>" = .done doc none heap trace ∧
    Ev.startElement b!"a" [] [] [] [.parsed [] b!"b" b!"1&e;2"] ∈ trace.map (·.1) := by
  have hv : (parse env0 40 b!"<!DOCTYPE a [<!ENTITY e 'x'>]><a b='1&e;2'/>").view = some (true, none, [.setDocumentLocator, .startDocument,
      .internalSubset b!"a" [] [], .entityDecl b!"e" 1 [] [] b!"x", .getEntity b!"e", .externalSubset b!"a" [] [], .getEntity b!"e",
      .startElement b!"a" [] [] [] [.parsed [] b!"b" b!"1&e;2"], .endElement b!"a" [] [], .endDocument]) := by decide +kernel
  cases hp : parse env0 40 b!"<!DOCTYPE a [<!ENTITY e 'x'>]><a b='1&e;2'/>" with
  | panic => rw [hp] at hv; cases hv
  | diverge => rw [hp] at hv; cases hv
  | done d e h tr =>
    rw [hp] at hv
    simp only [ParseRes.view, Option.some.injEq, Prod.mk.injEq] at hv
    obtain ⟨-, rfl, h2⟩ := hv
    exact ⟨d, h, tr, rfl, by rw [h2]; simp⟩

/-- the full claim for the simplest documents: a reference to an unknown entity is an error. -/
def C38_statement : Prop := ∀ (E : Env) (fuel : Nat) (n : List Nat), LooseName E n → refValue n = none →
  ∃ err heap trace, parse E (fuel + 9) (encodeRunes (b!"<a>&" ++ (n ++ b!";</a>"))) = .done none (some err) heap trace

/-- a run that panics. -/
def ParseRes.isPanic : ParseRes → Bool
  | .panic => true
  | _ => false

/-- **C38** fails: a reference to an unknown entity in content makes `Parse` panic. -/
theorem C38_refuted : ¬ C38_statement := by
  intro h
  obtain ⟨err, heap, trace, h1⟩ := h env0 0 b!"foo" ⟨102, b!"oo", rfl, by decide +kernel, by decide +kernel⟩ (by decide)
  have h2 : (parse env0 9 (encodeRunes (b!"<a>&" ++ (b!"foo" ++ b!";</a>")))).isPanic = true := by decide +kernel
  have h1 : parse env0 9 (encodeRunes (b!"<a>&" ++ (b!"foo" ++ b!";</a>"))) = _ := h1
  rw [h1] at h2
  cases h2

/-- with a declaration the entity is found. -/
example : (parse env0 20 b!"<!DOCTYPE a [<!ENTITY e \"<b/>\">]><a>&e;</a>").events.isSome = true := by decide +kernel
end Helium
