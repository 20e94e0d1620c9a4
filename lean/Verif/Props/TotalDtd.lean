import Verif.Lemmas.TotalDtd
import Verif.Lemmas.DtdDocDump
import Verif.Props.Total
import Verif.Props.Atts
/-! C07 and C08 for documents with an internal subset. -/
namespace Helium
open Spec

theorem short_exists (ds : List Decl) : ∃ N, ∀ d ∈ ds, d.Short N := by
  have one : ∀ d : Decl, ∃ N, d.Short N := by
    intro d
    cases d with
    | attlist n as =>
      obtain ⟨N, hN⟩ := bound_list (fun a : AttDef => a.value.length) as
      exact ⟨N + 2, fun a ha => by have := hN a ha; omega⟩
    | _ => exact ⟨0, trivial⟩
  induction ds with
  | nil => exact ⟨0, nofun⟩
  | cons d ds ih =>
    obtain ⟨N, hN⟩ := ih
    obtain ⟨M, hM⟩ := one d
    refine ⟨max N M, fun x hx => ?_⟩
    rcases List.mem_cons.1 hx with rfl | hx
    · exact decl_short_mono hM (Nat.le_max_right _ _)
    · exact decl_short_mono (hN x hx) (Nat.le_max_left _ _)

/-- **C07 (partial)**, with an internal subset: after a document type declaration of the kind of `DoctypeText` whose declarations are `Declarable` and
declare no general entities, the parser returns (or panics) whatever comes next, as long as it is free of the constructs known to hang. Missing: malformed
declarations; references to declared entities. -/
theorem C07_subset_partial {E : Env} {h0 m1 n dt rest v e : List Nat} {sd : Int} {e1 : List Ev} {ds : List Decl} (hh : Head h0 (m1 ++ (dt ++ rest)) v e sd)
    (hm : Misc E m1 e1) (hdt : DoctypeText E n ds dt) (hD : Declarable ds) (hl : ∀ c ∈ h0 ++ (m1 ++ (dt ++ rest)), isScalar c ∧ c ≠ 0)
    (hr : rest.head? ≠ some 91) (hs : Safe E true rest) (hg : ∀ n l w, .entity false n l w ∉ ds) :
    ∃ N, ∀ fuel, N ≤ fuel → parse E fuel (encodeRunes (h0 ++ (m1 ++ (dt ++ rest)))) ≠ .diverge := by
  obtain ⟨N, hN⟩ := short_exists ds
  exact ⟨max N (5 * rest.length + 2), fun fuel hf => (done_of_tot (afterDtd_tot true hh hm hdt hD hl (fun d hd => decl_short_mono (hN d hd) (by omega)) hr hs
    (fun _ => hg) (Or.inl rfl) () (by omega))).1⟩

/-- **C08 (partial)**, with an internal subset: after a document type declaration of the kind of `DoctypeText` whose declarations are `Declarable`, the
parser returns a document or an error whatever comes next, as long as it is free of the constructs known to hang or panic: these are those of `Safe`, and
character references to a space if attributes of other types than CDATA are declared. Missing: malformed declarations; references to declared entities. -/
theorem C08_subset_partial {E : Env} {h0 m1 n dt rest v e : List Nat} {sd : Int} {e1 : List Ev} {ds : List Decl} (hh : Head h0 (m1 ++ (dt ++ rest)) v e sd)
    (hm : Misc E m1 e1) (hdt : DoctypeText E n ds dt) (hD : Declarable ds) (hl : ∀ c ∈ h0 ++ (m1 ++ (dt ++ rest)), isScalar c ∧ c ≠ 0)
    (hr : rest.head? ≠ some 91) (hs : Safe E false rest) (hsp : NoSpaceRef rest ∨ ∀ x ∈ attDefs ds, x.2.typ = 1) :
    ∃ N, ∀ fuel, N ≤ fuel → ∃ d e hp t, parse E fuel (encodeRunes (h0 ++ (m1 ++ (dt ++ rest)))) = .done d e hp t := by
  obtain ⟨N, hN⟩ := short_exists ds
  exact ⟨max N (5 * rest.length + 2), fun fuel hf => (done_of_tot (afterDtd_tot false hh hm hdt hD hl (fun d hd => decl_short_mono (hN d hd) (by omega)) hr hs
    nofun (Or.inr hsp) () (by omega))).2 rfl⟩

set_option maxRecDepth 100000 in
/-- the condition on character references is needed: a value that is a space only cannot be normalised. -/
theorem C08_space_panics (fuel : Nat) : parse env0 (fuel + 11) b!"<!DOCTYPE a [<!ATTLIST a b ID #IMPLIED>]><a b=\"&#32;\"/>" = .panic :=
  ParseRes.crashes_iff.1 (by kernel_rfl)

/-! ### concrete cases -/

/-- no `&#`. -/
def noCharRef : List Nat → Bool
  | [] => true
  | c :: t => !(b!"&#".isPrefixOf (c :: t)) && noCharRef t

theorem noCharRef_suffix : ∀ {l : List Nat}, noCharRef l = true → ∀ u, ¬ b!"&#" ++ u <:+ l
  | [], _, u, hs => by
    have := List.suffix_nil.1 hs
    cases this
  | c :: l, h, u, hs => by
    simp only [noCharRef, Bool.and_eq_true] at h
    rcases List.suffix_cons_iff.1 hs with hs | hs
    · have h1 := h.1
      rw [← hs] at h1
      simp at h1
    · exact noCharRef_suffix h.2 u hs

theorem noCharRef_space {l : List Nat} (h : noCharRef l = true) : NoSpaceRef l := by
  intro ds u n _ hs
  rcases hs with ⟨hs, _⟩ | ⟨hs, _⟩
  · exact absurd hs (noCharRef_suffix h _)
  · exact absurd hs (noCharRef_suffix h (120 :: (ds ++ u)))

theorem sample_doctype : DoctypeText env0 b!"a" [.attlist b!"a" [⟨b!"b", 1, 1, b!"x", []⟩, ⟨b!"c", 2, 3, [], []⟩]]
    b!"<!DOCTYPE a [<!ATTLIST a b CDATA \"x\" c ID #IMPLIED>]>" :=
  .subset (w1 := [32]) (w2 := [32]) (w3 := []) (letters_name (by decide) (by decide) (by decide)) (by decide) (by decide) (by decide) (by decide) sample_list

/-- what comes after the declarations is not well-formed in several ways. -/
def brokenRest : List Nat := b!"<a c=' y  z' d='&amp;'><!-- x ---><b></a>&lt ]]><"

example : ∃ N, ∀ fuel, N ≤ fuel → ∃ d e hp t, parse env0 fuel (encodeRunes ([] ++ ([] ++ (b!"<!DOCTYPE a [<!ATTLIST a b CDATA \"x\" c ID #IMPLIED>]>" ++ brokenRest)))) =
    .done d e hp t :=
  C08_subset_partial (v := []) (e := []) (sd := -2) ⟨[], [], rfl, .inl rfl, .inr ⟨rfl, rfl, rfl, rfl, by decide⟩⟩ .nil sample_doctype
    ⟨by decide, by decide, by decide, by decide, by decide, by simp⟩ (by decide) (by decide) (safe_of_text (by decide) false) (Or.inl (noCharRef_space (by decide)))

example : ∃ N, ∀ fuel, N ≤ fuel → parse env0 fuel (encodeRunes ([] ++ ([] ++ (b!"<!DOCTYPE a [<!ATTLIST a b CDATA \"x\" c ID #IMPLIED>]>" ++ b!"<a c='&#32;'>")))) ≠ .diverge :=
  C07_subset_partial (v := []) (e := []) (sd := -2) ⟨[], [], rfl, .inl rfl, .inr ⟨rfl, rfl, rfl, rfl, by decide⟩⟩ .nil sample_doctype
    ⟨by decide, by decide, by decide, by decide, by decide, by simp⟩ (by decide) (by decide) (safe_of_text (by decide) true) (by simp)

end Helium
