import Verif.Props.DtdDump
import Verif.Props.Total

/-! # Default namespaces that are written again -/

namespace Helium
open Spec

/-- `<a xmlns="u"><b/><p:c xmlns:p="v"/><d/></a>` -/
def defaultSample : XTree :=
  .node (.elem b!"a" [] b!"u" [([], b!"u")] []) (.node (.elem b!"b" [] b!"u" [] []) .nil
    (.node (.elem b!"c" b!"p" b!"v" [(b!"p", b!"v")] []) .nil (.node (.elem b!"d" [] b!"u" [] []) .nil .nil))) .nil

theorem defaultSample_plain : PlainDoc env0 defaultSample := by
  have nc : ∀ c, 97 ≤ c → c ≤ 122 → NCName env0 [c] := fun c h1 h2 =>
    ascii_ncname rfl ⟨h1, h2⟩ (by intro x hx; simp at hx; omega) (by simp)
  have one : ∀ c, 97 ≤ c → c ≤ 122 → Legal c → PlainName env0 [c] [] [c] := fun c h1 h2 h3 =>
    ⟨⟨nc c h1 h2, Or.inl ⟨rfl, rfl⟩⟩, by intro x hx; simp at hx; subst hx; exact h3⟩
  refine ⟨.root (.elem (n := b!"a") (p := []) (l := b!"a") (one 97 (by decide) (by decide) (by decide))
    (Or.inr ⟨rfl, [], b!"u", by simp, ⟨by decide, by decide, by decide⟩, rfl⟩) (by simp) (by simp) (Or.inr (by decide)) ?_ .nil) .nil, by decide⟩
  refine .elem (n := b!"b") (p := []) (l := b!"b") (one 98 (by decide) (by decide) (by decide)) (Or.inl (by simp)) (by simp) (by simp) (Or.inr (by decide)) .nil ?_
  refine .elem (n := b!"p:c") (p := b!"p") (l := b!"c") ⟨⟨nc 99 (by decide) (by decide), Or.inr ⟨nc 112 (by decide) (by decide), rfl⟩⟩, by decide⟩
    (Or.inl ?_) (by simp) (by simp) (Or.inr (by decide)) .nil ?_
  · intro d hd
    simp at hd
    subst hd
    exact ⟨b!"p", b!"v", nc 112 (by decide) (by decide), by decide, by decide, by decide, ⟨by decide, by decide, by decide⟩, rfl, by decide, rfl⟩
  · exact .elem (n := b!"d") (p := []) (l := b!"d") (one 100 (by decide) (by decide) (by decide)) (Or.inl (by simp)) (by simp) (by simp) (Or.inr (by decide)) .nil .nil

/-- the hypotheses of `C09_roundtrip_partial` hold for it. -/
example : ∃ h d, HoldsDoc h d defaultSample ∧ Version (h.at' d).version ∧ (h.at' d).encoding = [] := by
  obtain ⟨_, _, d, h, _, _, h1, h2, h3⟩ := plainDoc_parsed env0 defaultSample_plain
  exact ⟨h, d, h1, by rw [h2]; exact ⟨b!"0", by decide, by decide, rfl⟩, h3⟩

example : writtenTop defaultSample = b!"<a xmlns=\"u\"><b/><p:c xmlns:p=\"v\"/><d/></a>\n" := by decide +kernel

/-- what `Parse` returns for a default namespace declaration before another attribute is written with the declaration twice ... -/
theorem C09_default_twice : (parse env0 40 b!"<a xmlns=\"u\" b=\"1\"/>").written = some (b!"<?xml version=\"1.0\"?>\n<a xmlns=\"u\" xmlns=\"u\" b=\"1\"/>\n") := by
  decide +kernel

set_option maxRecDepth 100000 in
/-- ... and `Parse` panics on that. -/
theorem C09_default_panics (fuel : Nat) : parse env0 (fuel + 2) b!"<?xml version=\"1.0\"?>\n<a xmlns=\"u\" xmlns=\"u\" b=\"1\"/>\n" = .panic :=
  ParseRes.crashes_iff.1 (by kernel_rfl)

end Helium
