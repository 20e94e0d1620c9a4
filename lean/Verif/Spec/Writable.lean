import Verif.Spec.Plain
/-! Which trees of well-formed documents survive being written: the known losses, as a condition on the tree. -/
namespace Helium.Spec
open Helium

/-- a namespace name that is not changed by being written without escaping. -/
def WritableUri (u : Bytes) : Prop := 60 ∉ u ∧ 9 ∉ u ∧ 10 ∉ u ∧ 13 ∉ u ∧ (34 ∉ u ∨ 39 ∉ u)

/-- no processing instructions, no text `textnoenc`, no declaration of the default namespace beside attributes, and writable namespace names. -/
def XTree.Writable : XTree → Prop
  | .nil => True
  | .node d k r => (match d with
      | .elem _ _ _ ds as => (∀ x ∈ ds, WritableUri x.2) ∧ ([] ∈ ds.map (·.1) → as = [])
      | .text b => b ≠ b!"textnoenc"
      | .pi _ _ => False
      | _ => True) ∧ k.Writable ∧ r.Writable

end Helium.Spec
