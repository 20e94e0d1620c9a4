import Verif.Model.Env
/-! Names, in terms of the letter and digit classes of the environment only. -/
namespace Helium.Spec
open Helium

/-- a character that may start a name: letter, `_` or `:`. -/
def NameStartChar (E : Env) (c : Nat) : Prop := E.isLetter c = true ∨ c = 95 ∨ c = 58

/-- a character that may continue a name: letter, digit, `.`, `-`, `_` or `:`. -/
def NameChar (E : Env) (c : Nat) : Prop := E.isLetter c = true ∨ E.isDigit c = true ∨ c = 46 ∨ c = 45 ∨ c = 95 ∨ c = 58

/-- a name without colon: starts with a letter or `_`. -/
structure NCName (E : Env) (n : List Nat) : Prop where
  start : ∃ c t, n = c :: t ∧ (E.isLetter c = true ∨ c = 95)
  chars : ∀ c ∈ n, NameChar E c ∧ c ≠ 58
  short : n.length < 50000

/-- a name. -/
structure Name (E : Env) (n : List Nat) : Prop where
  start : ∃ c t, n = c :: t ∧ NameStartChar E c
  chars : ∀ c ∈ n, NameChar E c
  short : n.length < 50000

instance (E : Env) (c : Nat) : Decidable (NameStartChar E c) := by unfold NameStartChar; infer_instance
instance (E : Env) (c : Nat) : Decidable (NameChar E c) := by unfold NameChar; infer_instance

end Helium.Spec
