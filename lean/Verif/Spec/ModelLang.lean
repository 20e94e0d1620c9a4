import Verif.Spec.Content
/-! The sequences of child elements a content model stands for (XML 1.0, section 3.2.1). -/
namespace Helium.Spec
open Helium

/-- a set of sequences of names, a name being a prefix and a local part. -/
abbrev Seqs := List (Bytes × Bytes) → Prop

/-- any number of members of `A`, one after the other. -/
inductive Many (A : Seqs) : Seqs
  | none : Many A []
  | more {x y} : A x → Many A y → Many A (x ++ y)

/-- as often as the mark says: 2 `?`, 3 `*`, 4 `+`. -/
def Repeated : Nat → Seqs → Seqs
  | 2, A => fun w => w = [] ∨ A w
  | 3, A => Many A
  | 4, A => fun w => ∃ x y, A x ∧ Many A y ∧ w = x ++ y
  | _, A => A

/-- the sequences a content model allows. -/
def Allowed : EC → Seqs
  | .nil => fun _ => False
  | .mk t o n p a b => Repeated o fun w =>
    (t = 1 ∧ w = []) ∨ (t = 2 ∧ w = [(p, n)]) ∨ (t = 3 ∧ ∃ x y, Allowed a x ∧ Allowed b y ∧ w = x ++ y) ∨ (t = 4 ∧ (Allowed a w ∨ Allowed b w))

/-- the same sequences. -/
def SameSeqs (A B : Seqs) : Prop := ∀ w, A w ↔ B w

/-- a reading of names: the text `w` is the name with prefix `p` and local part `l`. -/
abbrev Names := List Nat → List Nat → List Nat → Prop

/-- `Written N k t A`: the text `t`, part `k` of a content model as XML writes it (productions [47]-[50], names read by `N`), stands for the sequences `A`. -/
inductive Written (N : Names) : CK → List Nat → Seqs → Prop
  | name {w p l o m} : N w p l → OccMark o m → Written N .member (w ++ m) (Repeated o fun s => s = [(encodeRunes p, encodeRunes l)])
  | paren {ws x o m A} : Blank ws → Written N .group x A → OccMark o m → Written N .member (40 :: (ws ++ (x ++ 41 :: m))) (Repeated o A)
  | last {b x ws A} : Written N .member x A → Blank ws → Written N (.others b) (x ++ ws) A
  | choice {x w1 w2 y A B} : Written N .member x A → Blank w1 → Blank w2 → Written N (.others true) y B →
      Written N (.others true) (x ++ (w1 ++ 124 :: (w2 ++ y))) (fun s => A s ∨ B s)
  | seq {x w1 w2 y A B} : Written N .member x A → Blank w1 → Blank w2 → Written N (.others false) y B →
      Written N (.others false) (x ++ (w1 ++ 44 :: (w2 ++ y))) (fun s => ∃ u v, A u ∧ B v ∧ s = u ++ v)
  | group {b x A} : Written N (.others b) x A → Written N .group x A

/-- `t` declares that the children of elements `n` are one of the sequences `A` (production [45], element content). -/
def DeclaresBy (N : Names) (n t : List Nat) (A : Seqs) : Prop :=
  ∃ w1 w2 w3 ws x o m A', w1 ≠ [] ∧ Blank w1 ∧ w2 ≠ [] ∧ Blank w2 ∧ Blank w3 ∧ Blank ws ∧ Written N .group x A' ∧ OccMark o m ∧ A = Repeated o A' ∧
    t = b!"<!ELEMENT" ++ (w1 ++ (n ++ (w2 ++ (40 :: (ws ++ (x ++ 41 :: m)) ++ (w3 ++ [62])))))

@[inherit_doc DeclaresBy]
def DeclaresChildren (E : Env) (n t : List Nat) (A : Seqs) : Prop := Name E n ∧ DeclaresBy (Named E) n t A

end Helium.Spec
