import Verif.Spec.Source
/-!
Content models of element type declarations as text: productions [45]-[51] of XML 1.0, and the tree each text stands for.

The tree: type 1 `#PCDATA`, 2 a name, 3 a sequence, 4 a choice; occurrence 1 once, 2 `?`, 3 `*`, 4 `+`. A sequence or choice of more than
two members is the first member and the sequence or choice of the others.
-/
namespace Helium.Spec
open Helium

/-- a name with its prefix (empty: none) and local part; the name is cut at its first colon. -/
def Named (E : Env) (w p l : List Nat) : Prop := Name E w ∧ (p = [] ∧ 58 ∉ w ∧ w = l ∨ p ≠ [] ∧ 58 ∉ p ∧ w = p ++ 58 :: l)

/-- occurrence marks. -/
inductive OccMark : Nat → List Nat → Prop
  | once : OccMark 1 []
  | opt : OccMark 2 [63]
  | mult : OccMark 3 [42]
  | plus : OccMark 4 [43]

/-- the tree of a name. -/
def nameModel (p l : List Nat) (o : Nat) : EC := .mk 2 o (encodeRunes l) (encodeRunes p) .nil .nil

/-- type of the node for a separator: `|` (true) or `,` (false). -/
def sepType (b : Bool) : Nat := if b then 4 else 3
/-- the separator itself. -/
def sepChar (b : Bool) : Nat := if b then 124 else 44

/-- the same model, made madeOpt: `+` becomes `*`, `*` stays. -/
def madeOpt : EC → EC
  | .nil => .nil
  | .mk t o n p a b => .mk t (if o = 3 ∨ o = 4 then 3 else 2) n p a b

/-- is the model marked `*`? -/
def starred : EC → Bool
  | .mk _ 3 _ _ _ _ => true
  | _ => false

/-- the part of a content model a text is to be read as. -/
inductive CK
  /-- a member of a group: a name, or a group in parentheses. -/
  | member
  /-- the members after the first one, up to the closing parenthesis, in a group with this separator. -/
  | others (b : Bool)
  /-- what stands between the parentheses of a group. -/
  | group

/-- `ModelText E k d e t`: text `t` at nesting depth `d` is a content model (part `k`) with tree `e`. Narrower than XML: the first member
of a group is a name; a group is not followed by `*` or `+`; nesting is at most 128 deep; `?` does not follow a group of a single name with `*`. -/
inductive ModelText (E : Env) : CK → Nat → EC → List Nat → Prop
  | name {d w p l o m} : Named E w p l → OccMark o m → ModelText E .member d (nameModel p l o) (w ++ m)
  | paren {d ws e x} : d + 1 ≤ 128 → Blank ws → ModelText E .group (d + 1) e x → ModelText E .member d e (40 :: (ws ++ (x ++ [41])))
  | parenOpt {d ws e x} : d + 1 ≤ 128 → Blank ws → ModelText E .group (d + 1) e x → starred e = false →
      ModelText E .member d (madeOpt e) (40 :: (ws ++ (x ++ [41, 63])))
  | last {d b e x ws} : ModelText E .member d e x → Blank ws → ModelText E (.others b) d e (x ++ ws)
  | more {d b e x w1 w2 e' y} : ModelText E .member d e x → Blank w1 → Blank w2 → ModelText E (.others b) d e' y →
      ModelText E (.others b) d (.mk (sepType b) 1 [] [] e e') (x ++ (w1 ++ sepChar b :: (w2 ++ y)))
  | single {d w p l o m ws} : Named E w p l → OccMark o m → Blank ws → ModelText E .group d (nameModel p l o) (w ++ (m ++ ws))
  | several {d w p l o m b w1 w2 e y} : Named E w p l → OccMark o m → Blank w1 → Blank w2 → ModelText E (.others b) d e y →
      ModelText E .group d (.mk (sepType b) 1 [] [] (nameModel p l o) e) (w ++ (m ++ (w1 ++ sepChar b :: (w2 ++ y))))

/-- the tree of `#PCDATA`. -/
def pcdataModel (o : Nat) : EC := .mk 1 o [] [] .nil .nil

/-- `SpecText E typ e t`: the content specification `t` says type `typ` (1 EMPTY, 2 ANY, 3 mixed, 4 element content) with tree `e`. Narrower
than XML: mixed content has at most one name, and no white space between `#PCDATA` and what follows. -/
inductive SpecText (E : Env) : Nat → EC → List Nat → Prop
  | empty : SpecText E 1 .nil b!"EMPTY"
  | any : SpecText E 2 .nil b!"ANY"
  | pcdata {ws} : Blank ws → SpecText E 3 (pcdataModel 1) (40 :: (ws ++ b!"#PCDATA)"))
  | pcdataStar {ws} : Blank ws → SpecText E 3 (pcdataModel 3) (40 :: (ws ++ b!"#PCDATA)*"))
  | mixed {ws w1 w2 w p l} : Blank ws → Blank w1 → Blank w2 → Named E w p l →
      SpecText E 3 (.mk 4 3 [] [] (pcdataModel 1) (nameModel p l 1)) (40 :: (ws ++ (b!"#PCDATA|" ++ (w1 ++ (w ++ (w2 ++ b!")*"))))))
  | children {ws e x} : Blank ws → ModelText E .group 0 e x → SpecText E 4 e (40 :: (ws ++ (x ++ [41])))
  | childrenOpt {ws e x} : Blank ws → ModelText E .group 0 e x → starred e = false → SpecText E 4 (madeOpt e) (40 :: (ws ++ (x ++ [41, 63])))

/-- `ElementText E n typ e t`: `t` is an element type declaration for the name `n`. -/
def ElementText (E : Env) (n : List Nat) (typ : Nat) (e : EC) (t : List Nat) : Prop :=
  ∃ w1 w2 w3 x, w1 ≠ [] ∧ Blank w1 ∧ w2 ≠ [] ∧ Blank w2 ∧ Blank w3 ∧ Name E n ∧ SpecText E typ e x ∧
    t = b!"<!ELEMENT" ++ (w1 ++ (n ++ (w2 ++ (x ++ (w3 ++ [62])))))

/-- the models that survive: no single name with `*` or `+`, no names in mixed content. -/
def Kept (typ : Nat) : EC → Prop
  | .mk 2 o _ _ _ _ => o ≠ 3 ∧ o ≠ 4
  | .mk 4 _ _ _ _ _ => typ ≠ 3
  | _ => True

end Helium.Spec
