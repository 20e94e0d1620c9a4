import Verif.Spec.Accepted
/-! Attribute values as they are handed over: characters and references to entities. -/
namespace Helium.Spec
open Helium

/-- a character, or a reference to the entity named. -/
inductive Piece
  | chr (c : Nat)
  | ref (n : List Nat)
deriving DecidableEq

/-- how it is written in a value: `&` as a character reference. -/
def Piece.text : Piece → Bytes
  | .chr c => heldAs c
  | .ref n => 38 :: (encodeRunes n ++ [59])

/-- a legal character, or a reference by a name to an entity that has been declared in `tr`. -/
def Piece.Ok (E : Env) (tr : List (Ev × HOut)) : Piece → Prop
  | .chr c => Legal c
  | .ref n => LooseName E n ∧ Declared tr (encodeRunes n)

/-- a value made of legal characters and references to declared entities. -/
def Woven (E : Env) (tr : List (Ev × HOut)) (v : Bytes) : Prop := ∃ l : List Piece, v = l.flatMap Piece.text ∧ ∀ p ∈ l, p.Ok E tr

/-- the same with all that can be said of the entity: it is an internal one, its name has no colon. -/
def Piece.Internal (E : Env) (tr : List (Ev × HOut)) : Piece → Prop
  | .chr c => Legal c
  | .ref n => LooseName E n ∧ 58 ∉ n ∧ ∃ txt o, (Ev.entityDecl (encodeRunes n) 1 [] [] txt, o) ∈ tr

/-- what XML demands besides (3.1, No < in Attribute Values): the text of the entity has no `<`. -/
def Piece.Tame (tr : List (Ev × HOut)) : Piece → Prop
  | .chr _ => True
  | .ref n => ∀ t p s txt o, (Ev.entityDecl (encodeRunes n) t p s txt, o) ∈ tr → 60 ∉ txt

end Helium.Spec
