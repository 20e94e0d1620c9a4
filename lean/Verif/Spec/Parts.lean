import Verif.Model.NodeString
/-! Specification of serialisation part by part. -/
namespace Helium.Spec
open Helium

/-- position by position. -/
def OneByOne (R : Nat → Bytes → Prop) : List Nat → List Bytes → Prop
  | [], [] => True
  | x :: l, w :: ws => R x w ∧ OneByOne R l ws
  | _, _ => False

/-- `w` is the serialisation of node `n`. -/
def Serialises (h : Heap) (n : Nat) (w : Bytes) : Prop := nodeString h n = .ok () w

/-- node `c` of an attribute value is written as `w`: texts are escaped, other nodes serialised, whether or not that fails half way. -/
def PieceText (h : Heap) (c : Nat) (w : Bytes) : Prop :=
  if (h.at' c).kind = .text then w = escapeAttrValue (h.at' c).content
  else Serialises h c w ∨ ∃ e, nodeString h c = .err e w

/-- the attribute `a` is written as `w`: name and value in double quotes. -/
def AttrText (h : Heap) (a : Nat) (w : Bytes) : Prop :=
  ∃ cs ws, chain h (h.size + 1) (h.at' a).first = some cs ∧ OneByOne (PieceText h) cs ws ∧ w = b!" " ++ (h.at' a).name ++ b!"=\"" ++ ws.flatten ++ b!"\""

/-- unallocated nodes are blank. -/
def BlankBeyond (h : Heap) : Prop := ∀ i, h.size ≤ i → (h.at' i).first = none ∧ (h.at' i).props = none

end Helium.Spec
