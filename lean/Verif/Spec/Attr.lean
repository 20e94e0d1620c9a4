import Verif.Model.Dom
/-! Attribute lists of elements, and the text an attribute value stands for. -/
namespace Helium

/-- every entry of an entity table is an entity. -/
def TabOK (h : Heap) : Prop :=
  ∀ i x, (x ∈ (h.at' i).entities ∨ x ∈ (h.at' i).pentities) → x.2 < h.size ∧ (h.at' x.2).kind = .entity

end Helium
namespace Helium.Spec
open Helium

/-- the nodes `l` are the attributes of `e`: a doubly linked list from `properties` on. -/
structure PropList (h : Heap) (e : Nat) (l : List Nat) : Prop where
  first : (h.at' e).props = l.head?
  next : ∀ a c b, l = a ++ c :: b → (h.at' c).next = b.head?
  prev : ∀ a c b, l = a ++ c :: b → (h.at' c).prev = a.getLast?
  kind : ∀ c ∈ l, (h.at' c).kind = .attr
  alloc : ∀ c ∈ l, c < h.size
  nodup : l.Nodup

/-- `rs` is attribute text in which every `&` is written `&#38;`; `ts` is what it stands for. -/
inductive AmpText : List Nat → List Nat → Prop
  | nil : AmpText [] []
  | char (c : Nat) (rs ts : List Nat) : c ≠ 38 → AmpText rs ts → AmpText (c :: rs) (c :: ts)
  | amp (rs ts : List Nat) : AmpText rs ts → AmpText (38 :: 35 :: 51 :: 56 :: 59 :: rs) (38 :: ts)

/-- names and values of the attributes `l`, as `Name()` and `Value()` report them. -/
def attrPairs (h : Heap) (l : List Nat) : List (Bytes × Option Bytes) := l.map (fun a => ((h.at' a).name, contentF h (h.size + 1) a))

/-- `m e` are the attributes of each element `e` in `es`; no attribute is shared. -/
structure AttrLists (h : Heap) (es : List Nat) (m : Nat → List Nat) : Prop where
  tab : TabOK h
  elem : ∀ e ∈ es, e < h.size ∧ (h.at' e).kind = .element
  list : ∀ e ∈ es, PropList h e (m e)
  disj : ∀ e ∈ es, ∀ e' ∈ es, e ≠ e' → ∀ a ∈ m e, a ∉ m e'

/-- names of the attributes `l`. -/
def attrNames (h : Heap) (l : List Nat) : List Bytes := l.map (fun a => (h.at' a).name)

/-- one `SetAttribute` call. -/
structure AttrCall where
  elem : Nat
  name : Bytes
  value : Bytes

/-- a history of calls: an error is reported and the history goes on. -/
def setAll (fuel : Nat) : List AttrCall → HM (List (Option Err))
  | [] => pure []
  | c :: cs => do
    let r ← M.attempt (setAttribute fuel c.elem c.name c.value)
    let rs ← setAll fuel cs
    pure ((match r with | .ok _ => none | .error e => some e) :: rs)

/-- the names of the successful calls on `e`, in order. -/
def accepted (e : Nat) : List AttrCall → List (Option Err) → List Bytes
  | c :: cs, r :: rs => if c.elem = e ∧ r = none then c.name :: accepted e cs rs else accepted e cs rs
  | _, _ => []

/-- what a history of calls with plain values should make of the attributes of `e`: the first call with a name wins. -/
def wanted (e : Nat) : List (AttrCall × Bytes) → List (Bytes × Option Bytes) → List (Bytes × Option Bytes)
  | [], acc => acc
  | (c, v) :: cs, acc =>
    if c.elem = e ∧ c.name ∉ acc.map Prod.fst then wanted e cs (acc ++ [(c.name, some v)]) else wanted e cs acc

/-- `v` is UTF-8 in which only ampersands are written as references, and stands for `w`. -/
def StandsFor (v w : Bytes) : Prop :=
  ∃ rs ts, (∀ r ∈ rs, isScalar r) ∧ AmpText rs ts ∧ v = encodeRunes rs ∧ w = encodeRunes ts

end Helium.Spec
