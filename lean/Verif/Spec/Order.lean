import Verif.Model.TreeBuilder
/-! Results that may differ in the order of default attributes only. -/
namespace Helium.Spec
variable {σ : Type}

/-- the attribute was written in the tag. -/
def written? : AttrD → Bool
  | .parsed .. => true
  | .dflt _ => false

/-- the same event, with default attributes in another order. -/
def Shuffled : Ev → Ev → Prop
  | .startElement l p u ns as, ev => ∃ as', ev = .startElement l p u ns as' ∧ as.Perm as' ∧ as.filter written? = as'.filter written?
  | ev, ev' => ev' = ev

/-- position by position. -/
def AllShuffled : List (Ev × HOut) → List (Ev × HOut) → Prop
  | [], [] => True
  | a :: l, b :: m => Shuffled a.1 b.1 ∧ b.2 = a.2 ∧ AllShuffled l m
  | _, _ => False

/-- the same document, error and callbacks, with default attributes in another order. -/
def SameUpToOrder : ParseRes → ParseRes → Prop
  | .done d e h tr, .done d' e' h' tr' => d = d' ∧ e = e' ∧ h = h' ∧ AllShuffled tr tr'
  | .panic, .panic => True
  | .diverge, .diverge => True
  | _, _ => False

/-- a start tag without default attributes. -/
def undefaulted : Ev → Ev
  | .startElement l p u ns as => .startElement l p u ns (as.filter written?)
  | ev => ev

/-- a handler that is not told about default attributes. -/
def withoutDefaults (H : Handler σ) : Handler σ := fun v ev c => H v (undefaulted ev) c

end Helium.Spec
