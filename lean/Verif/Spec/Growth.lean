import Verif.Model.Env
/-! How much a parser tells about an input of a given size. -/
namespace Helium.Spec
open Helium

/-- a question to the handler rather than something it is told. -/
def isQuestion : Ev → Bool
  | .getEntity _ => true
  | _ => false

/-- the number of events a handler has been told, lookups of entities left out. -/
def told (evs : List Ev) : Nat := (evs.filter (fun ev => !isQuestion ev)).length

/-- a decoder that makes at most one character of each byte. -/
def Narrow (E : Env) : Prop := ∀ cs b, (E.decode cs b).length ≤ b.length

end Helium.Spec
