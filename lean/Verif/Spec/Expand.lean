import Verif.Model.TreeBuilder
import Verif.Spec.Name
/-! Entity expansion with an explicit allowance of nesting levels, independent of the parser's own depth counter. -/
namespace Helium.Spec
open Helium
section
variable {σ : Type} (E : Env) (H : Handler σ) (stray : P σ Unit)

/-- Content read with an allowance of `levels` nested entity replacements: inside a replacement one level less is available, and
what should be read below the last level is whatever `stray` does. Same budget convention as `parseContent`. -/
def expandAt : Nat → Nat → P σ Unit
  | 0, _ => M.diverge
  | fuel + 1, levels => do
    if (← isDone) then pure ()
    else if (← hasPrefix b!"</") then pure ()
    else
      if (← hasPrefix b!"&") then
        M.wrap (parseReference E H (match levels with | 0 => stray | n + 1 => expandAt fuel n))
      else contentStep E H (expandAt fuel levels)
      expandAt fuel levels

/-- `Parse` with such an allowance. -/
def parseAt (usr : σ) (fuel snl levels : Nat) (input : Bytes) : ParseRes :=
  match (do
      parseHead E H
      M.wrap (switchEncoding E)
      cb H .startDocument
      M.wrap (parseMisc E H)
      parseDoctypePart E H snl
      let _ ← skipBlanks
      M.need ((← peek E) == 60) .emptyDocument
      M.wrap (parseElementW E H (expandAt E H stray fuel levels))
      M.wrap (parseMisc E H)
      M.need (← isDone) .documentEnd
      cb H .endDocument : P σ Unit) (initSt usr Heap.empty input) with
  | .ok _ s => .done s.hc.doc none s.hc.heap s.trace
  | .err e s => .done none (some e) s.hc.heap s.trace
  | .panic => .panic
  | .diverge => .diverge

end

/-- A set `N` of entity names whose declarations refer to each other: whatever the state, the handler answers the name of such an
entity with an internal general entity whose replacement text begins with plain text and a reference to an entity of the set. -/
structure Recursive {σ : Type} (E : Env) (H : Handler σ) (N : List Nat → Prop) : Prop where
  name : ∀ n, N n → Name E n ∧ encodeRunes n ∉ [b!"lt", b!"gt", b!"amp", b!"apos", b!"quot"]
  answer : ∀ n, N n → ∀ v c, ∃ i c', H v (.getEntity (encodeRunes n)) c = (.ent (some (.ptr i)), c') ∧
    (c'.heap.at' i).name = encodeRunes n ∧ (c'.heap.at' i).entType = 1 ∧
    ∃ pre m rest, N m ∧ E.decode .utf8 (c'.heap.at' i).content = pre ++ 38 :: (m ++ 59 :: rest) ∧
      ∀ c ∈ pre, isChar c = true ∧ c ≠ 38 ∧ c ≠ 60 ∧ c ≠ 93

end Helium.Spec
