import Verif.Model.Base
/-! Option bit sets (/repo/bitset.go, /repo/interface.go:12-47) and the stacks (/repo/internal/stack, /repo/stack.go). -/
namespace Helium

/-- `ParseOption`/`LoadSubsetOption` as a bit vector of `int` width (64). -/
abbrev Opt := BitVec 64

/-- `Set` (/repo/bitset.go:3-5, 11-13). -/
def optSet (p n : Opt) : Opt := p ||| n

/-- `IsSet` (/repo/bitset.go:7-9, 15-17). -/
def optIsSet (p n : Opt) : Bool := p &&& n != 0

/-- the `ParseOption` constants with their names (/repo/interface.go:23-47): `iota` keeps counting, and `1<<iota + 10` is
`(1<<iota) + 10`. -/
def parseOptions : List (String × Opt) := [
  ("ParseRecover", 1 <<< 0), ("ParseNoEnt", 1 <<< 1), ("ParseDTDLoad", 1 <<< 2), ("ParseDTDAttr", 1 <<< 3),
  ("ParseDTDValid", 1 <<< 4), ("ParseNoError", 1 <<< 5), ("ParseNoWarning", 1 <<< 6), ("ParsePedantic", 1 <<< 7),
  ("ParseNoBlanks", 1 <<< 8),
  ("ParseXInclude", (1 <<< 9) + 10), ("ParseNoNet", (1 <<< 10) + 10), ("ParseNoDict", (1 <<< 11) + 10),
  ("ParseNsClean", (1 <<< 12) + 10), ("ParseNoCDATA", (1 <<< 13) + 10), ("ParseNoXIncNode", (1 <<< 14) + 10),
  ("ParseCompact", (1 <<< 15) + 10), ("ParseNoBaseFix", (1 <<< 16) + 10), ("ParseHuge", (1 <<< 17) + 10),
  ("ParseIgnoreEnc", (1 <<< 18) + 21), ("ParseBigLines", 1 <<< 22)]

/-- the `LoadSubsetOption` constants (/repo/interface.go:14-18): `1<<iota + 1`. -/
def loadSubsetOptions : List (String × Opt) :=
  [("DetectIDs", (1 <<< 0) + 1), ("CompleteAttrs", (1 <<< 1) + 1), ("SkipIDs", (1 <<< 2) + 1)]

/-! ### stacks -/
section
variable {α : Type}

/-- `PopLast` (/repo/internal/stack/simple.go:22-27, unique.go:33-38). -/
def popLast (s : List α) : List α := if s.length = 0 then s else s.take (s.length - 1)

/-- `stackPop` (/repo/internal/stack/stack.go:17-34); `Realloc` copies the items and changes nothing else. -/
def stackPopLoop : Nat → List α → List α
  | 0, s => s
  | n + 1, s => if s.length > 0 then stackPopLoop n (popLast s) else s

/-- `Pop(n)` for an `int` argument, non-positive: no effect (/repo/internal/stack/simple.go:10-16, unique.go:21-27). -/
def stackPop (s : List α) (n : Int) : List α := if n ≤ 0 then s else stackPopLoop n.toNat s

/-- `Push` of the simple stack (/repo/internal/stack/simple.go:6-8). -/
def stackPush (s : List α) (x : α) : List α := s ++ [x]

/-- `Peek(n)` for `0 ≤ n` (/repo/internal/stack/simple.go:29-34, unique.go:57-62). For a negative `n` the slice expression panics; no caller does that. -/
def stackPeek (s : List α) (n : Nat) : List α := if s.length > n then s.drop (s.length - n) else s

/-- `UniqueStack.Lookup` (/repo/internal/stack/unique.go:48-55): the topmost item with that key. -/
def uniqueLookup (s : List (Bytes × α)) (k : Bytes) : Option (Bytes × α) := s.reverse.find? (fun x => x.1 == k)

/-- `UniqueStack.Push` (/repo/internal/stack/unique.go:13-19): new stack and whether it was accepted. -/
def uniquePush (s : List (Bytes × α)) (x : Bytes × α) : List (Bytes × α) × Bool :=
  match uniqueLookup s x.1 with
  | some _ => (s, false)
  | none => (s ++ [x], true)

/-! The same stacks with their Go slice made explicit: a backing array (its length is the capacity) and a length. -/

/-- a slice owned by one stack. -/
structure GStack (α : Type) where
  arr : List α
  len : Nat

/-- what the stack holds, oldest first. -/
def GStack.items (s : GStack α) : List α := s.arr.take s.len

/-- Go `append` of one element: in place if there is room, else a new array; `grow n` is the spare room the run-time adds
when growing past `n` elements (unspecified by the language), filled with `z` (the zero value). -/
def gAppend (grow : Nat → Nat) (z : α) (s : GStack α) (x : α) : GStack α :=
  if s.len < s.arr.length then ⟨s.arr.set s.len x, s.len + 1⟩
  else ⟨s.arr.take s.len ++ x :: List.replicate (grow s.len) z, s.len + 1⟩

/-- `PopLast` (/repo/internal/stack/simple.go:22-27). -/
def gPopLast (s : GStack α) : GStack α := if s.len = 0 then s else ⟨s.arr, s.len - 1⟩

/-- the loop of `stackPop` (/repo/internal/stack/stack.go:22-28). -/
def gPopLoop : Nat → GStack α → GStack α
  | 0, s => s
  | n + 1, s => if s.len > 0 then gPopLoop n (gPopLast s) else s

/-- `Realloc`: `append(T(nil), *s...)` (/repo/internal/stack/simple.go:18-20, unique.go:29-31). -/
def gRealloc (grow : Nat → Nat) (z : α) (s : GStack α) : GStack α :=
  ⟨s.arr.take s.len ++ List.replicate (grow s.len) z, s.len⟩

/-- `stackPop` (/repo/internal/stack/stack.go:17-34). -/
def gPop (grow : Nat → Nat) (z : α) (s : GStack α) (n : Int) : GStack α :=
  if n ≤ 0 then s
  else
    let s' := gPopLoop n.toNat s
    if s'.arr.length > 20 ∧ s'.arr.length > s'.len * 2 then gRealloc grow z s' else s'

/-- `Peek(n)`: the slice expression `s[l-n : l]` (/repo/internal/stack/simple.go:29-34). -/
def gPeek (s : GStack α) (n : Nat) : List α := if s.len > n then (s.arr.take s.len).drop (s.len - n) else s.arr.take s.len

end
end Helium
