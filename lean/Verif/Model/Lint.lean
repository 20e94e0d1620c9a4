import Verif.Model.TreeBuilder
import Verif.Model.Dump
/-! The command `helium-lint` (/repo/cmd/helium-lint/helium-lint.go): a goroutine that opens the files and the main goroutine that parses and
serialises them, joined by two unbuffered channels. The model is a transition system; an execution is any interleaving. -/
namespace Helium

/-- what there is under a name on the command line: `none` if `os.Open` fails, `some none` if reading fails, else the bytes. -/
abbrev LFile := Option (Option Bytes)

/-- what becomes of one reader in the loop of `_main` (/repo/cmd/helium-lint/helium-lint.go:74-88). -/
inductive LWork
  | fail
  | crash
  | hang
  | wrote (out : Bytes)
  deriving DecidableEq, Repr

/-- the body of the loop (/repo/cmd/helium-lint/helium-lint.go:75-87): the error of `DumpDoc` is dropped. Writing to standard output is assumed
to succeed. -/
def lintWork (E : Env) (fuel : Nat) : Option Bytes → LWork
  | none => .fail
  | some b =>
    match parse E fuel b with
    | .done _ (some _) _ _ => .fail
    | .done none none _ _ => .crash
    | .done (some d) none h _ =>
      match dumpDoc h d [] with
      | .ok _ o => .wrote o
      | .err _ o => .wrote o
      | .panic => .crash
      | .diverge => .hang
    | .panic => .crash
    | .diverge => .hang

/-- the goroutine (/repo/cmd/helium-lint/helium-lint.go:52-62): about to look at the next name, sending a reader, sending an error, or finished
with `inputCh` closed. For standard input (lines 64-67) it starts in `send`. -/
inductive LProd
  | run (todo : List LFile)
  | send (fh : Option Bytes) (todo : List LFile)
  | sendErr
  | closed
  deriving DecidableEq, Repr

/-- the main goroutine (/repo/cmd/helium-lint/helium-lint.go:73-97): receiving, working on a reader, at the `select`, or ended. -/
inductive LMain
  | recv
  | work (fh : Option Bytes)
  | sel
  | exited (code : Nat)
  | crashed
  deriving DecidableEq, Repr

/-- both goroutines, what was written to standard output, and the number of messages on standard error. -/
structure LSt where
  prod : LProd
  main : LMain
  out : Bytes
  diag : Nat
  deriving DecidableEq, Repr

/-- one step of `helium-lint` after the switch of lines 50-71. Sending on an unbuffered channel and receiving from it are one step. The
`select` of lines 90-95 takes the error if the goroutine is offering one. Once `_main` has returned nothing moves. A panic ends the process;
what the failed call had written by then is left out. -/
inductive LStep (W : Option Bytes → LWork) : LSt → LSt → Prop
  | opens (fh t m o g) (hm : m = .recv ∨ (∃ x, m = .work x) ∨ m = .sel) :
      LStep W ⟨.run (some fh :: t), m, o, g⟩ ⟨.send fh t, m, o, g⟩
  | misses (t m o g) (hm : m = .recv ∨ (∃ x, m = .work x) ∨ m = .sel) :
      LStep W ⟨.run (none :: t), m, o, g⟩ ⟨.sendErr, m, o, g⟩
  | closes (m o g) (hm : m = .recv ∨ (∃ x, m = .work x) ∨ m = .sel) :
      LStep W ⟨.run [], m, o, g⟩ ⟨.closed, m, o, g⟩
  | passes (fh t o g) : LStep W ⟨.send fh t, .recv, o, g⟩ ⟨.run t, .work fh, o, g⟩
  | ends (o g) : LStep W ⟨.closed, .recv, o, g⟩ ⟨.closed, .sel, o, g⟩
  | writes (p fh o g w) (h : W fh = .wrote w) : LStep W ⟨p, .work fh, o, g⟩ ⟨p, .recv, o ++ w, g⟩
  | fails (p fh o g) (h : W fh = .fail) : LStep W ⟨p, .work fh, o, g⟩ ⟨p, .exited 1, o, g + 1⟩
  | panics (p fh o g) (h : W fh = .crash) : LStep W ⟨p, .work fh, o, g⟩ ⟨p, .crashed, o, g⟩
  | loops (p fh o g) (h : W fh = .hang) : LStep W ⟨p, .work fh, o, g⟩ ⟨p, .work fh, o, g⟩
  | takes (o g) : LStep W ⟨.sendErr, .sel, o, g⟩ ⟨.closed, .exited 1, o, g + 1⟩
  | quits (p o g) (h : p ≠ .sendErr) : LStep W ⟨p, .sel, o, g⟩ ⟨p, .exited 0, o, g⟩

/-- the state after the switch when names are given (/repo/cmd/helium-lint/helium-lint.go:51-62). -/
def lintFiles (l : List LFile) : LSt := ⟨.run l, .recv, [], 0⟩

/-- the state after the switch when standard input is read (/repo/cmd/helium-lint/helium-lint.go:63-67). -/
def lintStdin (fh : Option Bytes) : LSt := ⟨.send fh [], .recv, [], 0⟩

end Helium
