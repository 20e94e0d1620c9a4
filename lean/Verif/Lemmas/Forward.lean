import Verif.Lemmas.Run
import Verif.Model.Parser.Lex
/-! Forward evaluation of parser programs: each rule moves one step through a `do` block. -/
namespace Helium

section
variable {S α β : Type}
theorem bind_run {p : M S α} {f : α → M S β} {s t : S} {a : α} (h : p s = .ok a t) : (p >>= f) s = f a t := by
  show M.bind p f s = _
  simp only [M.bind, h]
theorem bind_run_err {p : M S α} {f : α → M S β} {s t : S} {e : Err} (h : p s = .err e t) : (p >>= f) s = .err e t := by
  show M.bind p f s = _
  simp only [M.bind, h]
theorem bind_run_panic {p : M S α} {f : α → M S β} {s : S} (h : p s = .panic) : (p >>= f) s = .panic := by
  show M.bind p f s = _
  simp only [M.bind, h]
theorem bind_run_diverge {p : M S α} {f : α → M S β} {s : S} (h : p s = .diverge) : (p >>= f) s = .diverge := by
  show M.bind p f s = _
  simp only [M.bind, h]
theorem wrap_run {p : M S α} {s t : S} {a : α} (h : p s = .ok a t) : M.wrap p s = .ok a t := wrap_ok.2 h
theorem orElse_run {p : M S α} {s t : S} {a : α} {e : EK} (h : p s = .ok a t) : M.orElse p e s = .ok a t := orElse_ok.2 h
theorem attempt_run {p : M S α} {s t : S} {a : α} (h : p s = .ok a t) : M.attempt p s = .ok (.ok a) t := by simp [M.attempt, h]
theorem pure_bind' {a : α} {f : α → M S β} {s : S} : ((pure a : M S α) >>= f) s = f a s := rfl
theorem pure_run {a : α} {s : S} : (pure a : M S α) s = .ok a s := rfl
theorem get_bind {f : S → M S β} {s : S} : ((M.get : M S S) >>= f) s = f s s := rfl
theorem modify_bind {g : S → S} {f : Unit → M S β} {s : S} : ((M.modify g : M S Unit) >>= f) s = f () (g s) := rfl
theorem need_bind {c : Bool} {e : EK} {f : Unit → M S β} {s : S} (h : c = true) : ((M.need c e : M S Unit) >>= f) s = f () s := by
  subst h; rfl
theorem needRaw_bind {c : Bool} {e : EK} {f : Unit → M S β} {s : S} (h : c = true) : ((M.needRaw c e : M S Unit) >>= f) s = f () s := by
  subst h; rfl
theorem deref_bind {a : α} {f : α → M S β} {s : S} : ((M.deref (some a) : M S α) >>= f) s = f a s := rfl
theorem fail_bind {e : Err} {f : α → M S β} {s : S} : ((M.fail e : M S α) >>= f) s = .err e s := rfl
end

section
variable {σ β : Type}
theorem rest_bind {f : List Nat → P σ β} {s : St σ} : ((rest : P σ _) >>= f) s = f s.cur s := rfl
theorem adv_bind {n : Nat} {f : Unit → P σ β} {s : St σ} : ((adv n : P σ Unit) >>= f) s = f () { s with cur := s.cur.drop n } := rfl
theorem peekN_bind {E : Env} {n : Nat} {f : Nat → P σ β} {s : St σ} : ((peekN E n : P σ Nat) >>= f) s = f (s.cur.getD (n - 1) E.eof) s := rfl
theorem peek_bind {E : Env} {f : Nat → P σ β} {s : St σ} : ((peek E : P σ Nat) >>= f) s = f (s.cur.getD 0 E.eof) s := rfl
theorem isDone_bind {f : Bool → P σ β} {s : St σ} : ((isDone : P σ Bool) >>= f) s = f s.cur.isEmpty s := rfl
theorem hasPrefix_bind {l : List Nat} {f : Bool → P σ β} {s : St σ} : ((hasPrefix l : P σ Bool) >>= f) s = f (l.isPrefixOf s.cur) s := rfl
theorem skipBlanks_bind {f : Bool → P σ β} {s : St σ} : ((skipBlanks : P σ Bool) >>= f) s =
    f ((s.cur.dropWhile isBlank).length < s.cur.length) { s with cur := s.cur.dropWhile isBlank } := rfl
end

/-- move through the steps of a `do` block that need no side condition. -/
macro "run" : tactic => `(tactic| simp only [pure_bind', pure_run, get_bind, modify_bind, rest_bind, adv_bind, peek_bind, peekN_bind,
  isDone_bind, hasPrefix_bind, skipBlanks_bind, deref_bind, Helium.ite_run])
/-- the same in a hypothesis. -/
macro "run" "at" h:ident : tactic => `(tactic| simp only [pure_bind', pure_run, get_bind, modify_bind, rest_bind, adv_bind, peek_bind, peekN_bind,
  isDone_bind, hasPrefix_bind, skipBlanks_bind, deref_bind, Helium.ite_run] at $h:ident)

end Helium
