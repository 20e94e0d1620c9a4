import Verif.Model.Lint
import Verif.Model.StdEnv
import Verif.Props.DtdDump
/-! # The command `helium-lint` (C71) -/
namespace Helium

namespace Spec

/-- how a command ends: with a status, by a panic, blocked for ever, or busy for ever. -/
inductive LintEnd
  | exit (code : Nat) | crash | deadlock | busy
  deriving DecidableEq, Repr

/-- what the command does, one file after the other: outcome, standard output and number of messages. -/
def lint (W : Option Bytes → LWork) (out : Bytes) : List LFile → LintEnd × Bytes × Nat
  | [] => (.exit 0, out, 0)
  | none :: _ => (.deadlock, out, 0)
  | some r :: t =>
    match W r with
    | .wrote o => lint W (out ++ o) t
    | .fail => (.exit 1, out, 1)
    | .crash => (.crash, out, 0)
    | .hang => (.busy, out, 0)

/-- what the command ought to do: as `lint`, but a file that cannot be opened is reported, with status 1. -/
def lintIntended (W : Option Bytes → LWork) (out : Bytes) : List LFile → LintEnd × Bytes × Nat
  | [] => (.exit 0, out, 0)
  | none :: _ => (.exit 1, out, 1)
  | some r :: t =>
    match W r with
    | .wrote o => lintIntended W (out ++ o) t
    | .fail => (.exit 1, out, 1)
    | .crash => (.crash, out, 0)
    | .hang => (.busy, out, 0)

end Spec

/-- finitely many steps. -/
inductive LSteps (W : Option Bytes → LWork) (s : LSt) : LSt → Prop
  | refl : LSteps W s s
  | step {t u} : LSteps W s t → LStep W t u → LSteps W s u

/-- nothing can move. -/
def LStuck (W : Option Bytes → LWork) (s : LSt) : Prop := ∀ t, ¬ LStep W s t

/-- how a state in which nothing moves shows itself: the runtime reports goroutines that are all blocked as a deadlock. -/
def LSt.ending (s : LSt) : Spec.LintEnd × Bytes × Nat :=
  (match s.main with
    | .exited n => .exit n
    | .crashed => .crash
    | _ => .deadlock, s.out, s.diag)

/-- what is left for the goroutine. -/
def LProd.todo : LProd → List LFile
  | .run t => t
  | .send fh t => some fh :: t
  | .sendErr => [none]
  | .closed => []

/-- how things will end from here. -/
def LSt.future (W : Option Bytes → LWork) (s : LSt) : Spec.LintEnd × Bytes × Nat :=
  match s.main with
  | .recv => Spec.lint W s.out s.prod.todo
  | .work fh => Spec.lint W s.out (some fh :: s.prod.todo)
  | .sel => (.exit 0, s.out, 0)
  | .exited n => (.exit n, s.out, s.diag)
  | .crashed => (.crash, s.out, s.diag)

/-- the main goroutine leaves its loop only after the other has ended, and messages come last. -/
def LSt.Fine (s : LSt) : Prop := (s.main = .sel → s.prod = .closed) ∧ ((∀ n, s.main ≠ .exited n) → s.diag = 0)

section
variable {W : Option Bytes → LWork}

theorem lint_miss (o : Bytes) (t : List LFile) : Spec.lint W o (none :: t) = Spec.lint W o [none] := rfl

theorem LStep.fine {s t : LSt} (h : LStep W s t) (f : s.Fine) : t.Fine := by
  cases h with
  | opens fh t m o g hm =>
    refine ⟨fun e => ?_, f.2⟩
    have := f.1 e
    cases this
  | misses t m o g hm =>
    refine ⟨fun e => ?_, f.2⟩
    have := f.1 e
    cases this
  | closes m o g hm => exact ⟨fun _ => rfl, f.2⟩
  | passes fh t o g => exact ⟨fun e => (by cases e), fun _ => f.2 (fun _ => by simp)⟩
  | ends o g => exact ⟨fun _ => rfl, fun _ => f.2 (fun _ => by simp)⟩
  | writes p fh o g w h => exact ⟨fun e => (by cases e), fun _ => f.2 (fun _ => by simp)⟩
  | fails p fh o g h => exact ⟨fun e => (by cases e), fun e => absurd rfl (e 1)⟩
  | panics p fh o g h => exact ⟨fun e => (by cases e), fun _ => f.2 (fun _ => by simp)⟩
  | loops p fh o g h => exact f
  | takes o g => exact ⟨fun e => (by cases e), fun e => absurd rfl (e 1)⟩
  | quits p o g h => exact ⟨fun e => (by cases e), fun e => absurd rfl (e 0)⟩

theorem LStep.future {s t : LSt} (h : LStep W s t) (f : s.Fine) : t.future W = s.future W := by
  cases h with
  | opens fh t m o g hm => cases m <;> rfl
  | misses t m o g hm =>
    cases m with
    | work fh => simp only [LSt.future, Spec.lint, LProd.todo]
    | _ => rfl
  | closes m o g hm => cases m <;> rfl
  | passes fh t o g => rfl
  | ends o g => rfl
  | writes p fh o g w h => simp only [LSt.future, Spec.lint, h]
  | fails p fh o g h =>
    have : g = 0 := f.2 (fun _ => by simp)
    simp only [LSt.future, Spec.lint, h, this]
  | panics p fh o g h =>
    have : g = 0 := f.2 (fun _ => by simp)
    simp only [LSt.future, Spec.lint, h, this]
  | loops p fh o g h => rfl
  | takes o g =>
    have := f.1 rfl
    cases this
  | quits p o g h =>
    have : g = 0 := f.2 (fun _ => by simp)
    simp only [LSt.future, this]

theorem LSteps.both {s t : LSt} (h : LSteps W s t) (f : s.Fine) : t.Fine ∧ t.future W = s.future W := by
  induction h with
  | refl => exact ⟨f, rfl⟩
  | step _ h ih => exact ⟨h.fine ih.1, (h.future ih.1).trans ih.2⟩

theorem LStuck.ending {s : LSt} (h : LStuck W s) (f : s.Fine) : s.ending = s.future W := by
  obtain ⟨p, m, o, g⟩ := s
  cases m with
  | exited n => rfl
  | crashed => rfl
  | sel =>
    have e := f.1 rfl
    simp only at e
    subst e
    exact absurd (.quits _ _ _ (by simp)) (h _)
  | work fh =>
    cases e : W fh with
    | wrote w => exact absurd (.writes _ _ _ _ _ e) (h _)
    | fail => exact absurd (.fails _ _ _ _ e) (h _)
    | crash => exact absurd (.panics _ _ _ _ e) (h _)
    | hang => exact absurd (.loops _ _ _ _ e) (h _)
  | recv =>
    have hg : g = 0 := f.2 (fun _ => by simp)
    subst hg
    cases p with
    | closed => exact absurd (.ends _ _) (h _)
    | send fh t => exact absurd (.passes _ _ _ _) (h _)
    | sendErr => rfl
    | run t =>
      cases t with
      | nil => exact absurd (.closes _ _ _ (.inl rfl)) (h _)
      | cons x t =>
        cases x with
        | none => exact absurd (.misses _ _ _ _ (.inl rfl)) (h _)
        | some fh => exact absurd (.opens _ _ _ _ _ (.inl rfl)) (h _)

/-- a measure that every step except busy waiting decreases. -/
def LSt.size (s : LSt) : Nat :=
  (match s.prod with
    | .run t => 3 * t.length + 1
    | .send _ t => 3 * t.length + 3
    | .sendErr => 1
    | .closed => 0) +
  match s.main with
    | .recv => 2
    | .work _ => 3
    | .sel => 1
    | _ => 0

theorem LStep.less {s t : LSt} (h : LStep W s t) : t.size < s.size ∨ (s = t ∧ ∃ fh, s.main = .work fh ∧ W fh = .hang) := by
  cases h with
  | loops p fh o g h => exact .inr ⟨rfl, fh, rfl, h⟩
  | opens fh t m o g hm => left; simp only [LSt.size, List.length_cons]; omega
  | misses t m o g hm => left; simp only [LSt.size, List.length_cons]; omega
  | closes m o g hm => left; simp only [LSt.size, List.length_nil]; omega
  | passes fh t o g => left; simp only [LSt.size]; omega
  | ends o g => left; simp only [LSt.size]; omega
  | writes p fh o g w h => left; simp only [LSt.size]; omega
  | fails p fh o g h => left; simp only [LSt.size]; omega
  | panics p fh o g h => left; simp only [LSt.size]; omega
  | takes o g => left; simp only [LSt.size]; omega
  | quits p o g h => left; simp only [LSt.size]; omega

/-- **C71**: whatever the interleaving, a finished run of the command ends as the sequential description says. -/
theorem C71_outcome (l : List LFile) {s : LSt} (h : LSteps W (lintFiles l) s) (hs : LStuck W s) : s.ending = Spec.lint W [] l := by
  have hb := h.both ⟨fun e => (by cases e), fun _ => rfl⟩
  exact (hs.ending hb.1).trans hb.2

/-- **C71**: the same for standard input. -/
theorem C71_stdin (fh : Option Bytes) {s : LSt} (h : LSteps W (lintStdin fh) s) (hs : LStuck W s) : s.ending = Spec.lint W [] [some fh] := by
  have hb := h.both ⟨fun e => (by cases e), fun _ => rfl⟩
  exact (hs.ending hb.1).trans hb.2

/-- **C71**: every run finishes, in a number of steps bounded by the number of files, unless a file keeps the parser busy for ever. -/
theorem C71_finishes (l : List LFile) (hl : (Spec.lint W [] l).1 ≠ .busy) (f : Nat → LSt) (h0 : f 0 = lintFiles l) (n : Nat)
    (hf : ∀ i, i < n → LStep W (f i) (f (i + 1))) : n ≤ 3 * l.length + 3 := by
  have reach : ∀ i, i ≤ n → LSteps W (lintFiles l) (f i) := by
    intro i
    induction i with
    | zero => intro _; rw [h0]; exact .refl
    | succ i ih => intro hi; exact .step (ih (by omega)) (hf i (by omega))
  have dec : ∀ i, i ≤ n → (f i).size + i ≤ 3 * l.length + 3 := by
    intro i
    induction i with
    | zero => intro _; rw [h0]; simp [lintFiles, LSt.size]
    | succ i ih =>
      intro hi
      have h1 := ih (by omega)
      rcases (hf i (by omega)).less with h2 | ⟨_, fh, hm, hw⟩
      · omega
      · exfalso
        apply hl
        have hb := (reach i (by omega)).both ⟨fun e => (by cases e), fun _ => rfl⟩
        have h3 : ((lintFiles l).future W).1 = .busy := by
          rw [← hb.2]
          simp only [LSt.future, hm, Spec.lint, hw]
        exact h3
  have := dec n (Nat.le_refl n)
  omega

theorem lint_exit0 {l : List LFile} {o out : Bytes} {g : Nat} (h : Spec.lint W o l = (.exit 0, out, g)) :
    ∃ ws : List Bytes, l.map (fun x => x.map W) = ws.map (fun w => some (.wrote w)) ∧ out = o ++ ws.flatten := by
  induction l generalizing o with
  | nil =>
    simp only [Spec.lint, Prod.mk.injEq] at h
    exact ⟨[], rfl, by simp [h.2.1]⟩
  | cons x t ih =>
    cases x with
    | none => simp [Spec.lint] at h
    | some r =>
      simp only [Spec.lint] at h
      cases e : W r with
      | wrote w =>
        rw [e] at h
        obtain ⟨ws, h1, h2⟩ := ih h
        exact ⟨w :: ws, by simp [e, h1], by simp [h2, List.append_assoc]⟩
      | _ => rw [e] at h; simp at h

theorem lint_all (ws : List Bytes) : ∀ {l : List LFile} {o : Bytes}, l.map (fun x => x.map W) = ws.map (fun w => some (.wrote w)) →
    Spec.lint W o l = (.exit 0, o ++ ws.flatten, 0) := by
  induction ws with
  | nil =>
    intro l o h
    cases l with
    | nil => simp [Spec.lint]
    | cons x t => simp at h
  | cons w ws ih =>
    intro l o h
    cases l with
    | nil => simp at h
    | cons x t =>
      cases x with
      | none => simp at h
      | some r =>
        simp only [List.map_cons, List.cons.injEq, Option.map_some, Option.some.injEq] at h
        simp only [Spec.lint, h.1, ih h.2, List.flatten_cons, List.append_assoc]

/-- **C71**: the status is 0 exactly if every file could be opened, read and parsed, and then standard output has the documents in order. -/
theorem C71_success (l : List LFile) {s : LSt} (h : LSteps W (lintFiles l) s) (hs : LStuck W s) :
    s.main = .exited 0 ↔ ∃ ws : List Bytes, l.map (fun x => x.map W) = ws.map (fun w => some (.wrote w)) ∧ s.out = ws.flatten := by
  have e := C71_outcome l h hs
  constructor
  · intro hm
    have e1 : s.ending = (.exit 0, s.out, s.diag) := by simp only [LSt.ending, hm]
    obtain ⟨ws, h1, h2⟩ := lint_exit0 (e ▸ e1)
    exact ⟨ws, h1, by simpa using h2⟩
  · rintro ⟨ws, h1, _⟩
    rw [lint_all ws h1] at e
    simp only [LSt.ending, Prod.mk.injEq] at e
    have := e.1
    revert this
    cases s.main <;> simp

/-- **C71**: the message about a file that cannot be opened is never received: in no reachable state is the main goroutine at the `select`
while the other offers the error. -/
theorem C71_error_unheard (l : List LFile) {s : LSt} (h : LSteps W (lintFiles l) s) : ¬ (s.main = .sel ∧ s.prod = .sendErr) := by
  rintro ⟨h1, h2⟩
  have := (h.both ⟨fun e => (by cases e), fun _ => rfl⟩).1.1 h1
  rw [h2] at this
  cases this

theorem intended_or {l : List LFile} {o : Bytes} : Spec.lint W o l = Spec.lintIntended W o l ∨ (Spec.lint W o l).1 = .deadlock := by
  induction l generalizing o with
  | nil => exact .inl rfl
  | cons x t ih =>
    cases x with
    | none => exact .inr rfl
    | some r =>
      simp only [Spec.lint, Spec.lintIntended]
      cases W r with
      | wrote w => exact ih
      | _ => exact .inl rfl

/-- **C71**, partial: a finished run does what was intended or is a deadlock. Missing: the deadlock, see `C71_refuted`. -/
theorem C71_intended_partial (l : List LFile) {s : LSt} (h : LSteps W (lintFiles l) s) (hs : LStuck W s) :
    s.ending = Spec.lintIntended W [] l ∨ s.ending.1 = .deadlock := by
  rw [C71_outcome l h hs]
  exact intended_or

/-- **C71**, partial: and if all files can be opened it does what was intended. -/
theorem C71_opened_partial (l : List LFile) (hl : ∀ x ∈ l, x ≠ none) {s : LSt} (h : LSteps W (lintFiles l) s) (hs : LStuck W s) :
    s.ending = Spec.lintIntended W [] l := by
  rw [C71_outcome l h hs]
  have : ∀ (l : List LFile) (o : Bytes), (∀ x ∈ l, x ≠ none) → Spec.lint W o l = Spec.lintIntended W o l := by
    intro l
    induction l with
    | nil => intros; rfl
    | cons x t ih =>
      intro o hl
      cases x with
      | none => exact absurd rfl (hl none (List.mem_cons_self ..))
      | some r =>
        simp only [Spec.lint, Spec.lintIntended]
        cases W r with
        | wrote w => exact ih _ (fun x hx => hl x (List.mem_cons_of_mem _ hx))
        | _ => rfl
  exact this l [] hl

/-- **C71** is false as intended: with a name that does not exist every run ends in a deadlock, without a message. -/
theorem C71_refuted {s : LSt} (h : LSteps W (lintFiles [none]) s) (hs : LStuck W s) :
    s.ending = (.deadlock, [], 0) ∧ s.ending ≠ Spec.lintIntended W [] [none] := by
  rw [C71_outcome _ h hs]
  exact ⟨rfl, by simp [Spec.lint, Spec.lintIntended]⟩

end

/-! ### with parser and serialiser -/

/-- the file holds a document that is parsed without error, and `w` is what the serialiser wrote of it. -/
def Written (E : Env) (fuel : Nat) (x : LFile) (w : Bytes) : Prop :=
  ∃ b d h tr, x = some (some b) ∧ parse E fuel b = .done (some d) none h tr ∧ (dumpDoc h d [] = .ok () w ∨ ∃ e, dumpDoc h d [] = .err e w)

/-- the file cannot be read, or is rejected by the parser. -/
def Rejected (E : Env) (fuel : Nat) (x : LFile) : Prop :=
  x = some none ∨ ∃ b doc e h tr, x = some (some b) ∧ parse E fuel b = .done doc (some e) h tr

theorem lintWork_wrote {E : Env} {fuel : Nat} {r : Option Bytes} {w : Bytes} : lintWork E fuel r = .wrote w ↔ Written E fuel (some r) w := by
  unfold lintWork Written
  cases r with
  | none => simp
  | some b =>
    simp only [Option.some.injEq]
    constructor
    · intro h
      split at h <;> try cases h
      rename_i d hp tr e
      split at h <;> try cases h
      · exact ⟨b, d, hp, tr, rfl, e, .inl (by assumption)⟩
      · exact ⟨b, d, hp, tr, rfl, e, .inr ⟨_, by assumption⟩⟩
    · rintro ⟨_, d, hp, tr, rfl, e, h⟩
      rw [e]
      rcases h with h | ⟨_, h⟩ <;> simp only [h]

theorem lintWork_fail {E : Env} {fuel : Nat} {r : Option Bytes} : lintWork E fuel r = .fail ↔ Rejected E fuel (some r) := by
  unfold lintWork Rejected
  cases r with
  | none => simp
  | some b =>
    simp only [Option.some.injEq, reduceCtorEq, false_or]
    constructor
    · intro h
      split at h <;> try cases h
      · exact ⟨b, _, _, _, _, rfl, by assumption⟩
      · split at h <;> cases h
    · rintro ⟨_, doc, e, hp, tr, rfl, h⟩
      rw [h]

/-- all files of the list are written. -/
def AllWritten (E : Env) (fuel : Nat) : List LFile → List Bytes → Prop
  | [], [] => True
  | x :: l, w :: ws => Written E fuel x w ∧ AllWritten E fuel l ws
  | _, _ => False

theorem lint_exit {E : Env} {fuel : Nat} {out o' : Bytes} {n g : Nat} : ∀ {l : List LFile} {o : Bytes}, Spec.lint (lintWork E fuel) o l = (.exit n, o', g) ↔
    (n = 0 ∧ g = 0 ∧ ∃ ws, AllWritten E fuel l ws ∧ o' = o ++ ws.flatten) ∨
    (n = 1 ∧ g = 1 ∧ ∃ pre x post ws, l = pre ++ x :: post ∧ AllWritten E fuel pre ws ∧ Rejected E fuel x ∧ o' = o ++ ws.flatten)
  | [], o => by
    simp only [Spec.lint, Prod.mk.injEq, Spec.LintEnd.exit.injEq]
    constructor
    · rintro ⟨rfl, rfl, rfl⟩
      exact .inl ⟨rfl, rfl, [], trivial, by simp⟩
    · rintro (⟨rfl, rfl, ws, h, rfl⟩ | ⟨_, _, pre, x, post, ws, h, _⟩)
      · cases ws with
        | nil => simp
        | cons => exact h.elim
      · simp at h
  | none :: l, o => by
    simp only [Spec.lint, Prod.mk.injEq, reduceCtorEq, false_and, false_iff]
    rintro (⟨_, _, ws, h, _⟩ | ⟨_, _, pre, x, post, ws, h, h1, h2, _⟩)
    · cases ws with
      | nil => exact h
      | cons => obtain ⟨⟨_, _, _, _, h, _⟩, _⟩ := h; cases h
    · cases pre with
      | nil =>
        simp only [List.nil_append, List.cons.injEq] at h
        rw [← h.1] at h2
        rcases h2 with h2 | ⟨_, _, _, _, _, h2, _⟩ <;> cases h2
      | cons y pre =>
        simp only [List.cons_append, List.cons.injEq] at h
        cases ws with
        | nil => exact h1
        | cons => obtain ⟨⟨_, _, _, _, h1, _⟩, _⟩ := h1; rw [← h.1] at h1; cases h1
  | some r :: l, o => by
    have ne : ∀ {w}, Written E fuel (some r) w → ¬ Rejected E fuel (some r) := fun a b => by
      rw [← lintWork_wrote] at a; rw [← lintWork_fail, a] at b; cases b
    have off : ∀ {y : LWork}, lintWork E fuel r = y → (∀ w, y ≠ .wrote w) → y ≠ .fail → ¬ ((n = 0 ∧ g = 0 ∧ ∃ ws, AllWritten E fuel (some r :: l) ws ∧ o' = o ++ ws.flatten) ∨
        (n = 1 ∧ g = 1 ∧ ∃ pre x post ws, some r :: l = pre ++ x :: post ∧ AllWritten E fuel pre ws ∧ Rejected E fuel x ∧ o' = o ++ ws.flatten)) := by
      rintro y hy h1 h2 (⟨_, _, ws, h, _⟩ | ⟨_, _, pre, x, post, ws, h, h3, h4, _⟩)
      · cases ws with
        | nil => exact h
        | cons w ws => exact h1 w (hy ▸ lintWork_wrote.2 h.1)
      · cases pre with
        | nil =>
          simp only [List.nil_append, List.cons.injEq] at h
          exact h2 (hy ▸ lintWork_fail.2 (h.1 ▸ h4))
        | cons z pre =>
          simp only [List.cons_append, List.cons.injEq] at h
          cases ws with
          | nil => exact h3
          | cons w ws => exact h1 w (hy ▸ lintWork_wrote.2 (h.1 ▸ h3.1))
    unfold Spec.lint
    cases hw : lintWork E fuel r with
    | wrote w =>
      simp only
      have hW := lintWork_wrote.1 hw
      rw [lint_exit (out := out)]
      refine or_congr (and_congr_right fun _ => and_congr_right fun _ => ⟨?_, ?_⟩) (and_congr_right fun _ => and_congr_right fun _ => ⟨?_, ?_⟩)
      · rintro ⟨ws, h, rfl⟩
        exact ⟨w :: ws, ⟨hW, h⟩, by simp⟩
      · rintro ⟨ws, h, rfl⟩
        cases ws with
        | nil => exact h.elim
        | cons w' ws =>
          have := lintWork_wrote.2 h.1
          rw [hw] at this
          cases this
          exact ⟨ws, h.2, by simp⟩
      · rintro ⟨pre, x, post, ws, rfl, h1, h2, rfl⟩
        exact ⟨some r :: pre, x, post, w :: ws, rfl, ⟨hW, h1⟩, h2, by simp⟩
      · rintro ⟨pre, x, post, ws, h, h1, h2, rfl⟩
        cases pre with
        | nil =>
          simp only [List.nil_append, List.cons.injEq] at h
          exact absurd (h.1 ▸ h2) (ne hW)
        | cons z pre =>
          simp only [List.cons_append, List.cons.injEq] at h
          cases ws with
          | nil => exact h1.elim
          | cons w' ws =>
            have := lintWork_wrote.2 (h.1 ▸ h1.1)
            rw [hw] at this
            cases this
            exact ⟨pre, x, post, ws, h.2, h1.2, h2, by simp⟩
    | fail =>
      have hF := lintWork_fail.1 hw
      simp only [Prod.mk.injEq, Spec.LintEnd.exit.injEq]
      constructor
      · rintro ⟨rfl, rfl, rfl⟩
        exact .inr ⟨rfl, rfl, [], some r, l, [], rfl, trivial, hF, by simp⟩
      · rintro (⟨_, _, ws, h, _⟩ | ⟨rfl, rfl, pre, x, post, ws, h, h3, h4, rfl⟩)
        · cases ws with
          | nil => exact h.elim
          | cons w ws => exact absurd hF (ne h.1)
        · cases pre with
          | nil =>
            cases ws with
            | nil => simp
            | cons => exact h3.elim
          | cons z pre =>
            simp only [List.cons_append, List.cons.injEq] at h
            cases ws with
            | nil => exact h3.elim
            | cons w ws => exact absurd hF (ne (h.1 ▸ h3.1))
    | crash =>
      simp only [Prod.mk.injEq, reduceCtorEq, false_and, false_iff]
      exact off hw nofun nofun
    | hang =>
      simp only [Prod.mk.injEq, reduceCtorEq, false_and, false_iff]
      exact off hw nofun nofun

/-- **C71** for the command with its parser: it returns 0, without a message, exactly if all files were opened, read and parsed, and 1, with one
message, exactly at the first one that could not be read or was rejected by the parser. Either way it has written, in order, what the
serialiser wrote of the files before. -/
theorem C71_command (E : Env) (fuel : Nat) (l : List LFile) {s : LSt} (h : LSteps (lintWork E fuel) (lintFiles l) s)
    (hs : LStuck (lintWork E fuel) s) (n : Nat) (out : Bytes) (g : Nat) : s.ending = (.exit n, out, g) ↔
      (n = 0 ∧ g = 0 ∧ ∃ ws, AllWritten E fuel l ws ∧ out = ws.flatten) ∨
      (n = 1 ∧ g = 1 ∧ ∃ pre x post ws, l = pre ++ x :: post ∧ AllWritten E fuel pre ws ∧ Rejected E fuel x ∧ out = ws.flatten) := by
  rw [C71_outcome l h hs, lint_exit (out := [])]
  simp

/-! ### concrete runs -/

/-- the work of the command on a file, from the models of parser and serialiser. -/
theorem lintWork_simple : lintWork env0 50 (some b!"<a/>") = .wrote b!"<?xml version=\"1.0\"?>\n<a/>\n" := by decide +kernel

theorem lintWork_bad : lintWork env0 50 (some b!"<a>") = .fail := by decide +kernel

/-- the error of the serialiser goes unnoticed: the output breaks off, the status is 0 all the same. -/
theorem C71_truncated : lintWork env0 100 (some b!"<!DOCTYPE a [<!ATTLIST a b ENTITIES #IMPLIED>]><a/>") =
    .wrote b!"<?xml version=\"1.0\"?>\n<!DOCTYPE a [\n<!ATTLIST a b" := by decide +kernel

/-- **C71**: so the status does not tell whether the output is complete. -/
theorem C71_status_refuted {s : LSt} (h : LSteps (lintWork env0 100) (lintFiles [some (some b!"<!DOCTYPE a [<!ATTLIST a b ENTITIES #IMPLIED>]><a/>")]) s)
    (hs : LStuck (lintWork env0 100) s) : s.main = .exited 0 ∧ s.out = b!"<?xml version=\"1.0\"?>\n<!DOCTYPE a [\n<!ATTLIST a b" := by
  have e := C71_outcome _ h hs
  simp only [Spec.lint, C71_truncated, LSt.ending, Prod.mk.injEq] at e
  refine ⟨?_, e.2.1⟩
  have := e.1
  revert this
  cases s.main <;> simp

/-- a finished run exists for any files, so that the theorems speak of something. -/
theorem finished_exists {W : Option Bytes → LWork} (l : List LFile) (hl : (Spec.lint W [] l).1 ≠ .busy) :
    ∃ s, LSteps W (lintFiles l) s ∧ LStuck W s := by
  have : ∀ n (s : LSt), s.size ≤ n → LSteps W (lintFiles l) s → ∃ t, LSteps W (lintFiles l) t ∧ LStuck W t := by
    intro n
    induction n with
    | zero =>
      intro s hn hr
      refine ⟨s, hr, fun t ht => ?_⟩
      rcases ht.less with h | ⟨_, fh, hm, _⟩
      · omega
      · simp only [LSt.size, hm] at hn; omega
    | succ n ih =>
      intro s hn hr
      by_cases h : ∃ t, LStep W s t
      · obtain ⟨t, ht⟩ := h
        rcases ht.less with h | ⟨_, fh, hm, hw⟩
        · exact ih t (by omega) (.step hr ht)
        · exfalso
          apply hl
          have hb := hr.both ⟨fun e => (by cases e), fun _ => rfl⟩
          have h3 : ((lintFiles l).future W).1 = .busy := by
            rw [← hb.2]
            simp only [LSt.future, hm, Spec.lint, hw]
          exact h3
      · exact ⟨s, hr, fun t ht => h ⟨t, ht⟩⟩
  exact this _ _ (Nat.le_refl _) .refl

/-- two good files and one bad one between them: the first document is written, then status 1. -/
example : ∃ s, LSteps (lintWork env0 50) (lintFiles [some (some b!"<a/>"), some (some b!"<a>"), some (some b!"<a/>")]) s ∧ LStuck (lintWork env0 50) s ∧
    s.ending = (.exit 1, b!"<?xml version=\"1.0\"?>\n<a/>\n", 1) := by
  have e : Spec.lint (lintWork env0 50) [] [some (some b!"<a/>"), some (some b!"<a>"), some (some b!"<a/>")] =
      (.exit 1, b!"<?xml version=\"1.0\"?>\n<a/>\n", 1) := by simp only [Spec.lint, lintWork_simple, lintWork_bad, List.nil_append]
  obtain ⟨s, h1, h2⟩ := finished_exists (W := lintWork env0 50) [some (some b!"<a/>"), some (some b!"<a>"), some (some b!"<a/>")] (by rw [e]; simp)
  exact ⟨s, h1, h2, (C71_outcome _ h1 h2).trans e⟩

/-- a name that does not exist, after a good file. -/
example : ∃ s, LSteps (lintWork env0 50) (lintFiles [some (some b!"<a/>"), none]) s ∧ LStuck (lintWork env0 50) s ∧
    s.ending = (.deadlock, b!"<?xml version=\"1.0\"?>\n<a/>\n", 0) := by
  have e : Spec.lint (lintWork env0 50) [] [some (some b!"<a/>"), none] =
      (.deadlock, b!"<?xml version=\"1.0\"?>\n<a/>\n", 0) := by simp only [Spec.lint, lintWork_simple, List.nil_append]
  obtain ⟨s, h1, h2⟩ := finished_exists (W := lintWork env0 50) [some (some b!"<a/>"), none] (by rw [e]; simp)
  exact ⟨s, h1, h2, (C71_outcome _ h1 h2).trans e⟩

end Helium
