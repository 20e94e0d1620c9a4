import Verif.Spec.Sax2
import Verif.Lemmas.SimBudget
import Verif.Props.Sax
import Verif.Lemmas.ExpandLoop
import Verif.Lemmas.KernelRfl
/-! Properties of the callback table (C56), of observers (C57) and of repeated parses (C58). -/
namespace Helium
open Spec
variable {σ τ ρ : Type}

/-! ### C56 -/

/-- related by having reported the same events. -/
def byEvents : Sync σ σ where
  lax := False
  rel u tr w tr' := u = w ∧ tr.map (·.1) = tr'.map (·.1)

theorem called_getD {α : Type} (h : Option α) (d : α) (args : α → Call σ) (v : HV) (c : HC σ) {o : HOut} (hd : args d v c = (o, c)) :
    called (some (h.getD d)) args v c = called h args v c ∨
      (called h args v c = (.unspecified, c) ∧ called (some (h.getD d)) args v c = (o, c)) := by
  cases h with
  | some f => exact .inl rfl
  | none => exact .inr ⟨rfl, hd⟩

theorem filled_handler (s : Sax2 σ) (e : Err) (v : HV) (ev : Ev) (c : HC σ) :
    (filled e s).handler v ev c = s.handler v ev c ∨
      (s.handler v ev c = (.unspecified, c) ∧ (filled e s).handler v ev c = (if ev.asks then .err e else .ok, c)) := by
  cases ev <;> (dsimp only [Sax2.handler, filled]; apply called_getD; rfl)

theorem filled_inStep (s : Sax2 σ) (e : Err) : InStep byEvents s.handler (filled e s).handler := by
  refine inStep_same id id (fun v ev c u tr tr' hr => ?_)
  obtain ⟨rfl, ht⟩ := hr
  right
  rcases filled_handler s e v ev c with h | ⟨h1, h2⟩
  · refine ⟨by rw [h], (s.handler v ev c).2.usr, by rw [h], rfl, ?_⟩
    rw [List.map_append, List.map_append, ht]; rfl
  · refine ⟨?_, c.usr, by rw [h1, h2], by rw [h1], ?_⟩
    · rw [h1, h2]
      cases ev <;> rfl
    · rw [List.map_append, List.map_append, ht]; rfl

/-- **C56** A callback that is not set has the effect of one that does nothing; a lookup that is not set has the effect of one
that finds nothing, whatever its error. -/
theorem C56_unset_callbacks (E : Env) (s : Sax2 σ) (e : Err) (u : σ) (fuel snl : Nat) (b : Bytes) :
    SameParse (parserParse E s.handler u fuel snl b) (parserParse E (filled e s).handler u fuel snl b) := by
  have := parserParse_same E (filled_inStep s e) (u := u) (w := u) (Nat.le_refl fuel) (.inr rfl) (Nat.le_refl snl) (.inr rfl) b ⟨rfl, rfl⟩
  revert this
  cases parserParse E s.handler u fuel snl b with
  | done d er h tr =>
    rintro ⟨u', w', tr', e1, _, e2⟩
    rw [e1]
    exact ⟨rfl, rfl, rfl, e2⟩
  | panic => intro e1; rw [e1]; trivial
  | diverge =>
    rintro (h | e1)
    · exact absurd h id
    · rw [e1]; trivial

/-- Every event goes to the function registered for it, with its arguments in order. -/
theorem C56_dispatch (H : Handler σ) : (forward H).handler = H := by
  funext v ev
  cases ev <;> rfl

/-- a table with two functions: text is counted, the end of the document is an error if there was too much of it. -/
def countingTable : Sax2 Nat where
  characters := some fun b _ c => (.ok, { c with usr := c.usr + b.length })
  endDocument := some fun _ c => (if c.usr > 3 then .err (.user 1) else .ok, c)

example : (parserParse env0 countingTable.handler 0 20 20 b!"<!-- c --><a b='1'>xy<c/>z</a>").view =
    some (false, none, [.setDocumentLocator, .startDocument, .comment b!" c ", .startElement b!"a" [] [] [] [.parsed [] b!"b" b!"1"],
      .characters b!"xy", .startElement b!"c" [] [] [] [], .endElement b!"c" [] [], .characters b!"z", .endElement b!"a" [] [],
      .endDocument]) := by kernel_rfl

example : (parserParse env0 countingTable.handler 0 20 20 b!"<a>xy<c/>zzz</a>").view.map (·.2.1) = some (some (.parse (.user 1))) := by
  kernel_rfl

/-! ### C57 -/

/-- related by having reported the same, and noted what was reported. -/
def byNotes (note : ρ → Ev × HOut → ρ) (r : ρ) : Sync σ (σ × ρ) where
  lax := False
  rel u tr w tr' := w.1 = u ∧ tr' = tr ∧ w.2 = tr.foldl note r

theorem observed_inStep (note : ρ → Ev × HOut → ρ) (r : ρ) (H : Handler σ) : InStep (byNotes note r) H (observed note H) := by
  refine inStep_same id id ?_
  rintro v ev c ⟨u, w⟩ tr tr' ⟨rfl, rfl, rfl⟩
  refine .inr ⟨rfl, _, rfl, rfl, rfl, ?_⟩
  rw [List.foldl_append]
  rfl

/-- **C57** An observer changes nothing: a handler that passes every callback on to `H` and keeps notes gives the same document,
error and callbacks as `H` does. -/
theorem C57_observer (E : Env) (H : Handler σ) (note : ρ → Ev × HOut → ρ) (u : σ) (r : ρ) (fuel snl : Nat) (b : Bytes) :
    parserParse E (observed note H) (u, r) fuel snl b = parserParse E H u fuel snl b := by
  have := parserParse_same E (observed_inStep note r H) (u := u) (w := (u, r)) (Nat.le_refl fuel) (.inr rfl) (Nat.le_refl snl) (.inr rfl) b
    ⟨rfl, rfl, rfl⟩
  revert this
  cases parserParse E H u fuel snl b with
  | done d er h tr => rintro ⟨u', w', tr', e1, _, rfl, _⟩; exact e1
  | panic => exact id
  | diverge => exact fun h => h.resolve_left id

/-- and its notes are about exactly the callbacks made, in order. -/
theorem C57_notes (E : Env) (H : Handler σ) (note : ρ → Ev × HOut → ρ) (u : σ) (r : ρ) (fuel snl : Nat) (b : Bytes)
    (s : St (σ × ρ)) (h : parseDocument E (observed note H) fuel snl (initSt (u, r) Heap.empty b) = .ok () s) :
    s.hc.usr.2 = s.trace.foldl note r := by
  have := Sim.parseDocument E (o := E.order) (ho := E.order_perm) (observed_inStep note r H) (.inr rfl) (Nat.le_refl fuel) (.inr rfl)
    (Nat.le_refl snl) (.inr rfl) ⟨fun _ => True, fun _ x => x⟩ (initSt u Heap.empty b) (u, r) [] ⟨⟨rfl, rfl, rfl⟩, fun x => absurd x id⟩
  have e : (initSt u Heap.empty b).re (u, r) [] = initSt (u, r) Heap.empty b := rfl
  rw [e, h] at this
  revert this
  cases parseDocument E H fuel snl (initSt u Heap.empty b) with
  | ok a t =>
    rintro ⟨u', tr', e1, ⟨e2, e3, e4⟩, _⟩
    cases e1
    subst e3
    exact e4
  | err => rintro ⟨_, _, e1, _⟩; cases e1
  | panic => intro e1; cases e1
  | diverge => intro h; cases h.resolve_left id

/-- A SAX2 table that passes everything on to the tree builder, under an observer, builds what `Parse` builds. -/
theorem C57_tree (E : Env) (note : ρ → Ev × HOut → ρ) (r : ρ) (fuel : Nat) (b : Bytes) :
    parserParse E (observed note (forward (treeBuilder fuel)).handler) ((), r) fuel fuel b = parse E fuel b := by
  rw [C57_observer, C56_dispatch]
  rfl

example : ∃ s, parseDocument env0 (observed (fun n _ => n + 1) nullHandler) 20 20 (initSt ((), 0) Heap.empty b!"<a>x</a>") = .ok () s ∧
    s.hc.usr.2 = 6 := by
  have : (match parseDocument env0 (observed (fun n _ => n + 1) nullHandler) 20 20 (initSt ((), 0) Heap.empty b!"<a>x</a>") with
    | .ok _ s => s.hc.usr.2 == 6
    | _ => false) = true := by kernel_rfl
  revert this
  cases parseDocument env0 (observed (fun n _ => n + 1) nullHandler) 20 20 (initSt ((), 0) Heap.empty b!"<a>x</a>") with
  | ok a s => intro h; exact ⟨s, rfl, by simpa using h⟩
  | err => intro h; cases h
  | panic => intro h; cases h
  | diverge => intro h; cases h

/-! ### C58 -/

/-- related by being the same; the second run may go on longer. -/
def bySame : Sync σ σ where
  lax := True
  rel u tr w tr' := u = w ∧ tr = tr'

theorem treeBuilder_inStep {n m : Nat} (h : n ≤ m) : InStep (σ := σ) bySame (treeBuilder n) (treeBuilder m) := by
  refine inStep_same id id ?_
  rintro v ev c _ tr _ ⟨rfl, rfl⟩
  rcases treeBuilder_le h (.inl trivial) v ev c with e | e
  · exact .inl e
  · refine .inr ⟨by rw [e], (treeBuilder n v ev c).2.usr, ?_, rfl, ?_⟩
    · rw [← e]
    · rw [← e]

theorem same_inStep (H : Handler σ) : InStep bySame H H := by
  refine inStep_same id id ?_
  rintro v ev c _ tr _ ⟨rfl, rfl⟩
  exact .inr ⟨rfl, _, rfl, rfl, rfl⟩

theorem same_le {E : Env} {H G : Handler σ} (hA : InStep bySame H G) {u : σ} {n m k l : Nat} (h : n ≤ m) (h' : k ≤ l) (b : Bytes)
    (hd : parserParse E H u n k b ≠ .diverge) : parserParse E G u m l b = parserParse E H u n k b := by
  have := parserParse_same E hA (u := u) (w := u) h (.inl trivial) h' (.inl trivial) b ⟨rfl, rfl⟩
  revert this hd
  cases parserParse E H u n k b with
  | done d er hp tr => rintro _ ⟨u', w', tr', e1, rfl, rfl⟩; exact e1
  | panic => exact fun _ e => e
  | diverge => exact fun hd => absurd rfl hd

/-- **C58** A parse has one result: with any handler, if it returns within some budget, it returns the same within every larger
one. -/
theorem C58_handler (E : Env) (H : Handler σ) (u : σ) {n m k l : Nat} (h : n ≤ m) (h' : k ≤ l) (b : Bytes)
    (hd : parserParse E H u n k b ≠ .diverge) : parserParse E H u m l b = parserParse E H u n k b :=
  same_le (same_inStep H) h h' b hd

/-- **C58** for `Parse`: any two budgets that are large enough give the same document, error and callbacks. -/
theorem C58_parse (E : Env) (n m : Nat) (b : Bytes) (hn : parse E n b ≠ .diverge) (hm : parse E m b ≠ .diverge) :
    parse E n b = parse E m b := by
  rcases Nat.le_total n m with h | h
  · exact (same_le (treeBuilder_inStep h) h h b hn).symm
  · exact same_le (treeBuilder_inStep h) h h b hm

/-- budgets matter: three is too little here, nine is enough. -/
example : parse env0 3 b!"<a>x<b/>y</a>" = .diverge ∧ parse env0 9 b!"<a>x<b/>y</a>" ≠ .diverge ∧
    parse env0 12 b!"<a>x<b/>y</a>" ≠ .diverge := by
  refine ⟨ParseRes.hangs_iff.mp (by kernel_rfl), fun h => ?_, fun h => ?_⟩
  · have : (parse env0 9 b!"<a>x<b/>y</a>").hangs = false := by kernel_rfl
    rw [h] at this; cases this
  · have : (parse env0 12 b!"<a>x<b/>y</a>").hangs = false := by kernel_rfl
    rw [h] at this; cases this

end Helium
