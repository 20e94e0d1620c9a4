import Verif.Spec.AcceptedDtd
import Verif.Lemmas.Accept
import Verif.Lemmas.Flags
import Verif.Lemmas.ContentRun
/-! What an accepted element type declaration looks like. -/
namespace Helium
open Spec
section
variable {σ : Type} {E : Env} {H : Handler σ}

/-- the run from `s` to `s'` did nothing but consume `t`. -/
def Moves (s s' : St σ) (t : List Nat) : Prop := s' = { s with cur := s'.cur } ∧ s.cur = t ++ s'.cur

theorem Moves.refl (s : St σ) : Moves s s [] := ⟨rfl, rfl⟩
theorem Moves.mk {s : St σ} {t w : List Nat} (h : s.cur = t ++ w) : Moves s { s with cur := w } t := ⟨rfl, h⟩
theorem Moves.trans {a b c : St σ} {t u : List Nat} (h : Moves a b t) (k : Moves b c u) : Moves a c (t ++ u) := by
  refine ⟨?_, by rw [h.2, k.2, List.append_assoc]⟩
  have h1 := k.1
  rw [h.1] at h1
  exact h1
theorem Moves.step {s s' : St σ} {t : List Nat} (h : Moves s s' t) : Step H s s' t [] := .moved h.1 h.2
theorem Moves.nul {s s' : St σ} {t : List Nat} (h : Moves s s' t) (h0 : 0 ∉ s.cur) : 0 ∉ s'.cur := fun hc => h0 (by rw [h.2]; exact List.mem_append_right _ hc)
theorem Moves.ne {s s' : St σ} {t : List Nat} (h : Moves s s' t) (h0 : s'.cur ≠ []) : s.cur ≠ [] := by
  rw [h.2]; intro hc; exact h0 (List.append_eq_nil_iff.1 hc).2

theorem parseName_moves {s s' : St σ} {v : Bytes} (h : parseName E s = .ok v s') (h0 : 0 ∉ s.cur) :
    ∃ n, LooseName E n ∧ v = encodeRunes n ∧ Moves s s' n := by
  obtain ⟨cur', rfl, hn⟩ := parseName_sound E h
  obtain ⟨n, e1, e2, e3⟩ := hn.loose (E := E) h0 (fun _ h => h) (fun _ h => h)
  exact ⟨n, e3, e2, .mk e1⟩

/-- the state after `skipBlanks`. -/
def skipped (s : St σ) : St σ := { s with cur := s.cur.dropWhile isBlank }

theorem skipBlanks_ok {s s' : St σ} {b : Bool} (h : (skipBlanks : P σ Bool) s = .ok b s') :
    ∃ ws, Blank ws ∧ Moves s s' ws ∧ (b = true → ws ≠ []) ∧ ∀ c, s'.cur.head? = some c → ¬ Ws c := by
  unfold skipBlanks at h
  obtain ⟨ws, r, h1, h2, h3, h4⟩ := blanks_split s.cur
  simp only [Out.ok.injEq] at h
  obtain ⟨rfl, rfl⟩ := h
  refine ⟨ws, h2, .mk (by rw [h4]; exact h1), ?_, by simp only [h4]; exact h3⟩
  rintro hb rfl
  rw [h4, h1] at hb
  simp at hb

theorem needBlanks_moves {s s' : St σ} {u : Unit} (h : needBlanks E s = .ok u s') :
    ∃ ws, ws ≠ [] ∧ Blank ws ∧ Moves s s' ws ∧ ∀ c, s'.cur.head? = some c → ¬ Ws c := by
  unfold needBlanks at h
  obtain ⟨c, s1, h1, h2⟩ := bind_ok.1 h
  obtain ⟨rfl, rfl⟩ := peek_ok.1 h1
  obtain ⟨_, s2, h3, h4⟩ := bind_ok.1 h2
  obtain ⟨k, rfl⟩ := need_ok.1 h3
  obtain ⟨b, s3, h5, h6⟩ := bind_ok.1 h4
  obtain ⟨-, rfl⟩ := pure_ok.1 h6
  obtain ⟨ws, e1, e2, -, e4⟩ := skipBlanks_ok h5
  refine ⟨ws, ?_, e1, e2, e4⟩
  rintro rfl
  have hcur : s2.cur = s3.cur := e2.2
  cases hc : s3.cur with
  | nil =>
    rw [hcur, hc] at k
    have := E.eof_spec
    rcases this with h | h <;> rw [List.getD_nil, h] at k <;> cases k
  | cons x r =>
    rw [hcur, hc] at k
    exact e4 x (by rw [hc]; rfl) ((isBlank_iff x).1 k)

theorem peek_moves {s : St σ} {c : Nat} (h : s.cur.getD 0 E.eof = c) (hc : c ≠ 0 ∧ c ≠ 0xFFFD) :
    Moves s { s with cur := s.cur.drop 1 } [c] := by
  obtain ⟨t, ht⟩ := peekd_cons h hc
  exact .mk (by rw [ht]; rfl)

theorem consume_moves {l : List Nat} {s s' : St σ} (h : (consume l : P σ Bool) s = .ok true s') : Moves s s' l := by
  rcases consume_ok.1 h with ⟨-, h1, rfl⟩ | ⟨h1, -⟩
  · refine .mk ?_
    obtain ⟨t, ht⟩ := List.isPrefixOf_iff_prefix.1 h1
    rw [← ht]; simp
  · cases h1

theorem consume_stays {l : List Nat} {s s' : St σ} (h : (consume l : P σ Bool) s = .ok false s') : s' = s ∧ l.isPrefixOf s.cur = false := by
  rcases consume_ok.1 h with ⟨h1, -⟩ | ⟨-, h1, rfl⟩
  · cases h1
  · exact ⟨rfl, h1⟩

/-! ### content models -/

theorem looseName_ne {n : List Nat} (h : LooseName E n) : n ≠ [] := by
  obtain ⟨c, t, rfl, _⟩ := h; simp

/-- every name has its parts, and they are those of the element content made for it. -/
theorem newElementContent_parts {n : List Nat} (h : LooseName E n) :
    ∃ p l, NameParts n p l ∧ newElementContent (encodeRunes n) 2 = .ok (nameModel p l 1) := by
  have hne : encodeRunes n ≠ [] := encodeRunes_ne (looseName_ne h)
  have hnew : newElementContent (encodeRunes n) 2 = .ok (.mk 2 1 (splitColon (encodeRunes n)).2 (splitColon (encodeRunes n)).1 .nil .nil) := by
    unfold newElementContent
    simp [hne]
  by_cases hc : 58 ∈ n
  · obtain ⟨p, l, rfl, hp⟩ := List.eq_append_cons_of_mem hc
    refine ⟨p, l, .inr ⟨hp, rfl⟩, ?_⟩
    rw [hnew, encodeRunes_append, encodeRunes_cons, nameModel]
    rw [show encodeRune 58 ++ encodeRunes l = 58 :: encodeRunes l from rfl, splitColon_append (by rw [mem_encodeRunes_ascii _ 58 (by decide)]; exact hp)]
  · refine ⟨[], n, .inl ⟨hc, rfl, rfl⟩, ?_⟩
    rw [hnew, splitColon_none (by rw [mem_encodeRunes_ascii _ 58 (by decide)]; exact hc)]
    rfl

theorem parseOccur_moves {p l : List Nat} {e' : EC} {s s' : St σ} (h : parseOccur E (nameModel p l 1) s = .ok e' s') :
    ∃ o m, OccMark o m ∧ e' = nameModel p l o ∧ Moves s s' m := by
  unfold parseOccur nameModel at h
  run at h
  split at h
  · rename_i hc; cases h; exact ⟨2, [63], .opt, rfl, peek_moves hc (by decide)⟩
  · split at h
    · rename_i hc; cases h; exact ⟨3, [42], .mult, rfl, peek_moves hc (by decide)⟩
    · split at h
      · rename_i hc; cases h; exact ⟨4, [43], .plus, rfl, peek_moves hc (by decide)⟩
      · cases h; exact ⟨1, [], .once, rfl, .refl _⟩

/-- what follows is something, and no `*` or `+`. -/
def Ended (l : List Nat) : Prop := ∃ c t, l = c :: t ∧ c ≠ 42 ∧ c ≠ 43

theorem Ended.ne {l : List Nat} (h : Ended l) : l ≠ [] := by obtain ⟨c, t, rfl, _⟩ := h; simp

theorem Ended.blank {s s' : St σ} {w : List Nat} (h : Ended s'.cur) (m : Moves s s' w) (hw : Blank w) : Ended s.cur := by
  rw [m.2]
  cases w with
  | nil => exact h
  | cons c t => exact ⟨c, _, rfl, by have := hw c (by simp); unfold Ws at this; omega⟩

/-- the working state after the members `pre` and `last`. -/
def StRel (st : CS) (pre : List EC) (last : EC) : Prop :=
  (pre = [] ∧ st.ops = [] ∧ st.first = last ∧ st.last = .nil) ∨ (pre ≠ [] ∧ st.sep ≠ 0 ∧ st.ops = pre.map (fun e => (opType st.sep, e)) ∧ st.last = last)

theorem buildChain_chained (t : Nat) (last : EC) : ∀ pre : List EC, buildChain (pre.map fun e => (t, e)) last = chained t pre last
  | [] => rfl
  | e :: es => by rw [List.map_cons, buildChain, chained, buildChain_chained t last es]

theorem StRel.result {st : CS} {pre : List EC} {last : EC} (h : StRel st pre last) {c : Nat} (hc : st.sep ≠ 0 → st.sep = c) :
    st.result = chained (opType c) pre last := by
  unfold CS.result
  rcases h with ⟨rfl, h1, h2, _⟩ | ⟨h0, h1, h2, h3⟩
  · rw [h1]; exact h2
  · rw [← hc h1, ← buildChain_chained, ← h2, h3]
    cases ho : st.ops with
    | nil => rw [ho] at h2; exact absurd (List.map_eq_nil_iff.1 h2.symm) h0
    | cons x l => rfl

theorem StRel.op {st : CS} {pre : List EC} {last : EC} (h : StRel st pre last) {c : Nat} (h0 : c ≠ 0) (hc : st.sep ≠ 0 → st.sep = c) (e : EC) :
    ∃ pre', (∀ es, joined (opType c) pre last (e :: es) = joined (opType c) pre' e es) ∧
      StRel { { st.op (opType c) with sep := c } with last := e } pre' e := by
  rcases h with ⟨rfl, h1, h2, h3⟩ | ⟨k0, h1, h2, h3⟩
  · have hop : st.op (opType c) = { st with ops := [(opType c, st.first)] } := by
      unfold CS.op; rw [h3, h1]
    refine ⟨[last], fun es => ?_, .inr ⟨by simp, h0, by simp [hop, h2], rfl⟩⟩
    cases last <;> rfl
  · have hs := hc h1
    have hne : st.ops ≠ [] := fun hn => by rw [hn] at h2; exact k0 (List.map_eq_nil_iff.1 h2.symm)
    cases hl : last with
    | nil =>
      rw [hl] at h3
      have hop : st.op (opType c) = { st with ops := [(opType c, buildChain st.ops .nil)] } := by
        unfold CS.op
        rw [h3]
        cases ho : st.ops with
        | nil => exact absurd ho hne
        | cons x l => rfl
      refine ⟨[chained (opType c) pre .nil], fun es => rfl, .inr ⟨by simp, h0, ?_, rfl⟩⟩
      simp only [hop, List.map_cons, List.map_nil]
      rw [h2, hs, buildChain_chained]
    | mk a b n p x y =>
      rw [hl] at h3
      have hop : st.op (opType c) = { st with ops := st.ops ++ [(opType c, .mk a b n p x y)], last := .nil } := by
        unfold CS.op; rw [h3]
      refine ⟨pre ++ [.mk a b n p x y], fun es => rfl, .inr ⟨by simp, h0, ?_, rfl⟩⟩
      simp only [hop, List.map_append, List.map_cons, List.map_nil]
      rw [h2, hs]

theorem childrenClose_moves {st : CS} {e : EC} {s s' : St σ} (hs : s.cur = [] ∨ s.cur.getD 0 E.eof = 41) (h : childrenClose E st s = .ok e s') (hne : Ended s'.cur) :
    ∃ o t, (o = false ∧ t = [41] ∨ o = true ∧ t = [41, 63]) ∧ e = closedBy o st.result ∧ Moves s s' t := by
  unfold childrenClose at h
  run at h
  have hm : s.cur ≠ [] → Moves s { s with cur := s.cur.drop 1 } [41] := fun hn => peek_moves (hs.resolve_left hn) (by decide)
  have key : s'.cur.getD 0 E.eof = 42 ∨ s'.cur.getD 0 E.eof = 43 → False := by
    obtain ⟨c, t, hc, h1, h2⟩ := hne
    rw [hc, List.getD_cons_zero]
    omega
  split at h
  · rename_i hc
    cases h
    have h1 := peek_moves (s := { s with cur := s.cur.drop 1 }) hc (by decide)
    refine ⟨true, [41, 63], .inr ⟨rfl, rfl⟩, ?_, (hm ?_).trans h1⟩
    · cases st.result with
      | nil => rfl
      | mk t o n p a b =>
        show (if o = 4 then EC.mk t 3 n p a b else EC.mk t 2 n p a b) = EC.mk t (if o = 4 then 3 else 2) n p a b
        split <;> rfl
    · intro hn
      have := hne.ne
      rw [hn] at this
      exact this rfl
  · split at h
    · rename_i hc; cases h; exact (key (.inl hc)).elim
    · split at h
      · rename_i hc
        cases hr : st.result with
        | nil => rw [hr] at h; exact (panic_ok.1 h).elim
        | mk t o n p a b =>
          rw [hr] at h
          cases hl : st.ops.getLast? with
          | none => rw [hl] at h; cases h; exact (key (.inr hc)).elim
          | some x => rw [hl] at h; cases h; exact (key (.inr hc)).elim
      · cases h
        refine ⟨false, [41], .inl ⟨rfl, rfl⟩, rfl, hm ?_⟩
        intro hn
        have := hne.ne
        rw [hn] at this
        exact this rfl

theorem silent_nul {α : Type} {p : P σ α} (hp : Silent false p) {s s' : St σ} {a : α} (h : p s = .ok a s') (h0 : 0 ∉ s.cur) : 0 ∉ s'.cur := by
  have := hp s
  rw [h] at this
  exact fun hc => h0 (this.cur.mem hc)

theorem blank_append {a b : List Nat} (h : Blank a) (k : Blank b) : Blank (a ++ b) := fun c hc => (List.mem_append.1 hc).elim (h c) (k c)
theorem blank_nil : Blank [] := fun _ h => by cases h

/-- what a run of `parseChildren` that succeeds, and is followed by no mark, has consumed. -/
def ChildrenDone (E : Env) (p : P σ EC) : Prop := ∀ (e : EC) (s s' : St σ), p s = .ok e s' → 0 ∉ s.cur → Ended s'.cur →
    ∃ w1 f m w2 c es o r, Blank w1 ∧ LooseModel E (.first f) m ∧ Blank w2 ∧ LooseModel E (.others c es o) r ∧ e = closedBy o (joined (opType c) [] f es) ∧
      Moves s s' (w1 ++ (m ++ (w2 ++ r)))

/-- a group after its opening parenthesis. -/
theorem group_moves {p : P σ EC} (hp : ChildrenDone E p) {s s' : St σ} {e : EC} (hc : s.cur.getD 0 E.eof = 40) (h0 : 0 ∉ s.cur) (hne : Ended s'.cur)
    (h : (do
      let _ ← skipBlanks
      let l ← M.wrap p
      let _ ← skipBlanks
      pure l : P σ EC) { s with cur := s.cur.drop 1 } = .ok e s') : ∃ m w, LooseModel E (.member e) m ∧ m.head? = some 40 ∧ Blank w ∧ Moves s s' (m ++ w) := by
  have ma := peek_moves hc (by decide : (40 : Nat) ≠ 0 ∧ (40 : Nat) ≠ 0xFFFD)
  obtain ⟨_, s1, k1, h⟩ := bind_ok.1 h
  obtain ⟨ws, hws, mb, -, -⟩ := skipBlanks_ok k1
  obtain ⟨x, s5, k6, k7⟩ := bind_ok.1 h
  obtain ⟨b, s6, k8, k9⟩ := bind_ok.1 k7
  obtain ⟨rfl, rfl⟩ := pure_ok.1 k9
  obtain ⟨w6, hw6, m6, -, -⟩ := skipBlanks_ok k8
  have m05 := ma.trans mb
  obtain ⟨wa, f, m, wb, c, es, o, r, g1, g2, g3, g4, rfl, g5⟩ := hp _ _ _ (wrap_ok.1 k6) (m05.nul h0) (hne.blank m6 hw6)
  refine ⟨_, w6, .group (w1 := ws ++ wa) (w2 := wb) (blank_append hws g1) g2 g3 g4, rfl, hw6, ?_⟩
  have := (m05.trans g5).trans m6
  simpa using this

/-- a name with its occurrence mark. -/
theorem member_moves {s s' : St σ} {e : EC} (hc : s.cur.getD 0 E.eof ≠ 40) (h0 : 0 ∉ s.cur)
    (h : (do
      let name ← M.wrap (parseName E)
      match newElementContent name 2 with
      | .error e => M.fail (wrapErr e)
      | .ok e => parseOccur E e : P σ EC) s = .ok e s') : ∃ m w, LooseModel E (.member e) m ∧ m.head? ≠ some 40 ∧ Blank w ∧ Moves s s' (m ++ w) := by
  obtain ⟨nm, s5, k6, k7⟩ := bind_ok.1 h
  obtain ⟨n, e1, rfl, mn⟩ := parseName_moves (wrap_ok.1 k6) h0
  obtain ⟨p, l, hp, hec⟩ := newElementContent_parts e1
  rw [hec] at k7
  obtain ⟨o, m, ho, rfl, mo⟩ := parseOccur_moves k7
  refine ⟨n ++ m, [], .name e1 hp ho, ?_, blank_nil, by rw [List.append_nil]; exact mn.trans mo⟩
  intro hh
  apply hc
  obtain ⟨c, t, rfl, _⟩ := e1
  rw [mn.2]
  simpa using hh

mutual
theorem parseChildren_moves : ∀ (fuel depth : Nat), ChildrenDone (σ := σ) E (parseChildren E fuel depth)
  | 0, _ => by intro e s s' h _ _; unfold parseChildren at h; exact (diverge_ok.1 h).elim
  | fuel + 1, depth => by
    intro e s s' h h0 hne
    unfold parseChildren at h
    rcases ite_any h with h | h
    · exact (raw_ok.1 h).elim
    obtain ⟨_, s1, k1, h⟩ := bind_ok.1 h
    obtain ⟨w1, hw1, m1, -, -⟩ := skipBlanks_ok k1
    obtain ⟨st, s2, k2, h⟩ := bind_ok.1 h
    obtain ⟨_, s3, k3, h⟩ := bind_ok.1 h
    obtain ⟨w2, hw2, m3, -, -⟩ := skipBlanks_ok k3
    have h02 : 0 ∉ s2.cur := by
      refine silent_nul ?_ k2 (m1.nul h0)
      silent
    have hst : ∃ f, st = { first := f } := by
      run at k2
      split at k2
      · obtain ⟨x, s5, k6, k7⟩ := bind_ok.1 k2
        obtain ⟨b, s6, k8, k9⟩ := bind_ok.1 k7
        obtain ⟨rfl, rfl⟩ := pure_ok.1 k9
        exact ⟨_, rfl⟩
      · obtain ⟨nm, s5, k6, k7⟩ := bind_ok.1 k2
        cases hec : newElementContent nm 2 with
        | error e => rw [hec] at k7; exact (fail_ok.1 k7).elim
        | ok e =>
          rw [hec] at k7
          obtain ⟨e', s6, k8, k9⟩ := bind_ok.1 k7
          obtain ⟨rfl, rfl⟩ := pure_ok.1 k9
          exact ⟨_, rfl⟩
    obtain ⟨f, hf⟩ := hst
    have hrel : StRel st [] f := .inl ⟨rfl, by rw [hf], by rw [hf], by rw [hf]⟩
    obtain ⟨c, es, o, r, -, hr, he, hend, m4⟩ := childrenLoop_moves fuel depth hrel h (m3.nul h02) hne
    have hne2 : Ended s2.cur := hend.blank m3 hw2
    have hm : ∃ m w, LooseModel E (.first f) m ∧ Blank w ∧ Moves s1 s2 (m ++ w) := by
      run at k2
      split at k2
      · rename_i hc
        obtain ⟨x, s5, k6, k7⟩ := bind_ok.1 k2
        obtain ⟨b, s6, k8, k9⟩ := bind_ok.1 k7
        obtain ⟨j1, rfl⟩ := pure_ok.1 k9
        obtain ⟨m, w, g1, g2, g3, g4⟩ := group_moves (parseChildren_moves fuel (depth + 1)) (e := x) hc (m1.nul h0) hne2
          (bind_ok.2 ⟨_, _, rfl, bind_ok.2 ⟨_, _, k6, bind_ok.2 ⟨_, _, k8, rfl⟩⟩⟩)
        have : f = .nil := by
          have := hf.symm.trans j1.symm
          exact congrArg CS.first this
        subst this
        exact ⟨m, w, .firstLost g1 g2, g3, g4⟩
      · rename_i hc
        obtain ⟨nm, s5, k6, k7⟩ := bind_ok.1 k2
        cases hec : newElementContent nm 2 with
        | error e => rw [hec] at k7; exact (fail_ok.1 k7).elim
        | ok e =>
          rw [hec] at k7
          obtain ⟨e', s6, k8, k9⟩ := bind_ok.1 k7
          obtain ⟨j1, rfl⟩ := pure_ok.1 k9
          have : f = e' := by
            have := hf.symm.trans j1.symm
            exact congrArg CS.first this
          subst this
          obtain ⟨m, w, g1, g2, g3, g4⟩ := member_moves (e := f) hc (m1.nul h0) (bind_ok.2 ⟨_, _, k6, by simp only [hec]; exact k8⟩)
          exact ⟨m, w, .firstName g1 g2, g3, g4⟩
    obtain ⟨m, w, g1, g2, g3⟩ := hm
    refine ⟨w1, f, m, w ++ w2, c, es, o, r, hw1, g1, blank_append g2 hw2, hr, he, ?_⟩
    have := ((m1.trans g3).trans m3).trans m4
    simpa using this
theorem childrenLoop_moves : ∀ (fuel depth : Nat) {st : CS} {pre : List EC} {last e : EC} {s s' : St σ}, StRel st pre last →
    childrenLoop E fuel depth st s = .ok e s' → 0 ∉ s.cur → Ended s'.cur →
    ∃ c es o r, (st.sep ≠ 0 → st.sep = c) ∧ LooseModel E (.others c es o) r ∧ e = closedBy o (joined (opType c) pre last es) ∧ Ended s.cur ∧ Moves s s' r
  | 0, _, _, _, _, _, _, _, _, h, _, _ => by unfold childrenLoop at h; exact (diverge_ok.1 h).elim
  | fuel + 1, depth, st, pre, last, e, s, s', hrel, h, h0, hne => by
    have hclose : s.cur = [] ∨ s.cur.getD 0 E.eof = 41 → childrenClose E st s = .ok e s' → ∃ c es o r, (st.sep ≠ 0 → st.sep = c) ∧ LooseModel E (.others c es o) r ∧
        e = closedBy o (joined (opType c) pre last es) ∧ Ended s.cur ∧ Moves s s' r := by
      intro hs h
      obtain ⟨o, t, ho, he, mo⟩ := childrenClose_moves hs h hne
      have hres : st.result = joined (opType st.sep) pre last [] := by
        rw [hrel.result (c := st.sep) (fun _ => rfl)]
        cases last <;> rfl
      rw [hres] at he
      rcases ho with ⟨rfl, rfl⟩ | ⟨rfl, rfl⟩
      · exact ⟨st.sep, [], false, _, fun _ => rfl, .close, he, ⟨41, _, mo.2, by decide, by decide⟩, mo⟩
      · exact ⟨st.sep, [], true, _, fun _ => rfl, .closeOpt, he, ⟨41, _, mo.2, by decide, by decide⟩, mo⟩
    unfold childrenLoop at h
    run at h
    split at h
    · rename_i hd
      exact hclose (.inl (List.isEmpty_iff.1 hd)) h
    · split at h
      · rename_i hc
        exact hclose (.inr hc) h
      · split at h
        · rename_i hc
          split at h
          · exact (cerr_ok.1 h).elim
          · rename_i hsep
            have ma := peek_moves (E := E) (s := s) (c := s.cur.getD 0 E.eof) rfl (by omega)
            generalize s.cur.getD 0 E.eof = c at *
            have hst : st.sep ≠ 0 → st.sep = c := fun hs => by
              by_cases hh : st.sep = c
              · exact hh
              · exact absurd ⟨hs, hh⟩ hsep
            obtain ⟨lst, s2, k2, h⟩ := bind_ok.1 h
            run at h
            obtain ⟨ws, hws, mb, -, -⟩ := skipBlanks_ok (s := { s with cur := s.cur.drop 1 }) (b := _) rfl
            obtain ⟨w2, hw2, m3, -, -⟩ := skipBlanks_ok (s := s2) (b := _) rfl
            have mab := ma.trans mb
            have h02 : 0 ∉ s2.cur := by
              refine silent_nul ?_ k2 (mab.nul h0)
              silent
            obtain ⟨pre', hj, hrel'⟩ := hrel.op (c := c) (by omega) hst lst
            obtain ⟨c', es, o, r, g1, hr, he, hend, m4⟩ := childrenLoop_moves fuel depth hrel' h (m3.nul h02) hne
            have g1 : c = c' := g1 (by show c ≠ 0; omega)
            subst g1
            have hne2 : Ended s2.cur := hend.blank m3 hw2
            have hm : ∃ m w, LooseModel E (.member lst) m ∧ Blank w ∧ Moves { s with cur := (s.cur.drop 1).dropWhile isBlank } s2 (m ++ w) := by
              run at k2
              split at k2
              · rename_i hc
                obtain ⟨x, s5, k6, k7⟩ := bind_ok.1 k2
                obtain ⟨m, w, f1, _, f2, f3⟩ := group_moves (parseChildren_moves fuel (depth + 1)) (e := lst) hc (mab.nul h0) hne2
                  (bind_ok.2 ⟨_, _, rfl, bind_ok.2 ⟨_, _, k6, k7⟩⟩)
                exact ⟨m, w, f1, f2, f3⟩
              · rename_i hc
                obtain ⟨m, w, f1, _, f2, f3⟩ := member_moves (e := lst) hc (mab.nul h0) k2
                exact ⟨m, w, f1, f2, f3⟩
            obtain ⟨m, w, f1, f2, f3⟩ := hm
            refine ⟨c, lst :: es, o, c :: (ws ++ (m ++ ((w ++ w2) ++ r))), hst, .more hc hws f1 (blank_append f2 hw2) hr, ?_,
              ⟨c, _, ma.2, by omega, by omega⟩, ?_⟩
            · rw [he, hj]
            · have := ((mab.trans f3).trans m3).trans m4
              simpa using this
        · exact (cerr_ok.1 h).elim
end
end
end Helium
