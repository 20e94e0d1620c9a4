import Verif.Spec.Content
import Verif.Lemmas.MarkupRun
import Verif.Lemmas.SourceContent
import Verif.Model.Parser.Dtd
/-! The parser reads content models as written. -/
namespace Helium
open Spec

section
variable {σ : Type} (E : Env) (H : Handler σ)

/-- ASCII characters outside the name classes. -/
theorem ascii_notName {c : Nat} (h : c < 128) (h0 : c ≠ 0)
    (h1 : ((65 ≤ c && c ≤ 90) || (97 ≤ c && c ≤ 122) || (48 ≤ c && c ≤ 57) || c == 46 || c == 45 || c == 95 || c == 58) = false) :
    c ≠ 0 ∧ ¬ NameChar E c := by
  refine ⟨h0, fun h2 => ?_⟩
  rcases h2 with h2 | h2 | h2
  · rw [E.letter_ascii c h] at h2; revert h1 h2; simp; omega
  · rw [E.digit_ascii c h] at h2; revert h1 h2; simp; omega
  · revert h1; simp; omega

theorem name_head {n : List Nat} (hn : Name E n) (r : List Nat) : ∃ c t, n ++ r = c :: t ∧ ¬ Ws c ∧ NameStartChar E c ∧ NameChar E c := by
  obtain ⟨c, t, rfl, hc⟩ := hn.start
  have h1 := hn.chars c (by simp)
  exact ⟨c, t ++ r, rfl, fun hw => (ws_notName E hw).2 h1, hc, h1⟩

theorem skip_run {ws r : List Nat} (h : Blank ws) (hr : ∀ c, r.head? = some c → ¬ Ws c) (s : St σ) (hs : s.cur = ws ++ r) :
    ∃ b, skipBlanks s = .ok b { s with cur := r } := by
  refine ⟨decide (r.length < s.cur.length), ?_⟩
  show Out.ok (decide ((s.cur.dropWhile isBlank).length < s.cur.length)) { s with cur := s.cur.dropWhile isBlank } = _
  rw [hs, dropWhile_blank h hr]

/-- a member of a group, after a separator (/repo/parserctx.go:2770-2806). -/
def memberP (fuel depth : Nat) : P σ EC := do
  if (← peek E) = 40 then
    adv 1
    let _ ← skipBlanks
    let l ← M.wrap (parseChildren E fuel (depth + 1))
    let _ ← skipBlanks
    pure l
  else
    let name ← M.wrap (parseName E)
    match newElementContent name 2 with
    | .error e => M.fail (wrapErr e)
    | .ok e => parseOccur E e

theorem childrenLoop_eq (fuel depth : Nat) (st : CS) : (childrenLoop E (fuel + 1) depth st : P σ EC) = (do
    if (← isDone) then childrenClose E st
    else
      let c ← peek E
      if c = 41 then childrenClose E st
      else if c = 44 ∨ c = 124 then
        if st.sep ≠ 0 ∧ st.sep ≠ c then M.cerr .mSeparator
        else
          adv 1
          let _ ← skipBlanks
          let last ← memberP E fuel depth
          let _ ← skipBlanks
          childrenLoop E fuel depth { { st.op (if c = 44 then 3 else 4) with sep := c } with last := last }
      else M.cerr .elementContentNotFinished) := by
  rw [childrenLoop]; rfl

/-- what may follow a member. -/
def MStop (r : List Nat) : Prop := ∃ c t, r = c :: t ∧ (Ws c ∨ c = 41 ∨ c = 44 ∨ c = 124)

theorem MStop.notName {r : List Nat} (h : MStop r) : ∀ c, r.head? = some c → c ≠ 0 ∧ ¬ NameChar E c := by
  obtain ⟨c, t, rfl, h⟩ := h
  intro x hx; cases hx
  rcases h with h | rfl | rfl | rfl
  · exact ws_notName E h
  all_goals exact ascii_notName E (by decide) (by decide) (by decide)

theorem MStop.blank {ws r : List Nat} (h : Blank ws) (hr : MStop r) : MStop (ws ++ r) := by
  cases ws with
  | nil => exact hr
  | cons c t => exact ⟨c, t ++ r, rfl, .inl (h c (by simp))⟩

theorem indexByte_append {a b : Bytes} {c : Nat} (h : c ∉ a) : indexByte (a ++ c :: b) c = some a.length := by
  unfold indexByte
  rw [List.findIdx?_append]
  have h1 : a.findIdx? (fun x => x == c) = none := by
    rw [List.findIdx?_eq_none_iff]
    intro x hx
    simp only [beq_eq_false_iff_ne, ne_eq]
    rintro rfl; exact h hx
  simp [h1, List.findIdx?_cons]

theorem splitColon_append {a b : Bytes} (h : 58 ∉ a) : splitColon (a ++ 58 :: b) = (a, b) := by
  unfold splitColon
  rw [indexByte_append h]
  simp

theorem splitColon_none {a : Bytes} (h : 58 ∉ a) : splitColon a = ([], a) := by
  unfold splitColon
  cases hi : indexByte a 58 with
  | none => rfl
  | some i => exact absurd (indexByte_some.1 (by rw [hi]; rfl)) h

theorem named_split {w p l : List Nat} (h : Named E w p l) : splitColon (encodeRunes w) = (encodeRunes p, encodeRunes l) := by
  rcases h.2 with ⟨rfl, h1, rfl⟩ | ⟨h0, h1, rfl⟩
  · exact splitColon_none (by rw [mem_encodeRunes_ascii _ 58 (by decide)]; exact h1)
  · rw [encodeRunes_append, encodeRunes_cons]
    exact splitColon_append (by rw [mem_encodeRunes_ascii _ 58 (by decide)]; exact h1)

theorem named_new {w p l : List Nat} (h : Named E w p l) : newElementContent (encodeRunes w) 2 = .ok (nameModel p l 1) := by
  unfold newElementContent nameModel
  rw [named_split E h]
  have : encodeRunes w ≠ [] := by
    obtain ⟨c, t, rfl, _⟩ := h.1.start
    exact encodeRunes_ne (by simp)
  simp [this]

theorem occ_run {o : Nat} {m r p l : List Nat} (h : OccMark o m) (hr : MStop r) (s : St σ) (hs : s.cur = m ++ r) :
    parseOccur E (nameModel p l 1) s = .ok (nameModel p l o) { s with cur := r } := by
  obtain ⟨c, t, rfl, hc⟩ := hr
  have h1 : c ≠ 63 ∧ c ≠ 42 ∧ c ≠ 43 := by unfold Ws at hc; omega
  unfold parseOccur nameModel
  run
  cases h
  · have : ({ s with cur := c :: t } : St σ) = s := by
      cases s; simp only [List.nil_append] at hs; subst hs; rfl
    simp [hs, h1, this]
  all_goals simp [hs]

theorem name_run {d fuel o : Nat} {w p l m r : List Nat} (hn : Named E w p l) (ho : OccMark o m) (hr : MStop r) (s : St σ)
    (hs : s.cur = w ++ (m ++ r)) : memberP E fuel d s = .ok (nameModel p l o) { s with cur := r } := by
  have hm : ∀ c, (m ++ r).head? = some c → c ≠ 0 ∧ ¬ NameChar E c := by
    cases ho
    · exact hr.notName E
    all_goals (intro c hc; cases hc; exact ascii_notName E (by decide) (by decide) (by decide))
  obtain ⟨c, t, he, _, _, h40⟩ := name_head E hn.1 (m ++ r)
  have h40' : c ≠ 40 := by rintro rfl; exact (ascii_notName E (c := 40) (by decide) (by decide) (by decide)).2 h40
  unfold memberP
  run
  rw [if_neg (by rw [hs, he]; exact h40'), bind_run (wrap_run (parseName_run E hn.1 hm s hs)), named_new E hn]
  exact occ_run E ho hr _ rfl

/-- what reading a part of a content model amounts to. -/
def Reads (σ : Type) : CK → Nat → EC → List Nat → Prop
  | .member, d, e, x => ∀ (s : St σ) r fuel, MStop r → x.length ≤ fuel → s.cur = x ++ r →
      ∃ c, memberP E fuel d s = .ok e { s with cur := c } ∧ c.dropWhile isBlank = r.dropWhile isBlank
  | .others b, d, e, y => ∀ (s : St σ) w2 r fuel (st : CS), Blank w2 → y.length + 1 ≤ fuel → (st.sep = 0 ∨ st.sep = sepChar b) →
      s.cur = sepChar b :: (w2 ++ (y ++ 41 :: r)) →
      ∃ st', childrenLoop E fuel d st s = childrenClose E st' { s with cur := 41 :: r } ∧
        st'.result = buildChain (st.op (sepType b)).ops e
  | .group, d, e, x => ∀ (s : St σ) r fuel, d ≤ 128 → x.length + 1 ≤ fuel → s.cur = x ++ 41 :: r →
      ∃ st', parseChildren E fuel d s = childrenClose E st' { s with cur := 41 :: r } ∧ st'.result = e

theorem model_ne {k : CK} {d : Nat} {e : EC} {x : List Nat} (h : ModelText E k d e x) : e ≠ .nil := by
  induction h with
  | name | more | single | several => simp [nameModel]
  | paren _ _ _ ih => exact ih
  | last _ _ ih => exact ih
  | @parenOpt d ws e x _ _ _ _ ih => cases e <;> simp_all [madeOpt]

theorem model_head {k : CK} {d : Nat} {e : EC} {x : List Nat} (h : ModelText E k d e x) (r : List Nat) :
    ∃ c t, x ++ r = c :: t ∧ ¬ Ws c ∧ (k = .group → NameChar E c) := by
  have hname : ∀ {w p l : List Nat} (u : List Nat), Named E w p l → ∃ c t, w ++ u = c :: t ∧ ¬ Ws c ∧ NameChar E c := by
    intro w p l u hn
    obtain ⟨c, t, h1, h2, _, h3⟩ := name_head E hn.1 u
    exact ⟨c, t, h1, h2, h3⟩
  induction h generalizing r with
  | name hn _ =>
    obtain ⟨c, t, h1, h2, h3⟩ := hname (_ ++ r) hn
    exact ⟨c, t, by rw [List.append_assoc]; exact h1, h2, fun _ => h3⟩
  | paren | parenOpt => exact ⟨40, _, rfl, by decide, fun h => by cases h⟩
  | last _ _ ih =>
    obtain ⟨c, t, h1, h2, h3⟩ := ih (_ ++ r)
    exact ⟨c, t, by rw [List.append_assoc]; exact h1, h2, fun h => by cases h⟩
  | more _ _ _ _ ih =>
    obtain ⟨c, t, h1, h2, h3⟩ := ih (_ ++ r)
    exact ⟨c, t, by rw [List.append_assoc]; exact h1, h2, fun h => by cases h⟩
  | single hn _ _ =>
    obtain ⟨c, t, h1, h2, h3⟩ := hname (_ ++ r) hn
    exact ⟨c, t, by rw [List.append_assoc]; exact h1, h2, fun _ => h3⟩
  | several hn =>
    obtain ⟨c, t, h1, h2, h3⟩ := hname (_ ++ r) hn
    exact ⟨c, t, by rw [List.append_assoc]; exact h1, h2, fun _ => h3⟩

theorem close_run {st : CS} {e : EC} (h : st.result = e) {r : List Nat} (hr : MStop r) (s : St σ) (hs : s.cur = 41 :: r) :
    childrenClose E st s = .ok e { s with cur := r } := by
  obtain ⟨c, t, rfl, hc⟩ := hr
  have h1 : c ≠ 63 ∧ c ≠ 42 ∧ c ≠ 43 := by unfold Ws at hc; omega
  unfold childrenClose
  run
  simp [hs, h1, h]

theorem close_run_opt {st : CS} {e : EC} (h : st.result = e) (he : starred e = false) {r : List Nat} (s : St σ) (hs : s.cur = 41 :: 63 :: r) :
    childrenClose E st s = .ok (madeOpt e) { s with cur := r } := by
  unfold childrenClose
  run
  simp [hs, h]
  cases e with
  | nil => simp [EC.occ, EC.setOcc, madeOpt]
  | mk t o n p a b =>
    have : o ≠ 3 := by rintro rfl; simp [starred] at he
    simp only [EC.occ, EC.setOcc, madeOpt, this, false_or]
    by_cases h4 : o = 4 <;> simp [h4]

theorem buildChain_append (ops : List (Nat × EC)) (t : Nat) (e e' : EC) :
    buildChain (ops ++ [(t, e)]) e' = buildChain ops (.mk t 1 [] [] e e') := by
  induction ops with
  | nil => rfl
  | cons a ops ih => simp only [List.cons_append, buildChain, ih]

theorem op_ne (st : CS) (t : Nat) : (st.op t).ops ≠ [] := by
  unfold CS.op; split <;> simp

theorem op_last (st : CS) (t : Nat) {e : EC} (he : e ≠ .nil) (h : st.last = e) : (st.op t).ops = st.ops ++ [(t, e)] := by
  subst h
  unfold CS.op
  split
  · rename_i h; exact absurd h he
  · rfl

theorem result_ne {st : CS} (h : st.ops ≠ []) : st.result = buildChain st.ops st.last := by
  unfold CS.result; split
  · rename_i h1; exact absurd h1 h
  · rfl

theorem stop41 (r : List Nat) : MStop (41 :: r) := ⟨41, r, rfl, by decide⟩
theorem stopSep (b : Bool) (r : List Nat) : MStop (sepChar b :: r) := ⟨_, r, rfl, by cases b <;> decide⟩

theorem dropWhile_stop {ws r : List Nat} (h : Blank ws) {c : Nat} (hc : ¬ Ws c) : (ws ++ c :: r).dropWhile isBlank = c :: r :=
  dropWhile_blank h (by intro x hx; cases hx; exact hc)

theorem dropWhile_twice (r : List Nat) : (r.dropWhile isBlank).dropWhile isBlank = r.dropWhile isBlank := by
  induction r with
  | nil => rfl
  | cons c t ih =>
    by_cases h : isBlank c = true
    · simpa [List.dropWhile_cons, h] using ih
    · simp [h]

theorem sep_notWs (b : Bool) : ¬ Ws (sepChar b) := by cases b <;> decide

/-- the loop at the closing parenthesis. -/
theorem loop_close {fuel d : Nat} {st : CS} {r : List Nat} (hf : 1 ≤ fuel) (s : St σ) (hs : s.cur = 41 :: r) :
    childrenLoop E fuel d st s = childrenClose E st s := by
  obtain ⟨f, rfl⟩ := Nat.exists_eq_succ_of_ne_zero (by omega : fuel ≠ 0)
  rw [childrenLoop_eq]
  run
  simp [hs]

/-- the loop at a separator. -/
theorem loop_sep {fuel d : Nat} {b : Bool} {st : CS} {w2 x r : List Nat} {e : EC} (h2 : Blank w2) (hst : st.sep = 0 ∨ st.sep = sepChar b)
    (hm : ∀ (s : St σ), s.cur = x ++ r → ∃ c, memberP E fuel d s = .ok e { s with cur := c } ∧ c.dropWhile isBlank = r.dropWhile isBlank)
    (hx : ∃ c t, x ++ r = c :: t ∧ ¬ Ws c) (s : St σ) (hs : s.cur = sepChar b :: (w2 ++ (x ++ r))) :
    childrenLoop E (fuel + 1) d st s =
      childrenLoop E fuel d { { st.op (sepType b) with sep := sepChar b } with last := e } { s with cur := r.dropWhile isBlank } := by
  obtain ⟨c, t, hxc, hc⟩ := hx
  rw [childrenLoop_eq]
  run
  have e1 : s.cur.isEmpty = false := by rw [hs]; rfl
  have e2 : s.cur.getD 0 E.eof = sepChar b := by rw [hs]; rfl
  have e3 : ¬ sepChar b = 41 := by cases b <;> decide
  have e4 : sepChar b = 44 ∨ sepChar b = 124 := by cases b <;> decide
  have e5 : ¬ (st.sep ≠ 0 ∧ st.sep ≠ sepChar b) := by
    rintro ⟨h3, h4⟩; rcases hst with h | h
    · exact h3 h
    · exact h4 h
  have e6 : (List.drop 1 s.cur).dropWhile isBlank = x ++ r := by
    rw [hs, List.drop_succ_cons, List.drop_zero]
    exact dropWhile_blank h2 (by intro y hy; rw [hxc] at hy; cases hy; exact hc)
  have e7 : (if sepChar b = 44 then 3 else 4) = sepType b := by cases b <;> rfl
  simp only [e1, e2, Bool.false_eq_true, if_false, e3, e4, if_true, e5, e7]
  rw [e6]
  obtain ⟨c', h3, h4⟩ := hm { s with cur := x ++ r } rfl
  rw [bind_run h3]
  run
  simp only [h4]

theorem parseChildren_first {fuel d o : Nat} {w p l m r : List Nat} (hd : d ≤ 128) (hn : Named E w p l) (ho : OccMark o m) (hr : MStop r)
    (s : St σ) (hs : s.cur = w ++ (m ++ r)) :
    parseChildren E (fuel + 1) d s = childrenLoop E fuel d { first := nameModel p l o } { s with cur := r.dropWhile isBlank } := by
  have hm : ∀ c, (m ++ r).head? = some c → c ≠ 0 ∧ ¬ NameChar E c := by
    cases ho
    · exact hr.notName E
    all_goals (intro c hc; cases hc; exact ascii_notName E (by decide) (by decide) (by decide))
  obtain ⟨c, t, he, hc, _, h40⟩ := name_head E hn.1 (m ++ r)
  have h40' : c ≠ 40 := by rintro rfl; exact (ascii_notName E (c := 40) (by decide) (by decide) (by decide)).2 h40
  have e1 : s.cur.dropWhile isBlank = w ++ (m ++ r) := by
    rw [hs, he]; exact dropWhile_stop (ws := []) (by intro _ h; cases h) hc
  rw [parseChildren]
  rw [if_neg (by omega)]
  run
  rw [e1]
  have e2 : (w ++ (m ++ r)).getD 0 E.eof ≠ 40 := by rw [he]; exact h40'
  refine Eq.trans (bind_run (a := { first := nameModel p l o }) (t := { s with cur := r }) ?_) ?_
  · run
    rw [if_neg e2, bind_run (wrap_run (parseName_run E hn.1 hm _ rfl)), named_new E hn]
    exact (bind_run (occ_run E ho hr _ rfl)).trans rfl
  · run

theorem model_reads {k : CK} {d : Nat} {e : EC} {x : List Nat} (h : ModelText E k d e x) : Reads E σ k d e x := by
  induction h with
  | name hn ho =>
    intro s r fuel hr _ hs
    exact ⟨r, name_run E hn ho hr s (by rw [hs, List.append_assoc]), rfl⟩
  | @paren d ws e x hd hw hg ih =>
    intro s r fuel hr hf hs
    simp only [List.length_cons, List.length_append, List.length_nil] at hf
    obtain ⟨st, h1, h2⟩ := ih { s with cur := x ++ 41 :: r } r fuel hd (by omega) rfl
    obtain ⟨c, t, hc, hc', _⟩ := model_head E hg (41 :: r)
    refine ⟨r.dropWhile isBlank, ?_, dropWhile_twice r⟩
    unfold memberP
    run
    rw [if_pos (by rw [hs]; rfl)]
    have e1 : (List.drop 1 s.cur).dropWhile isBlank = x ++ 41 :: r := by
      rw [hs]
      simp only [List.cons_append, List.drop_succ_cons, List.drop_zero, List.append_assoc, List.nil_append]
      exact dropWhile_blank hw (by intro y hy; rw [hc] at hy; cases hy; exact hc')
    rw [e1, bind_run (wrap_run (h1.trans (close_run E h2 hr _ rfl)))]
    run
  | @parenOpt d ws e x hd hw hg he ih =>
    intro s r fuel hr hf hs
    simp only [List.length_cons, List.length_append, List.length_nil] at hf
    obtain ⟨st, h1, h2⟩ := ih { s with cur := x ++ 41 :: 63 :: r } (63 :: r) fuel hd (by omega) rfl
    obtain ⟨c, t, hc, hc', _⟩ := model_head E hg (41 :: 63 :: r)
    refine ⟨r.dropWhile isBlank, ?_, dropWhile_twice r⟩
    unfold memberP
    run
    rw [if_pos (by rw [hs]; rfl)]
    have e1 : (List.drop 1 s.cur).dropWhile isBlank = x ++ 41 :: 63 :: r := by
      rw [hs]
      simp only [List.cons_append, List.drop_succ_cons, List.drop_zero, List.append_assoc, List.nil_append]
      exact dropWhile_blank hw (by intro y hy; rw [hc] at hy; cases hy; exact hc')
    rw [e1, bind_run (wrap_run (h1.trans (close_run_opt E h2 he _ rfl)))]
    run
  | @last d b e x ws hx hw ih =>
    intro s w2 r fuel st h2 hf hst hs
    obtain ⟨f, rfl⟩ := Nat.exists_eq_succ_of_ne_zero (by omega : fuel ≠ 0)
    obtain ⟨c, t, hc, hc', _⟩ := model_head E hx (ws ++ 41 :: r)
    have hlen : 1 ≤ x.length := by
      obtain ⟨c, t, hc, _⟩ := model_head E hx []
      have := congrArg List.length hc; simp at this; omega
    simp only [List.length_append] at hf
    rw [loop_sep E (x := x) (r := ws ++ 41 :: r) (e := e) h2 hst
      (fun s' hs' => ih s' (ws ++ 41 :: r) f (MStop.blank hw (stop41 r)) (by omega) hs') ⟨c, t, hc, hc'⟩ s (by rw [hs, List.append_assoc])]
    rw [dropWhile_stop hw (by decide), loop_close E (by omega) _ rfl]
    exact ⟨_, rfl, result_ne (op_ne st _)⟩
  | @more d b e x w1 w2 e' y hx hw1 hw2 hy ih1 ih2 =>
    intro s w0 r fuel st h0 hf hst hs
    obtain ⟨f, rfl⟩ := Nat.exists_eq_succ_of_ne_zero (by omega : fuel ≠ 0)
    simp only [List.length_append, List.length_cons] at hf
    obtain ⟨c, t, hc, hc', _⟩ := model_head E hx (w1 ++ sepChar b :: (w2 ++ (y ++ 41 :: r)))
    rw [loop_sep E (x := x) (r := w1 ++ sepChar b :: (w2 ++ (y ++ 41 :: r))) (e := e) h0 hst
      (fun s' hs' => ih1 s' _ f (MStop.blank hw1 (stopSep b _)) (by omega) hs') ⟨c, t, hc, hc'⟩ s (by rw [hs]; simp)]
    rw [dropWhile_stop hw1 (sep_notWs b)]
    obtain ⟨st', h1, h2⟩ := ih2 { s with cur := sepChar b :: (w2 ++ (y ++ 41 :: r)) } w2 r f
      { { st.op (sepType b) with sep := sepChar b } with last := e } hw2 (by omega) (.inr rfl) rfl
    refine ⟨st', h1, ?_⟩
    rw [h2, op_last _ _ (model_ne E hx) rfl]
    exact buildChain_append _ _ _ _
  | @single d w p l o m ws hn ho hw =>
    intro s r fuel hd hf hs
    obtain ⟨f, rfl⟩ := Nat.exists_eq_succ_of_ne_zero (by omega : fuel ≠ 0)
    have hlen : 1 ≤ w.length := by obtain ⟨c, t, rfl, _⟩ := hn.1.start; simp
    simp only [List.length_append] at hf
    rw [parseChildren_first E hd hn ho (MStop.blank hw (stop41 r)) s (by rw [hs]; simp)]
    rw [dropWhile_stop hw (by decide), loop_close E (by omega) _ rfl]
    exact ⟨_, rfl, rfl⟩
  | @several d w p l o m b w1 w2 e y hn ho h1 h2 hy ih =>
    intro s r fuel hd hf hs
    obtain ⟨f, rfl⟩ := Nat.exists_eq_succ_of_ne_zero (by omega : fuel ≠ 0)
    simp only [List.length_append, List.length_cons] at hf
    rw [parseChildren_first E hd hn ho (MStop.blank h1 (stopSep b _)) s (by rw [hs]; simp; rfl)]
    rw [dropWhile_stop h1 (sep_notWs b)]
    obtain ⟨st', h3, h4⟩ := ih { s with cur := sepChar b :: (w2 ++ (y ++ 41 :: r)) } w2 r f { first := nameModel p l o } h2 (by omega)
      (.inl rfl) rfl
    refine ⟨st', h3, ?_⟩
    rw [h4]; rfl

/-- what may follow a content specification. -/
def MClose (r : List Nat) : Prop := ∃ c t, r = c :: t ∧ (Ws c ∨ c = 62)

theorem MClose.dropBlanks {r : List Nat} (h : MClose r) : ∃ c, r.head? = some c ∧ c ≠ 63 ∧ c ≠ 42 ∧ c ≠ 43 := by
  obtain ⟨c, t, rfl, h⟩ := h
  exact ⟨c, rfl, by unfold Ws at h; omega⟩

theorem close_run' {st : CS} {e : EC} (h : st.result = e) {r : List Nat} (hr : MClose r) (s : St σ) (hs : s.cur = 41 :: r) :
    childrenClose E st s = .ok e { s with cur := r } := by
  obtain ⟨c, t, rfl, hc⟩ := hr
  have h1 : c ≠ 63 ∧ c ≠ 42 ∧ c ≠ 43 := by unfold Ws at hc; omega
  unfold childrenClose
  run
  simp [hs, h1, h]

theorem noPrefix_head {a : Nat} {p x : List Nat} {c : Nat} {t : List Nat} (h : x = c :: t) (hc : c ≠ a) : (a :: p).isPrefixOf x = false := by
  subst h
  simp [List.isPrefixOf, Ne.symm hc]

/-- the part of `parseElementContentDecl` for element content. -/
theorem contentDecl_children {ws x r' r : List Nat} {e e' : EC} (hw : Blank ws) (hx : ModelText E .group 0 e x)
    (hc : ∀ (st : CS) (s : St σ), st.result = e → s.cur = 41 :: r' → childrenClose E st s = .ok e' { s with cur := r })
    (s : St σ) (hs : s.cur = 40 :: (ws ++ (x ++ 41 :: r'))) :
    parseElementContentDecl E s = .ok (e', 4) { s with cur := r.dropWhile isBlank } := by
  obtain ⟨c, t, hc1, hc2, hc3⟩ := model_head E hx (41 :: r')
  have e1 : (List.drop 1 s.cur).dropWhile isBlank = x ++ 41 :: r' := by
    rw [hs]; exact dropWhile_blank hw (by intro y hy; rw [hc1] at hy; cases hy; exact hc2)
  have e2 : (b!"#PCDATA").isPrefixOf (x ++ 41 :: r') = false :=
    noPrefix_head hc1 (by rintro rfl; exact (ascii_notName E (c := 35) (by decide) (by decide) (by decide)).2 (hc3 rfl))
  unfold parseElementContentDecl
  run
  rw [need_bind (by rw [hs]; rfl)]
  run
  rw [e1]
  obtain ⟨st, h1, h2⟩ := model_reads E hx { s with cur := x ++ 41 :: r' } r' ((x ++ 41 :: r').length + 2) (by decide) (by simp; omega) rfl
  refine Eq.trans (bind_run (a := (e', 4)) (t := { s with cur := r }) ?_) ?_
  · run
    simp only [e2, Bool.false_eq_true, if_false]
    rw [bind_run (wrap_run (h1.trans (hc st _ h2 rfl)))]
    rfl
  · run

/-- the part of `parseElementContentDecl` for mixed content. -/
theorem contentDecl_mixed {ws y r : List Nat} {e : EC} (hw : Blank ws) (hm : ∀ (s : St σ), s.cur = b!"#PCDATA" ++ y → parseMixed E s = .ok e { s with cur := r })
    (s : St σ) (hs : s.cur = 40 :: (ws ++ (b!"#PCDATA" ++ y))) : parseElementContentDecl E s = .ok (e, 3) { s with cur := r.dropWhile isBlank } := by
  have e1 : (List.drop 1 s.cur).dropWhile isBlank = b!"#PCDATA" ++ y := by
    rw [hs]; exact dropWhile_blank hw (by intro x hx; cases hx; decide)
  unfold parseElementContentDecl
  run
  rw [need_bind (by rw [hs]; rfl)]
  run
  rw [e1]
  refine Eq.trans (bind_run (a := (e, 3)) (t := { s with cur := r }) ?_) ?_
  · run
    rw [isPrefixOf_append]
    rw [if_pos rfl, bind_run (wrap_run (hm _ rfl))]
    rfl
  · run

theorem mixed_plain {r : List Nat} (hr : MClose r) (s : St σ) (hs : s.cur = b!"#PCDATA" ++ 41 :: r) :
    parseMixed E s = .ok (pcdataModel 1) { s with cur := r } := by
  obtain ⟨c, hc, _, h42, _⟩ := hr.dropBlanks
  obtain ⟨c', t, rfl, _⟩ := hr
  cases hc
  unfold parseMixed
  rw [bind_run (consume_run hs)]
  run
  simp [h42, pcdataModel]

theorem mixed_star {r : List Nat} (s : St σ) (hs : s.cur = b!"#PCDATA" ++ 41 :: 42 :: r) :
    parseMixed E s = .ok (pcdataModel 3) { s with cur := r } := by
  unfold parseMixed
  rw [bind_run (consume_run hs)]
  run
  simp [pcdataModel, EC.setOcc]

theorem mixed_name {w p l w1 w2 r : List Nat} (h1 : Blank w1) (h2 : Blank w2) (hn : Named E w p l) (s : St σ)
    (hs : s.cur = b!"#PCDATA" ++ 124 :: (w1 ++ (w ++ (w2 ++ 41 :: 42 :: r)))) :
    parseMixed E s = .ok (.mk 4 3 [] [] (pcdataModel 1) (nameModel p l 1)) { s with cur := r } := by
  obtain ⟨c, t, he, hc, _, _⟩ := name_head E hn.1 (w2 ++ 41 :: 42 :: r)
  have e1 : (w1 ++ (w ++ (w2 ++ 41 :: 42 :: r))).dropWhile isBlank = w ++ (w2 ++ 41 :: 42 :: r) :=
    dropWhile_blank h1 (by intro y hy; rw [he] at hy; cases hy; exact hc)
  unfold parseMixed
  rw [bind_run (consume_run hs)]
  run
  rw [if_pos trivial, if_neg (by simp), if_pos (by simp)]
  simp only [List.drop_succ_cons, List.drop_zero]
  rw [e1, bind_run (wrap_run (parseName_run E hn.1 ((MStop.blank h2 (stop41 _)).notName E) _ rfl))]
  run
  rw [dropWhile_stop h2 (by decide)]
  rw [if_neg (by simp)]
  rw [if_pos (by rfl)]
  rw [named_new E hn]
  rfl

theorem spec_run {typ : Nat} {e : EC} {x r : List Nat} (h : SpecText E typ e x) (hr : MClose r) (s : St σ) (hs : s.cur = x ++ r) :
    (do
      if (← consume b!"EMPTY") then pure (EC.nil, 1)
      else if (← consume b!"ANY") then pure (EC.nil, 2)
      else if (← peek E) = 40 then M.wrap (parseElementContentDecl E)
      else pure (EC.nil, 0) : P σ (EC × Nat)) s = .ok (e, typ) { s with cur := if x.head? = some 40 then r.dropWhile isBlank else r } := by
  have hp : ∀ {u : List Nat}, x = 40 :: u → (do
      if (← consume b!"EMPTY") then pure (EC.nil, 1)
      else if (← consume b!"ANY") then pure (EC.nil, 2)
      else if (← peek E) = 40 then M.wrap (parseElementContentDecl E)
      else pure (EC.nil, 0) : P σ (EC × Nat)) s = M.wrap (parseElementContentDecl E) s := by
    rintro u rfl
    have g1 : ∀ {a : Nat} {p : List Nat}, a ≠ 40 → ¬ (a :: p) <+: s.cur := by
      intro a p ha hp
      rw [hs] at hp
      obtain ⟨z, hz⟩ := hp
      exact ha (List.cons.inj hz).1
    rw [bind_run (consume_run_false (g1 (by decide)))]
    simp only [Bool.false_eq_true, if_false]
    rw [bind_run (consume_run_false (g1 (by decide)))]
    run
    simp [hs]
  cases h with
  | empty => rw [bind_run (consume_run hs)]; rfl
  | any =>
    rw [bind_run (consume_run_false (by rw [hs]; intro ⟨z, hz⟩; cases hz))]
    simp only [Bool.false_eq_true, if_false]
    rw [bind_run (consume_run hs)]; rfl
  | pcdata hw =>
    rw [hp rfl]
    exact wrap_run (contentDecl_mixed E hw (fun s' hs' => mixed_plain E hr s' hs') s (by rw [hs]; simp))
  | pcdataStar hw =>
    rw [hp rfl]
    exact wrap_run (contentDecl_mixed E hw (fun s' hs' => mixed_star E s' hs') s (by rw [hs]; simp))
  | mixed hw h1 h2 hn =>
    rw [hp rfl]
    exact wrap_run (contentDecl_mixed E hw (fun s' hs' => mixed_name E h1 h2 hn s' hs') s (by rw [hs]; simp))
  | children hw hx =>
    rw [hp rfl]
    exact wrap_run (contentDecl_children E hw hx (fun st s' h hs' => close_run' E h hr s' hs') s (by rw [hs]; simp))
  | childrenOpt hw hx he =>
    rw [hp rfl]
    exact wrap_run (contentDecl_children E hw hx (fun st s' h hs' => close_run_opt E h he s' hs') s (by rw [hs]; simp))

theorem element_run {n : List Nat} {typ : Nat} {e : EC} {t r : List Nat} (h : ElementText E n typ e t) (s : St σ) (hs : s.cur = t ++ r) :
    parseElementDecl E H s = cb H (.elementDecl (encodeRunes n) typ e) { s with cur := r } := by
  obtain ⟨w1, w2, w3, x, n1, h1, n2, h2, h3, hn, hx, rfl⟩ := h
  have hx0 : ∃ c t, x = c :: t ∧ ¬ Ws c := by cases hx <;> exact ⟨_, _, rfl, by decide⟩
  obtain ⟨c, t, hc, _, _, _⟩ := name_head E hn (w2 ++ (x ++ (w3 ++ 62 :: r)))
  have hcl : MClose (w3 ++ 62 :: r) := by
    cases w3 with
    | nil => exact ⟨62, r, rfl, .inr rfl⟩
    | cons a b => exact ⟨a, _, rfl, .inl (h3 a (by simp))⟩
  simp only [List.append_assoc, List.cons_append, List.nil_append] at hs
  unfold parseElementDecl
  rw [bind_run (consume_run hs)]
  rw [if_pos rfl]
  rw [bind_run (needBlanks_run E n1 h1 (by
    obtain ⟨c, t, hc, h, _⟩ := name_head E hn (w2 ++ (x ++ (w3 ++ 62 :: r)))
    intro y hy; rw [hc] at hy; cases hy; exact h) _ rfl)]
  rw [bind_run (wrap_run (parseName_run E hn (by
    obtain ⟨a, b, rfl⟩ := List.exists_cons_of_ne_nil n2
    intro y hy; cases hy; exact ws_notName E (h2 a (by simp))) _ rfl))]
  obtain ⟨a, b, rfl, ha⟩ := hx0
  rw [bind_run (needBlanks_run E n2 h2 (by intro y hy; cases hy; exact ha) _ rfl)]
  rw [bind_run (spec_run E hx hcl _ rfl)]
  run
  have e1 : (if (a :: b).head? = some 40 then List.dropWhile isBlank (w3 ++ 62 :: r) else w3 ++ 62 :: r).dropWhile isBlank = 62 :: r := by
    split
    · rw [dropWhile_twice, dropWhile_stop h3 (by decide)]
    · rw [dropWhile_stop h3 (by decide)]
  rw [e1, need_bind (by rfl)]
  rfl

end
end Helium
