import Verif.Lemmas.NameRun
import Verif.Props.Sax
/-! Nesting of content models (C36). -/
namespace Helium
open Spec
variable {σ : Type}

namespace Spec

/-- number of open parentheses after one more character. -/
def paren (k c : Nat) : Nat := if c = 40 then k + 1 else if c = 41 then k - 1 else k

/-- number of open parentheses after reading `l`, when `k` were open before. -/
def openAfter : Nat → List Nat → Nat
  | k, [] => k
  | k, c :: l => openAfter (paren k c) l

/-- greatest number of parentheses that are open at the same time while `l` is read, when `k` were open before. -/
def deepest : Nat → List Nat → Nat
  | k, [] => k
  | k, c :: l => max k (deepest (paren k c) l)

end Spec

theorem openAfter_append : ∀ (c d : List Nat) (k : Nat), openAfter k (c ++ d) = openAfter (openAfter k c) d
  | [], _, _ => rfl
  | x :: c, d, k => by simp only [List.cons_append, openAfter]; exact openAfter_append c d _

theorem deepest_append : ∀ (c d : List Nat) (k : Nat), deepest k (c ++ d) = max (deepest k c) (deepest (openAfter k c) d)
  | [], d, k => by
    cases d with
    | nil => simp [deepest, openAfter]
    | cons x d => simp only [List.nil_append, deepest, openAfter]; omega
  | x :: c, d, k => by
    simp only [List.cons_append, deepest, openAfter, deepest_append c d]
    omega

/-- reading `l` up to `r` changes the number of open parentheses from `k` to `k'` (unless the input ends) and never opens more
than 129. -/
def Seg (k k' : Nat) (l r : List Nat) : Prop := ∃ c, l = c ++ r ∧ deepest k c ≤ 129 ∧ (openAfter k c = k' ∨ r = [])

theorem Seg.trans {k k1 k2 : Nat} {l m r : List Nat} (h1 : Seg k k1 l m) (h2 : Seg k1 k2 m r) : Seg k k2 l r := by
  obtain ⟨c, rfl, h3, h4⟩ := h1
  obtain ⟨d, rfl, h5, h6⟩ := h2
  rcases h4 with h4 | h4
  · refine ⟨c ++ d, by simp, ?_, ?_⟩
    · rw [deepest_append, h4]; omega
    · rw [openAfter_append, h4]; exact h6
  · obtain ⟨rfl, rfl⟩ := List.append_eq_nil_iff.1 h4
    exact ⟨c, by simp, h3, Or.inr rfl⟩

theorem flat_open : ∀ {c : List Nat} (k : Nat), (∀ x ∈ c, x ≠ 40 ∧ x ≠ 41) → openAfter k c = k ∧ deepest k c = k
  | [], _, _ => ⟨rfl, rfl⟩
  | x :: c, k, h => by
    have hx := h x (by simp)
    have : paren k x = k := by simp [paren, hx.1, hx.2]
    obtain ⟨h1, h2⟩ := flat_open k (c := c) (fun y hy => h y (by simp [hy]))
    constructor
    · simp only [openAfter, this, h1]
    · simp only [deepest, this, h2]; omega

theorem Seg.flat {k : Nat} (hk : k ≤ 129) {c r : List Nat} (h : ∀ x ∈ c, x ≠ 40 ∧ x ≠ 41) : Seg k k (c ++ r) r := by
  obtain ⟨h1, h2⟩ := flat_open k h
  exact ⟨c, rfl, by omega, Or.inl h1⟩

theorem Seg.refl {k : Nat} (hk : k ≤ 129) (r : List Nat) : Seg k k r r := Seg.flat hk (c := []) (by simp)

theorem Seg.opening {k : Nat} (hk : k + 1 ≤ 129) (r : List Nat) : Seg k (k + 1) (40 :: r) r :=
  ⟨[40], rfl, by simp [deepest, paren]; omega, Or.inl rfl⟩

theorem Seg.closing {k : Nat} (hk : k + 1 ≤ 129) (r : List Nat) : Seg (k + 1) k (41 :: r) r :=
  ⟨[41], rfl, by simp [deepest, paren]; omega, Or.inl rfl⟩

theorem Seg.ended {k k' : Nat} (hk : k ≤ 129) : Seg k k' [] [] := ⟨[], rfl, hk, Or.inr rfl⟩

theorem nameStart_paren (E : Env) {c : Nat} (h : NameStartChar E c) : c ≠ 40 ∧ c ≠ 41 := by
  rcases h with h | h | h
  · constructor <;> rintro rfl <;> rw [E.letter_ascii _ (by decide)] at h <;> revert h <;> decide
  all_goals omega

theorem nameChar_paren (E : Env) {c : Nat} (h : NameChar E c) : c ≠ 40 ∧ c ≠ 41 := by
  rcases h with h | h | h | h | h | h
  · exact nameStart_paren E (Or.inl h)
  · constructor <;> rintro rfl <;> rw [E.digit_ascii _ (by decide)] at h <;> revert h <;> decide
  all_goals omega

theorem seg_parseName (E : Env) {s s' : St σ} {v : Bytes} (h : parseName E s = .ok v s') {k : Nat} (hk : k ≤ 129) : Seg k k s.cur s'.cur := by
  obtain ⟨cur', rfl, c, a, r, h1, -, h3, h4, -, h6, -⟩ := parseName_sound E h
  have hf : ∀ x ∈ c :: a, x ≠ 40 ∧ x ≠ 41 := by
    intro x hx
    rcases List.mem_cons.1 hx with rfl | hx
    · exact nameStart_paren E h3
    · exact nameChar_paren E (h4 x hx)
  rw [h1]
  rcases h6 with rfl | ⟨h6, rfl⟩
  · exact Seg.flat hk hf
  · cases r with
    | nil => cases h6
    | cons z r =>
      simp only [List.head?_cons, Option.some.injEq] at h6
      subst h6
      rw [show c :: a ++ 0 :: r = (c :: a ++ [0]) ++ r by simp]
      refine Seg.flat hk ?_
      intro x hx
      rcases List.mem_append.1 hx with hx | hx
      · exact hf x hx
      · simp at hx; omega

theorem seg_blanks {s : St σ} {k : Nat} (hk : k ≤ 129) : Seg k k s.cur (s.cur.dropWhile isBlank) := by
  conv => arg 3; rw [← List.takeWhile_append_dropWhile (p := isBlank) (l := s.cur)]
  refine Seg.flat hk ?_
  intro x hx
  have := List.all_eq_true.1 List.all_takeWhile x hx
  constructor <;> rintro rfl <;> revert this <;> decide

theorem skipBlanks_cur {s s' : St σ} {b : Bool} (h : (skipBlanks : P σ Bool) s = .ok b s') : s'.cur = s.cur.dropWhile isBlank := by
  have h2 : (skipBlanks : P σ Bool) s = .ok _ { s with cur := s.cur.dropWhile isBlank } := rfl
  rw [h2] at h
  injection h with _ h
  rw [← h]

theorem seg_skipBlanks {s s' : St σ} {b : Bool} (h : (skipBlanks : P σ Bool) s = .ok b s') {k : Nat} (hk : k ≤ 129) : Seg k k s.cur s'.cur := by
  rw [skipBlanks_cur h]; exact seg_blanks hk

theorem seg_adv {E : Env} {s : St σ} {c : Nat} (hc : s.cur.getD 0 E.eof = c) (h1 : c ≠ 40 ∧ c ≠ 41) {k : Nat} (hk : k ≤ 129) :
    Seg k k s.cur (s.cur.drop 1) := by
  cases hs : s.cur with
  | nil => exact Seg.refl hk _
  | cons x r =>
    rw [hs] at hc
    simp at hc
    subst hc
    exact Seg.flat (c := [x]) hk (by simpa using h1)

theorem seg_parseOccur (E : Env) {e e' : EC} {s s' : St σ} (h : parseOccur E e s = .ok e' s') {k : Nat} (hk : k ≤ 129) : Seg k k s.cur s'.cur := by
  unfold parseOccur at h
  obtain ⟨c, s1, h1, h⟩ := bind_ok.1 h
  obtain ⟨rfl, rfl⟩ := peek_ok.1 h1
  cases e with
  | nil => obtain ⟨_, rfl⟩ := pure_ok.1 h; exact Seg.refl hk _
  | mk t o n p a b =>
    simp only at h
    split at h
    · rename_i hc
      obtain ⟨_, s2, h2, h⟩ := bind_ok.1 h
      rw [adv_ok] at h2
      obtain ⟨_, rfl⟩ := pure_ok.1 h
      subst h2
      exact seg_adv hc (by omega) hk
    · split at h
      · rename_i hc
        obtain ⟨_, s2, h2, h⟩ := bind_ok.1 h
        rw [adv_ok] at h2
        obtain ⟨_, rfl⟩ := pure_ok.1 h
        subst h2
        exact seg_adv hc (by omega) hk
      · split at h
        · rename_i hc
          obtain ⟨_, s2, h2, h⟩ := bind_ok.1 h
          rw [adv_ok] at h2
          obtain ⟨_, rfl⟩ := pure_ok.1 h
          subst h2
          exact seg_adv hc (by omega) hk
        · obtain ⟨_, rfl⟩ := pure_ok.1 h; exact Seg.refl hk _

theorem seg_childrenClose (E : Env) {st : CS} {e : EC} {s s' : St σ} (h : childrenClose E st s = .ok e s') {k : Nat} (hk : k + 1 ≤ 129)
    (hs : s.cur = [] ∨ s.cur.head? = some 41) : Seg (k + 1) k s.cur s'.cur := by
  have h0 : Seg (k + 1) k s.cur (s.cur.drop 1) := by
    rcases hs with hs | hs
    · rw [hs]; exact Seg.ended hk
    · cases hc : s.cur with
      | nil => rw [hc] at hs; cases hs
      | cons x r => rw [hc] at hs; cases hs; exact Seg.closing hk r
  refine h0.trans ?_
  unfold childrenClose at h
  obtain ⟨_, s1, h1, h⟩ := bind_ok.1 h
  rw [adv_ok] at h1
  obtain ⟨c, s2, h2, h⟩ := bind_ok.1 h
  obtain ⟨rfl, rfl⟩ := peek_ok.1 h2
  have e1 : s2.cur = s.cur.drop 1 := by rw [h1]
  rw [← e1]
  have hk' : k ≤ 129 := by omega
  split at h
  · rename_i hc
    obtain ⟨_, s3, h3, h⟩ := bind_ok.1 h
    rw [adv_ok] at h3
    obtain ⟨_, rfl⟩ := pure_ok.1 h
    subst h3
    exact seg_adv hc (by omega) hk'
  · split at h
    · obtain ⟨_, rfl⟩ := pure_ok.1 h; exact Seg.refl hk' _
    · split at h
      · cases hr : st.result with
        | nil => simp only [hr] at h; exact (panic_ok.1 h).elim
        | mk t o n p a b =>
          simp only [hr] at h
          cases hg : st.ops.getLast? with
          | none => simp only [hg] at h; obtain ⟨_, rfl⟩ := pure_ok.1 h; exact Seg.refl hk' _
          | some x =>
            obtain ⟨t', c1⟩ := x
            simp only [hg] at h; obtain ⟨_, rfl⟩ := pure_ok.1 h; exact Seg.refl hk' _
      · obtain ⟨_, rfl⟩ := pure_ok.1 h; exact Seg.refl hk' _

theorem seg_member (E : Env) {s s' : St σ} {e : EC} {k : Nat} (hk : k ≤ 129)
    (h : (do
      let name ← M.wrap (parseName E)
      match newElementContent name 2 with
      | .error e => M.fail (wrapErr e)
      | .ok e => parseOccur E e : P σ EC) s = .ok e s') : Seg k k s.cur s'.cur := by
  obtain ⟨name, s1, h1, h⟩ := bind_ok.1 h
  rw [wrap_ok] at h1
  refine (seg_parseName E h1 hk).trans ?_
  cases hn : newElementContent name 2 with
  | error x => simp only [hn] at h; exact (fail_ok.1 h).elim
  | ok x => simp only [hn] at h; exact seg_parseOccur E h hk

theorem children_seg (E : Env) : ∀ (f : Nat),
    (∀ (d : Nat) (s s' : St σ) (e : EC), parseChildren E f d s = .ok e s' → Seg (d + 1) d s.cur s'.cur ∧ d ≤ 128) ∧
    (∀ (d : Nat) (st : CS) (s s' : St σ) (e : EC), d ≤ 128 → childrenLoop E f d st s = .ok e s' → Seg (d + 1) d s.cur s'.cur)
  | 0 => by
    constructor
    · intro d s s' e h; unfold parseChildren at h; exact (diverge_ok.1 h).elim
    · intro d st s s' e _ h; unfold childrenLoop at h; exact (diverge_ok.1 h).elim
  | f + 1 => by
    obtain ⟨ih1, ih2⟩ := children_seg E f
    -- a group: the opening parenthesis, blanks, the inner content, blanks
    have group : ∀ (d : Nat), d ≤ 128 → ∀ {s s1 s2 s3 s4 : St σ} {b b' : Bool} {e : EC}, s.cur.getD 0 E.eof = 40 →
        (adv 1 : P σ Unit) s = .ok () s1 → (skipBlanks : P σ Bool) s1 = .ok b s2 →
        M.wrap (parseChildren E f (d + 1)) s2 = .ok e s3 → (skipBlanks : P σ Bool) s3 = .ok b' s4 → Seg (d + 1) (d + 1) s.cur s4.cur := by
      intro d hd s s1 s2 s3 s4 b b' e hc h1 h2 h3 h4
      rw [adv_ok] at h1
      rw [wrap_ok] at h3
      obtain ⟨h5, h6⟩ := ih1 _ _ _ _ h3
      have hs : s.cur = 40 :: s1.cur := by
        subst h1
        cases hs : s.cur with
        | nil =>
          rw [hs] at hc
          simp at hc
          rcases E.eof_spec with h | h <;> omega
        | cons x r => rw [hs] at hc; simp at hc; subst hc; simp
      rw [hs]
      exact ((Seg.opening (by omega) _).trans (seg_skipBlanks h2 (by omega))).trans (h5.trans (seg_skipBlanks h4 (by omega)))
    constructor
    · intro d s s' e h
      unfold parseChildren at h
      split at h
      · exact (raw_ok.1 h).elim
      · rename_i hd
        have hd : d ≤ 128 := by omega
        refine ⟨?_, hd⟩
        have hk : d + 1 ≤ 129 := by omega
        obtain ⟨b, s1, h1, h⟩ := bind_ok.1 h
        refine (seg_skipBlanks h1 hk).trans ?_
        obtain ⟨st, s2, h2, h⟩ := bind_ok.1 h
        obtain ⟨b', s3, h3, h⟩ := bind_ok.1 h
        refine Seg.trans ?_ ((seg_skipBlanks h3 hk).trans (ih2 d st s3 s' e hd h))
        obtain ⟨c, s4, h4, h2⟩ := bind_ok.1 h2
        obtain ⟨rfl, rfl⟩ := peek_ok.1 h4
        split at h2
        · rename_i hc
          obtain ⟨_, t1, g1, h2⟩ := bind_ok.1 h2
          obtain ⟨_, t2, g2, h2⟩ := bind_ok.1 h2
          obtain ⟨_, t3, g3, h2⟩ := bind_ok.1 h2
          obtain ⟨_, t4, g4, h2⟩ := bind_ok.1 h2
          obtain ⟨_, rfl⟩ := pure_ok.1 h2
          exact group d hd hc g1 g2 g3 g4
        · obtain ⟨name, t1, g1, h2⟩ := bind_ok.1 h2
          rw [wrap_ok] at g1
          refine (seg_parseName E g1 hk).trans ?_
          cases hn : newElementContent name 2 with
          | error x => simp only [hn] at h2; exact (fail_ok.1 h2).elim
          | ok x =>
            simp only [hn] at h2
            obtain ⟨e1, t2, g2, h2⟩ := bind_ok.1 h2
            obtain ⟨_, rfl⟩ := pure_ok.1 h2
            exact seg_parseOccur E g2 hk
    · intro d st s s' e hd h
      have hk : d + 1 ≤ 129 := by omega
      unfold childrenLoop at h
      obtain ⟨b, s1, h1, h⟩ := bind_ok.1 h
      obtain ⟨rfl, rfl⟩ := isDone_ok.1 h1
      split at h
      · rename_i hb
        exact seg_childrenClose E h hk (Or.inl (by simpa using hb))
      · rename_i hb
        obtain ⟨c, s2, h2, h⟩ := bind_ok.1 h
        obtain ⟨rfl, rfl⟩ := peek_ok.1 h2
        split at h
        · rename_i hc
          refine seg_childrenClose E h hk (Or.inr ?_)
          cases hs : s2.cur with
          | nil => rw [hs] at hb; simp at hb
          | cons x r => rw [hs] at hc; simpa using hc
        · split at h
          · rename_i hc
            split at h
            · exact (cerr_ok.1 h).elim
            · obtain ⟨_, s3, h3, h⟩ := bind_ok.1 h
              rw [adv_ok] at h3
              obtain ⟨b2, s4, h4, h⟩ := bind_ok.1 h
              obtain ⟨last, s5, h5, h⟩ := bind_ok.1 h
              obtain ⟨b3, s6, h6, h⟩ := bind_ok.1 h
              have q1 : Seg (d + 1) (d + 1) s2.cur s3.cur := by
                subst h3
                exact seg_adv (E := E) rfl (by omega) hk
              refine (q1.trans (seg_skipBlanks h4 hk)).trans (Seg.trans ?_ ((seg_skipBlanks h6 hk).trans (ih2 d _ s6 s' e hd h)))
              obtain ⟨c, s7, h7, h5⟩ := bind_ok.1 h5
              obtain ⟨rfl, rfl⟩ := peek_ok.1 h7
              split at h5
              · rename_i hc
                obtain ⟨_, t1, g1, h5⟩ := bind_ok.1 h5
                obtain ⟨_, t2, g2, h5⟩ := bind_ok.1 h5
                obtain ⟨_, t3, g3, h5⟩ := bind_ok.1 h5
                obtain ⟨_, t4, g4, h5⟩ := bind_ok.1 h5
                obtain ⟨_, rfl⟩ := pure_ok.1 h5
                exact group d hd hc g1 g2 g3 g4
              · exact seg_member E hk h5
          · exact (cerr_ok.1 h).elim

/-- **C36**: a content model of children is accepted only if it nests at most 128 groups below the outermost one, i.e. while the
accepted text is read never more than 129 parentheses are open. -/
theorem C36_nesting (E : Env) {s s' : St σ} {e : EC} (h : parseElementContentDecl E s = .ok (e, 4) s') :
    ∃ text, s.cur = text ++ s'.cur ∧ deepest 0 text ≤ 129 := by
  have key : ∀ {r : EC × Nat}, r.2 = 4 → parseElementContentDecl E s = .ok r s' → Seg 0 0 s.cur s'.cur := by
    clear h
    intro r hr h
    unfold parseElementContentDecl at h
    obtain ⟨c, s1, h1, h⟩ := bind_ok.1 h
    obtain ⟨rfl, rfl⟩ := peek_ok.1 h1
    obtain ⟨_, s2, h2, h'⟩ := bind_ok.1 h
    clear h h1
    obtain ⟨h2, rfl⟩ := need_ok.1 h2
    obtain ⟨_, s3, h3, h⟩ := bind_ok.1 h'
    rw [adv_ok] at h3
    have hs : s2.cur = 40 :: s3.cur := by
      subst h3
      cases hs : s2.cur with
      | nil =>
        rw [hs] at h2
        simp at h2
        rcases E.eof_spec with h | h <;> omega
      | cons x r => rw [hs] at h2; simp at h2; subst h2; simp
    rw [hs]
    refine (Seg.opening (by omega) _).trans ?_
    obtain ⟨b, s4, h4, h⟩ := bind_ok.1 h
    refine (seg_skipBlanks h4 (by omega)).trans ?_
    obtain ⟨r', s5, h5, h⟩ := bind_ok.1 h
    obtain ⟨b', s6, h6, h⟩ := bind_ok.1 h
    obtain ⟨rfl, rfl⟩ := pure_ok.1 h
    refine Seg.trans ?_ (seg_skipBlanks h6 (by omega))
    obtain ⟨q, s7, h7, h5⟩ := bind_ok.1 h5
    obtain ⟨rfl, rfl⟩ := hasPrefix_ok.1 h7
    split at h5
    · obtain ⟨x, s8, h8, h5⟩ := bind_ok.1 h5
      obtain ⟨rfl, _⟩ := pure_ok.1 h5
      cases hr
    · obtain ⟨l, s8, h8, h5⟩ := bind_ok.1 h5
      obtain ⟨rfl, rfl⟩ := rest_ok.1 h8
      obtain ⟨x, s9, h9, h5⟩ := bind_ok.1 h5
      rw [wrap_ok] at h9
      obtain ⟨_, rfl⟩ := pure_ok.1 h5
      exact ((children_seg E _).1 _ _ _ _ h9).1
  obtain ⟨c, h1, h2, _⟩ := key rfl h
  exact ⟨c, h1, h2⟩

example : (match parseElementContentDecl env0 (initSt () Heap.empty b!"(a,(b|c),d)>") with
    | .ok (_, 4) s => s.cur
    | _ => []) = b!">" := by decide +kernel

end Helium
