import Verif.Lemmas.Run
import Verif.Lemmas.Utf8
import Verif.Model.Parser.Lex
import Verif.Spec.Name
/-! Exact behaviour of the name functions. -/
namespace Helium
open Spec
section
variable {σ : Type} (E : Env)

theorem letter_range {c : Nat} (h : E.isLetter c = true) : c ≠ 0 ∧ c ≠ 32 ∧ c ≠ 62 ∧ c ≠ 47 ∧ c ≠ 58 ∧ c ≠ 0xFFFD := by
  have h2 := (E.letter_scalar c h).2
  by_cases hc : c < 128
  · rw [E.letter_ascii c hc] at h
    simp at h
    omega
  · omega

theorem digit_range {c : Nat} (h : E.isDigit c = true) : c ≠ 0 ∧ c ≠ 32 ∧ c ≠ 62 ∧ c ≠ 47 ∧ c ≠ 58 ∧ c ≠ 0xFFFD := by
  have h2 := (E.digit_scalar c h).2
  by_cases hc : c < 128
  · rw [E.digit_ascii c hc] at h
    simp at h
    omega
  · omega

theorem nameChar_range {c : Nat} (h : NameChar E c) : c ≠ 0 ∧ c ≠ 32 ∧ c ≠ 62 ∧ c ≠ 47 ∧ c ≠ 0xFFFD := by
  rcases h with h | h | h | h | h | h
  · have := letter_range E h; omega
  · have := digit_range E h; omega
  all_goals omega

theorem nameCh_iff (c : Nat) : nameCh E c = true ↔ NameChar E c := by
  constructor
  · intro h
    unfold nameCh at h
    simp at h
    unfold NameChar
    grind
  · intro h
    have := nameChar_range E h
    unfold nameCh
    unfold NameChar at h
    simp
    grind

theorem ncNameCh_iff (c : Nat) : ncNameCh E c = true ↔ NameChar E c ∧ c ≠ 58 := by
  constructor
  · intro h
    unfold ncNameCh at h
    simp at h
    unfold NameChar
    rcases h with (((h | h) | h) | h) | h
    · exact ⟨Or.inl h, (letter_range E h).2.2.2.2.1⟩
    · exact ⟨Or.inr (Or.inl h), (digit_range E h).2.2.2.2.1⟩
    all_goals (subst h; simp)
  · rintro ⟨h, hn⟩
    unfold ncNameCh
    unfold NameChar at h
    simp
    grind

/-- what the name loop accepts and where it stops. -/
theorem nameScan_sound (ok : Nat → Bool) (eof : Nat) (t : List Nat) : ∀ i, ∃ r, t = (nameScan ok eof i t).1 ++ r ∧
    (∀ c ∈ (nameScan ok eof i t).1, ok c = true ∧ c ≠ 0) ∧
    ((r.head? = some 0 ∨ (r = [] ∧ eof = 0)) ∧ (nameScan ok eof i t).2 = i + (nameScan ok eof i t).1.length ∨
     ((∃ c, r.head? = some c ∧ c ≠ 0 ∧ ok c = false) ∨ (r = [] ∧ eof ≠ 0)) ∧
        (nameScan ok eof i t).2 = i + (nameScan ok eof i t).1.length - 1) := by
  induction t with
  | nil =>
    intro i
    unfold nameScan
    by_cases h : eof = 0 <;> simp [h]
  | cons c t ih =>
    intro i
    unfold nameScan
    by_cases h : c = 0
    · simp [h]
    · by_cases hk : ok c = true
      · simp only [h, if_false, hk, if_true]
        obtain ⟨r, h1, h2, h3⟩ := ih (i + 1)
        refine ⟨r, ?_, ?_, ?_⟩
        · simpa using h1
        · intro x hx
          rcases List.mem_cons.1 hx with rfl | hx
          · exact ⟨hk, h⟩
          · exact h2 x hx
        · rcases h3 with ⟨h4, h5⟩ | ⟨h4, h5⟩
          · exact Or.inl ⟨h4, by rw [h5]; simp only [List.length_cons]; omega⟩
          · exact Or.inr ⟨h4, by rw [h5]; simp only [List.length_cons]; omega⟩
      · simp only [h, if_false, hk]
        exact ⟨c :: t, by simp, by simp, Or.inr ⟨Or.inl ⟨c, rfl, h, by simpa using hk⟩, by simp⟩⟩

/-- the name loop on a name followed by something that ends it. -/
theorem nameScan_run (ok : Nat → Bool) (eof : Nat) (a r : List Nat) (ha : ∀ c ∈ a, ok c = true ∧ c ≠ 0)
    (hr : ∀ c, r.head? = some c → c ≠ 0 ∧ ok c = false) : ∀ i, (nameScan ok eof i (a ++ r)).1 = a ∧
    ((nameScan ok eof i (a ++ r)).2 = i + a.length - 1 ∨ (r = [] ∧ (nameScan ok eof i (a ++ r)).2 = i + a.length)) := by
  induction a with
  | nil =>
    intro i
    cases r with
    | nil => unfold nameScan; by_cases h : eof = 0 <;> simp [h]
    | cons c r =>
      obtain ⟨h1, h2⟩ := hr c rfl
      simp [nameScan, h1, h2]
  | cons c a ih =>
    intro i
    obtain ⟨h1, h2⟩ := ha c (by simp)
    obtain ⟨h3, h4⟩ := ih (fun x hx => ha x (by simp [hx])) (i + 1)
    rw [List.cons_append]
    unfold nameScan
    simp only [h2, if_false, h1, if_true]
    refine ⟨by rw [h3], ?_⟩
    rcases h4 with h4 | ⟨h5, h4⟩
    · left; rw [h4]; simp only [List.length_cons]; omega
    · right; exact ⟨h5, by rw [h4]; simp only [List.length_cons]; omega⟩

/-- shape of an accepted name. -/
def NameParsed (start chr : Nat → Prop) (cur : List Nat) (v : Bytes) (cur' : List Nat) : Prop :=
  ∃ c a r, cur = c :: a ++ r ∧ v = encodeRunes (c :: a) ∧ start c ∧ (∀ x ∈ a, chr x) ∧ a.length < 49999 + 1 ∧
    (cur' = r ∨ (r.head? = some 0 ∧ cur' = r.tail)) ∧ (∀ x, r.head? = some x → ¬ (chr x ∧ x ≠ 0))

theorem parseName_sound {s s' : St σ} {v : Bytes} (h : parseName E s = .ok v s') :
    ∃ cur', s' = { s with cur := cur' } ∧ NameParsed (NameStartChar E) (NameChar E) s.cur v cur' := by
  unfold parseName at h
  obtain ⟨r, t, h1, h⟩ := bind_ok.1 h
  obtain ⟨rfl, rfl⟩ := rest_ok.1 h1
  cases hc : t.cur with
  | nil => simp only [hc] at h; exact (cerr_ok.1 h).elim
  | cons c u =>
    simp only [hc] at h
    split at h
    · exact (cerr_ok.1 h).elim
    · rename_i h2
      split at h
      · exact (cerr_ok.1 h).elim
      · rename_i h3
        obtain ⟨_, s1, h4, h⟩ := bind_ok.1 h
        obtain ⟨rfl, rfl⟩ := pure_ok.1 h
        rw [adv_ok] at h4
        subst h4
        refine ⟨_, rfl, ?_⟩
        obtain ⟨r, hr1, hr2, hr3⟩ := nameScan_sound (nameCh E) E.eof u 2
        generalize hg : nameScan (nameCh E) E.eof 2 u = g at *
        refine ⟨c, g.1, r, by rw [List.cons_append, ← hr1], rfl, ?_, fun x hx => (nameCh_iff E x).1 (hr2 x hx).1, ?_, ?_, ?_⟩
        · unfold NameStartChar
          simp at h2
          grind
        · omega
        · rw [hc, hr1]
          rcases hr3 with ⟨h5, h6⟩ | ⟨h5, h6⟩
          · rw [h6, show 2 + g.1.length = g.1.length + 1 + 1 by omega, List.drop_succ_cons,
              show g.1.length + 1 = (g.1.length + 1) by rfl, ← List.drop_drop (i := 1), List.drop_left']
            · rcases h5 with h5 | ⟨h5, _⟩
              · right; exact ⟨h5, by simp⟩
              · left; simp [h5]
            · rfl
          · left
            rw [h6, show 2 + g.1.length - 1 = g.1.length + 1 by omega, List.drop_succ_cons, List.drop_left' rfl]
        · intro x hx ⟨h7, h8⟩
          rcases hr3 with ⟨h5, h6⟩ | ⟨h5, h6⟩
          · rcases h5 with h5 | ⟨h5, _⟩
            · rw [h5] at hx; cases hx; exact h8 rfl
            · rw [h5] at hx; cases hx
          · rcases h5 with ⟨y, h5, h9, h10⟩ | ⟨h5, _⟩
            · rw [h5] at hx; cases hx
              rw [(nameCh_iff E x).2 h7] at h10; cases h10
            · rw [h5] at hx; cases hx

theorem parseNCName_sound {s s' : St σ} {v : Bytes} (h : parseNCName E s = .ok v s') :
    ∃ cur', s' = { s with cur := cur' } ∧ NameParsed (NameStartChar E) (fun c => NameChar E c ∧ c ≠ 58) s.cur v cur' := by
  unfold parseNCName at h
  obtain ⟨r, t, h1, h⟩ := bind_ok.1 h
  obtain ⟨rfl, rfl⟩ := rest_ok.1 h1
  cases hc : t.cur with
  | nil => simp only [hc] at h; exact (cerr_ok.1 h).elim
  | cons c u =>
    simp only [hc] at h
    split at h
    · exact (cerr_ok.1 h).elim
    · rename_i h2
      split at h
      · exact (cerr_ok.1 h).elim
      · rename_i h3
        obtain ⟨_, s1, h4, h⟩ := bind_ok.1 h
        obtain ⟨rfl, rfl⟩ := pure_ok.1 h
        rw [adv_ok] at h4
        subst h4
        refine ⟨_, rfl, ?_⟩
        obtain ⟨r, hr1, hr2, hr3⟩ := nameScan_sound (ncNameCh E) E.eof u 2
        generalize hg : nameScan (ncNameCh E) E.eof 2 u = g at *
        refine ⟨c, g.1, r, by rw [List.cons_append, ← hr1], rfl, ?_, fun x hx => (ncNameCh_iff E x).1 (hr2 x hx).1, ?_, ?_, ?_⟩
        · unfold NameStartChar
          simp [isNameStart] at h2
          grind
        · omega
        · rw [hc, hr1]
          rcases hr3 with ⟨h5, h6⟩ | ⟨h5, h6⟩
          · rw [h6, show 2 + g.1.length = g.1.length + 1 + 1 by omega, List.drop_succ_cons,
              ← List.drop_drop (i := 1), List.drop_left']
            · rcases h5 with h5 | ⟨h5, _⟩
              · right; exact ⟨h5, by simp⟩
              · left; simp [h5]
            · rfl
          · left
            rw [h6, show 2 + g.1.length - 1 = g.1.length + 1 by omega, List.drop_succ_cons, List.drop_left' rfl]
        · intro x hx ⟨h7, h8⟩
          rcases hr3 with ⟨h5, h6⟩ | ⟨h5, h6⟩
          · rcases h5 with h5 | ⟨h5, _⟩
            · rw [h5] at hx; cases hx; exact h8 rfl
            · rw [h5] at hx; cases hx
          · rcases h5 with ⟨y, h5, h9, h10⟩ | ⟨h5, _⟩
            · rw [h5] at hx; cases hx
              rw [(ncNameCh_iff E x).2 h7] at h10; cases h10
            · rw [h5] at hx; cases hx

/-- running `parseName` on a name. -/
theorem parseName_run {n r : List Nat} (hn : Name E n) (hr : ∀ c, r.head? = some c → c ≠ 0 ∧ ¬ NameChar E c) (s : St σ)
    (hs : s.cur = n ++ r) : parseName E s = .ok (encodeRunes n) { s with cur := r } := by
  obtain ⟨c, a, rfl, hc⟩ := hn.start
  have hch := hn.chars
  have hlen := hn.short
  have hcc := nameChar_range E (hch c (by simp))
  unfold parseName
  simp only [Bind.bind, M.bind, rest, hs, List.cons_append]
  have h1 : ¬ (c = 32 ∨ c = 62 ∨ c = 47 ∨ (!(E.isLetter c || c == 95 || c == 58)) = true) := by
    unfold NameStartChar at hc
    simp
    grind
  obtain ⟨h2, h3⟩ := nameScan_run (nameCh E) E.eof a r
    (fun x hx => ⟨(nameCh_iff E x).2 (hch x (by simp [hx])), (nameChar_range E (hch x (by simp [hx]))).1⟩)
    (fun x hx => ⟨(hr x hx).1, by
      have := mt (nameCh_iff E x).1 (hr x hx).2
      simpa using this⟩) 2
  simp only [List.length_cons] at hlen
  have h4 : ¬ (nameScan (nameCh E) E.eof 2 (a ++ r)).2 > 50000 := by rcases h3 with h3 | ⟨_, h3⟩ <;> rw [h3] <;> omega
  simp only [h1, if_false, h4, h2, M.bind, adv, M.modify, Pure.pure, M.pure, hs]
  congr 2
  rcases h3 with h3 | ⟨rfl, h3⟩
  · rw [h3, show 2 + a.length - 1 = a.length + 1 by omega, List.cons_append, List.drop_succ_cons, List.drop_left' rfl]
  · rw [h3]; simp; omega

/-- running `parseNCName` on a name without colon. -/
theorem parseNCName_run {n r : List Nat} (hn : NCName E n) (hr : ∀ c, r.head? = some c → c ≠ 0 ∧ (NameChar E c → c = 58)) (s : St σ)
    (hs : s.cur = n ++ r) : parseNCName E s = .ok (encodeRunes n) { s with cur := r } := by
  obtain ⟨c, a, rfl, hc⟩ := hn.start
  have hch := hn.chars
  have hlen := hn.short
  have hcc := nameChar_range E (hch c (by simp)).1
  unfold parseNCName
  simp only [Bind.bind, M.bind, rest, hs, List.cons_append]
  have h1 : ¬ (c = 32 ∨ c = 62 ∨ c = 47 ∨ (!(isNameStart E c)) = true) := by
    simp [isNameStart]
    grind
  obtain ⟨h2, h3⟩ := nameScan_run (ncNameCh E) E.eof a r
    (fun x hx => ⟨(ncNameCh_iff E x).2 (hch x (by simp [hx])), (nameChar_range E (hch x (by simp [hx])).1).1⟩)
    (fun x hx => ⟨(hr x hx).1, by
      have := mt (ncNameCh_iff E x).1 (fun h => h.2 ((hr x hx).2 h.1))
      simpa using this⟩) 2
  simp only [List.length_cons] at hlen
  have h4 : ¬ (nameScan (ncNameCh E) E.eof 2 (a ++ r)).2 > 50000 := by rcases h3 with h3 | ⟨_, h3⟩ <;> rw [h3] <;> omega
  simp only [h1, if_false, h4, h2, M.bind, adv, M.modify, Pure.pure, M.pure, hs]
  congr 2
  rcases h3 with h3 | ⟨rfl, h3⟩
  · rw [h3, show 2 + a.length - 1 = a.length + 1 by omega, List.cons_append, List.drop_succ_cons, List.drop_left' rfl]
  · rw [h3]; simp; omega

theorem eof_ne (c : Nat) (h : c ≠ 0 ∧ c ≠ 0xFFFD) : E.eof ≠ c := by
  rcases E.eof_spec with h1 | h1 <;> omega

/-- running `parseQName` on a name without prefix. -/
theorem parseQName_run {n r : List Nat} (hn : NCName E n) (hr : ∀ c, r.head? = some c → c ≠ 0 ∧ ¬ NameChar E c) (s : St σ)
    (hs : s.cur = n ++ r) : parseQName E s = .ok (encodeRunes n, []) { s with cur := r } := by
  have h1 := parseNCName_run E hn (fun c hc => ⟨(hr c hc).1, fun h => absurd h (hr c hc).2⟩) s hs
  have h2 : r.getD 0 E.eof ≠ 58 := by
    cases r with
    | nil => exact eof_ne E 58 (by decide)
    | cons c r =>
      intro h
      have h : c = 58 := h
      exact (hr c rfl).2 (by unfold NameChar; simp [h])
  unfold parseQName
  simp only [Bind.bind, M.bind, M.attempt, h1, peek, peekN, Nat.sub_self, ne_eq, h2, not_false_eq_true, if_true, Pure.pure, M.pure]

/-- running `parseQName` on a name with prefix. -/
theorem parseQName_run_prefixed {p n r : List Nat} (hp : NCName E p) (hn : NCName E n)
    (hr : ∀ c, r.head? = some c → c ≠ 0 ∧ (NameChar E c → c = 58)) (s : St σ)
    (hs : s.cur = p ++ 58 :: (n ++ r)) : parseQName E s = .ok (encodeRunes n, encodeRunes p) { s with cur := r } := by
  have h1 := parseNCName_run E hp (r := 58 :: (n ++ r)) (fun c hc => by cases hc; exact ⟨by decide, fun _ => rfl⟩) s hs
  have h3 := parseNCName_run E hn hr { s with cur := n ++ r } rfl
  unfold parseQName
  simp only [Bind.bind, M.bind, M.attempt, h1, peek, peekN, Nat.sub_self, List.getD_cons_zero, ne_eq, not_true_eq_false, if_false,
    adv, M.modify, List.drop_succ_cons, List.drop_zero, h3, Pure.pure, M.pure]

end
end Helium
