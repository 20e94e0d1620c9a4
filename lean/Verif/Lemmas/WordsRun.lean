import Verif.Props.Small
/-! Words of a value, read from left to right. -/
namespace Helium

/-- one more byte: complete words, and the word being read. -/
def wstep (st : List Bytes × Bytes) (c : Nat) : List Bytes × Bytes :=
  if c = 32 then (if st.2 = [] then st else (st.1 ++ [st.2], [])) else (st.1, st.2 ++ [c])

/-- at the end of the value. -/
def wfin (st : List Bytes × Bytes) : List Bytes := st.1 ++ (if st.2 = [] then [] else [st.2])

/-- the state after reading `b`. -/
def wst (b : Bytes) : List Bytes × Bytes := b.foldl wstep ([], [])

theorem words_fold : ∀ (t : Bytes) (ws : List Bytes) (acc : Bytes), ws ++ words acc t = wfin (t.foldl wstep (ws, acc.reverse))
  | [], ws, acc => by cases acc <;> simp [words, wfin]
  | c :: t, ws, acc => by
    rw [List.foldl_cons]
    by_cases hc : c = 32
    · cases acc with
      | nil => simpa [words, wstep, hc] using words_fold t ws []
      | cons a acc => simpa [words, wstep, hc] using words_fold t (ws ++ [acc.reverse ++ [a]]) []
    · have := words_fold t ws (c :: acc)
      cases acc with
      | nil => simpa [words, wstep, hc] using this
      | cons a acc => simpa [words, wstep, hc] using this

theorem words_wst (b : Bytes) : words [] b = wfin (wst b) := words_fold b [] []

theorem wst_append (a b : Bytes) : wst (a ++ b) = b.foldl wstep (wst a) := by unfold wst; rw [List.foldl_append]

theorem wfin_space (st : List Bytes × Bytes) : wfin (wstep st 32) = wfin st := by
  unfold wstep wfin
  by_cases h : st.2 = [] <;> simp [h]

theorem wst_last {b : Bytes} (h : b.getLast? = some 32) : (wst b).2 = [] := by
  obtain ⟨a, rfl⟩ : ∃ a, b = a ++ [32] := by
    have hne : b ≠ [] := by rintro rfl; cases h
    refine ⟨b.dropLast, ?_⟩
    have := List.dropLast_concat_getLast hne
    rw [List.getLast?_eq_some_getLast hne] at h
    rw [Option.some.inj h] at this
    exact this.symm
  rw [wst_append]
  simp only [List.foldl_cons, List.foldl_nil, wstep, if_true]
  split <;> simp_all

theorem wstep_idem {st : List Bytes × Bytes} (h : st.2 = []) : wstep st 32 = st := by simp [wstep, h]

theorem foldl_word : ∀ (x : Bytes) (st : List Bytes × Bytes), 32 ∉ x → x.foldl wstep st = (st.1, st.2 ++ x)
  | [], st, _ => by simp
  | c :: x, st, h => by
    simp only [List.mem_cons, not_or] at h
    rw [List.foldl_cons, foldl_word x _ h.2]
    simp [wstep, Ne.symm h.1]

theorem unwords_snoc : ∀ (ws : List Bytes) (w : Bytes), ws ≠ [] → unwords (ws ++ [w]) = unwords ws ++ 32 :: w
  | [x], w, _ => rfl
  | x :: y :: ws, w, _ => by
    have := unwords_snoc (y :: ws) w (by simp)
    simp only [List.cons_append] at this ⊢
    simp [unwords, this]

/-- `b` is the words of `st` with single spaces between, and one at the end if `sp`. -/
structure Canon (st : List Bytes × Bytes) (b : Bytes) (sp : Bool) : Prop where
  text : b = unwords (wfin st) ++ (if sp then [32] else [])
  after : sp = true → st.2 = [] ∧ st.1 ≠ []
  inside : sp = false → st.2 = [] → st.1 = []

theorem Canon.start : Canon ([], []) [] false := ⟨rfl, by simp, by simp⟩

theorem Canon.space {st : List Bytes × Bytes} {b : Bytes} (h : Canon st b false) (hb : b ≠ []) : Canon (wstep st 32) (b ++ [32]) true := by
  have h2 : st.2 ≠ [] := by
    intro h2
    have := h.inside rfl h2
    rw [h.text] at hb
    simp [wfin, this, h2, unwords] at hb
  refine ⟨?_, fun _ => ?_, by simp⟩
  · rw [wfin_space, h.text]; simp
  · simp [wstep, h2]

theorem Canon.word {st : List Bytes × Bytes} {b x : Bytes} {sp : Bool} (h : Canon st b sp) (hx : x ≠ []) : Canon (st.1, st.2 ++ x) (b ++ x) false := by
  refine ⟨?_, by simp, fun _ => by simp [hx]⟩
  rw [h.text]
  unfold wfin
  cases sp with
  | true =>
    obtain ⟨h1, h2⟩ := h.after rfl
    simp only [h1, if_true, List.append_nil, List.nil_append, hx, if_false]
    rw [unwords_snoc _ _ h2]
    simp
  | false =>
    by_cases h2 : st.2 = []
    · have h1 := h.inside rfl h2
      simp [h1, h2, hx, unwords]
    · by_cases h1 : st.1 = []
      · simp [h1, h2, unwords]
      · simp only [h2, if_false]
        rw [unwords_snoc _ _ h1]
        simp [h2, unwords_snoc _ _ h1]

theorem trimRight_eq (b : Bytes) : ∃ k, b = trimRight b ++ List.replicate k 32 := by
  unfold trimRight
  have h := List.takeWhile_append_dropWhile (p := (· == 32)) (l := b.reverse)
  refine ⟨(b.reverse.takeWhile (· == 32)).length, ?_⟩
  have h1 : b.reverse.takeWhile (· == 32) = List.replicate (b.reverse.takeWhile (· == 32)).length 32 := by
    rw [List.eq_replicate_iff]
    refine ⟨rfl, fun x hx => ?_⟩
    have key : ∀ l : List Nat, x ∈ l.takeWhile (· == 32) → x = 32 := by
      intro l
      induction l with
      | nil => intro h; cases h
      | cons c l ih =>
        intro h
        rw [List.takeWhile_cons] at h
        split at h
        · rename_i hc
          rcases List.mem_cons.1 h with rfl | h
          · simpa using hc
          · exact ih h
        · cases h
    exact key _ hx
  have h2 := congrArg List.reverse h
  rw [List.reverse_append, List.reverse_reverse] at h2
  conv => lhs; rw [← h2]
  congr 1
  conv => lhs; rw [h1]
  simp

theorem wfin_spaces (st : List Bytes × Bytes) : ∀ k, wfin ((List.replicate k 32).foldl wstep st) = wfin st
  | 0 => rfl
  | k + 1 => by rw [List.replicate_succ', List.foldl_append]; simp only [List.foldl_cons, List.foldl_nil]; rw [wfin_space, wfin_spaces st k]

theorem words_trim (b : Bytes) : words [] (trimRight b) = words [] b := by
  obtain ⟨k, hk⟩ := trimRight_eq b
  conv => rhs; rw [hk]
  rw [words_wst, words_wst, wst_append, wfin_spaces]

theorem words_nil {b : Bytes} (h : words [] b = []) : ∀ c ∈ b, c = 32 := by
  have key : ∀ (b : Bytes) (st : List Bytes × Bytes), wfin (b.foldl wstep st) = [] → ∀ c ∈ b, c = 32 := by
    intro b
    induction b with
    | nil => intro _ _ c hc; cases hc
    | cons x b ih =>
      intro st hst c hc
      rcases List.mem_cons.1 hc with rfl | hc
      · apply Classical.byContradiction
        intro hn
        have mono : ∀ (b : Bytes) (st : List Bytes × Bytes), wfin st ≠ [] → wfin (b.foldl wstep st) ≠ [] := by
          intro b
          induction b with
          | nil => intro st h; exact h
          | cons y b ih =>
            intro st h
            refine ih _ ?_
            unfold wstep
            by_cases hy : y = 32
            · by_cases h2 : st.2 = []
              · simpa [hy, h2] using h
              · simp [hy, h2, wfin]
            · simp [hy, wfin]
        exact mono b _ (by simp [wstep, hn, wfin]) hst
      · exact ih _ hst c hc
  rw [words_wst] at h
  exact key b _ h

theorem words_spaces {b : Bytes} (h : ∀ c ∈ b, c = 32) : words [] b = [] := by
  have : b = List.replicate b.length 32 := List.eq_replicate_iff.2 ⟨rfl, h⟩
  rw [this, words_wst, wst]
  rw [wfin_spaces]
  rfl

theorem trimRight_unwords (ws : List Bytes) (h : ∀ w ∈ ws, w ≠ [] ∧ 32 ∉ w) : trimRight (unwords ws ++ [32]) = unwords ws := by
  unfold trimRight
  rw [List.reverse_append]
  have h1 : ([32] : Bytes).reverse ++ (unwords ws).reverse = 32 :: (unwords ws).reverse := rfl
  rw [h1, List.dropWhile_cons_of_pos (by rfl)]
  have h2 := unwords_last ws h
  cases hu : (unwords ws).reverse with
  | nil => rw [List.reverse_eq_nil_iff.1 hu]; rfl
  | cons c t =>
    have hc : c ≠ 32 := by
      rintro rfl
      apply h2
      have := congrArg List.reverse hu
      rw [List.reverse_reverse] at this
      rw [this]; simp
    rw [List.dropWhile_cons_of_neg (by simpa using hc), ← hu, List.reverse_reverse]

end Helium
