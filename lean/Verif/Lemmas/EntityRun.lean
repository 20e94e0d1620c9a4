import Verif.Spec.Decl
import Verif.Lemmas.ContentRun
/-! The parser reads entity declarations as written. -/
namespace Helium
open Spec

section
variable {σ : Type} (E : Env) (H : Handler σ)

theorem digitsVal_ge (hex : Bool) : ∀ (ds : List Nat) (a n : Nat), digitsVal (refBase hex) (refDigit hex) a ds = some n → a ≤ n
  | [], a, n, h => by simp only [digitsVal, Option.some.injEq] at h; omega
  | c :: ds, a, n, h => by
    simp only [digitsVal] at h
    cases hd : refDigit hex c with
    | none => simp [hd] at h
    | some d =>
      simp only [hd] at h
      have := digitsVal_ge hex ds _ n h
      have h2 : a ≤ a * refBase hex := Nat.le_mul_of_pos_right _ (by cases hex <;> decide)
      omega

theorem strCharRefLoop_run {S : Type} (hex : Bool) (w : Bytes) (s : S) : ∀ (ds : List Nat) (a n : Nat),
    digitsVal (refBase hex) (refDigit hex) a ds = some n → n ≤ 0x10FFFF → strCharRefLoop hex a (ds ++ 59 :: w) s = .ok (n, w) s
  | [], a, n, h, hn => by
    simp only [digitsVal, Option.some.injEq] at h
    subst h
    simp [strCharRefLoop, Pure.pure, M.pure]
  | c :: ds, a, n, h, hn => by
    have hs := digitsVal_none_semi hex _ _ _ h
    have h59 : c ≠ 59 := by rintro rfl; simp at hs
    simp only [digitsVal] at h
    cases hd : refDigit hex c with
    | none => simp [hd] at h
    | some d =>
      simp only [hd] at h
      rw [List.cons_append]
      unfold strCharRefLoop
      have hge := digitsVal_ge hex _ _ _ h
      have hlt : (a * refBase hex + d) % 2 ^ 32 = a * refBase hex + d := Nat.mod_eq_of_lt (by omega)
      rw [if_neg h59, acc_eq, hd]
      simp only [Option.map_some, hlt]
      rw [if_neg (by omega)]
      exact strCharRefLoop_run hex w s ds _ n h hn

theorem refDigit_ascii {hex : Bool} {c d : Nat} (h : refDigit hex c = some d) : c < 128 := by
  have hc : ∀ c d, hexDigitVal c = some d → c < 128 := by
    intro c d h
    unfold hexDigitVal at h
    split at h
    · omega
    · split at h
      · omega
      · split at h
        · omega
        · cases h
  have hd : ∀ c d, decDigit c = some d → c < 128 := by
    intro c d h
    unfold decDigit at h
    split at h
    · omega
    · cases h
  cases hex
  · exact hd c d h
  · exact hc c d h

theorem digits_ascii {hex : Bool} : ∀ {ds : List Nat} {a n : Nat}, digitsVal (refBase hex) (refDigit hex) a ds = some n → ∀ c ∈ ds, ∃ d, refDigit hex c = some d
  | [], _, _, _ => by simp
  | c :: ds, a, n, h => by
    simp only [digitsVal] at h
    cases hd : refDigit hex c with
    | none => simp [hd] at h
    | some d =>
      simp only [hd] at h
      intro x hx
      rcases List.mem_cons.1 hx with rfl | hx
      · exact ⟨d, hd⟩
      · exact digits_ascii h x hx

theorem charRef_cases {d : List Nat} {x : Nat} (h : charRefNum d = some x) :
    (∃ ds, d = 120 :: ds ∧ digitsVal (refBase true) (refDigit true) 0 ds = some x) ∨
    (∃ c ds, d = c :: ds ∧ c ≠ 120 ∧ digitsVal (refBase false) (refDigit false) 0 (c :: ds) = some x) := by
  unfold charRefNum at h
  split at h
  · cases h
  · cases h
  · exact .inl ⟨_, rfl, h⟩
  · rename_i h1 h2 h3
    cases d with
    | nil => exact absurd rfl h1
    | cons c ds => exact .inr ⟨c, ds, rfl, fun hc => h3 ds (by rw [hc]), h⟩

/-- the characters of a reference number are ASCII letters and digits. -/
theorem charRef_chars {d : List Nat} {x : Nat} (h : charRefNum d = some x) : ∀ c ∈ d, 48 ≤ c ∧ c ≤ 57 ∨ 65 ≤ c ∧ c ≤ 70 ∨ 97 ≤ c ∧ c ≤ 102 ∨ c = 120 := by
  have hx : ∀ c d, hexDigitVal c = some d → 48 ≤ c ∧ c ≤ 57 ∨ 65 ≤ c ∧ c ≤ 70 ∨ 97 ≤ c ∧ c ≤ 102 ∨ c = 120 := by
    intro c d h
    unfold hexDigitVal at h
    split at h
    · omega
    · split at h
      · omega
      · split at h
        · omega
        · cases h
  have hd : ∀ c d, decDigit c = some d → 48 ≤ c ∧ c ≤ 57 ∨ 65 ≤ c ∧ c ≤ 70 ∨ 97 ≤ c ∧ c ≤ 102 ∨ c = 120 := by
    intro c d h
    unfold decDigit at h
    split at h
    · omega
    · cases h
  intro c hc
  rcases charRef_cases h with ⟨ds, rfl, hv⟩ | ⟨y, ds, rfl, _, hv⟩
  · rcases List.mem_cons.1 hc with rfl | hc
    · omega
    · obtain ⟨e, he⟩ := digits_ascii hv c hc
      exact hx c e he
  · obtain ⟨e, he⟩ := digits_ascii hv c hc
    exact hd c e he

theorem parseStringCharRef_run {S : Type} {d : List Nat} {x : Nat} (h : charRefNum d = some x) (hx : Legal x) (w : Bytes) (s : S) :
    parseStringCharRef (38 :: 35 :: (d ++ 59 :: w)) s = .ok (x, w) s := by
  have hle : x ≤ 0x10FFFF := by have := hx.1; unfold XmlChar at this; omega
  rcases charRef_cases h with ⟨ds, rfl, hv⟩ | ⟨c, ds, rfl, hc, hv⟩
  · simp only [parseStringCharRef, List.cons_append, if_true]
    rw [bind_run (strCharRefLoop_run true w s ds 0 x hv hle)]
    rw [if_pos hx.isChar]; rfl
  · simp only [parseStringCharRef, List.cons_append]
    rw [if_neg hc]
    rw [bind_run (show strCharRefLoop false 0 (c :: (ds ++ 59 :: w)) s = _ from strCharRefLoop_run false w s (c :: ds) 0 x hv hle)]
    rw [if_pos hx.isChar]; rfl

/-- bytes that mean nothing are copied. -/
theorem decodePE_copy {S : Type} (s : S) (w v : Bytes) : ∀ (u : Bytes), (∀ c ∈ u, c ≠ 38 ∧ c ≠ 37) →
    (∀ fuel, w.length < fuel → decodePE fuel w s = .ok v s) → ∀ fuel, (u ++ w).length < fuel → decodePE fuel (u ++ w) s = .ok (u ++ v) s
  | [], _, h => h
  | c :: u, hu, h => by
    intro fuel hf
    cases fuel with
    | zero => cases hf
    | succ fuel =>
      obtain ⟨h1, h2⟩ := hu c (by simp)
      rw [List.cons_append]
      unfold decodePE
      rw [if_neg (fun h => h1 h.1), if_neg h2]
      rw [bind_run (decodePE_copy s w v u (fun c hc => hu c (by simp [hc])) h fuel (by simpa using hf))]
      rfl

/-- the value of an entity is what its literal stands for. -/
theorem decodePE_run {S : Type} {q : Nat} {l v : List Nat} (h : EntValue E q l v) (s : S) :
    ∀ fuel, (encodeRunes l).length < fuel → decodePE fuel (encodeRunes l) s = .ok (encodeRunes v) s := by
  induction h with
  | nil =>
    intro fuel hf
    cases fuel with
    | zero => cases hf
    | succ fuel => rfl
  | @char c l v hl h1 h2 h3 h4 hv ih =>
    rw [encodeRunes_cons, encodeRunes_cons]
    refine decodePE_copy s _ _ _ (fun x hx => ⟨?_, ?_⟩) ih
    · rintro rfl
      exact h3 ((mem_encodeRune_ascii c 38 (by decide)).1 hx).symm
    · rintro rfl
      exact h2 ((mem_encodeRune_ascii c 37 (by decide)).1 hx).symm
  | @ref n l v hn hl hv ih =>
    have e1 : ∀ l, encodeRunes (38 :: (n ++ 59 :: l)) = 38 :: ((encodeRunes n ++ [59]) ++ encodeRunes l) := by
      intro l
      rw [encodeRunes_cons, encodeRunes_append, encodeRunes_cons, encodeRune_ascii 38 (by decide), encodeRune_ascii 59 (by decide)]
      simp
    rw [e1, e1]
    have hm : ∀ x, x < 128 → ¬ NameChar E x → x ∉ encodeRunes n := by
      intro x hx hnc hmem
      exact hnc (hn.chars x ((mem_encodeRunes_ascii n x hx).1 hmem))
    intro fuel hf
    cases fuel with
    | zero => cases hf
    | succ fuel =>
      unfold decodePE
      rw [if_neg, if_neg (by decide)]
      · rw [bind_run (decodePE_copy s _ _ (encodeRunes n ++ [59]) (fun x hx => ?_) ih fuel (by simpa using hf))]
        · rfl
        · rcases List.mem_append.1 hx with hx | hx
          · exact ⟨fun h => hm 38 (by decide) (ascii_notName E (by decide) (by decide) (by decide)).2 (h ▸ hx),
              fun h => hm 37 (by decide) (ascii_notName E (by decide) (by decide) (by decide)).2 (h ▸ hx)⟩
          · simp at hx; subst hx; decide
      · rintro ⟨_, h2⟩
        have hne : encodeRunes n ≠ [] := by
          obtain ⟨c, t, rfl, _⟩ := hn.start
          rw [encodeRunes_cons]
          intro h
          exact encodeRune_ne_nil c (List.append_eq_nil_iff.1 h).1
        obtain ⟨c, t, hc⟩ := List.exists_cons_of_ne_nil hne
        rw [hc] at h2
        simp at h2
        exact hm 35 (by decide) (ascii_notName E (by decide) (by decide) (by decide)).2 (by rw [hc, h2]; simp)
  | @charRef d x l v hd hx hv ih =>
    have hch := charRef_chars hd
    have e1 : encodeRunes (38 :: 35 :: (d ++ 59 :: l)) = 38 :: 35 :: (d ++ 59 :: encodeRunes l) := by
      rw [encodeRunes_cons, encodeRunes_cons, encodeRunes_append, encodeRunes_cons, encodeRune_ascii 38 (by decide), encodeRune_ascii 35 (by decide),
        encodeRune_ascii 59 (by decide), encodeRunes_ascii d (fun c hc => by have := hch c hc; omega)]
      rfl
    rw [e1]
    intro fuel hf
    cases fuel with
    | zero => cases hf
    | succ fuel =>
      unfold decodePE
      rw [if_pos ⟨rfl, rfl⟩]
      rw [bind_run (parseStringCharRef_run hd hx _ s)]
      have hf' : (encodeRunes l).length < fuel := by simp at hf; omega
      simp only
      rw [bind_run (ih fuel hf'), encodeRunes_cons]
      rfl

theorem Spec.EntValue.plain {q : Nat} (hq : q = 34 ∨ q = 39) {l v : List Nat} (h : EntValue E q l v) : ∀ c ∈ l, isChar c = true ∧ c ≠ q := by
  have hascii : ∀ c : Nat, 48 ≤ c ∧ c ≤ 57 ∨ 65 ≤ c ∧ c ≤ 70 ∨ 97 ≤ c ∧ c ≤ 102 ∨ c = 120 ∨ c = 38 ∨ c = 35 ∨ c = 59 → isChar c = true ∧ c ≠ q := by
    intro c hc
    refine ⟨?_, by omega⟩
    apply Legal.isChar
    refine ⟨?_, by omega⟩
    unfold XmlChar
    omega
  induction h with
  | nil => simp
  | @char c l v hl h1 h2 h3 h4 hv ih =>
    intro x hx
    rcases List.mem_cons.1 hx with rfl | hx
    · exact ⟨hl.isChar, h1⟩
    · exact ih x hx
  | @ref n l v hn hl hv ih =>
    intro x hx
    simp only [List.mem_cons, List.mem_append] at hx
    rcases hx with rfl | hx | rfl | hx
    · exact hascii _ (by omega)
    · refine ⟨(hl x hx).isChar, ?_⟩
      rintro rfl
      have := hn.chars x hx
      rcases hq with rfl | rfl
      · exact (ascii_notName E (by decide) (by decide) (by decide)).2 this
      · exact (ascii_notName E (by decide) (by decide) (by decide)).2 this
    · exact hascii _ (by omega)
    · exact ih x hx
  | @charRef d y l v hd hy hv ih =>
    have hch := charRef_chars hd
    intro x hx
    simp only [List.mem_cons, List.mem_append] at hx
    rcases hx with rfl | rfl | hx | rfl | hx
    · exact hascii _ (by omega)
    · exact hascii _ (by omega)
    · exact hascii _ (by have := hch x hx; omega)
    · exact hascii _ (by omega)
    · exact ih x hx

theorem parseEntityValue_run {q : Nat} (hq : q = 34 ∨ q = 39) {l v r : List Nat} (h : EntValue E q l v) (s : St σ) (hs : s.cur = q :: (l ++ q :: r)) :
    parseEntityValue E s = .ok (encodeRunes l, encodeRunes v) { s with cur := r } := by
  have hp := h.plain E hq
  unfold parseEntityValue
  run
  rw [hs]
  simp only [List.getD_cons_zero, List.drop_succ_cons, List.drop_zero]
  have ht : (l ++ q :: r).takeWhile (fun c => isChar c && c != q) = l := by
    rw [List.takeWhile_append_of_pos (by intro c hc; simp [hp c hc])]
    simp
  have h1 : parseEntityValueInternal q ({ s with cur := l ++ q :: r } : St σ) = .ok (encodeRunes l) { s with cur := q :: r } := by
    unfold parseEntityValueInternal
    run
    simp only [ht]
    simp
  rw [bind_run h1]
  run
  rw [if_pos (show (q :: r).getD 0 E.eof = q from rfl)]
  rw [bind_run (wrap_run (decodePE_run E h _ _ (Nat.lt_succ_self _)))]
  rfl

end
end Helium
