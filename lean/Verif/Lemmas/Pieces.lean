import Verif.Lemmas.EntLogic
import Verif.Lemmas.TotalLex
import Verif.Spec.Pieces
/-! Values made of characters and references: trimmed and split at spaces. -/
namespace Helium
open Spec
section
variable (E : Env) {tr : List (Ev × HOut)}

theorem piece_text {p : Piece} (h : p.Ok E tr) (hp : p ≠ .chr 32) : p.text ≠ [] ∧ 32 ∉ p.text := by
  cases p with
  | chr c =>
    have hc : c ≠ 32 := fun e => hp (by rw [e])
    show heldAs c ≠ [] ∧ 32 ∉ heldAs c
    unfold heldAs
    split
    · exact ⟨by decide, by decide⟩
    · exact ⟨encodeRune_ne_nil c, fun hm => hc ((mem_encodeRune_ascii c 32 (by decide)).1 hm).symm⟩
  | ref n =>
    refine ⟨by simp [Piece.text], ?_⟩
    obtain ⟨⟨c, t, rfl, h1, h2⟩, _⟩ := h
    unfold Piece.text
    simp only [List.mem_cons, List.mem_append, mem_encodeRunes_ascii _ 32 (by decide)]
    rintro (h | h | h)
    · cases h
    · rcases h with h | h
      · subst h
        rcases h1 with h1 | h1 | h1
        · have := letter_range E h1; omega
        · cases h1
        · cases h1
      · exact (nameChar_range E (h2 32 h)).2.1 rfl
    · rcases h with h | h
      · cases h
      · cases h

theorem Spec.Woven.nil : Woven E tr [] := ⟨[], rfl, by simp⟩

variable {E}

theorem Spec.Woven.mono {v : Bytes} {m : List (Ev × HOut)} (h : Woven E tr v) : Woven E (tr ++ m) v := by
  obtain ⟨l, h1, h2⟩ := h
  refine ⟨l, h1, fun p hp => ?_⟩
  have := h2 p hp
  cases p with
  | chr c => exact this
  | ref n => exact ⟨this.1, declared_mono this.2⟩

theorem Spec.Woven.snoc {v : Bytes} (h : Woven E tr v) {p : Piece} (hp : p.Ok E tr) : Woven E tr (v ++ p.text) := by
  obtain ⟨l, rfl, h2⟩ := h
  refine ⟨l ++ [p], by simp, fun q hq => ?_⟩
  rcases List.mem_append.1 hq with hq | hq
  · exact h2 q hq
  · rw [List.mem_singleton] at hq; subst hq; exact hp

theorem Spec.Woven.chr {v : Bytes} (h : Woven E tr v) {c : Nat} (hc : Legal c) : Woven E tr (v ++ if c = 38 then b!"&#38;" else encodeRune c) :=
  h.snoc (p := .chr c) hc

theorem Spec.Woven.trim {v : Bytes} (h : Woven E tr v) : Woven E tr (trimRight v) := by
  obtain ⟨l, rfl, hl⟩ := h
  have key : ∀ u : List Piece, (∀ p ∈ u, p.Ok E tr) → Woven E tr (trimRight (u.reverse.flatMap Piece.text)) := by
    intro u
    induction u with
    | nil => intro _; exact Woven.nil E
    | cons p u ih =>
      intro hu
      rw [List.reverse_cons, List.flatMap_append, List.flatMap_cons, List.flatMap_nil, List.append_nil]
      by_cases hp : p = .chr 32
      · subst hp
        rw [show Piece.text (.chr 32) = [32] from rfl, trimRight_space]
        exact ih (fun q hq => hu q (List.mem_cons_of_mem _ hq))
      · obtain ⟨hx0, hm⟩ := piece_text E (hu p (by simp)) hp
        have : trimRight (u.reverse.flatMap Piece.text ++ p.text) = u.reverse.flatMap Piece.text ++ p.text := by
          generalize p.text = x at *
          unfold trimRight
          rw [List.reverse_append]
          cases hr : x.reverse with
          | nil => exact absurd (List.reverse_eq_nil_iff.1 hr) hx0
          | cons y ys =>
            have hy : y ≠ 32 := by
              rintro rfl
              exact hm (List.mem_reverse.1 (by rw [hr]; simp))
            rw [List.cons_append, List.dropWhile_cons_of_neg (by simpa using hy), ← List.cons_append, ← hr, ← List.reverse_append, List.reverse_reverse]
        rw [this]
        exact ⟨u.reverse ++ [p], by simp, fun q hq => hu q (by simpa [or_comm] using hq)⟩
  have := key l.reverse (fun p hp => hl p (List.mem_reverse.1 hp))
  rwa [List.reverse_reverse] at this

theorem Spec.Woven.append {v w : Bytes} (h : Woven E tr v) (k : Woven E tr w) : Woven E tr (v ++ w) := by
  obtain ⟨l, rfl, hl⟩ := h
  obtain ⟨l', rfl, hl'⟩ := k
  exact ⟨l ++ l', by simp, fun q hq => (List.mem_append.1 hq).elim (hl q) (hl' q)⟩

theorem words_woven : ∀ (l : List Piece) (acc : Bytes), (∀ p ∈ l, p.Ok E tr) → Woven E tr acc.reverse →
    ∀ x ∈ words acc (l.flatMap Piece.text), Woven E tr x
  | [], acc, _, ha, x, hx => by
    cases acc with
    | nil => cases hx
    | cons a acc => simp only [List.flatMap_nil, words, List.mem_singleton] at hx; subst hx; exact ha
  | p :: l, acc, hl, ha, x, hx => by
    rw [List.flatMap_cons] at hx
    have hl' : ∀ p ∈ l, p.Ok E tr := fun q hq => hl q (List.mem_cons_of_mem _ hq)
    by_cases hp : p = .chr 32
    · subst hp
      rw [show Piece.text (.chr 32) = [32] from rfl, List.cons_append, List.nil_append] at hx
      cases acc with
      | nil =>
        simp only [words, if_true] at hx
        exact words_woven l [] hl' (Woven.nil E) x hx
      | cons a acc =>
        simp only [words, if_true, List.mem_cons] at hx
        rcases hx with rfl | hx
        · exact ha
        · exact words_woven l [] hl' (Woven.nil E) x hx
    · rw [words_run _ _ _ (piece_text E (hl p (by simp)) hp).2] at hx
      refine words_woven l _ hl' ?_ x hx
      rw [List.reverse_append, List.reverse_reverse]
      exact ha.snoc (hl p (by simp))

theorem unwords_woven : ∀ ws : List Bytes, (∀ x ∈ ws, Woven E tr x) → Woven E tr (unwords ws)
  | [], _ => Woven.nil E
  | [w], h => h w (by simp)
  | w :: x :: ws, h => by
    have := unwords_woven (x :: ws) (fun y hy => h y (List.mem_cons_of_mem _ hy))
    have h2 := ((h w (by simp)).snoc (p := .chr 32) (show Legal 32 by decide)).append this
    rw [List.append_assoc] at h2
    exact h2

theorem Spec.Woven.normal {v x : Bytes} {S : Type} {s s' : S} (h : Woven E tr v) (hx : attrNormalizeSpace v s = .ok x s') : Woven E tr x := by
  by_cases hv : v = [] ∨ ∃ c ∈ v, c ≠ 32
  · rw [C43_normalize_partial v s hv] at hx
    cases hx
    obtain ⟨l, rfl, hl⟩ := h
    exact unwords_woven _ (words_woven l [] hl (Woven.nil E))
  · have hn : v ≠ [] := fun he => hv (Or.inl he)
    have ha : ∀ c ∈ v, c = 32 := fun c hc => Classical.byContradiction (fun hx => hv (Or.inr ⟨c, hc, hx⟩))
    rw [C43_spaces_panic v s hn ha] at hx
    cases hx

/-- without references it is a text of legal characters. -/
theorem Spec.Woven.chars {v : Bytes} (h : Woven E tr v) (hn : ∀ n, ¬ Declared tr n) : ∃ w, v = reported w ∧ ∀ c ∈ w, Legal c := by
  obtain ⟨l, rfl, hl⟩ := h
  induction l with
  | nil => exact ⟨[], rfl, by simp⟩
  | cons p l ih =>
    obtain ⟨w, h1, h2⟩ := ih (fun q hq => hl q (List.mem_cons_of_mem _ hq))
    have hp := hl p (by simp)
    cases p with
    | ref n => exact absurd hp.2 (hn _)
    | chr c =>
      refine ⟨c :: w, ?_, fun x hx => ?_⟩
      · rw [List.flatMap_cons, h1, reported_cons]; rfl
      · rcases List.mem_cons.1 hx with rfl | hx
        · exact hp
        · exact h2 x hx

end
end Helium
