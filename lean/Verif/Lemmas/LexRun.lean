import Verif.Lemmas.NameRun
import Verif.Lemmas.Forward
import Verif.Lemmas.SaxPhases
import Verif.Spec.Xml
/-! Exact behaviour of the scanning loops for comments, processing instructions, character data and character references. -/
namespace Helium
open Spec

theorem isPrefixOf_append (l r : List Nat) : l.isPrefixOf (l ++ r) = true := by
  rw [List.isPrefixOf_iff_prefix]; exact List.prefix_append l r

theorem isPrefixOf_elim {l c : List Nat} (h : l.isPrefixOf c = true) : c = l ++ c.drop l.length := by
  rw [List.isPrefixOf_iff_prefix] at h
  obtain ⟨r, rfl⟩ := h
  simp

section
variable {σ : Type} (E : Env) (H : Handler σ)

theorem consume_run {l r : List Nat} {s : St σ} (h : s.cur = l ++ r) : consume l s = .ok true { s with cur := r } := by
  unfold consume
  rw [h, isPrefixOf_append]
  simp

theorem consume_run_false {l : List Nat} {s : St σ} (h : ¬ l <+: s.cur) : consume l s = .ok false s := by
  unfold consume
  have : l.isPrefixOf s.cur = false := by
    cases hb : l.isPrefixOf s.cur
    · rfl
    · exact absurd (List.isPrefixOf_iff_prefix.1 hb) h
  rw [this]
  simp

theorem consume_true {l : List Nat} {s s' : St σ} (h : consume l s = .ok true s') : ∃ r, s.cur = l ++ r ∧ s' = { s with cur := r } := by
  rcases consume_ok.1 h with ⟨_, h1, h2⟩ | ⟨h1, _⟩
  · exact ⟨_, isPrefixOf_elim h1, h2⟩
  · cases h1

/-! ### comments -/

/-- what the comment loop accepts. -/
theorem commentLoop_sound : ∀ (t : List Nat) (q r : Nat) (l : List Nat), commentLoop q r t = some l →
    ∃ t' b x y, t = l ++ t' ∧ (∀ c ∈ l, isChar c = true) ∧ q :: r :: l = b ++ [x, y] ∧ ¬ [45, 45] <:+: b ++ [x] ∧
      (t' = [] ∨ ∃ c u, t' = c :: u ∧ (isChar c = false ∨ (x = 45 ∧ y = 45 ∧ c = 62)))
  | [], q, r, l, h => by
    simp [commentLoop] at h
    subst h
    refine ⟨[], [], q, r, rfl, by simp, rfl, ?_, Or.inl rfl⟩
    intro h
    have := h.length_le
    simp at this
  | c :: t, q, r, l, h => by
    unfold commentLoop at h
    split at h
    · rename_i h1
      split at h
      · cases h
      · rename_i h2
        cases hl : commentLoop r c t with
        | none => simp [hl] at h
        | some l0 =>
          simp [hl] at h
          subst h
          obtain ⟨t', b, x, y, h3, h4, h5, h6, h7⟩ := commentLoop_sound t r c l0 hl
          refine ⟨t', q :: b, x, y, by rw [h3]; rfl, ?_, by rw [h5]; rfl, ?_, h7⟩
          · intro d hd
            rcases List.mem_cons.1 hd with rfl | hd
            · exact h1.1
            · exact h4 d hd
          · intro h8
            rw [List.cons_append, List.infix_cons_iff] at h8
            rcases h8 with h8 | h8
            · obtain ⟨z, hz⟩ := h8
              have h9 : (b ++ [x, y]).head? = some r := by rw [← h5]; rfl
              cases b with
              | nil => simp at hz h9; exact h2 ⟨hz.1.symm, by rw [← h9]; exact hz.2.1.symm⟩
              | cons d b => simp at hz h9; exact h2 ⟨hz.1.symm, by rw [← h9]; exact hz.2.1.symm⟩
            · exact h6 h8
    · rename_i h1
      simp at h
      subst h
      refine ⟨c :: t, [], q, r, rfl, by simp, rfl, ?_, Or.inr ⟨c, t, rfl, ?_⟩⟩
      · intro h
        have := h.length_le
        simp at this
      · cases hc : isChar c
        · exact Or.inl rfl
        · right
          rw [hc] at h1
          simpa using h1

/-- the comment loop on a proper comment. -/
theorem commentLoop_run (w : List Nat) : ∀ (l b : List Nat) (q r : Nat), q :: r :: l = b ++ [45, 45] → (∀ c ∈ b, isChar c = true) →
    ¬ [45, 45] <:+: b ++ [45] → commentLoop q r (l ++ 62 :: w) = some l
  | [], b, q, r, h, _, _ => by
    have : b = [] := by
      have := congrArg List.length h
      simp at this
      exact this
    subst this
    simp at h
    simp [commentLoop, h]
  | c :: l, b, q, r, h, hb, hn => by
    cases b with
    | nil => simp at h
    | cons d b =>
      simp at h
      obtain ⟨rfl, h⟩ := h
      have h1 : ¬ (q = 45 ∧ r = 45) := by
        rintro ⟨rfl, rfl⟩
        apply hn
        rw [List.cons_append]
        apply List.IsPrefix.isInfix
        cases b with
        | nil => exact ⟨[], by simp⟩
        | cons d b => simp at h; rw [← h.1]; exact ⟨b ++ [45], by simp⟩
      have h2 : isChar c = true := by
        have : c ∈ b ++ [45, 45] := by rw [← h]; simp
        rcases List.mem_append.1 this with h3 | h3
        · exact hb c (by simp [h3])
        · simp at h3; subst h3; decide
      have h3 : ¬ (q = 45 ∧ r = 45 ∧ c = 62) := fun h3 => h1 ⟨h3.1, h3.2.1⟩
      have h4 := commentLoop_run w l b r c h (fun c hc => hb c (by simp [hc])) (fun h5 => hn (by
        rw [List.cons_append, List.infix_cons_iff]; exact Or.inr h5))
      rw [List.cons_append]
      unfold commentLoop
      rw [if_pos ⟨h2, h3⟩, if_neg h1, h4]
      rfl

theorem encodeRunes_drop2 (b : List Nat) : (encodeRunes (b ++ [45, 45])).take ((encodeRunes (b ++ [45, 45])).length - 2) = encodeRunes b := by
  rw [encodeRunes_append]
  have : encodeRunes [45, 45] = [45, 45] := by decide
  rw [this]
  simp

/-- a proper comment is reported with exactly its body. -/
theorem parseComment_run {b w : List Nat} (hb : ∀ c ∈ b, isChar c = true) (hn : ¬ [45, 45] <:+: b ++ [45]) (s : St σ)
    (hs : s.cur = b!"<!--" ++ (b ++ (b!"-->" ++ w))) :
    parseComment H s = cb H (.comment (replaceCRLF (encodeRunes b))) { s with cur := w } := by
  unfold parseComment
  rw [bind_run (consume_run hs)]
  simp only [if_true]
  run
  obtain ⟨q, r, l, hl⟩ : ∃ q r l, b ++ [45, 45] = q :: r :: l := by
    match b with
    | [] => exact ⟨_, _, _, rfl⟩
    | [x] => exact ⟨_, _, _, rfl⟩
    | x :: y :: z => exact ⟨_, _, _, rfl⟩
  have h1 : b ++ (b!"-->" ++ w) = q :: r :: (l ++ 62 :: w) := by
    have : b ++ (b!"-->" ++ w) = (b ++ [45, 45]) ++ 62 :: w := by simp
    rw [this, hl]
    rfl
  have hc : ∀ c ∈ q :: r :: l, isChar c = true := by
    rw [← hl]
    intro c hc
    rcases List.mem_append.1 hc with h | h
    · exact hb c h
    · simp at h; subst h; decide
  have h2 := commentLoop_run w l b q r hl.symm hb hn
  rw [h1]
  dsimp only
  rw [need_bind (hc q (by simp)), need_bind (hc r (by simp)), h2]
  run
  rw [← hl, encodeRunes_drop2]
  simp

/-- every accepted comment is a proper one reported with its body, or was cut short by the end of the input or an illegal
character. -/
theorem parseComment_sound {u : List Nat} {s s' : St σ} (hs : s.cur = b!"<!--" ++ u) (h : parseComment H s = .ok () s') :
    (∃ b w, u = b ++ (b!"-->" ++ w) ∧ (∀ c ∈ b, isChar c = true) ∧ ¬ [45, 45] <:+: b ++ [45] ∧
      cb H (.comment (replaceCRLF (encodeRunes b))) { s with cur := w } = .ok () s') ∨
    (∃ l t, u = l ++ t ∧ (∀ c ∈ l, isChar c = true) ∧ ¬ [45, 45] <:+: l.dropLast ∧ (∀ c, t.head? = some c → isChar c = false) ∧
      ∃ d, cb H (.comment d) { s with cur := t.drop 1 } = .ok () s') := by
  unfold parseComment at h
  rw [bind_run (consume_run hs)] at h
  simp only [if_true] at h
  run at h
  match u, h with
  | [], h => exact (cerr_ok.1 h).elim
  | [_], h => exact (cerr_ok.1 h).elim
  | q :: r :: t, h =>
    simp only at h
    obtain ⟨_, s1, h1, h⟩ := bind_ok.1 h
    obtain ⟨hq, rfl⟩ := need_ok.1 h1
    obtain ⟨_, s1, h1, h⟩ := bind_ok.1 h
    obtain ⟨hr, rfl⟩ := need_ok.1 h1
    cases hl : commentLoop q r t with
    | none => simp only [hl] at h; exact (cerr_ok.1 h).elim
    | some l =>
      simp only [hl] at h
      run at h
      obtain ⟨t', b, x, y, h1, h2, h3, h4, h5⟩ := commentLoop_sound t q r l hl
      have hall : ∀ c ∈ q :: r :: l, isChar c = true := by
        intro c hc
        rcases List.mem_cons.1 hc with rfl | hc
        · exact hq
        · rcases List.mem_cons.1 hc with rfl | hc
          · exact hr
          · exact h2 c hc
      have hright : ∀ c, (∀ d, t'.head? = some d → isChar d = false) → c = () → (∃ l t', q :: r :: t = l ++ t' ∧ (∀ c ∈ l, isChar c = true) ∧ ¬ [45, 45] <:+: l.dropLast ∧ (∀ c, t'.head? = some c → isChar c = false) ∧
          ∃ d, cb H (.comment d) { s with cur := t'.drop 1 } = .ok () s') := by
        intro _ hd _
        refine ⟨q :: r :: l, t', by rw [h1]; rfl, hall, ?_, hd,
          replaceCRLF ((encodeRunes (q :: r :: l)).take ((encodeRunes (q :: r :: l)).length - 2)), ?_⟩
        case refine_2 =>
          rw [← h, h1, show l.length + 3 = l.length + 1 + 2 by omega, List.drop_succ_cons, List.drop_succ_cons, ← List.drop_drop, List.drop_left' rfl]
        rw [h3]
        have : (b ++ [x, y]).dropLast = b ++ [x] := by
          rw [show b ++ [x, y] = (b ++ [x]) ++ [y] by simp, List.dropLast_concat]
        rw [this]
        exact h4
      rcases h5 with rfl | ⟨c, v, rfl, h5⟩
      · right; exact hright () (by simp) rfl
      · rcases h5 with h5 | ⟨rfl, rfl, rfl⟩
        · right; exact hright () (by simp [h5]) rfl
        · left
          refine ⟨b, v, ?_, fun c hc => hall c (by rw [h3]; simp [hc]), h4, ?_⟩
          · have : q :: r :: t = (q :: r :: l) ++ 62 :: v := by rw [h1]; rfl
            rw [this, h3]
            simp
          · rw [← h, h3, encodeRunes_drop2, h1]
            simp

/-! ### processing instructions -/

theorem piScan_sound : ∀ u : List Nat, ∃ t, u = piScan u ++ t ∧ (∀ c ∈ piScan u, isChar c = true) ∧ ¬ [63, 62] <:+: piScan u ∧
    (∀ c, t.head? = some c → c = 0 ∨ isChar c = false ∨ [63, 62] <+: t)
  | [] => ⟨[], by simp [piScan]⟩
  | c :: u => by
    unfold piScan
    split
    · exact ⟨c :: u, by simp [*]⟩
    · split
      · rename_i h
        refine ⟨c :: u, by simp, by simp, by simp, ?_⟩
        intro d _
        right; right
        cases u with
        | nil => simp at h
        | cons e u => simp at h; rw [h.1, h.2]; exact ⟨u, rfl⟩
      · split
        · rename_i h1 h2 h3
          obtain ⟨t, h4, h5, h6, h7⟩ := piScan_sound u
          refine ⟨t, by rw [List.cons_append, ← h4], ?_, ?_, h7⟩
          · intro d hd
            rcases List.mem_cons.1 hd with rfl | hd
            · exact h3
            · exact h5 d hd
          · intro h8
            rw [List.infix_cons_iff] at h8
            rcases h8 with h8 | h8
            · obtain ⟨z, hz⟩ := h8
              simp at hz
              apply h2
              refine ⟨hz.1.symm, ?_⟩
              rw [h4, ← hz.2]
              rfl
            · exact h6 h8
        · rename_i h1 h2 h3
          exact ⟨c :: u, by simp, by simp, by simp, by intro d hd; cases hd; simp at h3; exact Or.inr (Or.inl h3)⟩

theorem isChar_pos {c : Nat} (h : isChar c = true) : c ≠ 0 := by
  rintro rfl; revert h; decide

theorem piScan_run (w : List Nat) : ∀ d : List Nat, (∀ c ∈ d, isChar c = true) → ¬ [63, 62] <:+: d → piScan (d ++ 63 :: 62 :: w) = d
  | [], _, _ => by simp [piScan]
  | c :: d, h, hn => by
    have h1 := h c (by simp)
    have h2 := isChar_pos h1
    have h3 : ¬ (c = 63 ∧ (d ++ 63 :: 62 :: w).head? = some 62) := by
      rintro ⟨rfl, h4⟩
      cases d with
      | nil => simp at h4
      | cons e d =>
        simp at h4
        subst h4
        exact hn (List.IsPrefix.isInfix ⟨d, rfl⟩)
    rw [List.cons_append]
    unfold piScan
    rw [if_neg h2, if_neg h3, if_pos h1, piScan_run w d (fun c hc => h c (by simp [hc])) (fun h4 => hn (by
      rw [List.infix_cons_iff]; exact Or.inr h4))]

/-! ### character data -/

theorem cdScan_sound (eof : Nat) (cd : Bool) : ∀ (u l : List Nat), cdScan eof cd u = .ok l → ∃ t, u = l ++ t ∧
    (cd = false → ∀ c ∈ l, isChar c = true ∧ c ≠ 60 ∧ c ≠ 38) ∧ ¬ b!"]]>" <:+: l ∧
    (∀ c, t.head? = some c → c = 0 ∨ (cd = true ∧ b!"]]>" <+: t) ∨ (cd = false ∧ (c = 60 ∨ c = 38 ∨ isChar c = false)))
  | [], l, h => by
    unfold cdScan at h
    split at h
    · cases h
    · cases h; exact ⟨[], by simp⟩
  | c :: u, l, h => by
    unfold cdScan at h
    split at h
    · cases h; exact ⟨c :: u, by simp [*]⟩
    · split at h
      · rename_i h1 h2
        cases h
        refine ⟨c :: u, by simp, by simp, by simp, ?_⟩
        intro d hd
        cases hd
        exact Or.inr (Or.inr h2)
      · split at h
        · rename_i h1 h2 h3
          cases cd
          · cases h
          · cases h
            refine ⟨c :: u, by simp, by simp, by simp, ?_⟩
            intro d _
            right; left
            refine ⟨rfl, ?_⟩
            obtain ⟨h4, h5, h6⟩ := h3
            match u, h5, h6 with
            | e :: f :: u, h5, h6 =>
              simp at h5 h6
              subst h4 h5 h6
              exact ⟨u, rfl⟩
        · rename_i h1 h2 h3
          cases hl : cdScan eof cd u with
          | hang => rw [hl] at h; cases h
          | misplaced => rw [hl] at h; cases h
          | ok l0 =>
            rw [hl] at h
            cases h
            obtain ⟨t, h4, h5, h6, h7⟩ := cdScan_sound eof cd u l0 hl
            refine ⟨t, by rw [h4]; rfl, ?_, ?_, h7⟩
            · intro hc d hd
              rcases List.mem_cons.1 hd with rfl | hd
              · simp [hc] at h2
                simpa [and_assoc, and_comm] using h2
              · exact h5 hc d hd
            · intro h8
              rw [List.infix_cons_iff] at h8
              rcases h8 with h8 | h8
              · obtain ⟨z, hz⟩ := h8
                apply h3
                simp at hz
                rw [h4, ← hz.2]
                exact ⟨hz.1.symm, rfl, rfl⟩
              · exact h6 h8

theorem cdScan_run_cdata (eof : Nat) (w : List Nat) : ∀ l : List Nat, (∀ c ∈ l, c ≠ 0) → ¬ b!"]]>" <:+: l ++ b!"]]" →
    cdScan eof true (l ++ (b!"]]>" ++ w)) = .ok l
  | [], _, _ => by simp [cdScan]
  | c :: l, h, hn => by
    have h1 := h c (by simp)
    have h2 : ¬ (c = 93 ∧ (l ++ (b!"]]>" ++ w)).head? = some 93 ∧ (l ++ (b!"]]>" ++ w)).tail.head? = some 62) := by
      rintro ⟨rfl, h4, h5⟩
      match l, h4, h5 with
      | [], _, h5 => simp at h5
      | [d], h4, h5 => simp at h5
      | d :: e :: l, h4, h5 =>
        simp at h4 h5
        subst h4 h5
        exact hn (List.IsPrefix.isInfix ⟨l ++ b!"]]", by simp⟩)
    rw [List.cons_append]
    unfold cdScan
    rw [if_neg h1, if_neg (by simp), if_neg h2, cdScan_run_cdata eof w l (fun c hc => h c (by simp [hc])) (fun h4 => hn (by
      rw [List.cons_append, List.infix_cons_iff]; exact Or.inr h4))]
    rfl

/-- character data followed by markup, a reference or the end. -/
theorem cdScan_run_text (eof : Nat) (w : List Nat) (hw : ∀ c, w.head? = some c → c = 60 ∨ c = 38) :
    ∀ l : List Nat, (∀ c ∈ l, isChar c = true ∧ c ≠ 60 ∧ c ≠ 38) → ¬ b!"]]>" <:+: l → cdScan eof false (l ++ w) = .ok l
  | [], _, _ => by
    cases w with
    | nil => simp [cdScan]
    | cons c w =>
      have := hw c rfl
      have h0 : c ≠ 0 := by omega
      simp only [List.nil_append]
      unfold cdScan
      rw [if_neg h0, if_pos ⟨rfl, by rcases this with h | h <;> simp [h]⟩]
  | c :: l, h, hn => by
    obtain ⟨h1, h1a, h1b⟩ := h c (by simp)
    have h2 : ¬ (c = 93 ∧ (l ++ w).head? = some 93 ∧ (l ++ w).tail.head? = some 62) := by
      rintro ⟨rfl, h4, h5⟩
      match l, h4, h5 with
      | [], h4, h5 => have := hw 93 h4; omega
      | [d], h4, h5 =>
        have := hw 62 (by simpa using h5)
        omega
      | d :: e :: l, h4, h5 =>
        simp at h4 h5
        subst h4 h5
        exact hn (List.IsPrefix.isInfix ⟨l, by simp⟩)
    rw [List.cons_append]
    unfold cdScan
    rw [if_neg (isChar_pos h1), if_neg (by simp [h1, h1a, h1b]), if_neg h2, cdScan_run_text eof w hw l (fun c hc => h c (by simp [hc])) (fun h4 => hn (by
      rw [List.infix_cons_iff]; exact Or.inr h4))]
    rfl

end
end Helium
