import Verif.Model.Escape
import Verif.Lemmas.Utf8
import Verif.Spec.Xml
/-! Helper lemmas about escaping. -/
namespace Helium
open Spec

/-- the decoding steps (rune, width) of a byte string. -/
def decodeSteps : Nat → Bytes → List (Nat × Nat)
  | 0, _ => []
  | _ + 1, [] => []
  | n + 1, x :: t => decodeRune (x :: t) :: decodeSteps n ((x :: t).drop (decodeRune (x :: t)).2)

theorem decodeSteps_fst (n : Nat) (b : Bytes) : (decodeSteps n b).map Prod.fst = decodeRunesAux n b := by
  induction n generalizing b with
  | zero => rfl
  | succ n ih => cases b <;> simp [decodeSteps, decodeRunesAux, ih]

/-- a properly decoded rune was written as its own encoding. -/
theorem take_decodeRune (b : Bytes) (hb : b ≠ []) (h : ¬((decodeRune b).1 = 0xFFFD ∧ (decodeRune b).2 = 1)) :
    b.take (decodeRune b).2 = encodeRune (decodeRune b).1 := by
  match b, hb with
  | b0 :: t, _ =>
    simp only [decodeRune] at h ⊢
    by_cases h0 : b0 < 0x80
    · simp [h0, encodeRune]
    simp only [h0, if_false] at h ⊢
    by_cases h1 : b0 < 0xC2
    · simp [h1, runeError] at h
    simp only [h1, if_false] at h ⊢
    by_cases h2 : b0 < 0xE0
    · simp only [h2, if_true] at h ⊢
      match t with
      | [] => simp [runeError] at h
      | b1 :: _ =>
        by_cases hc : isCont b1 = true
        · simp only [hc, if_true]
          simp only [isCont, Bool.and_eq_true, decide_eq_true_eq] at hc
          have e1 : ¬ ((b0 - 0xC0) * 64 + (b1 - 0x80) < 0x80) := by omega
          have e2 : ((b0 - 0xC0) * 64 + (b1 - 0x80) < 0x800) := by omega
          simp only [encodeRune, e1, e2, if_true, if_false, List.take_succ_cons, List.take_zero, List.cons.injEq, and_true]
          omega
        · simp [hc, runeError] at h
    simp only [h2, if_false] at h ⊢
    by_cases h3 : b0 < 0xF0
    · simp only [h3, if_true] at h ⊢
      match t with
      | [] => simp [runeError] at h
      | [_] => simp [runeError] at h
      | b1 :: b2 :: _ =>
        by_cases hc : ((if b0 = 0xE0 then 0xA0 else 0x80) ≤ b1 && b1 ≤ (if b0 = 0xED then 0x9F else 0xBF) && isCont b2) = true
        · simp only [hc, if_true]
          simp only [isCont, Bool.and_eq_true, decide_eq_true_eq] at hc
          have : b0 = 0xE0 ∨ b0 ≠ 0xE0 := by omega
          have : b0 = 0xED ∨ b0 ≠ 0xED := by omega
          have k1 : (b0 = 0xE0 → 0xA0 ≤ b1) ∧ 0x80 ≤ b1 := by
            constructor
            · intro e; simp [e] at hc; omega
            · by_cases e : b0 = 0xE0 <;> simp [e] at hc <;> omega
          have k2 : (b0 = 0xED → b1 ≤ 0x9F) ∧ b1 ≤ 0xBF := by
            constructor
            · intro e; simp [e] at hc; omega
            · by_cases e : b0 = 0xED <;> simp [e] at hc <;> omega
          have k3 := hc.2
          have e1 : ¬ ((b0 - 0xE0) * 4096 + (b1 - 0x80) * 64 + (b2 - 0x80) < 0x80) := by omega
          have e2 : ¬ ((b0 - 0xE0) * 4096 + (b1 - 0x80) * 64 + (b2 - 0x80) < 0x800) := by omega
          have e3 : ¬ (0x10FFFF < (b0 - 0xE0) * 4096 + (b1 - 0x80) * 64 + (b2 - 0x80) ∨
            (0xD800 ≤ (b0 - 0xE0) * 4096 + (b1 - 0x80) * 64 + (b2 - 0x80) ∧
              (b0 - 0xE0) * 4096 + (b1 - 0x80) * 64 + (b2 - 0x80) ≤ 0xDFFF)) := by omega
          have e4 : ((b0 - 0xE0) * 4096 + (b1 - 0x80) * 64 + (b2 - 0x80) < 0x10000) := by omega
          simp only [encodeRune, e1, e2, e3, e4, if_true, if_false, List.take_succ_cons, List.take_zero, List.cons.injEq, and_true]
          omega
        · simp only [hc] at h; simp [runeError] at h
    simp only [h3, if_false] at h ⊢
    by_cases h4 : b0 < 0xF5
    · simp only [h4, if_true] at h ⊢
      match t with
      | [] => simp [runeError] at h
      | [_] => simp [runeError] at h
      | [_, _] => simp [runeError] at h
      | b1 :: b2 :: b3 :: _ =>
        by_cases hc : ((if b0 = 0xF0 then 0x90 else 0x80) ≤ b1 && b1 ≤ (if b0 = 0xF4 then 0x8F else 0xBF) && isCont b2 && isCont b3) = true
        · simp only [hc, if_true]
          simp only [isCont, Bool.and_eq_true, decide_eq_true_eq] at hc
          have k1 : (b0 = 0xF0 → 0x90 ≤ b1) ∧ 0x80 ≤ b1 := by
            constructor
            · intro e; simp [e] at hc; omega
            · by_cases e : b0 = 0xF0 <;> simp [e] at hc <;> omega
          have k2 : (b0 = 0xF4 → b1 ≤ 0x8F) ∧ b1 ≤ 0xBF := by
            constructor
            · intro e; simp [e] at hc; omega
            · by_cases e : b0 = 0xF4 <;> simp [e] at hc <;> omega
          have k3 := hc.2
          have k4 := hc.1.2
          have e1 : ¬ ((b0 - 0xF0) * 262144 + (b1 - 0x80) * 4096 + (b2 - 0x80) * 64 + (b3 - 0x80) < 0x80) := by omega
          have e2 : ¬ ((b0 - 0xF0) * 262144 + (b1 - 0x80) * 4096 + (b2 - 0x80) * 64 + (b3 - 0x80) < 0x800) := by omega
          have e3 : ¬ (0x10FFFF < (b0 - 0xF0) * 262144 + (b1 - 0x80) * 4096 + (b2 - 0x80) * 64 + (b3 - 0x80) ∨
            (0xD800 ≤ (b0 - 0xF0) * 262144 + (b1 - 0x80) * 4096 + (b2 - 0x80) * 64 + (b3 - 0x80) ∧
              (b0 - 0xF0) * 262144 + (b1 - 0x80) * 4096 + (b2 - 0x80) * 64 + (b3 - 0x80) ≤ 0xDFFF)) := by omega
          have e4 : ¬ ((b0 - 0xF0) * 262144 + (b1 - 0x80) * 4096 + (b2 - 0x80) * 64 + (b3 - 0x80) < 0x10000) := by omega
          simp only [encodeRune, e1, e2, e3, e4, if_true, if_false, List.take_succ_cons, List.take_zero, List.cons.injEq, and_true]
          omega
        · simp only [hc] at h; simp [runeError] at h
    simp [h4, runeError] at h

/-- the runes written for one decoding step by an escaping function. -/
def escRunes (f : Nat → Nat → Option Bytes) (s : Nat × Nat) : List Nat :=
  match f s.1 s.2 with
  | some e => if e = [0xEF, 0xBF, 0xBD] then [0xFFFD] else e
  | none => [s.1]

/-- what `attrEsc`/`textEsc` have in common. -/
structure EscOK (f : Nat → Nat → Option Bytes) : Prop where
  bad : ∀ w, w = 1 → f 0xFFFD w = some [0xEF, 0xBF, 0xBD]
  shape : ∀ r w e, f r w = some e → e = [0xEF, 0xBF, 0xBD] ∨ (∀ c ∈ e, c < 0x80)

theorem escLoop_eq (f) (hf : EscOK f) (n : Nat) (b : Bytes) :
    escLoop f n b = encodeRunes ((decodeSteps n b).flatMap (escRunes f)) := by
  induction n generalizing b with
  | zero => simp [escLoop, decodeSteps, encodeRunes]
  | succ n ih =>
    cases b with
    | nil => simp [escLoop, decodeSteps, encodeRunes]
    | cons x t =>
      simp only [escLoop, decodeSteps, List.flatMap_cons, encodeRunes_append, ih]
      congr 1
      unfold escRunes
      cases he : f (decodeRune (x :: t)).1 (decodeRune (x :: t)).2 with
      | some e =>
        simp only
        rcases hf.shape _ _ _ he with h | h
        · subst h; rfl
        · have : e ≠ [0xEF, 0xBF, 0xBD] := by rintro rfl; have := h 0xEF (by simp); omega
          simp only [this, if_false]
          exact (encodeRunes_ascii e h).symm
      | none =>
        simp only
        rw [take_decodeRune _ (by simp)]
        · simp [encodeRunes]
        · rintro ⟨h1, h2⟩
          rw [h1, hf.bad _ h2] at he; cases he

theorem hexUpper_ascii (r : Nat) (h : r < 0x100) : ∀ c ∈ hexUpper r, c < 0x80 := by
  unfold hexUpper hexDigit
  intro c hc
  split at hc
  · simp at hc; split at hc <;> omega
  · simp at hc
    rcases hc with hc | hc <;> split at hc <;> omega

theorem hexRef_ascii (r : Nat) (h : r < 0x100) : ∀ c ∈ hexRef r, c < 0x80 := by
  intro c hc
  unfold hexRef at hc
  simp only [List.mem_append] at hc
  rcases hc with (hc | hc) | hc
  · simp at hc; omega
  · exact hexUpper_ascii r h c hc
  · simp at hc; omega

theorem attrEsc_ok : EscOK attrEsc := by
  constructor
  · intro w hw; subst hw; decide
  · intro r w e h
    unfold attrEsc at h
    repeat' split at h
    all_goals first
      | (simp only [Option.some.injEq] at h; subst h; right; decide)
      | (simp only [Option.some.injEq] at h; subst h; left; rfl)
      | (simp only [Option.some.injEq] at h; subst h; right; exact hexRef_ascii r (by omega))
      | cases h

theorem textEsc_ok (nl : Bool) : EscOK (textEsc nl) := by
  constructor
  · intro w hw; subst hw; cases nl <;> decide
  · intro r w e h
    unfold textEsc at h
    repeat' split at h
    all_goals first
      | (simp only [Option.some.injEq] at h; subst h; right; decide)
      | (simp only [Option.some.injEq] at h; subst h; left; rfl)
      | (simp only [Option.some.injEq] at h; subst h; right; exact hexRef_ascii r (by omega))
      | cases h

/-- steps on properly encoded text. -/
theorem decodeSteps_encodeRunes (rs : List Nat) (h : ∀ r ∈ rs, isScalar r) (n : Nat) (hn : (encodeRunes rs).length ≤ n) :
    decodeSteps n (encodeRunes rs) = rs.map (fun r => (r, (encodeRune r).length)) := by
  induction rs generalizing n with
  | nil => cases n <;> simp [decodeSteps, encodeRunes]
  | cons r t ih =>
    have hne := encodeRune_ne_nil r
    have hd := decodeRune_encodeRune r (h r (by simp)) (encodeRunes t)
    rw [encodeRunes_cons] at hn ⊢
    have hl : 0 < (encodeRune r).length := List.length_pos_iff.mpr hne
    rw [List.length_append] at hn
    cases n with
    | zero => omega
    | succ n =>
      obtain ⟨x, l, hx⟩ : ∃ x l, encodeRune r ++ encodeRunes t = x :: l := by
        cases he : encodeRune r with
        | nil => exact absurd he hne
        | cons a b => exact ⟨a, b ++ encodeRunes t, by simp⟩
      rw [hx]; simp only [decodeSteps]; rw [← hx, hd]
      simp only [List.drop_left, List.map_cons]
      rw [ih (fun r hr => h r (by simp [hr]))]
      omega

/-- steps: the rune is a scalar. -/
theorem decodeSteps_scalar (n : Nat) (b : Bytes) : ∀ s ∈ decodeSteps n b, isScalar s.1 := by
  intro s hs
  have : s.1 ∈ decodeRunesAux n b := by rw [← decodeSteps_fst]; exact List.mem_map_of_mem hs
  exact decodeRunesAux_scalar n b _ this

theorem escRunes_scalar (f) (hf : EscOK f) (s : Nat × Nat) (hs : isScalar s.1) : ∀ r ∈ escRunes f s, isScalar r := by
  intro r hr
  unfold escRunes at hr
  split at hr
  · rename_i e he
    split at hr
    · simp at hr; subst hr; decide
    · rcases hf.shape _ _ _ he with h | h
      · contradiction
      · have := h r hr; left; omega
  · simp at hr; subst hr; exact hs

/-- decoding the escaped output. -/
theorem decode_escLoop (f) (hf : EscOK f) (b : Bytes) :
    decodeRunes (escLoop f b.length b) = (decodeSteps b.length b).flatMap (escRunes f) := by
  rw [escLoop_eq f hf, decodeRunes_encodeRunes]
  intro r hr
  obtain ⟨s, hs, hr⟩ := List.mem_flatMap.mp hr
  exact escRunes_scalar f hf s (decodeSteps_scalar _ _ s hs) r hr

end Helium
