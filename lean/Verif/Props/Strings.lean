import Verif.Model.Parser.Strings
import Verif.Model.StdEnv
import Verif.Lemmas.Total
/-! # Parameter entity references between tokens, and references in strings (C70) -/
namespace Helium

section
variable {σ : Type} (E : Env) (H : Handler σ)

/-- **C70**: a `%` between tokens is left alone: no state of the parser makes `handlePEReference` consume anything, make a callback or panic,
as long as `external` is not set, whatever the number of inputs. -/
theorem C70_handle (st : PState) (inputs : Nat) (s : St σ) :
    handlePEReference E H st false inputs s = .ok () s ∨ ∃ e, handlePEReference E H st false inputs s = .err e s := by
  unfold handlePEReference
  simp only [Bind.bind, M.bind, peek, peekN]
  split
  · cases st <;> first | exact .inl rfl | exact .inr ⟨_, rfl⟩
  · exact .inl rfl

/-- **C70**: skipping white space skips white space only. -/
theorem C70_blanks (st : PState) (inputs : Nat) : skipBlanksPE E H st false inputs = (skipBlanks : P σ Bool) := by
  funext s
  unfold skipBlanksPE
  simp only [Bind.bind, M.bind, skipBlanks]
  split
  · rename_i hd
    show M.bind (M.attempt _) _ _ = _
    unfold M.bind M.attempt
    rcases C70_handle E H st inputs { s with cur := s.cur.dropWhile isBlank } with h | ⟨e, h⟩ <;> rw [h] <;> simp only [Pure.pure, M.pure, hd]
  · rename_i hd
    simp only [Pure.pure, M.pure, hd]

theorem stringName_amp {S : Type} (t : Bytes) : (parseStringName E (38 :: t) : M S _) = M.raw .mNameStart := by
  have : E.isLetter 38 = false := by rw [E.letter_ascii 38 (by decide)]; rfl
  simp [parseStringName, decodeRune, isNameStart, this, runeError]

theorem stringName_percent {S : Type} (t : Bytes) : (parseStringName E (37 :: t) : M S _) = M.raw .mNameStart := by
  have : E.isLetter 37 = false := by rw [E.letter_ascii 37 (by decide)]; rfl
  simp [parseStringName, decodeRune, isNameStart, this, runeError]

theorem stringPE_fails (t : Bytes) : parseStringPEReference E H (37 :: t) = (M.raw .mNameStart : P σ _) := by
  unfold parseStringPEReference
  simp only [List.head?_cons, if_true, stringName_percent]
  rfl

theorem stringRef_fails (st : PState) (t : Bytes) : parseStringEntityRef E H st (38 :: t) = (M.raw .mInvalidRef : P σ _) := by
  unfold parseStringEntityRef
  simp only [List.head?_cons, if_true, stringName_amp]
  rfl

/-- **C70**: the values of entity declarations are decoded as in `Model/Parser`. -/
theorem C70_values (st : PState) (fuel : Nat) (s : Bytes) : decodeEntitiesInternal E H st false true fuel 0 s = (decodePE fuel s : P σ Bytes) := by
  induction fuel generalizing s with
  | zero => rfl
  | succ fuel ih =>
    unfold decodeEntitiesInternal decodePE
    cases s with
    | nil => rfl
    | cons c t =>
      simp only [Nat.not_lt_zero, gt_iff_lt, if_false, ih, Bool.false_eq_true, and_false, and_true]
      split
      · rfl
      · by_cases h : c = 37
        · subst h
          rw [if_pos rfl, if_pos rfl, stringPE_fails]
          rfl
        · rw [if_neg h, if_neg h]

/-- the computation does not touch the state. -/
def Untouched {S α : Type} (p : M S α) : Prop := ∀ s, (∃ a, p s = .ok a s) ∨ (∃ e, p s = .err e s) ∨ p s = .panic ∨ p s = .diverge

theorem Untouched.bind {S α β : Type} {p : M S α} {f : α → M S β} (hp : Untouched p) (hf : ∀ a, Untouched (f a)) : Untouched (p >>= f) := by
  intro s
  simp only [Bind.bind, M.bind]
  rcases hp s with ⟨a, h⟩ | ⟨e, h⟩ | h | h <;> rw [h]
  · exact hf a s
  · exact .inr (.inl ⟨e, rfl⟩)
  · exact .inr (.inr (.inl rfl))
  · exact .inr (.inr (.inr rfl))

theorem Untouched.pure {S α : Type} (a : α) : Untouched (Pure.pure a : M S α) := fun _ => .inl ⟨a, rfl⟩
theorem Untouched.raw {S α : Type} (e : EK) : Untouched (M.raw e : M S α) := fun _ => .inr (.inl ⟨_, rfl⟩)
theorem Untouched.panic {S α : Type} : Untouched (M.panic : M S α) := fun _ => .inr (.inr (.inl rfl))
theorem Untouched.diverge {S α : Type} : Untouched (M.diverge : M S α) := fun _ => .inr (.inr (.inr rfl))

theorem untouched_strCharRefLoop {S : Type} (hex : Bool) : ∀ (t : Bytes) (v : Nat), Untouched (strCharRefLoop hex v t : M S _)
  | [], _ => .panic
  | c :: t, v => by
    unfold strCharRefLoop
    split
    · exact .pure _
    · split
      · exact .raw _
      · split
        · exact .raw _
        · exact untouched_strCharRefLoop hex t _

theorem untouched_charRef {S : Type} (s : Bytes) : Untouched (parseStringCharRef s : M S _) := by
  unfold parseStringCharRef
  split
  · split
    · exact .panic
    · refine .bind ?_ (fun r => ?_)
      · split <;> exact untouched_strCharRefLoop _ _ _
      · split
        · exact .pure _
        · exact .raw _
  · exact .raw _

/-- **C70**: decoding a string, whatever is to be substituted, leaves the parser, the handler and the tree as they were. No entity is looked
up or expanded. -/
theorem C70_untouched (st : PState) (ref pe : Bool) (fuel depth : Nat) (s : Bytes) :
    Untouched (decodeEntitiesInternal E H st ref pe fuel depth s) := by
  induction fuel generalizing s with
  | zero => exact .diverge
  | succ fuel ih =>
    unfold decodeEntitiesInternal
    split
    · exact .raw _
    · cases s with
      | nil => exact .pure _
      | cons c t =>
        simp only
        split
        · exact .bind (untouched_charRef _) (fun r => .bind (ih _) (fun _ => .pure _))
        · split
          · rename_i h
            rw [h.1, stringRef_fails]
            intro s
            exact .inr (.inl ⟨_, rfl⟩)
          · split
            · rename_i h
              rw [h.1, stringPE_fails]
              intro s
              exact .inr (.inl ⟨_, rfl⟩)
            · exact .bind (ih _) (fun _ => .pure _)

theorem strCharRefLoop_mem {S : Type} (hex : Bool) : ∀ {t : Bytes} {v : Nat} {s : S} {r : Nat × Bytes} {s' : S},
    strCharRefLoop hex v t s = .ok r s' → ∃ d, t = d ++ 59 :: r.2 ∧ 37 ∉ d ∧ 38 ∉ d
  | [], _, _, _, _, h => by cases h
  | c :: t, v, s, r, s', h => by
    unfold strCharRefLoop at h
    split at h
    · rename_i hc
      cases h
      exact ⟨[], by rw [hc]; rfl, by simp, by simp⟩
    · cases hv : (if hex then accHex v c else accDec v c) with
      | none => rw [hv] at h; cases h
      | some v' =>
        rw [hv] at h
        simp only at h
        split at h
        · cases h
        · obtain ⟨d, h1, h2, h3⟩ := strCharRefLoop_mem hex h
          have hd : c ≠ 37 ∧ c ≠ 38 := by
            constructor <;> rintro rfl <;> cases hex <;> simp [accHex, accDec] at hv
          refine ⟨c :: d, by rw [h1]; rfl, ?_, ?_⟩
          · simp only [List.mem_cons, not_or]; exact ⟨fun e => hd.1 e.symm, h2⟩
          · simp only [List.mem_cons, not_or]; exact ⟨fun e => hd.2 e.symm, h3⟩

theorem stringCharRef_mem {S : Type} {t : Bytes} {s : S} {r : Nat × Bytes} {s' : S} (h : parseStringCharRef t s = .ok r s') :
    ∃ d, t = 38 :: 35 :: (d ++ 59 :: r.2) ∧ 37 ∉ d ∧ 38 ∉ d := by
  unfold parseStringCharRef at h
  split at h
  · split at h
    · cases h
    · rename_i x t'
      simp only [Bind.bind, M.bind] at h
      split at h
      · rename_i a s1 h1
        have h2 : r = a := by
          split at h
          · cases h; rfl
          · cases h
        subst h2
        split at h1
        · rename_i hx
          obtain ⟨d, e, h3, h4⟩ := strCharRefLoop_mem true h1
          exact ⟨x :: d, by rw [e]; rfl, by simp [hx, h3], by simp [hx, h4]⟩
        · obtain ⟨d, e, h3, h4⟩ := strCharRefLoop_mem false h1
          exact ⟨d, by rw [e], h3, h4⟩
      · cases h
      · cases h
      · cases h
  · cases h

/-- **C70**: a string is decoded only if it has no reference of the kind to be substituted, except to characters. -/
theorem C70_no_reference (st : PState) (ref pe : Bool) (fuel depth : Nat) {t : Bytes} {s : St σ} {w : Bytes} {s' : St σ}
    (h : decodeEntitiesInternal E H st ref pe fuel depth t s = .ok w s') :
    (pe = true → 37 ∉ t) ∧ (ref = true → ∀ a b, t = a ++ 38 :: b → b.head? = some 35) := by
  induction fuel generalizing t s w s' with
  | zero => cases h
  | succ fuel ih =>
    unfold decodeEntitiesInternal at h
    split at h
    · cases h
    · cases t with
      | nil => exact ⟨fun _ => by simp, fun _ a b hab => by cases a <;> cases hab⟩
      | cons c t =>
        simp only at h
        split at h
        · simp only [Bind.bind, M.bind] at h
          split at h
          · rename_i r s1 h1
            obtain ⟨d, h2, h3, h4⟩ := stringCharRef_mem h1
            split at h
            · rename_i w1 s2 h5
              obtain ⟨i1, i2⟩ := ih h5
              refine ⟨fun hp => ?_, fun hr a b hab => ?_⟩
              · rw [h2]
                simp [h3, i1 hp]
              · rw [h2] at hab
                cases a with
                | nil =>
                  injection hab with _ hab
                  rw [← hab]
                  rfl
                | cons x a =>
                  injection hab with _ hab
                  have hab : (35 :: d ++ [59]) ++ r.2 = a ++ 38 :: b := by simpa using hab
                  rcases List.append_eq_append_iff.1 hab with ⟨m, e1, e2⟩ | ⟨m, e1, e2⟩
                  · exact i2 hr m b e2
                  · cases m with
                    | nil => exact i2 hr [] b (by simpa using e2.symm)
                    | cons y m =>
                      injection e2 with e2 e3
                      have : (38 : Nat) ∈ 35 :: d ++ [59] := by rw [e1, ← e2]; simp
                      simp [h4] at this
            all_goals cases h
          all_goals cases h
        · rename_i hn
          split at h
          · rename_i hc
            rw [hc.1, stringRef_fails] at h
            cases h
          · rename_i hr
            split at h
            · rename_i hc
              rw [hc.1, stringPE_fails] at h
              cases h
            · rename_i hp
              simp only [Bind.bind, M.bind] at h
              split at h
              · rename_i w1 s2 h5
                obtain ⟨i1, i2⟩ := ih h5
                refine ⟨fun hpe => ?_, fun hre a b hab => ?_⟩
                · simp only [List.mem_cons, not_or]
                  exact ⟨fun e => hp ⟨e.symm, hpe⟩, i1 hpe⟩
                · cases a with
                  | nil =>
                    injection hab with h1 h2
                    exact absurd ⟨h1, hre⟩ hr
                  | cons x a =>
                    injection hab with _ hab
                    exact i2 hre a b hab
              all_goals cases h

end

/-- outcome of a computation without its state, for examples. -/
def Out.value {S α : Type} : Out S α → Option α
  | .ok a _ => some a
  | _ => none

/-- the input left. -/
def Out.left {σ α : Type} : Out (St σ) α → Option (List Nat)
  | .ok _ s => some s.cur
  | .err _ s => some s.cur
  | _ => none

/-- in an external subset the function would read the reference: the hypothesis is needed. -/
example : (handlePEReference env0 quietHandler .dtd true 2 (initSt () Heap.empty b!"%x; y")).left = some b!" y" ∧
    (handlePEReference env0 quietHandler .dtd false 2 (initSt () Heap.empty b!"%x; y")).left = some b!"%x; y" ∧
    (skipBlanksPE env0 quietHandler .dtd false 2 (initSt () Heap.empty b!" %x; y")).left = some b!"%x; y" := by decide

/-- strings that are decoded, and strings that are not. -/
example : (decodeEntitiesInternal env0 quietHandler .entityValue false true 9 0 b!"a&#65;&b;" (initSt () Heap.empty [])).value = some b!"aA&b;" ∧
    (decodeEntitiesInternal env0 quietHandler .entityValue true false 9 0 b!"a&#65;%b;" (initSt () Heap.empty [])).value = some b!"aA%b;" ∧
    (decodeEntitiesInternal env0 quietHandler .entityValue true false 9 0 b!"a&lt;" (initSt () Heap.empty [])).value = none ∧
    (decodeEntitiesInternal env0 quietHandler .entityValue false true 9 0 b!"a%b;" (initSt () Heap.empty [])).value = none := by decide

end Helium
