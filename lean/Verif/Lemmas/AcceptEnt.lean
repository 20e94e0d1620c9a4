import Verif.Lemmas.AcceptModel
import Verif.Lemmas.EntityRun
/-! What an accepted entity declaration looks like. -/
namespace Helium
open Spec

/-! ### bytes and characters -/

theorem encodeRunes_prefix : ∀ (d : List Nat) {l w : List Nat}, (∀ c ∈ d, c < 128) → encodeRunes l = d ++ w → ∃ l', l = d ++ l' ∧ w = encodeRunes l'
  | [], l, w, _, h => ⟨l, rfl, h.symm⟩
  | c :: d, l, w, hd, h => by
    cases l with
    | nil => cases h
    | cons x l =>
      rw [encodeRunes_cons] at h
      have hc := hd c (by simp)
      have hx : c = x := by
        have : c ∈ encodeRune x := by
          cases he : encodeRune x with
          | nil => exact absurd he (encodeRune_ne_nil x)
          | cons y r => rw [he] at h; simp at h; rw [h.1]; simp
        exact (mem_encodeRune_ascii x c hc).1 this
      subst hx
      rw [encodeRune_ascii c hc] at h
      simp only [List.cons_append, List.nil_append, List.cons.injEq, true_and] at h
      obtain ⟨l', rfl, e⟩ := encodeRunes_prefix d (fun c hc => hd c (by simp [hc])) h
      exact ⟨l', rfl, e⟩

theorem encodeRunes_split : ∀ (l : List Nat) {p q : List Nat} {x : Nat}, x < 128 → encodeRunes l = p ++ x :: q →
    ∃ l1 l2, l = l1 ++ x :: l2 ∧ p = encodeRunes l1 ∧ q = encodeRunes l2
  | [], p, q, x, _, h => by
    cases p <;> cases h
  | c :: l, p, q, x, hx, h => by
    rw [encodeRunes_cons] at h
    rcases List.append_eq_append_iff.1 h with ⟨a, h1, h2⟩ | ⟨a, h1, h2⟩
    · obtain ⟨l1, l2, rfl, e1, e2⟩ := encodeRunes_split l hx h2
      exact ⟨c :: l1, l2, rfl, by rw [h1, e1, encodeRunes_cons], e2⟩
    · cases a with
      | nil =>
        have h2 : encodeRunes l = [] ++ x :: q := h2.symm
        obtain ⟨l1, l2, rfl, e1, e2⟩ := encodeRunes_split l hx h2
        refine ⟨c :: l1, l2, rfl, ?_, e2⟩
        rw [encodeRunes_cons, ← e1, h1]
        simp
      | cons y a =>
        simp only [List.cons_append, List.cons.injEq] at h2
        obtain ⟨rfl, h2⟩ := h2
        have : x = c := (mem_encodeRune_ascii c x hx).1 (by rw [h1]; simp)
        subst this
        rw [encodeRune_ascii x hx] at h1
        cases p with
        | nil =>
          simp at h1
          subst h1
          exact ⟨[], l, rfl, rfl, h2⟩
        | cons z p => simp at h1

theorem infix_runes {l : List Nat} (h : [38, 35] <:+: encodeRunes l) : [38, 35] <:+: l := by
  obtain ⟨p, q, h⟩ := h
  rw [List.append_assoc] at h
  obtain ⟨l1, l2, rfl, -, e2⟩ := encodeRunes_split l (by decide : 38 < 128) h.symm
  obtain ⟨l3, rfl, -⟩ := encodeRunes_prefix [35] (by decide) (show encodeRunes l2 = [35] ++ q from e2.symm)
  exact ⟨l1, l3, by simp⟩

/-! ### the values of entities -/

theorem strCharRefLoop_ok {S : Type} (hex : Bool) : ∀ (b : Bytes) {v x : Nat} {t : Bytes} {s s' : S}, strCharRefLoop hex v b s = .ok (x, t) s' →
    charRefLoop hex v b = (some x, 59 :: t) ∧ s' = s
  | [], v, x, t, s, s', h => (panic_ok.1 h).elim
  | c :: b, v, x, t, s, s', h => by
    unfold strCharRefLoop at h
    unfold charRefLoop
    split at h
    · rename_i hc
      obtain ⟨h1, rfl⟩ := pure_ok.1 h
      cases h1
      subst hc
      exact ⟨by simp, rfl⟩
    · rename_i hc
      rw [if_neg hc]
      cases ha : (if hex = true then accHex v c else accDec v c) with
      | none => rw [ha] at h; exact (raw_ok.1 h).elim
      | some v' =>
        rw [ha] at h
        simp only at h
        split at h
        · exact (raw_ok.1 h).elim
        · exact strCharRefLoop_ok hex b h

theorem parseStringCharRef_ok {S : Type} {l : List Nat} {r : Nat × Bytes} {s s' : S} (h : parseStringCharRef (38 :: 35 :: encodeRunes l) s = .ok r s') :
    ∃ t l', LooseCharRef t r.1 ∧ 38 :: 35 :: l = t ++ l' ∧ r.2 = encodeRunes l' ∧ s' = s := by
  unfold parseStringCharRef at h
  simp only at h
  have key : ∀ hex (l : List Nat) (b : Bytes), b = encodeRunes l → strCharRefLoop hex 0 b s = .ok r s' →
      ∃ ds l' n, l = ds ++ 59 :: l' ∧ refNumber hex ds = some n ∧ r.1 = n % 2 ^ 32 ∧ r.2 = encodeRunes l' ∧ s' = s := by
    rintro hex l b rfl h
    obtain ⟨h1, h2⟩ := strCharRefLoop_ok hex _ h
    obtain ⟨ds, n, e1, e2, e3, -⟩ := charRefLoop_sound hex _ 0 _ _ (by decide) h1
    obtain ⟨l1, rfl, e4⟩ := encodeRunes_prefix ds (fun c hc => by obtain ⟨d, hd⟩ := digits_ascii e2 c hc; exact refDigit_ascii hd) e1
    obtain ⟨l2, rfl, e5⟩ := encodeRunes_prefix [59] (by decide) (show encodeRunes l1 = [59] ++ r.2 from e4.symm)
    exact ⟨ds, l2, n, rfl, by rw [refNumber_eq]; exact e2, e3, e5, h2⟩
  have fin : ∀ {p : M S (Nat × Bytes)}, (do let r ← p; if isChar r.1 then pure r else M.raw .mCharRange : M S (Nat × Bytes)) s = .ok r s' →
      p s = .ok r s' ∧ isChar r.1 = true := by
    intro p h
    obtain ⟨r', s1, h1, h2⟩ := bind_ok.1 h
    split at h2
    · rename_i hc
      obtain ⟨rfl, rfl⟩ := pure_ok.1 h2
      exact ⟨h1, hc⟩
    · exact (raw_ok.1 h2).elim
  cases hb : encodeRunes l with
  | nil => rw [hb] at h; exact (panic_ok.1 h).elim
  | cons x b =>
    rw [hb] at h
    obtain ⟨h1, h2⟩ := fin h
    split at h1
    · rename_i hx
      subst hx
      obtain ⟨l1, rfl, e1⟩ := encodeRunes_prefix [120] (by decide) (show encodeRunes l = [120] ++ b from hb)
      obtain ⟨ds, l', n, rfl, g1, g2, g3, g4⟩ := key true l1 b e1 h1
      refine ⟨b!"&#x" ++ (ds ++ [59]), l', ⟨ds, n, .inr ⟨rfl, g1⟩, g2, isChar_xml h2⟩, ?_, g3, g4⟩
      simp
    · obtain ⟨ds, l', n, rfl, g1, g2, g3, g4⟩ := key false l (x :: b) hb.symm h1
      refine ⟨b!"&#" ++ (ds ++ [59]), l', ⟨ds, n, .inl ⟨rfl, g1⟩, g2, isChar_xml h2⟩, ?_, g3, g4⟩
      simp

theorem decodePE_copied {S : Type} : ∀ (u : Bytes) {w v : Bytes} {fuel : Nat} {s s' : S}, (∀ c ∈ u, c ≠ 38 ∧ c ≠ 37) → decodePE fuel (u ++ w) s = .ok v s' →
    ∃ fuel' v', decodePE fuel' w s = .ok v' s' ∧ v = u ++ v'
  | [], w, v, fuel, s, s', _, h => ⟨fuel, v, h, rfl⟩
  | c :: u, w, v, fuel, s, s', hu, h => by
    cases fuel with
    | zero => exact (diverge_ok.1 h).elim
    | succ fuel =>
      obtain ⟨h1, h2⟩ := hu c (by simp)
      rw [List.cons_append] at h
      unfold decodePE at h
      rw [if_neg (fun h => h1 h.1), if_neg h2] at h
      obtain ⟨v1, s1, h3, h4⟩ := bind_ok.1 h
      obtain ⟨rfl, rfl⟩ := pure_ok.1 h4
      obtain ⟨f, v', e1, rfl⟩ := decodePE_copied u (fun c hc => hu c (by simp [hc])) h3
      exact ⟨f, v', e1, rfl⟩

theorem decodePE_ok {S : Type} : ∀ (k : Nat) {l : List Nat} {v : Bytes} {fuel : Nat} {s s' : S}, l.length ≤ k → decodePE fuel (encodeRunes l) s = .ok v s' →
    ∃ u, EntText l u ∧ v = encodeRunes u := by
  intro k
  induction k with
  | zero =>
    intro l v fuel s s' hk h
    cases l with
    | nil =>
      cases fuel with
      | zero => exact (diverge_ok.1 h).elim
      | succ f =>
        obtain ⟨rfl, -⟩ := pure_ok.1 h
        exact ⟨[], .nil, rfl⟩
    | cons c l => simp at hk
  | succ k ih =>
    intro l v fuel s s' hk h
    cases l with
    | nil =>
      cases fuel with
      | zero => exact (diverge_ok.1 h).elim
      | succ f =>
        obtain ⟨rfl, -⟩ := pure_ok.1 h
        exact ⟨[], .nil, rfl⟩
    | cons c l =>
      rw [encodeRunes_cons] at h
      by_cases hc : c = 38 ∨ c = 37
      · have ha : c < 128 := by omega
        rw [encodeRune_ascii c ha] at h
        cases fuel with
        | zero => exact (diverge_ok.1 h).elim
        | succ fuel =>
          rw [List.cons_append, List.nil_append] at h
          unfold decodePE at h
          split at h
          · rename_i h1
            obtain ⟨rfl, h1⟩ := h1
            obtain ⟨b, hb⟩ : ∃ b, encodeRunes l = 35 :: b := by
              cases he : encodeRunes l with
              | nil => rw [he] at h1; cases h1
              | cons x b => rw [he] at h1; cases h1; exact ⟨b, rfl⟩
            obtain ⟨l1, rfl, rfl⟩ := encodeRunes_prefix [35] (by decide) (show encodeRunes l = [35] ++ b from hb)
            obtain ⟨r, s1, h2, h3⟩ := bind_ok.1 h
            rw [hb] at h2
            obtain ⟨t, l', e1, e2, e3, rfl⟩ := parseStringCharRef_ok h2
            obtain ⟨v', s2, h4, h5⟩ := bind_ok.1 h3
            obtain ⟨rfl, rfl⟩ := pure_ok.1 h5
            rw [e3] at h4
            have hlen : l'.length ≤ k := by
              have : (38 :: 35 :: l1).length = (t ++ l').length := by rw [e2]
              have ht : 2 ≤ t.length := by
                obtain ⟨ds, n, h, -, -⟩ := e1
                rcases h with ⟨rfl, -⟩ | ⟨rfl, -⟩ <;> simp
              simp at this hk
              omega
            obtain ⟨u, f1, rfl⟩ := ih hlen h4
            exact ⟨r.1 :: u, by rw [show 38 :: ([35] ++ l1) = t ++ l' from e2]; exact .charRef e1 f1, by rw [encodeRunes_cons]⟩
          · rename_i h1
            split at h
            · exact (raw_ok.1 h).elim
            · rename_i h2
              obtain ⟨v', s2, h4, h5⟩ := bind_ok.1 h
              obtain ⟨rfl, rfl⟩ := pure_ok.1 h5
              obtain ⟨u, f1, rfl⟩ := ih (by simpa using hk) h4
              refine ⟨c :: u, .char h2 (fun h3 h4 => h1 ⟨h3, ?_⟩) f1, by rw [encodeRunes_cons, encodeRune_ascii c ha]; rfl⟩
              cases l with
              | nil => cases h4
              | cons x l =>
                cases h4
                rw [encodeRunes_cons, encodeRune_ascii 35 (by decide)]
                rfl
      · obtain ⟨f, v', h1, rfl⟩ := decodePE_copied (encodeRune c) (fun x hx => by
          refine ⟨?_, ?_⟩
          · rintro rfl; exact hc (.inl ((mem_encodeRune_ascii c 38 (by decide)).1 hx).symm)
          · rintro rfl; exact hc (.inr ((mem_encodeRune_ascii c 37 (by decide)).1 hx).symm)) h
        obtain ⟨u, f1, rfl⟩ := ih (by simpa using hk) h1
        exact ⟨c :: u, .char (fun h => hc (.inr h)) (fun h => absurd (.inl h) hc) f1, by rw [encodeRunes_cons]⟩

theorem decodePE_plain {S : Type} (s : S) : ∀ (b : Bytes) (fuel : Nat), b.length < fuel → 37 ∉ b → ¬ [38, 35] <:+: b → decodePE fuel b s = .ok b s
  | [], fuel, hf, _, _ => by
    cases fuel with
    | zero => cases hf
    | succ f => rfl
  | c :: b, fuel, hf, h1, h2 => by
    cases fuel with
    | zero => cases hf
    | succ f =>
      unfold decodePE
      rw [if_neg, if_neg (fun h => h1 (by simp [h]))]
      · rw [bind_run (decodePE_plain s b f (by simpa using hf) (fun h => h1 (by simp [h])) (fun h => h2 (List.IsInfix.trans h (List.infix_cons (List.infix_refl _)))))]
        rfl
      · rintro ⟨rfl, h3⟩
        cases b with
        | nil => cases h3
        | cons x b => cases h3; exact h2 ⟨[], b, rfl⟩

/-- nothing happens to the state. -/
def Unmoved {S α : Type} (p : M S α) : Prop := ∀ s, post (p s) (· = s) (fun _ => (· = s))

theorem Unmoved.bind {S α β : Type} {p : M S α} {f : α → M S β} (hp : Unmoved p) (hf : ∀ a, Unmoved (f a)) : Unmoved (p >>= f) := by
  intro s
  have h1 := hp s
  show post (M.bind p f s) _ _
  unfold M.bind
  cases h : p s with
  | ok a t => rw [h] at h1; rw [show t = s from h1]; exact hf a s
  | err e t => rw [h] at h1; exact h1
  | panic => trivial
  | diverge => trivial
theorem Unmoved.pure {S α : Type} (a : α) : Unmoved (pure a : M S α) := fun _ => rfl
theorem Unmoved.raw {S α : Type} (e : EK) : Unmoved (M.raw e : M S α) := fun _ => rfl

theorem Unmoved.strCharRefLoop {S : Type} (hex : Bool) : ∀ (b : Bytes) (v : Nat), Unmoved (strCharRefLoop hex v b : M S (Nat × Bytes))
  | [], _ => fun _ => trivial
  | c :: b, v => by
    unfold Helium.strCharRefLoop
    split
    · exact .pure _
    · split
      · exact .raw _
      · split
        · exact .raw _
        · exact Unmoved.strCharRefLoop hex b _

theorem Unmoved.parseStringCharRef {S : Type} (b : Bytes) : Unmoved (parseStringCharRef b : M S (Nat × Bytes)) := by
  unfold Helium.parseStringCharRef
  split
  · split
    · exact fun _ => trivial
    · refine .bind ?_ (fun r => ?_)
      · split <;> exact Unmoved.strCharRefLoop _ _ _
      · split
        · exact .pure _
        · exact .raw _
  · exact .raw _

theorem Unmoved.decodePE {S : Type} (fuel : Nat) : ∀ b, Unmoved (decodePE fuel b : M S Bytes) := by
  induction fuel with
  | zero => intro b; exact fun _ => trivial
  | succ n ih =>
    intro b
    cases b with
    | nil => exact .pure _
    | cons c t =>
      unfold Helium.decodePE
      split
      · exact .bind (Unmoved.parseStringCharRef _) (fun r => .bind (ih _) (fun _ => .pure _))
      · split
        · exact .raw _
        · exact .bind (ih _) (fun _ => .pure _)

section
variable {σ : Type} {E : Env} {H : Handler σ}

/-- `parseEntityValue` succeeds or fails at the same place: after the quote that closes the literal, or at a character that is not legal, or at the
end. -/
theorem parseEntityValue_moves {q : Nat} (hq : q = 34 ∨ q = 39) {s s' : St σ} {x : Except Err (Bytes × Bytes)} (hs : s.cur.getD 0 E.eof = q)
    (h : M.attempt (parseEntityValue E) s = .ok x s') :
    ∃ l v, q ∉ l ∧ EntLit l v ∧ (∀ y, x = .ok y → v = some y.2) ∧ (∀ e, x = .error e → v = none) ∧
      (Moves s s' (q :: (l ++ [q])) ∨ s'.cur = [] ∨ ∃ c r, s'.cur = c :: r ∧ isChar c = false) := by
  obtain ⟨t, ht⟩ := peekd_cons (E := E) hs (by omega)
  let l := t.takeWhile (fun c => isChar c && c != q)
  let r := t.dropWhile (fun c => isChar c && c != q)
  have hlr : t = l ++ r := List.takeWhile_append_dropWhile.symm
  have hl : ∀ c ∈ l, isChar c = true ∧ c ≠ q := by
    intro c hc
    have := List.all_eq_true.1 (List.all_takeWhile (p := fun c => isChar c && c != q) (l := t)) c hc
    simpa using this
  have hr : ∀ c, r.head? = some c → isChar c = false ∨ c = q := by
    intro c hc
    have := List.head?_dropWhile_not (fun c => isChar c && c != q) t
    rw [show (t.dropWhile _).head? = some c from hc] at this
    by_cases h1 : isChar c = false
    · exact .inl h1
    · right
      simp at h1 this
      exact this h1
  -- the state in which the literal is decoded
  let s2 : St σ := if r.getD 0 E.eof = q then { s with cur := r.drop 1 } else { s with cur := r }
  have hrun : parseEntityValue E s = (M.wrap (decodePE ((encodeRunes l).length + 1) (encodeRunes l)) >>= fun v => pure (encodeRunes l, v)) s2 := by
    unfold parseEntityValue
    run
    rw [hs]
    have hpi : (parseEntityValueInternal q : P σ Bytes) { s with cur := s.cur.drop 1 } = .ok (encodeRunes l) { s with cur := t.drop l.length } := by
      rw [ht]; rfl
    rw [bind_run hpi]
    run
    have : t.drop l.length = r := by rw [hlr]; simp
    show (if (List.drop l.length t).getD 0 E.eof = q then _ else _) = _
    rw [this]
    simp only [s2]
    split <;> rfl
  have hst := Unmoved.decodePE (S := St σ) ((encodeRunes l).length + 1) (encodeRunes l) s2
  have hmv : Moves s s2 (q :: (l ++ [q])) ∨ s2.cur = [] ∨ ∃ c r, s2.cur = c :: r ∧ isChar c = false := by
    cases hrc : r with
    | nil =>
      right; left
      have : r.getD 0 E.eof ≠ q := by rw [hrc, List.getD_nil]; exact eof_ne E q (by omega)
      simp only [s2, if_neg this, hrc]
    | cons c r' =>
      by_cases hcq : c = q
      · left
        have : r.getD 0 E.eof = q := by rw [hrc]; exact hcq
        simp only [s2, if_pos this]
        refine .mk ?_
        rw [ht, hlr, hrc, hcq]
        simp
      · right; right
        have : r.getD 0 E.eof ≠ q := by rw [hrc]; exact hcq
        refine ⟨c, r', by simp only [s2, if_neg this, hrc], ?_⟩
        exact (hr c (by rw [hrc]; rfl)).resolve_right hcq
  have hx : ∀ c ∈ l, XmlChar c := fun c hc => isChar_xml (hl c hc).1
  have hql : q ∉ l := fun hc => (hl q hc).2 rfl
  rcases attempt_ok.1 h with ⟨y, rfl, h1⟩ | ⟨e, rfl, h1⟩
  · rw [hrun] at h1
    obtain ⟨v, s3, h2, h3⟩ := bind_ok.1 h1
    obtain ⟨rfl, rfl⟩ := pure_ok.1 h3
    have h2 := wrap_ok.1 h2
    rw [h2] at hst
    have hst : s3 = s2 := hst
    subst hst
    obtain ⟨u, f1, rfl⟩ := decodePE_ok l.length (Nat.le_refl _) h2
    refine ⟨l, some (encodeRunes u), hql, ⟨hx, u, f1, rfl⟩, ?_, ?_, hmv⟩
    · rintro y hy; cases hy; rfl
    · rintro e he; cases he
  · rw [hrun] at h1
    have h2 : ∃ e', decodePE ((encodeRunes l).length + 1) (encodeRunes l) s2 = .err e' s' := by
      change M.bind _ _ _ = _ at h1
      unfold M.bind M.wrap at h1
      cases hd : decodePE ((encodeRunes l).length + 1) (encodeRunes l) s2 with
      | ok v t => rw [hd] at h1; cases h1
      | err e' t => rw [hd] at h1; cases h1; exact ⟨e', rfl⟩
      | panic => rw [hd] at h1; cases h1
      | diverge => rw [hd] at h1; cases h1
    obtain ⟨e', h2⟩ := h2
    rw [h2] at hst
    have hst : s' = s2 := hst
    subst hst
    refine ⟨l, none, hql, ⟨hx, ?_⟩, (by rintro y hy; cases hy), (fun _ _ => rfl), hmv⟩
    by_cases h37 : 37 ∈ l
    · exact .inl h37
    · right
      by_cases hi : [38, 35] <:+: l
      · exact hi
      · rw [decodePE_plain _ _ _ (Nat.lt_succ_self _) (fun h => h37 ((mem_encodeRunes_ascii l 37 (by decide)).1 h)) (fun h => hi (infix_runes h))] at h2
        cases h2
end
end Helium
