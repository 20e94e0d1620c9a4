import Verif.Spec.Total
import Verif.Lemmas.Forward
import Verif.Lemmas.NameRun
import Verif.Lemmas.SourceRun
import Verif.Lemmas.LogicLex
import Verif.Lemmas.Sim
/-! Total correctness: what returns, and when. -/
namespace Helium
open Spec
section
variable {σ : Type} {S α β : Type}

/-- the outcome is a result satisfying `R`, an error satisfying `X`, or, if permitted, a panic. -/
def Tot (pn : Bool) (o : Out S α) (R : α → S → Prop) (X : S → Prop) : Prop :=
  match o with
  | .ok a s => R a s
  | .err _ s => X s
  | .panic => pn = true
  | .diverge => False

variable {pn : Bool}

theorem Tot.mono {o : Out S α} {R R' : α → S → Prop} {X X' : S → Prop} (h : Tot pn o R X) (hr : ∀ a s, R a s → R' a s) (hx : ∀ s, X s → X' s) :
    Tot pn o R' X' := by
  cases o with
  | ok a s => exact hr a s h
  | err e s => exact hx s h
  | panic => exact h
  | diverge => exact h

theorem Tot.bind {p : M S α} {f : α → M S β} {s : S} {R : α → S → Prop} {R' : β → S → Prop} {X : S → Prop}
    (h : Tot pn (p s) R X) (hf : ∀ a t, R a t → Tot pn (f a t) R' X) : Tot pn ((p >>= f) s) R' X := by
  show Tot pn (M.bind p f s) R' X
  unfold M.bind
  cases hp : p s with
  | ok a t => rw [hp] at h; exact hf a t h
  | err e t => rw [hp] at h; exact h
  | panic => rw [hp] at h; exact h
  | diverge => rw [hp] at h; exact h

theorem Tot.wrap {p : M S α} {s : S} {R : α → S → Prop} {X : S → Prop} (h : Tot pn (p s) R X) : Tot pn (M.wrap p s) R X := by
  unfold M.wrap
  cases hp : p s <;> rw [hp] at h <;> exact h

theorem Tot.orElse {p : M S α} {s : S} {k : EK} {R : α → S → Prop} {X : S → Prop} (h : Tot pn (p s) R X) : Tot pn (M.orElse p k s) R X := by
  unfold M.orElse
  cases hp : p s <;> rw [hp] at h <;> exact h

/-- no panic, no endless loop. -/
theorem Tot.returns {o : Out S α} {R : α → S → Prop} {X : S → Prop} (h : Tot pn o R X) : o ≠ .diverge ∧ (pn = false → o ≠ .panic) := by
  cases o with
  | ok a s => simp
  | err e s => simp
  | panic => exact ⟨by simp, fun hp => by rw [hp] at h; cases h⟩
  | diverge => exact absurd h id

variable (E : Env) (G : Nat → HC σ → Prop)

/-- what reading names, values and character data leaves alone. -/
structure Same (s s' : St σ) : Prop where
  cur : s'.cur <:+ s.cur
  nodes : s'.nodes = s.nodes
  sub : s'.inSubset = s.inSubset
  special : s'.attsSpecial = s.attsSpecial
  dflt : s'.attsDefault = s.attsDefault
  ns : s'.ns = s.ns
  hc : G s.nodes.length s.hc → G s.nodes.length s'.hc

variable {G}

theorem Same.refl (s : St σ) : Same G s s := ⟨List.suffix_refl _, rfl, rfl, rfl, rfl, rfl, id⟩

theorem Same.trans {a b c : St σ} (h : Same G a b) (k : Same G b c) : Same G a c :=
  ⟨k.cur.trans h.cur, k.nodes.trans h.nodes, k.sub.trans h.sub, k.special.trans h.special, k.dflt.trans h.dflt, k.ns.trans h.ns,
    fun x => by have := k.hc; rw [h.nodes] at this; exact this (h.hc x)⟩

theorem Same.cut (s : St σ) {c : List Nat} (h : c <:+ s.cur) : Same G s { s with cur := c } := ⟨h, rfl, rfl, rfl, rfl, rfl, id⟩

theorem Spec.Safe.mono {l r : List Nat} (h : Safe E pn l) (hr : r <:+ l) : Safe E pn r :=
  ⟨fun c u hu => h.colon c u (hu.trans hr), fun u hu => h.cdata u (hu.trans hr), fun u v hu => h.doctype u v (hu.trans hr),
    fun hp n u hu => h.entity hp n u (hu.trans hr), fun hp u hu => h.xmlns hp u (hu.trans hr)⟩

theorem Spec.NoSpaceRef.mono {l r : List Nat} (h : NoSpaceRef l) (hr : r <:+ l) : NoSpaceRef r := fun ds u n hu hd =>
  h ds u n hu (hd.elim (fun h => Or.inl ⟨h.1.trans hr, h.2⟩) (fun h => Or.inr ⟨h.1.trans hr, h.2⟩))

variable (G) (pn) (B : Nat)

/-- the states in which content is read. -/
structure Good (s : St σ) : Prop where
  safe : Safe E pn s.cur
  sub : s.inSubset = 0
  special : pn = true ∨ s.attsSpecial = [] ∨ NoSpaceRef s.cur
  dflt : ∀ n c, G n c → Marked s.attsDefault c.heap
  hc : G s.nodes.length s.hc
  ns : pn = false → ∀ x ∈ s.ns, x.2 ≠ []
  len : 5 * s.cur.length + 1 < B

variable {E G pn B}

theorem Good.same {s s' : St σ} (h : Good pn E G B s) (k : Same G s s') : Good pn E G B s' :=
  ⟨h.safe.mono E k.cur, k.sub.trans h.sub, by
    rw [k.special]
    rcases h.special with h1 | h1 | h1
    · exact Or.inl h1
    · exact Or.inr (Or.inl h1)
    · exact Or.inr (Or.inr (h1.mono k.cur)), by rw [k.dflt]; exact h.dflt, by rw [k.nodes]; exact k.hc h.hc,
    fun hp => by rw [k.ns]; exact h.ns hp, by have := k.cur.length_le; have := h.len; omega⟩

variable (E pn G B)

/-- the computation returns, leaves alone what `Same` says, and if it succeeds has read at least `k` characters. -/
def Still (k : Nat) (p : P σ α) : Prop :=
  ∀ s, Good pn E G B s → Tot pn (p s) (fun _ s' => Same G s s' ∧ s'.cur.length + k ≤ s.cur.length) (Same G s)

variable {E pn G B}

theorem Still.weak {k j : Nat} {p : P σ α} (h : Still pn E G B k p) (hj : j ≤ k) : Still pn E G B j p := fun s hs =>
  (h s hs).mono (fun _ _ h => ⟨h.1, by have := h.2; omega⟩) (fun _ h => h)

theorem Still.zero {k : Nat} {p : P σ α} (h : Still pn E G B k p) : Still pn E G B 0 p := h.weak (Nat.zero_le _)

theorem Still.pure (a : α) : Still pn E G B 0 (pure a : P σ α) := fun s _ => ⟨Same.refl s, Nat.le_refl _⟩
theorem Still.fail {k : Nat} (e : Err) : Still pn E G B k (M.fail e : P σ α) := fun s _ => Same.refl s
theorem Still.cerr {k : Nat} (e : EK) : Still pn E G B k (M.cerr e : P σ α) := Still.fail _
theorem Still.raw {k : Nat} (e : EK) : Still pn E G B k (M.raw e : P σ α) := Still.fail _
theorem Still.panic {k : Nat} (h : pn = true) : Still pn E G B k (M.panic : P σ α) := fun _ _ => h
theorem Still.get : Still pn E G B 0 (M.get : P σ (St σ)) := fun s _ => ⟨Same.refl s, Nat.le_refl _⟩
theorem Still.rest : Still pn E G B 0 (rest : P σ (List Nat)) := fun s _ => ⟨Same.refl s, Nat.le_refl _⟩
theorem Still.peekN (n : Nat) : Still pn E G B 0 (peekN E n : P σ Nat) := fun s _ => ⟨Same.refl s, Nat.le_refl _⟩
theorem Still.peek : Still pn E G B 0 (peek E : P σ Nat) := Still.peekN 1
theorem Still.isDone : Still pn E G B 0 (isDone : P σ Bool) := fun s _ => ⟨Same.refl s, Nat.le_refl _⟩
theorem Still.hasPrefix (l : List Nat) : Still pn E G B 0 (hasPrefix l : P σ Bool) := fun s _ => ⟨Same.refl s, Nat.le_refl _⟩
theorem Still.adv (n : Nat) : Still pn E G B 0 (adv n : P σ Unit) := fun s _ =>
  ⟨Same.cut s (List.drop_suffix _ _), by show (s.cur.drop n).length + 0 ≤ _; simp⟩

theorem Still.need (c : Bool) (e : EK) : Still pn E G B 0 (M.need c e : P σ Unit) := by
  unfold M.need; split
  · exact Still.pure ()
  · exact Still.cerr _
theorem Still.needRaw (c : Bool) (e : EK) : Still pn E G B 0 (M.needRaw c e : P σ Unit) := by
  unfold M.needRaw; split
  · exact Still.pure ()
  · exact Still.raw _

theorem Still.consume (l : List Nat) : Still pn E G B 0 (consume l : P σ Bool) := by
  intro s _
  unfold Helium.consume
  split
  · exact ⟨Same.cut s (List.drop_suffix _ _), by simp⟩
  · exact ⟨Same.refl s, Nat.le_refl _⟩

theorem Still.skipBlanks : Still pn E G B 0 (skipBlanks : P σ Bool) := by
  intro s _
  unfold Helium.skipBlanks
  exact ⟨Same.cut s (List.dropWhile_suffix _), by simpa using (List.dropWhile_suffix (l := s.cur) isBlank).length_le⟩

theorem Still.bind {k j : Nat} {p : P σ α} {f : α → P σ β} (h : Still pn E G B k p) (hf : ∀ a, Still pn E G B j (f a)) :
    Still pn E G B (k + j) (p >>= f) := by
  intro s hs
  refine Tot.bind ((h s hs).mono (fun a t h => h) (fun _ h => h)) ?_
  intro a t ht
  exact (hf a t (hs.same ht.1)).mono (fun _ u hu => ⟨ht.1.trans hu.1, by have := ht.2; have := hu.2; omega⟩) (fun _ hu => ht.1.trans hu)

theorem Still.then {k : Nat} {p : P σ α} {f : α → P σ β} (h : Still pn E G B 0 p) (hf : ∀ a, Still pn E G B k (f a)) :
    Still pn E G B k (p >>= f) := (Still.bind h hf).weak (by omega)

theorem Still.first {k : Nat} {p : P σ α} {f : α → P σ β} (h : Still pn E G B k p) (hf : ∀ a, Still pn E G B 0 (f a)) :
    Still pn E G B k (p >>= f) := (Still.bind h hf).weak (by omega)

theorem Still.wrap {k : Nat} {p : P σ α} (h : Still pn E G B k p) : Still pn E G B k (M.wrap p) := fun s hs => (h s hs).wrap
theorem Still.orElse {k : Nat} {p : P σ α} {e : EK} (h : Still pn E G B k p) : Still pn E G B k (M.orElse p e) := fun s hs => (h s hs).orElse

theorem Still.attempt {k : Nat} {p : P σ α} (h : Still pn E G B k p) : Still pn E G B 0 (M.attempt p) := by
  intro s hs
  have h1 := h s hs
  unfold M.attempt
  cases hp : p s <;> rw [hp] at h1
  · exact ⟨h1.1, by have := h1.1.cur.length_le; omega⟩
  · exact ⟨h1, by have := h1.cur.length_le; omega⟩
  · exact h1
  · exact h1

/-- consuming a literal that is there. -/
theorem Still.consumeIf {k j : Nat} {l : List Nat} {p q : P σ α} (hp : Still pn E G B j p) (hq : Still pn E G B k q) (hk : k ≤ l.length + j) :
    Still pn E G B k (Helium.consume l >>= fun b => if b then p else q) := by
  intro s hs
  show Tot pn (M.bind (Helium.consume l) _ s) _ _
  unfold M.bind Helium.consume
  by_cases hl : l.isPrefixOf s.cur = true
  · rw [if_pos hl]
    have h1 : Same G s { s with cur := s.cur.drop l.length } := Same.cut s (List.drop_suffix _ _)
    have h2 := hp _ (hs.same h1)
    refine h2.mono (fun _ t h => ⟨h1.trans h.1, ?_⟩) (fun _ h => h1.trans h)
    have h3 : l.length ≤ s.cur.length := (List.isPrefixOf_iff_prefix.1 hl).length_le
    have h4 := h.2
    simp only [List.length_drop] at h4
    omega
  · rw [if_neg hl]
    exact hq s hs

macro "still" : tactic => `(tactic| repeat' first
  | exact Still.pure _
  | exact Still.fail _
  | exact Still.cerr _
  | exact Still.raw _
  | exact Still.need _ _
  | exact Still.needRaw _ _
  | exact Still.rest
  | exact Still.get
  | exact Still.peek
  | exact Still.peekN _
  | exact Still.isDone
  | exact Still.hasPrefix _
  | exact Still.adv _
  | exact Still.consume _
  | exact Still.skipBlanks
  | assumption
  | refine Still.wrap ?_
  | refine Still.orElse ?_
  | refine Still.attempt ?_
  | refine Still.then ?_ (fun _ => ?_)
  | split
  | rfl)

theorem Still.needBlanks : Still pn E G B 0 (needBlanks E : P σ Unit) := by
  unfold Helium.needBlanks; still

/-- the length of the scanned name is at least one less than the start index. -/
theorem nameScan_ge (ok : Nat → Bool) (eof : Nat) : ∀ (l : List Nat) (i : Nat), i - 1 ≤ (nameScan ok eof i l).2
  | [], i => by unfold nameScan; split <;> simp
  | c :: t, i => by
    unfold nameScan
    split
    · simp
    · split
      · have := nameScan_ge ok eof t (i + 1); simp only; omega
      · simp

theorem Still.parseName : Still pn E G B 1 (parseName E : P σ Bytes) := by
  intro s hs
  unfold Helium.parseName
  rw [rest_bind]
  cases hc : s.cur with
  | nil => exact Same.refl s
  | cons c t =>
    simp only
    split
    · exact Same.refl s
    · split
      · exact Same.refl s
      · refine ⟨Same.cut s (List.drop_suffix _ _), ?_⟩
        have := nameScan_ge (nameCh E) E.eof t 2
        simp only [hc, List.length_drop, List.length_cons]
        omega

theorem Still.parseNCName : Still pn E G B 1 (parseNCName E : P σ Bytes) := by
  intro s hs
  unfold Helium.parseNCName
  rw [rest_bind]
  cases hc : s.cur with
  | nil => exact Same.refl s
  | cons c t =>
    simp only
    split
    · exact Same.refl s
    · split
      · exact Same.refl s
      · refine ⟨Same.cut s (List.drop_suffix _ _), ?_⟩
        have := nameScan_ge (ncNameCh E) E.eof t 2
        simp only [hc, List.length_drop, List.length_cons]
        omega

/-! ### qualified names -/

theorem nameScan_le (ok : Nat → Bool) (eof : Nat) : ∀ (l : List Nat) (i : Nat), (nameScan ok eof i l).2 ≤ i + (l.takeWhile ok).length
  | [], i => by unfold nameScan; split <;> simp
  | c :: t, i => by
    unfold nameScan
    split
    · simp
    · split
      · rename_i h1 h2
        have := nameScan_le ok eof t (i + 1)
        rw [List.takeWhile_cons, if_pos h2]
        simp only [List.length_cons]
        omega
      · simp; omega

theorem ncNameCh_name {c : Nat} (h : ncNameCh E c = true) : NameChar E c := by
  unfold ncNameCh at h
  simp only [Bool.or_eq_true, beq_iff_eq] at h
  unfold NameChar
  rcases h with (((h | h) | h) | h) | h
  · exact Or.inl h
  · exact Or.inr (Or.inl h)
  · exact Or.inr (Or.inr (Or.inr (Or.inr (Or.inl h))))
  · exact Or.inr (Or.inr (Or.inr (Or.inl h)))
  · exact Or.inr (Or.inr (Or.inl h))

theorem isNameChar_token {c : Nat} (h : isNameChar E c = true) : TokenChar E c := by
  unfold isNameChar at h
  simp only [Bool.or_eq_true, beq_iff_eq] at h
  unfold TokenChar NameChar
  rcases h with (((((h | h) | h) | h) | h) | h) | h <;> simp [h]

theorem mem_takeWhile {p : Nat → Bool} : ∀ {l : List Nat} {c : Nat}, c ∈ l.takeWhile p → p c = true
  | [], _, h => by simp at h
  | x :: l, c, h => by
    rw [List.takeWhile_cons] at h
    split at h
    · rename_i hx
      rcases List.mem_cons.1 h with rfl | h
      · exact hx
      · exact mem_takeWhile h
    · simp at h

/-- `E.eof` is not a name character. -/
theorem eof_token : isNameChar E E.eof = false := by
  rcases E.eof_spec with h | h
  · rw [h]
    have h1 := E.letter_ascii 0 (by decide)
    have h2 := E.digit_ascii 0 (by decide)
    have h3 := E.extender_ascii 0 (by decide)
    unfold isNameChar
    rw [h1, h2, h3]
    decide
  · cases hc : isNameChar E E.eof with
    | false => rfl
    | true =>
      exfalso
      rw [h] at hc
      unfold isNameChar at hc
      simp only [Bool.or_eq_true, beq_iff_eq] at hc
      rcases hc with (((((hc | hc) | hc) | hc) | hc) | hc) | hc
      · cases hc
      · cases hc
      · cases hc
      · cases hc
      · exact (E.letter_scalar _ hc).2 rfl
      · exact (E.digit_scalar _ hc).2 rfl
      · exact (E.extender_scalar _ hc).2 rfl

theorem Still.parseQName : Still pn E G B 1 (parseQName E : P σ (Bytes × Bytes)) := by
  intro s hs
  unfold Helium.parseQName
  have h1 := Still.parseNCName s hs
  show Tot pn (M.bind (M.attempt (Helium.parseNCName E)) _ s) _ _
  unfold M.bind M.attempt
  cases hp : Helium.parseNCName E s with
  | diverge => rw [hp] at h1; exact h1
  | panic => rw [hp] at h1; exact h1
  | err e t =>
    rw [hp] at h1
    simp only
    have : Still pn E G B 1 (do
        if (← Helium.peek E) ≠ 58 then
          match (← M.attempt (Helium.parseName E)) with
          | .error _ => M.cerr .mQName
          | .ok v => Pure.pure (v, [])
        else M.fail (wrapErr e) : P σ (Bytes × Bytes)) := by
      refine Still.then Still.peek (fun c => ?_)
      split
      · intro u hu
        have h2 := Still.parseName u hu
        show Tot pn (M.bind (M.attempt (Helium.parseName E)) _ u) _ _
        unfold M.bind M.attempt
        cases hq : Helium.parseName E u <;> rw [hq] at h2 <;> exact h2
      · exact Still.fail _
    exact (this t (hs.same h1)).mono (fun _ u hu => ⟨h1.trans hu.1, by have := h1.cur.length_le; have := hu.2; omega⟩) (fun _ hu => h1.trans hu)
  | ok v t =>
    rw [hp] at h1
    simp only
    rw [peek_bind]
    split
    · exact h1
    · rename_i h58
      have h58 : t.cur.getD 0 E.eof = 58 := Classical.not_not.1 h58
      rw [adv_bind]
      obtain ⟨r, hr⟩ : ∃ r, t.cur = 58 :: r := by
        cases hc : t.cur with
        | nil =>
          rw [hc] at h58
          rcases E.eof_spec with h | h <;> rw [List.getD_nil, h] at h58 <;> cases h58
        | cons x r => rw [hc] at h58; exact ⟨r, by rw [show x = 58 from h58]⟩
      have h2 : Same G t { t with cur := r } := Same.cut t (by rw [hr]; exact List.suffix_cons _ _)
      have e1 : t.cur.drop 1 = r := by rw [hr]; rfl
      rw [e1]
      have hg := (hs.same h1.1).same h2
      have hsafe := (hs.same h1.1).safe
      have key : Tot pn ((do
          match (← M.attempt (Helium.parseNCName E)) with
          | .ok l => Pure.pure (l, v)
          | .error _ =>
            match (← M.attempt (parseNmtoken E)) with
            | .ok l => Pure.pure (l, v)
            | .error _ =>
              let l ← M.wrap (Helium.parseName E)
              Pure.pure (l, v) : P σ (Bytes × Bytes)) { t with cur := r }) (fun _ s' => Same G { t with cur := r } s') (Same G { t with cur := r }) := by
        have h3 := Still.parseNCName _ hg
        show Tot pn (M.bind (M.attempt (Helium.parseNCName E)) _ _) _ _
        unfold M.bind M.attempt
        cases hq : Helium.parseNCName E { t with cur := r } with
        | diverge => rw [hq] at h3; exact h3
        | panic => rw [hq] at h3; exact h3
        | ok l u => rw [hq] at h3; exact h3.1
        | err e u =>
          -- the name could not be read: what follows does not look like a name
          have hnm : ¬ (r.getD 0 E.eof ≠ 0 ∧ isNameChar E (r.getD 0 E.eof) = true) ∧ u = { t with cur := r } := by
            unfold Helium.parseNCName at hq
            rw [rest_bind] at hq
            cases hrc : r with
            | nil =>
              rw [hrc] at hq
              cases hq
              exact ⟨(fun h => by rw [List.getD_nil, eof_token] at h; cases h.2), rfl⟩
            | cons c w =>
              rw [hrc] at hq
              simp only at hq
              have hu : u = { t with cur := c :: w } := by
                split at hq
                · cases hq; rfl
                · split at hq
                  · cases hq; rfl
                  · cases hq
              refine ⟨?_, hu⟩
              rintro ⟨h0, hn⟩
              have hn : isNameChar E c = true := hn
              obtain ⟨h5, h6⟩ := hsafe.colon c w (by rw [hr, hrc]; exact List.suffix_refl _) (isNameChar_token hn)
              have h7 : ¬ (c = 32 ∨ c = 62 ∨ c = 47 ∨ !(isNameStart E c)) := by
                have h8 : isNameStart E c = true := by
                  unfold isNameStart
                  rcases h5 with h | h | h <;> simp [h]
                rintro (h | h | h | h)
                · subst h
                  rw [isNameStart, E.letter_ascii 32 (by decide)] at h8; revert h8; decide
                · subst h
                  rw [isNameStart, E.letter_ascii 62 (by decide)] at h8; revert h8; decide
                · subst h
                  rw [isNameStart, E.letter_ascii 47 (by decide)] at h8; revert h8; decide
                · rw [h8] at h; cases h
              rw [if_neg h7] at hq
              have h9 := nameScan_le (ncNameCh E) E.eof w 2
              have h10 := h6 (w.takeWhile (ncNameCh E)) (w.dropWhile (ncNameCh E)) (List.takeWhile_append_dropWhile).symm
                (fun x hx => ncNameCh_name (mem_takeWhile hx))
              rw [if_neg (by omega)] at hq
              cases hq
          obtain ⟨h4, rfl⟩ := hnm
          simp only
          show Tot pn (M.bind (M.attempt (parseNmtoken E)) _ _) _ _
          have h5 : parseNmtoken E ({ t with cur := r } : St σ) = .ok [] { t with cur := r } := by
            unfold parseNmtoken
            rw [peek_bind, if_neg h4]
            rfl
          unfold M.bind M.attempt
          rw [h5]
          exact Same.refl _
      refine key.mono (fun _ u hu => ⟨h1.1.trans (h2.trans hu), ?_⟩) (fun _ hu => h1.1.trans (h2.trans hu))
      have := h1.2
      have := (h2.trans hu).cur.length_le
      omega

/-! ### references -/

theorem Still.charRefBody (hex : Bool) : Still pn E G B 0 (charRefBody hex : P σ Nat) := by
  unfold Helium.charRefBody
  intro s hs
  rw [rest_bind, modify_bind]
  have h1 : Same G s { s with cur := (charRefLoop hex 0 s.cur).2 } := Same.cut s (charRefLoop_suffix hex s.cur 0)
  have h2 : Still pn E G B 0 (match (charRefLoop hex 0 s.cur).1 with
    | none => M.raw .mCharRef
    | some v => do
      let _ ← Helium.consume [59]
      if isChar v && (v < 2 ^ 31 && v ≤ 0x10FFFF) then Pure.pure v else M.raw .invalidChar : P σ Nat) := by
    still
  exact (h2 _ (hs.same h1)).mono (fun _ u hu => ⟨h1.trans hu.1, by have := (h1.trans hu.1).cur.length_le; omega⟩) (fun _ hu => h1.trans hu)

theorem Still.parseCharRef : Still pn E G B 2 (parseCharRef : P σ Nat) := by
  unfold Helium.parseCharRef
  refine Still.consumeIf (j := 0) (Still.charRefBody true) ?_ (by decide)
  refine Still.consumeIf (j := 0) (Still.charRefBody false) ?_ (by decide)
  exact Still.raw _

end
end Helium
