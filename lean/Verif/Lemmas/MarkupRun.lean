import Verif.Lemmas.LexRun
/-! Exact behaviour of processing instructions, character data, CDATA sections and character references. -/
namespace Helium
open Spec

theorem isBlank_iff (c : Nat) : isBlank c = true ↔ Ws c := by
  unfold isBlank Ws
  simp
  omega

theorem dropWhile_blank {ws r : List Nat} (h : ∀ c ∈ ws, Ws c) (hr : ∀ c, r.head? = some c → ¬ Ws c) : (ws ++ r).dropWhile isBlank = r := by
  induction ws with
  | nil =>
    cases r with
    | nil => rfl
    | cons c r =>
      have : isBlank c = false := by
        have := hr c rfl
        rw [← isBlank_iff] at this
        simpa using this
      simp [this]
  | cons c ws ih =>
    have : isBlank c = true := (isBlank_iff c).2 (h c (by simp))
    simp only [List.cons_append, List.dropWhile_cons, this, if_true]
    exact ih (fun c hc => h c (by simp [hc]))

theorem blanks_split (u : List Nat) : ∃ ws r, u = ws ++ r ∧ (∀ c ∈ ws, Ws c) ∧ (∀ c, r.head? = some c → ¬ Ws c) ∧ u.dropWhile isBlank = r := by
  refine ⟨u.takeWhile isBlank, u.dropWhile isBlank, (List.takeWhile_append_dropWhile).symm, ?_, ?_, rfl⟩
  · intro c hc
    exact (isBlank_iff c).1 (by
      have h1 := List.all_takeWhile (p := isBlank) (l := u)
      exact List.all_eq_true.1 h1 c hc)
  · intro c hc hw
    have := List.head?_dropWhile_not isBlank u
    rw [hc] at this
    simp at this
    rw [(isBlank_iff c).2 hw] at this
    cases this

section
variable {σ : Type} (E : Env) (H : Handler σ)

theorem nameChar_scalar {c : Nat} (h : NameChar E c) : isScalar c := by
  rcases h with h | h | h | h | h | h
  · exact (E.letter_scalar c h).1
  · exact (E.digit_scalar c h).1
  all_goals (subst h; decide)

theorem indexByte_some {s : Bytes} {b : Nat} : (indexByte s b).isSome = true ↔ b ∈ s := by
  unfold indexByte
  rw [List.findIdx?_isSome]
  simp

/-- target of a processing instruction: a name other than `xml`, without colon. -/
structure PITarget (n : List Nat) : Prop where
  name : Name E n
  notXml : n ≠ b!"xml"
  noColon : 58 ∉ n

theorem Name.scalar {n : List Nat} (h : Name E n) : ∀ c ∈ n, isScalar c := fun c hc => nameChar_scalar E (h.chars c hc)

theorem parsePITarget_run {n r : List Nat} (hn : PITarget E n) (hr : ∀ c, r.head? = some c → c ≠ 0 ∧ ¬ NameChar E c) (s : St σ)
    (hs : s.cur = n ++ r) : parsePITarget E s = .ok (encodeRunes n) { s with cur := r } := by
  unfold parsePITarget
  rw [bind_run (wrap_run (parseName_run E hn.name hr s hs))]
  have h1 : ¬ encodeRunes n = b!"xml" := by
    intro h
    apply hn.notXml
    apply encodeRunes_injective (Name.scalar E hn.name) (by decide)
    rw [h]; decide
  have h2 : ¬ (indexByte (encodeRunes n) 58).isSome = true := by
    rw [indexByte_some, mem_encodeRunes_ascii n 58 (by decide)]
    exact hn.noColon
  run
  simp only [h1, if_false, h2]
  split <;> rfl

theorem needBlanks_run {ws r : List Nat} (hne : ws ≠ []) (h : ∀ c ∈ ws, Ws c) (hr : ∀ c, r.head? = some c → ¬ Ws c) (s : St σ)
    (hs : s.cur = ws ++ r) : needBlanks E s = .ok () { s with cur := r } := by
  unfold needBlanks
  cases ws with
  | nil => exact absurd rfl hne
  | cons c ws =>
    run
    rw [need_bind (by rw [hs]; exact (isBlank_iff c).2 (h c (by simp)))]
    run
    rw [hs, dropWhile_blank h hr]

/-- a processing instruction without data. -/
theorem parsePI_run_empty {n w : List Nat} (hn : PITarget E n) (s : St σ) (hs : s.cur = b!"<?" ++ (n ++ (b!"?>" ++ w))) :
    parsePI E H s = cb H (.pi (encodeRunes n) []) { s with cur := w } := by
  unfold parsePI
  rw [bind_run (consume_run hs)]
  simp only [if_true]
  rw [bind_run (wrap_run (parsePITarget_run E hn (r := b!"?>" ++ w) (by
    intro c hc; cases hc
    refine ⟨by decide, fun h => ?_⟩
    rcases h with h | h | h
    · rw [E.letter_ascii 63 (by decide)] at h; revert h; decide
    · rw [E.digit_ascii 63 (by decide)] at h; revert h; decide
    · revert h; decide) _ rfl))]
  rw [bind_run (consume_run rfl)]
  simp

theorem ws_notName {c : Nat} (h : Ws c) : c ≠ 0 ∧ ¬ NameChar E c := by
  have hc : c < 128 := by unfold Ws at h; omega
  refine ⟨by unfold Ws at h; omega, fun h1 => ?_⟩
  rcases h1 with h1 | h1 | h1
  · rw [E.letter_ascii c hc] at h1; unfold Ws at h; simp at h1; omega
  · rw [E.digit_ascii c hc] at h1; unfold Ws at h; simp at h1; omega
  · unfold Ws at h; omega

/-- a processing instruction with data. -/
theorem parsePI_run {n ws d w : List Nat} (hn : PITarget E n) (hne : ws ≠ []) (hw : ∀ c ∈ ws, Ws c)
    (hd : ∀ c, d.head? = some c → ¬ Ws c) (hc : ∀ c ∈ d, isChar c = true) (hq : ¬ [63, 62] <:+: d) (s : St σ)
    (hs : s.cur = b!"<?" ++ (n ++ (ws ++ (d ++ (b!"?>" ++ w))))) :
    parsePI E H s = cb H (.pi (encodeRunes n) (encodeRunes d)) { s with cur := w } := by
  unfold parsePI
  rw [bind_run (consume_run hs)]
  simp only [if_true]
  obtain ⟨x, ws', rfl⟩ := List.exists_cons_of_ne_nil hne
  rw [bind_run (wrap_run (parsePITarget_run E hn (r := x :: ws' ++ (d ++ (b!"?>" ++ w))) (by
    intro c hc; cases hc
    exact ws_notName E (hw _ (by simp))) _ rfl))]
  rw [bind_run (consume_run_false (l := b!"?>") (by
    intro hp
    obtain ⟨z, hz⟩ := hp
    simp at hz
    have := hw x (by simp)
    rw [← hz.1] at this
    revert this; decide))]
  simp only [Bool.false_eq_true, if_false]
  rw [bind_run (needBlanks_run E hne hw (r := d ++ (b!"?>" ++ w)) (by
    intro c hcc
    cases d with
    | nil => cases hcc; decide
    | cons y d => exact hd c hcc) _ rfl)]
  run
  rw [show d ++ (b!"?>" ++ w) = d ++ 63 :: 62 :: w from rfl, piScan_run w d hc hq]
  rw [bind_run (consume_run (l := b!"?>") (r := w) (by simp))]
  simp

/-- every accepted processing instruction is a proper one. -/
theorem parsePI_sound {u : List Nat} {s s' : St σ} (h0 : 0 ∉ u) (hs : s.cur = b!"<?" ++ u) (h : parsePI E H s = .ok () s') :
    ∃ n w, NameParsed (NameStartChar E) (NameChar E) u (encodeRunes n) (u.drop n.length) ∧ n ≠ b!"xml" ∧
      ((u = n ++ (b!"?>" ++ w) ∧ cb H (.pi (encodeRunes n) []) { s with cur := w } = .ok () s') ∨
       ∃ ws d, ws ≠ [] ∧ (∀ c ∈ ws, Ws c) ∧ (∀ c ∈ d, isChar c = true) ∧ ¬ [63, 62] <:+: d ∧ (∀ c, d.head? = some c → ¬ Ws c) ∧
         u = n ++ (ws ++ (d ++ (b!"?>" ++ w))) ∧ cb H (.pi (encodeRunes n) (encodeRunes d)) { s with cur := w } = .ok () s') := by
  unfold parsePI at h
  rw [bind_run (consume_run hs)] at h
  simp only [if_true] at h
  obtain ⟨tg, s1, h1, h⟩ := bind_ok.1 h
  rw [wrap_ok] at h1
  unfold parsePITarget at h1
  obtain ⟨nm, s2, h2, h1⟩ := bind_ok.1 h1
  rw [wrap_ok] at h2
  obtain ⟨cur', rfl, hnp⟩ := parseName_sound E h2
  obtain ⟨c, a, r, e1, e2, e3, e4, e5, e6, e7⟩ := hnp
  have e1 : u = (c :: a) ++ r := by simpa using e1
  have e6 : cur' = r := by
    rcases e6 with e6 | ⟨e6, _⟩
    · exact e6
    · exfalso
      apply h0
      rw [e1]
      exact List.mem_append_right _ (List.mem_of_mem_head? e6)
  subst e6 e2
  have h3 : ¬ encodeRunes (c :: a) = b!"xml" ∧ tg = encodeRunes (c :: a) ∧ s1 = { s with cur := cur' } := by
    split at h1
    · exact (raw_ok.1 h1).elim
    · rename_i hx
      split at h1
      · obtain ⟨rfl, rfl⟩ := pure_ok.1 h1; exact ⟨hx, rfl, rfl⟩
      · split at h1
        · exact (raw_ok.1 h1).elim
        · obtain ⟨rfl, rfl⟩ := pure_ok.1 h1; exact ⟨hx, rfl, rfl⟩
  obtain ⟨hx, rfl, rfl⟩ := h3
  have hdrop : u.drop (c :: a).length = cur' := by rw [e1]; simp
  have hname : NameParsed (NameStartChar E) (NameChar E) u (encodeRunes (c :: a)) (u.drop (c :: a).length) := by
    rw [hdrop]
    exact ⟨c, a, cur', e1, rfl, e3, e4, e5, Or.inl rfl, e7⟩
  have hxml : (c :: a) ≠ b!"xml" := by
    intro h; apply hx; rw [h]; decide
  obtain ⟨b, s2, h4, h⟩ := bind_ok.1 h
  cases b with
  | true =>
    simp only [if_true] at h
    obtain ⟨w, h5, rfl⟩ := consume_true h4
    refine ⟨c :: a, w, hname, hxml, Or.inl ⟨?_, h⟩⟩
    rw [e1]
    exact congrArg _ h5
  | false =>
    simp only [Bool.false_eq_true, if_false] at h
    rcases consume_ok.1 h4 with ⟨h5, _⟩ | ⟨_, _, rfl⟩
    · cases h5
    obtain ⟨_, s3, h5, h⟩ := bind_ok.1 h
    unfold needBlanks at h5
    run at h5
    obtain ⟨_, s4, h6, h5⟩ := bind_ok.1 h5
    obtain ⟨h7, rfl⟩ := need_ok.1 h6
    simp only [skipBlanks_bind, pure_run, Out.ok.injEq, true_and] at h5
    subst h5
    obtain ⟨ws, r', f1, f2, f3, f4⟩ := blanks_split cur'
    rw [f4] at h
    have hne : ws ≠ [] := by
      rintro rfl
      simp only [List.nil_append] at f1
      cases cur' with
      | nil =>
        have := (isBlank_iff _).1 h7
        rcases E.eof_spec with h8 | h8
        · simp [h8] at this; revert this; decide
        · simp [h8] at this; revert this; decide
      | cons y cur' =>
        exact f3 y (by rw [← f1]; rfl) ((isBlank_iff y).1 h7)
    run at h
    obtain ⟨t, g1, g2, g3, g4⟩ := piScan_sound r'
    have hd : (piScan r').length = (piScan r').length := rfl
    obtain ⟨b, s5, h8, h⟩ := bind_ok.1 h
    cases b with
    | false => simp only [Bool.false_eq_true, if_false] at h; exact (cerr_ok.1 h).elim
    | true =>
      simp only [if_true] at h
      obtain ⟨w, h9, rfl⟩ := consume_true h8
      have h10 : r'.drop (piScan r').length = t := by
        have : (piScan r' ++ t).drop (piScan r').length = t := List.drop_left' rfl
        rwa [← g1] at this
      have h9 : t = b!"?>" ++ w := by rw [← h10]; exact h9
      refine ⟨c :: a, w, hname, hxml, Or.inr ⟨ws, piScan r', hne, f2, g2, g3, ?_, ?_, h⟩⟩
      · intro x hx
        cases hp : piScan r' with
        | nil => rw [hp] at hx; cases hx
        | cons y l =>
          rw [hp] at hx
          cases hx
          apply f3 x
          rw [g1, hp]
          rfl
      · rw [e1, f1, ← h9, ← g1]

/-! ### CDATA sections -/

/-- a proper non-empty CDATA section is reported with exactly its text. -/
theorem parseCDSect_run {l w : List Nat} (hne : l ≠ []) (h0 : ∀ c ∈ l, c ≠ 0) (hn : ¬ b!"]]>" <:+: l ++ b!"]]") (s : St σ)
    (hs : s.cur = b!"<![CDATA[" ++ (l ++ (b!"]]>" ++ w))) :
    parseCDSect E H s = (do M.wrap (cb H (.cdata (replaceCRLF (encodeRunes l)))); if (← consume b!"]]>") then pure () else M.cerr .cdataNotFinished)
      { s with cur := b!"]]>" ++ w } := by
  unfold parseCDSect
  rw [bind_run (consume_run hs)]
  simp only [if_true]
  have : M.wrap (parseCharData E H true) { s with cur := l ++ (b!"]]>" ++ w) } = M.wrap (cb H (.cdata (replaceCRLF (encodeRunes l)))) { s with cur := b!"]]>" ++ w } := by
    have : parseCharData E H true { s with cur := l ++ (b!"]]>" ++ w) } = cb H (.cdata (replaceCRLF (encodeRunes l))) { s with cur := b!"]]>" ++ w } := by
      unfold parseCharData
      run
      rw [cdScan_run_cdata E.eof w l h0 hn]
      obtain ⟨c, l, rfl⟩ := List.exists_cons_of_ne_nil hne
      simp only
      run
      simp only [if_true]
      congr 2
      simp
    simp only [M.wrap, this]
  show M.bind _ _ _ = M.bind _ _ _
  simp only [M.bind, this]

theorem cb_cur {ev : Ev} {s s' : St σ} (h : cb H ev s = .ok () s') : s'.cur = s.cur := by
  obtain ⟨_, t, h1, h⟩ := bind_ok.1 h
  have h2 : t.cur = s.cur := by
    simp only [callback, Out.ok.injEq] at h1
    rw [← h1.2]
  split at h
  · exact (pure_ok.1 h).2 ▸ h2
  · exact (pure_ok.1 h).2 ▸ h2
  · exact (pure_ok.1 h).2 ▸ h2
  · exact (fail_ok.1 h).elim
  · exact (panic_ok.1 h).elim
  · exact (diverge_ok.1 h).elim

/-- every accepted CDATA section is closed and reported with exactly its text. -/
theorem parseCDSect_sound {u : List Nat} {s s' : St σ} (hs : s.cur = b!"<![CDATA[" ++ u) (h : parseCDSect E H s = .ok () s') :
    ∃ l w s1, u = l ++ (b!"]]>" ++ w) ∧ l ≠ [] ∧ ¬ b!"]]>" <:+: l ∧
      cb H (.cdata (replaceCRLF (encodeRunes l))) { s with cur := b!"]]>" ++ w } = .ok () s1 ∧ s' = { s1 with cur := w } := by
  unfold parseCDSect at h
  rw [bind_run (consume_run hs)] at h
  simp only [if_true] at h
  obtain ⟨_, s1, h1, h⟩ := bind_ok.1 h
  rw [wrap_ok] at h1
  obtain ⟨b, s2, h2, h⟩ := bind_ok.1 h
  cases b with
  | false => simp only [Bool.false_eq_true, if_false] at h; exact (cerr_ok.1 h).elim
  | true =>
    simp only [if_true] at h
    obtain ⟨_, rfl⟩ := pure_ok.1 h
    obtain ⟨w, h3, rfl⟩ := consume_true h2
    unfold parseCharData at h1
    run at h1
    cases hl : cdScan E.eof true u with
    | hang => simp only [hl] at h1; exact (diverge_ok.1 h1).elim
    | misplaced => simp only [hl] at h1; exact (cerr_ok.1 h1).elim
    | ok l =>
      cases l with
      | nil => simp only [hl] at h1; exact (raw_ok.1 h1).elim
      | cons c l =>
        simp only [hl] at h1
        run at h1
        simp only [if_true] at h1
        obtain ⟨t, g1, _, g3, g4⟩ := cdScan_sound E.eof true u (c :: l) hl
        have h4 := cb_cur H h1
        have h5 : u.drop (c :: l).length = t := by rw [g1]; simp
        rw [h5] at h4 h1
        rw [h3] at h4
        subst h4
        exact ⟨c :: l, w, s1, g1, by simp, g3, h1, rfl⟩

/-! ### character references -/

/-- the digits of one base. -/
def refDigit (hex : Bool) : Nat → Option Nat := if hex then hexDigitVal else decDigit
/-- the base. -/
def refBase (hex : Bool) : Nat := if hex then 16 else 10

theorem acc_eq (hex : Bool) (v c : Nat) : (if hex then accHex v c else accDec v c) = (refDigit hex c).map (fun d => (v * refBase hex + d) % 2 ^ 32) := by
  cases hex
  · simp only [Bool.false_eq_true, if_false, accDec, refDigit, decDigit, refBase]
    split <;> rfl
  · simp only [if_true, accHex, refDigit, hexDigitVal, refBase]
    split
    · rfl
    · split
      · simp; omega
      · split
        · simp; omega
        · rfl

theorem digitsVal_any (hex : Bool) (ds : List Nat) (y z v : Nat) (h : digitsVal (refBase hex) (refDigit hex) y ds = some v) :
    ∃ v', digitsVal (refBase hex) (refDigit hex) z ds = some v' := by
  induction ds generalizing y z with
  | nil => exact ⟨_, rfl⟩
  | cons e ds ih =>
    simp only [digitsVal] at h ⊢
    cases he : refDigit hex e with
    | none => simp [he] at h
    | some d' => simp only [he] at h ⊢; exact ih _ _ h

theorem digitsVal_mod (hex : Bool) : ∀ (ds : List Nat) (a v : Nat), digitsVal (refBase hex) (refDigit hex) a ds = some v →
    digitsVal (refBase hex) (refDigit hex) (a % 2 ^ 32) ds ≠ none ∧ ∀ v', digitsVal (refBase hex) (refDigit hex) (a % 2 ^ 32) ds = some v' → v' % 2 ^ 32 = v % 2 ^ 32
  | [], a, v, h => by
    simp only [digitsVal, Option.some.injEq] at h ⊢
    subst h
    refine ⟨by simp, ?_⟩
    rintro v' rfl
    omega
  | c :: ds, a, v, h => by
    simp only [digitsVal] at h ⊢
    cases hd : refDigit hex c with
    | none => simp [hd] at h
    | some d =>
      simp only [hd] at h ⊢
      have h1 := digitsVal_mod hex ds _ v h
      have key : (a % 2 ^ 32 * refBase hex + d) % 2 ^ 32 = (a * refBase hex + d) % 2 ^ 32 := by
        rw [Nat.add_mod, Nat.mul_mod, Nat.mod_mod, ← Nat.mul_mod, ← Nat.add_mod]
      have ex : ∃ v2, digitsVal (refBase hex) (refDigit hex) (a % 2 ^ 32 * refBase hex + d) ds = some v2 := by
        exact digitsVal_any hex ds _ _ v h
      obtain ⟨v2, hv2⟩ := ex
      refine ⟨by rw [hv2]; simp, ?_⟩
      intro v' hv'
      have h3 := digitsVal_mod hex ds _ v' hv'
      rw [key] at h3
      cases hv : digitsVal (refBase hex) (refDigit hex) ((a * refBase hex + d) % 2 ^ 32) ds with
      | none => exact absurd hv h1.1
      | some v3 => rw [← h3.2 v3 hv, h1.2 v3 hv]
termination_by ds => ds.length

theorem refDigit_semi (hex : Bool) : refDigit hex 59 = none := by cases hex <;> decide

/-- what the digit loop computes. -/
theorem charRefLoop_sound (hex : Bool) : ∀ (u : List Nat) (a v : Nat) (t : List Nat), a < 2 ^ 32 → charRefLoop hex a u = (some v, t) →
    ∃ ds n, u = ds ++ t ∧ digitsVal (refBase hex) (refDigit hex) a ds = some n ∧ v = n % 2 ^ 32 ∧ (t = [] ∨ t.head? = some 59)
  | [], a, v, t, ha, h => by
    simp only [charRefLoop, Prod.mk.injEq, Option.some.injEq] at h
    obtain ⟨rfl, rfl⟩ := h
    exact ⟨[], a, rfl, rfl, (Nat.mod_eq_of_lt ha).symm, Or.inl rfl⟩
  | c :: u, a, v, t, ha, h => by
    unfold charRefLoop at h
    split at h
    · rename_i hc
      simp only [Prod.mk.injEq, Option.some.injEq] at h
      obtain ⟨rfl, rfl⟩ := h
      exact ⟨[], a, rfl, rfl, (Nat.mod_eq_of_lt ha).symm, Or.inr (by simp [hc])⟩
    · rw [acc_eq] at h
      cases hd : refDigit hex c with
      | none => simp [hd] at h
      | some d =>
        simp only [hd, Option.map_some] at h
        obtain ⟨ds, n, h1, h2, h3, h4⟩ := charRefLoop_sound hex u _ v t (Nat.mod_lt _ (by decide)) h
        have : ∃ n', digitsVal (refBase hex) (refDigit hex) (a * refBase hex + d) ds = some n' := by
          exact digitsVal_any hex ds _ _ n h2
        obtain ⟨n', hn'⟩ := this
        refine ⟨c :: ds, n', by rw [h1]; rfl, by simp only [digitsVal, hd]; exact hn', ?_, h4⟩
        rw [h3]
        exact (digitsVal_mod hex ds _ n' hn').2 n h2

theorem digitsVal_none_semi (hex : Bool) (ds : List Nat) (a n : Nat) (h : digitsVal (refBase hex) (refDigit hex) a ds = some n) : 59 ∉ ds := by
  induction ds generalizing a with
  | nil => simp
  | cons c ds ih =>
    simp only [digitsVal] at h
    cases hd : refDigit hex c with
    | none => simp [hd] at h
    | some d =>
      simp only [hd] at h
      intro hm
      rcases List.mem_cons.1 hm with rfl | hm
      · rw [refDigit_semi] at hd; cases hd
      · exact ih _ h hm

theorem charRefLoop_run (hex : Bool) (w : List Nat) : ∀ (ds : List Nat) (a n : Nat), digitsVal (refBase hex) (refDigit hex) a ds = some n →
    a < 2 ^ 32 → charRefLoop hex a (ds ++ 59 :: w) = (some (n % 2 ^ 32), 59 :: w)
  | [], a, n, h, ha => by
    simp only [digitsVal, Option.some.injEq] at h
    subst h
    simp [charRefLoop, Nat.mod_eq_of_lt ha]
  | c :: ds, a, n, h, ha => by
    have hs := digitsVal_none_semi hex _ _ _ h
    have h59 : c ≠ 59 := by rintro rfl; simp at hs
    have h' := h
    simp only [digitsVal] at h
    cases hd : refDigit hex c with
    | none => simp [hd] at h
    | some d =>
      simp only [hd] at h
      rw [List.cons_append]
      unfold charRefLoop
      rw [if_neg h59, acc_eq]
      simp only [hd, Option.map_some]
      have h1 := digitsVal_mod hex ds _ n h
      cases hv : digitsVal (refBase hex) (refDigit hex) ((a * refBase hex + d) % 2 ^ 32) ds with
      | none => exact absurd hv h1.1
      | some v3 =>
        rw [charRefLoop_run hex w ds _ v3 hv (Nat.mod_lt _ (by decide)), h1.2 v3 hv]

end
end Helium
