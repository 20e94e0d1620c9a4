import Verif.Spec.Expand
import Verif.Lemmas.DocLogic
import Verif.Lemmas.Forward
import Verif.Lemmas.NameRun
import Verif.Lemmas.LexRun
import Verif.Lemmas.SourceRun
import Verif.Lemmas.SourceContent
import Verif.Lemmas.TreeLogic
/-! The depth counter of the parser bounds the nesting of entity replacements. -/
namespace Helium
open Spec
section
variable {σ : Type} {α β : Type} {H : Handler σ} (E : Env)

/-- the depth counter does not change. -/
def depthL (H : Handler σ) : Logic false H where
  R s s' := s'.depth = s.depth
  X _ _ _ := True
  Q _ := True
  quiet h := h.depth
  trans h k := k.trans h
  transX _ _ := trivial
  xquiet _ _ := trivial
  fail _ := trivial
  wrap _ := trivial
  call _ _ := rfl
  callX _ _ := trivial
  look _ := rfl

theorem depthL_flat : Flat E (depthL H) (fun _ => True) where
  admits := Admits.of (fun _ _ _ => trivial)
  inv := fun _ _ => trivial
  invq := fun _ _ => trivial
  enter := fun _ _ _ _ _ _ => trivial
  leave := fun _ _ _ _ _ _ _ _ _ => rfl
  leaveX := fun _ _ _ _ _ _ _ _ _ _ => trivial
  ent := fun _ _ _ _ _ _ _ => trivial

theorem depthL_tags : FlatTags (depthL H) where
  start := fun _ _ _ _ _ => trivial
  fin := fun _ _ _ => trivial
  nodes := fun _ _ => rfl
  ns := fun _ _ => rfl

theorem depthL_reference {body : P σ Unit} (hb : SatI (depthL H) (fun _ => True) body) : SatI (depthL H) (fun _ => True) (parseReference E H body) :=
  SatI.parseReference E (depthL_flat E) hb

theorem depthL_element {body : P σ Unit} (hb : SatI (depthL H) (fun _ => True) body) : SatI (depthL H) (fun _ => True) (parseElementW E H body) :=
  SatI.parseElementW E (depthL_flat E).toFrame depthL_tags hb

theorem depthL_content (fuel : Nat) : SatI (depthL H) (fun _ => True) (parseContent E H fuel) :=
  SatI.parseContent E (depthL_flat E).toFrame (fun _ h => depthL_reference E h) (fun _ h => depthL_element E h) fuel

theorem depthL_step (fuel : Nat) : SatI (depthL H) (fun _ => True) (contentStep E H (parseContent E H fuel)) :=
  SatI.contentStep E (depthL_flat E).toFrame (depthL_reference E (depthL_content E fuel)) (depthL_element E (depthL_content E fuel))

/-- the two computations do the same from states of depth `d`. -/
def Agree (d : Nat) (p q : P σ α) : Prop := ∀ s, s.depth = d → p s = q s

variable {d : Nat}

theorem Agree.rfl' (p : P σ α) : Agree d p p := fun _ _ => rfl

theorem Agree.wrap {p q : P σ α} (h : Agree d p q) : Agree d (M.wrap p) (M.wrap q) := by
  intro s hs
  unfold M.wrap
  rw [h s hs]

theorem Agree.bind {p q : P σ α} {f g : α → P σ β} (h : Agree d p q) (hp : SatI (depthL H) (fun _ => True) p) (hf : ∀ a, Agree d (f a) (g a)) :
    Agree d (p >>= f) (q >>= g) := by
  intro s hs
  show M.bind p f s = M.bind q g s
  unfold M.bind
  rw [← h s hs]
  have h1 := hp s trivial
  cases hr : p s with
  | ok a t =>
    rw [hr] at h1
    exact hf a t (Eq.trans h1 hs)
  | _ => rfl

theorem Agree.element {b b' : P σ Unit} (h : Agree d b b') (hb : SatI (depthL H) (fun _ => True) b) : Agree d (parseElementW E H b) (parseElementW E H b') := by
  unfold parseElementW
  refine Agree.bind (Agree.rfl' _) (Sat.satI (Sat.wrap (Sat.parseStartTag E (depthL_flat E).admits depthL_tags))) (fun _ => ?_)
  refine Agree.bind (H := H) (Agree.rfl' _) (Sat.satI (Silent.sat (Silent.hasPrefix _) _)) (fun c => ?_)
  split
  · exact Agree.rfl' _
  · exact Agree.bind (Agree.wrap h) (SatI.wrap hb) (fun _ => Agree.rfl' _)

/-- inside a replacement the depth is larger by two, and there is none beyond depth 40. -/
theorem Agree.chunk {b b' : P σ Unit} (h : d + 1 ≤ 40 → Agree (d + 2) b b') (c : Bytes) : Agree d (parseChunk E b c) (parseChunk E b' c) := by
  intro s hs
  unfold parseChunk
  by_cases hd : s.depth + 1 > 40
  · rw [if_pos hd, if_pos hd]
  · rw [if_neg hd, if_neg hd]
    have hb := h (by omega)
    dsimp only
    split
    · rename_i h0 _
      have : (do b; chunkAdopt (chunkDoc s).1 : P σ Unit) (chunkSt s (chunkDoc s).1 h0 (E.decode .utf8 c)) =
          (do b'; chunkAdopt (chunkDoc s).1 : P σ Unit) (chunkSt s (chunkDoc s).1 h0 (E.decode .utf8 c)) := by
        show M.bind b _ _ = M.bind b' _ _
        unfold M.bind
        rw [hb _ (by show s.depth + 2 = d + 2; rw [hs])]
      rw [this]
    all_goals rfl

theorem Agree.reference {b b' : P σ Unit} (h : d + 1 ≤ 40 → Agree (d + 2) b b') (hb : SatI (depthL H) (fun _ => True) b) :
    Agree d (parseReference E H b) (parseReference E H b') := by
  unfold parseReference
  refine Agree.bind (H := H) (Agree.rfl' _) (Sat.satI (Silent.sat (Silent.peek E) _)) (fun c => ?_)
  refine Agree.bind (H := H) (Agree.rfl' _) (Sat.satI (Silent.sat (Silent.need _ _) _)) (fun _ => ?_)
  refine Agree.bind (H := H) (Agree.rfl' _) (Sat.satI (Silent.sat (Silent.peekN E 2) _)) (fun c2 => ?_)
  split
  · exact Agree.rfl' _
  · refine Agree.bind (H := H) (Agree.rfl' _) (Sat.satI (Sat.wrap (Sat.parseEntityRef E (depthL_flat E).admits))) (fun ent => ?_)
    refine Agree.bind (H := H) (Agree.rfl' _) (Sat.satI (Silent.sat Silent.get _)) (fun s => ?_)
    dsimp only
    split
    · exact Agree.rfl' _
    · split
      · exact Agree.rfl' _
      · split
        · split
          · exact Agree.bind (H := H) (Agree.chunk E h _) (SatI.parseChunk E (depthL_flat E) hb _) (fun _ => Agree.rfl' _)
          · exact Agree.rfl' _
        · exact Agree.rfl' _

theorem isPrefix_head {l : List Nat} {c : Nat} (h : b!"&".isPrefixOf (c :: l) = true) : c = 38 := by
  exact (by simpa [List.isPrefixOf] using h : 38 = c).symm

/-- at a reference, one step of content reads that reference. -/
theorem contentStep_amp {b : P σ Unit} {s : St σ} (h : b!"&".isPrefixOf s.cur = true) : contentStep E H b s = M.wrap (parseReference E H b) s := by
  cases hc : s.cur with
  | nil => rw [hc] at h; cases h
  | cons c l =>
    rw [hc] at h
    have := isPrefix_head h
    subst this
    unfold contentStep
    run
    rw [hc]
    rfl

theorem Agree.step {b b' : P σ Unit} (h : Agree d b b') (hb : SatI (depthL H) (fun _ => True) b) {s : St σ} (hs : s.depth = d)
    (hn : b!"&".isPrefixOf s.cur = false) : contentStep E H b s = contentStep E H b' s := by
  unfold contentStep
  run
  rw [hn]
  by_cases h1 : b!"<?".isPrefixOf s.cur = true
  · rw [if_pos h1, if_pos h1]
  rw [if_neg h1, if_neg h1]
  by_cases h2 : b!"<![CDATA[".isPrefixOf s.cur = true
  · rw [if_pos h2, if_pos h2]
  rw [if_neg h2, if_neg h2]
  by_cases h3 : b!"<!--".isPrefixOf s.cur = true
  · rw [if_pos h3, if_pos h3]
  rw [if_neg h3, if_neg h3]
  by_cases h4 : b!"<".isPrefixOf s.cur = true
  · rw [if_pos h4, if_pos h4]
    exact (Agree.element E h hb).wrap s hs
  rw [if_neg h4, if_neg h4]
  rfl

theorem content_expandAt (stray : P σ Unit) : ∀ (fuel levels d : Nat), 40 ≤ d + 2 * levels → Agree d (parseContent E H fuel) (expandAt E H stray fuel levels)
  | 0, _, _, _ => Agree.rfl' _
  | fuel + 1, levels, d, hd => by
    have ih := content_expandAt stray fuel levels d hd
    intro s hs
    unfold parseContent expandAt
    run
    by_cases h1 : s.cur.isEmpty = true
    · rw [if_pos h1, if_pos h1]
    rw [if_neg h1, if_neg h1]
    by_cases h2 : b!"</".isPrefixOf s.cur = true
    · rw [if_pos h2, if_pos h2]
    rw [if_neg h2, if_neg h2]
    have h4 := depthL_step (H := H) E fuel s trivial
    have next : ∀ {q : P σ Unit}, contentStep E H (parseContent E H fuel) s = q s →
        (contentStep E H (parseContent E H fuel) >>= fun _ => parseContent E H fuel) s = (q >>= fun _ => expandAt E H stray fuel levels) s := by
      intro q hq
      show M.bind _ _ _ = M.bind _ _ _
      unfold M.bind
      rw [← hq]
      split
      · rename_i a t heq
        rw [heq] at h4
        exact ih t (Eq.trans h4 hs)
      all_goals rfl
    by_cases h3 : b!"&".isPrefixOf s.cur = true
    · rw [if_pos h3]
      refine next ?_
      rw [contentStep_amp E h3]
      refine Agree.wrap (Agree.reference E (fun hd1 => ?_) (depthL_content E fuel)) s hs
      cases levels with
      | zero => omega
      | succ n => exact content_expandAt stray fuel n (d + 2) (by omega)
    · rw [if_neg h3]
      exact next (Agree.step E ih (depthL_content E fuel) hs (by cases h : b!"&".isPrefixOf s.cur with | true => exact absurd h h3 | false => rfl))

/-! ### recursive entities -/

theorem resolvePredef_none {n : Bytes} (h : n ∉ [b!"lt", b!"gt", b!"amp", b!"apos", b!"quot"]) : resolvePredef n = none := by
  simp only [List.mem_cons, not_or, List.not_mem_nil, not_false_eq_true, and_true] at h
  unfold resolvePredef
  rw [if_neg h.1, if_neg h.2.1, if_neg h.2.2.1, if_neg h.2.2.2.1, if_neg h.2.2.2.2]

theorem parseEntityRef_answered {n r : List Nat} (hn : Name E n) (hp : resolvePredef (encodeRunes n) = none) {s : St σ} (hs : s.cur = 38 :: (n ++ 59 :: r))
    {i : Nat} {c' : HC σ} (ha : H s.view (.getEntity (encodeRunes n)) s.hc = (.ent (some (.ptr i)), c')) :
    parseEntityRef E H s = .ok (.ptr i) { s with cur := r, hc := c', trace := s.trace ++ [(.getEntity (encodeRunes n), .ent (some (.ptr i)))] } := by
  unfold parseEntityRef
  run
  rw [hs]
  rw [need_bind (by rfl)]
  run
  have h1 := parseName_run E hn (r := 59 :: r) (by
    intro c hc; cases hc; exact ⟨by decide, semi_notName E⟩) { s with cur := n ++ 59 :: r } rfl
  have h2 : M.orElse (parseName E) .nameRequired { s with cur := n ++ 59 :: r } = _ := orElse_run h1
  rw [hs]
  simp only [List.drop_succ_cons, List.drop_zero]
  rw [bind_run h2]
  run
  rw [need_bind (by rfl)]
  run
  rw [hp]
  simp only [List.drop_succ_cons, List.drop_zero]
  have h3 : ask H (.getEntity (encodeRunes n)) { s with cur := r } = .ok (.ok (some (.ptr i)))
      { s with cur := r, hc := c', trace := s.trace ++ [(.getEntity (encodeRunes n), .ent (some (.ptr i)))] } := by
    unfold ask callback
    simp only [Bind.bind, M.bind]
    rw [show H ({ s with cur := r } : St σ).view (.getEntity (encodeRunes n)) ({ s with cur := r } : St σ).hc = (.ent (some (.ptr i)), c') from ha]
    rfl
  rw [bind_run h3]
  rfl

variable {N : List Nat → Prop}

/-- text before a reference is read up to it. -/
theorem charData_before {pre t : List Nat} (hp : ∀ c ∈ pre, isChar c = true ∧ c ≠ 38 ∧ c ≠ 60 ∧ c ≠ 93) :
    cdScan E.eof false (pre ++ 38 :: t) = .ok pre := by
  induction pre with
  | nil => rfl
  | cons c pre ih =>
    obtain ⟨h1, h2, h3, h4⟩ := hp c (by simp)
    have h0 : c ≠ 0 := by rintro rfl; cases h1
    rw [List.cons_append, cdScan]
    simp [h0, h1, h2, h3, h4, ih (fun c hc => hp c (by simp [hc])), Scan.cons]

theorem rec_both (R : Recursive E H N) : ∀ (levels : Nat),
    (∀ fuel (s : St σ) n r, 40 ≤ s.depth + 2 * levels → N n → s.cur = 38 :: (n ++ 59 :: r) → ∀ a s', parseReference E H (parseContent E H fuel) s ≠ .ok a s') ∧
    (∀ fuel (s : St σ) pre n r, 40 ≤ s.depth + 2 * levels → N n → (∀ c ∈ pre, isChar c = true ∧ c ≠ 38 ∧ c ≠ 60 ∧ c ≠ 93) →
      s.cur = pre ++ 38 :: (n ++ 59 :: r) → ∀ a s', parseContent E H fuel s ≠ .ok a s') := by
  intro levels
  induction levels using Nat.strongRecOn with
  | ind levels ih =>
  have A : ∀ fuel (s : St σ) n r, 40 ≤ s.depth + 2 * levels → N n → s.cur = 38 :: (n ++ 59 :: r) → ∀ a s', parseReference E H (parseContent E H fuel) s ≠ .ok a s' := by
    intro fuel s n r hd hn hs a s' h
    obtain ⟨hname, hpre⟩ := R.name n hn
    obtain ⟨i, c', h1, h2, h3, pre, m, rest, h4, h5, h6⟩ := R.answer n hn s.view s.hc
    have hne : encodeRunes n ≠ [] := by
      obtain ⟨x, t, rfl, _⟩ := hname.start
      exact encodeRunes_ne (by simp)
    have h35 : (n ++ 59 :: r).getD 0 E.eof ≠ 35 := by
      obtain ⟨x, t, rfl, hx⟩ := hname.start
      have := nameChar_range E (hname.chars x (by simp))
      rw [List.cons_append, List.getD_cons_zero]
      rintro rfl
      rcases hx with hx | hx | hx
      · rw [E.letter_ascii 35 (by decide)] at hx; simp at hx
      · cases hx
      · cases hx
    unfold parseReference at h
    run at h
    rw [hs] at h
    rw [need_bind (by rfl)] at h
    run at h
    rw [hs] at h
    have h35' : ¬ (38 :: (n ++ 59 :: r)).getD (2 - 1) E.eof = 35 := h35
    rw [if_neg h35'] at h
    rw [bind_run (wrap_run (parseEntityRef_answered E hname (resolvePredef_none hpre) hs h1))] at h
    run at h
    have hcond : ¬ ((ERef.ptr i).name c'.heap = [] ∨ (ERef.ptr i).typ c'.heap = 6) := by
      simp only [ERef.name, ERef.typ, h2, h3]
      simp [hne]
    rw [if_neg hcond] at h
    split at h
    · obtain ⟨_, t, h7, _⟩ := bind_ok.1 h
      unfold parseChunk at h7
      simp only at h7
      split at h7
      · cases h7
      · rename_i hdep
        cases levels with
        | zero => omega
        | succ k =>
          split at h7
          · split at h7
            · rename_i h8
              obtain ⟨_, t', h9, _⟩ := bind_ok.1 h8
              refine (ih k (Nat.lt_succ_self k)).2 fuel _ pre m rest ?_ h4 h6 ?_ _ _ h9
              · show 40 ≤ s.depth + 2 + 2 * k
                omega
              · exact h5
            all_goals cases h7
          all_goals cases h7
    · cases h
  refine ⟨A, ?_⟩
  intro fuel
  induction fuel with
  | zero => intro s pre n r _ _ _ _ a s' h; cases h
  | succ f ihf =>
    intro s pre n r hd hn hp hs a s' h
    unfold parseContent at h
    run at h
    have h1 : ¬ s.cur.isEmpty = true := by rw [hs]; cases pre <;> simp
    have h2 : ∀ l, ¬ (60 :: l).isPrefixOf s.cur = true := by
      intro l
      rw [hs]
      cases pre with
      | nil => simp
      | cons c pre =>
        have := (hp c (by simp)).2.2.1
        simp
        intro h; exact absurd h.symm this
    rw [if_neg h1, if_neg (h2 _)] at h
    obtain ⟨_, t, h3, h4⟩ := bind_ok.1 h
    have hdt : t.depth = s.depth := by
      have := depthL_step (H := H) E f s trivial
      rw [h3] at this
      exact this
    cases pre with
    | nil =>
      rw [contentStep_amp E (by rw [hs]; rfl)] at h3
      exact A f s n r hd hn hs _ _ (wrap_ok.1 h3)
    | cons c pre =>
      unfold contentStep at h3
      run at h3
      rw [if_neg (h2 _), if_neg (h2 _), if_neg (h2 _), if_neg (h2 _)] at h3
      have h5 : ¬ b!"&".isPrefixOf s.cur = true := by
        rw [hs]
        intro h
        exact (hp c (by simp)).2.1 (isPrefix_head h)
      rw [if_neg h5] at h3
      unfold parseCharData at h3
      run at h3
      rw [hs, charData_before E hp] at h3
      simp only at h3
      run at h3
      have hcur : t.cur = 38 :: (n ++ 59 :: r) := by
        obtain ⟨b, hb, _⟩ := areBlanks_run E (replaceCRLF (encodeRunes (c :: pre))) { s with cur := 38 :: (n ++ 59 :: r) }
        simp only [hs, List.length_cons, List.cons_append, List.drop_succ_cons, List.drop_left] at h3
        simp only [Bool.false_eq_true, if_false] at h3
        rw [bind_run hb] at h3
        have hcb : ∀ {ev : Ev} {s0 s1 : St σ} {u : Unit}, cb H ev s0 = .ok u s1 → s1.cur = s0.cur := by
          intro ev s0 s1 u h
          have := cb_postR (H := H) (ev := ev) (s := s0) (R := fun s' => s'.cur = s0.cur) (fun _ => rfl)
          rw [h] at this
          exact this
        split at h3
        · exact hcb h3
        · exact hcb h3
      exact ihf t [] n r (by omega) hn (by intro c hc; cases hc) hcur _ _ h4

end
end Helium
