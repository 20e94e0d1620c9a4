import Verif.Lemmas.SourceContent
import Verif.Spec.Document
/-! Running the parser on the text of a well-formed document: XML declaration, prolog, document. -/
namespace Helium
open Spec
section
variable {σ : Type} (E : Env) (H : Handler σ)

/-! ### XML declaration -/

theorem pseudo_run {name v t w : List Nat} (h : Pseudo name v t) (hname : ∀ c, name.head? = some c → ¬ Ws c) (hne : name ≠ []) {val : P σ Bytes} {x : Bytes}
    (hv : ∀ q (s : St σ), (q = 34 ∨ q = 39) → s.cur = v ++ q :: w → val s = .ok x { s with cur := q :: w }) (s : St σ)
    (hs : s.cur.dropWhile isBlank = (t ++ w).dropWhile isBlank) :
    parseNamedAttributeBytes E name val s = .ok x { s with cur := w } := by
  obtain ⟨ws, w1, w2, q, h1, h2, h3, h4, hq, rfl⟩ := h
  have e0 : s.cur.dropWhile isBlank = name ++ (w1 ++ 61 :: (w2 ++ q :: (v ++ q :: w))) := by
    rw [hs, List.append_assoc, dropWhile_blank h2]
    · simp
    · intro c hc
      apply hname c
      cases name with
      | nil => exact absurd rfl hne
      | cons y n => simpa using hc
  unfold parseNamedAttributeBytes
  run
  rw [e0]
  rw [bind_run (consume_run (l := name) rfl)]
  simp only [if_true]
  run
  rw [dropWhile_blank h3 (by intro c hc; cases hc; decide)]
  have e1 : peekB E 1 { s with cur := 61 :: (w2 ++ q :: (v ++ q :: w)) } = .ok 61 { s with cur := 61 :: (w2 ++ q :: (v ++ q :: w)) } := rfl
  rw [bind_run e1, needRaw_bind (by rfl)]
  run
  simp only [List.drop_succ_cons, List.drop_zero]
  rw [dropWhile_blank h4 (by intro c hc; cases hc; rcases hq with rfl | rfl <;> decide)]
  unfold parseQuotedTextBytes
  have e2 : peekB E 1 { s with cur := q :: (v ++ q :: w) } = .ok q { s with cur := q :: (v ++ q :: w) } := rfl
  rw [bind_run e2, if_pos hq]
  run
  simp only [List.drop_succ_cons, List.drop_zero]
  rw [bind_run (hv q { s with cur := v ++ q :: w } hq rfl)]
  have e3 : peekB E 1 { s with cur := q :: w } = .ok q { s with cur := q :: w } := rfl
  rw [bind_run e3, needRaw_bind (by simp)]
  rfl

theorem version_num {v : List Nat} (h : Version v) : VersionNum v := by
  obtain ⟨ds, h1, h2, rfl⟩ := h
  exact ⟨49, ds, by decide, h1, h2, rfl⟩

theorem utf8_encName {v : List Nat} (hv : Utf8Name v) : EncName v := by
  have h1 : ∀ c ∈ v, AsciiLetter c ∨ 48 ≤ c ∧ c ≤ 57 ∨ c = 46 ∨ c = 95 ∨ c = 45 := by
    intro c hc
    have : (if 65 ≤ c ∧ c ≤ 90 then c + 32 else c) ∈ b!"utf-8" := by
      rw [← hv]
      exact List.mem_map.2 ⟨c, hc, rfl⟩
    unfold AsciiLetter
    simp at this
    split at this <;> omega
  match v, hv, h1 with
  | [], hv, _ => cases hv
  | c :: t, hv, h1 =>
    refine ⟨c, t, rfl, ?_, fun x hx => h1 x (by simp [hx])⟩
    have : (if 65 ≤ c ∧ c ≤ 90 then c + 32 else c) = 117 := (List.cons.inj hv).1
    unfold AsciiLetter
    split at this <;> omega

theorem xmlDecl_any {d v e : List Nat} {sd : Int} (h : XmlDecl d v e sd) : XmlDeclAny d v e sd := by
  obtain ⟨a, b, c, h0, h1, h2, h3, h4⟩ := h
  exact ⟨a, b, c, h0, version_num h1, h2, h3.imp_right (fun h => ⟨utf8_encName h.1, h.2⟩), h4⟩

theorem parseVersionNum_run {v w : List Nat} (hv : VersionNum v) (q : Nat) (s : St σ) (hq : q = 34 ∨ q = 39) (hs : s.cur = v ++ q :: w) :
    parseVersionNum E s = .ok v { s with cur := q :: w } := by
  obtain ⟨d0, ds, h0, h1, h2, rfl⟩ := hv
  obtain ⟨d, ds, rfl⟩ := List.exists_cons_of_ne_nil h1
  have hd : ∀ c ∈ d :: ds, isDigitB c = true := by
    intro c hc
    have := h2 c hc
    simp [isDigitB]; omega
  have hd0 : isDigitB d0 = true := by simp [isDigitB]; omega
  unfold parseVersionNum
  run
  rw [hs]
  have e1 : ((ds ++ q :: w).takeWhile isDigitB) = ds := by
    rw [List.takeWhile_append_of_pos (fun c hc => hd c (by simp [hc]))]
    have : isDigitB q = false := by rcases hq with rfl | rfl <;> decide
    simp [this]
  rw [if_pos ⟨hd0, rfl, hd d (by simp)⟩]
  have e4 : List.drop 3 (d0 :: 46 :: d :: ds ++ q :: w) = ds ++ q :: w := rfl
  rw [e4, e1]
  have e2 : 3 + ds.length = (d0 :: 46 :: d :: ds).length := by simp; omega
  rw [e2, List.drop_left, List.take_left]

theorem encNameCh_of {x : Nat} (h : AsciiLetter x ∨ 48 ≤ x ∧ x ≤ 57 ∨ x = 46 ∨ x = 95 ∨ x = 45) : encNameCh x = true := by
  unfold AsciiLetter at h
  unfold encNameCh isAlphaB isDigitB
  simp
  omega

theorem parseEncodingName_run {v w : List Nat} (hv : EncName v) (q : Nat) (s : St σ) (hq : q = 34 ∨ q = 39) (hs : s.cur = v ++ q :: w) :
    parseEncodingName E s = .ok v { s with cur := q :: w } := by
  obtain ⟨c, t, rfl, hc, ht⟩ := hv
  have h2 : isAlphaB c = true := by
    unfold AsciiLetter at hc
    unfold isAlphaB
    simp
    omega
  have h1 : ∀ x ∈ c :: t, encNameCh x = true ∧ x ≠ 0 ∧ x < 128 := by
    intro x hx
    rcases List.mem_cons.1 hx with rfl | hx
    · refine ⟨encNameCh_of (Or.inl hc), ?_⟩
      unfold AsciiLetter at hc
      omega
    · refine ⟨encNameCh_of (ht x hx), ?_⟩
      have := ht x hx
      unfold AsciiLetter at this
      omega
  unfold parseEncodingName
  run
  rw [hs]
  simp only [List.cons_append, h2, if_true]
  obtain ⟨h3, h4⟩ := nameScan_run encNameCh E.beof t (q :: w) (fun x hx => ⟨(h1 x (by simp [hx])).1, (h1 x (by simp [hx])).2.1⟩)
    (by intro x hx; cases hx; rcases hq with rfl | rfl <;> decide) 2
  have h5 : (nameScan encNameCh E.beof 2 (t ++ q :: w)).2 = (c :: t).length := by
    rcases h4 with h4 | h4
    · rw [h4, List.length_cons]; omega
    · cases h4.1
  rw [h3, h5]
  run
  rw [hs, List.drop_left, encodeRunes_ascii _ (fun x hx => (h1 x hx).2.2)]

theorem parseStandalone_run {v w : List Nat} (hv : v = b!"yes" ∨ v = b!"no") (q : Nat) (s : St σ) (_ : q = 34 ∨ q = 39) (hs : s.cur = v ++ q :: w) :
    parseStandaloneDeclValue s = .ok v { s with cur := q :: w } := by
  unfold parseStandaloneDeclValue
  rcases hv with rfl | rfl
  · rw [bind_run (consume_run hs)]
    rfl
  · rw [bind_run (consume_run_false (l := b!"yes") (by rintro ⟨z, hz⟩; rw [hs] at hz; simp at hz))]
    simp only [Bool.false_eq_true, if_false]
    rw [bind_run (consume_run hs)]
    rfl

theorem pseudo_head {name v t : List Nat} (h : Pseudo name v t) : ∃ c t', t = c :: t' ∧ Ws c := by
  obtain ⟨ws, w1, w2, q, h1, h2, _, _, _, rfl⟩ := h
  obtain ⟨c, ws, rfl⟩ := List.exists_cons_of_ne_nil h1
  exact ⟨c, _, rfl, h2 c (by simp)⟩

theorem closeDecl_run (w : List Nat) (s : St σ) (hs : s.cur = b!"?>" ++ w) : closeDecl s = .ok true { s with cur := w } := consume_run hs

theorem parseXMLDecl_run {d v e w : List Nat} {sd : Int} (h : XmlDeclAny d v e sd) (s : St σ) (hs : s.cur = d ++ w) (he : s.encoding = [])
    (hsd : s.standalone = -2) :
    parseXMLDecl E s = .ok () { s with cur := w, version := v, encoding := e, standalone := sd } := by
  obtain ⟨a, b, c, rfl, hv, ha, hb, hc⟩ := h
  have hs : s.cur = b!"<?xml" ++ (a ++ (b ++ (c ++ (b!"?>" ++ w)))) := by rw [hs]; simp
  unfold parseXMLDecl
  rw [bind_run (consume_run hs)]
  simp only [if_true]
  run
  obtain ⟨x, a', ha', hx⟩ := pseudo_head ha
  have hbx := (isBlank_iff x).2 hx
  have e1 : decide (((a ++ (b ++ (c ++ (b!"?>" ++ w)))).dropWhile isBlank).length < (a ++ (b ++ (c ++ (b!"?>" ++ w)))).length) = true := by
    rw [decide_eq_true_eq, ha', List.cons_append, List.dropWhile_cons, if_pos hbx, List.length_cons]
    exact Nat.lt_succ_of_le (List.dropWhile_sublist _).length_le
  rw [e1]
  simp only [if_true]
  have e2 := pseudo_run E ha (w := b ++ (c ++ (b!"?>" ++ w))) (by intro y hy; cases hy; decide) (by simp) (fun q s hq hs => parseVersionNum_run E hv q s hq hs)
    { s with cur := (a ++ (b ++ (c ++ (b!"?>" ++ w)))).dropWhile isBlank } (dropWhile_idem _ _)
  rw [bind_run (wrap_run e2)]
  run
  have hyn : ∀ {sv : List Nat} (_ : sv = b!"yes" ∨ sv = b!"no") (_ : Pseudo b!"standalone" sv c) (t : St σ), t.cur.dropWhile isBlank = (c ++ (b!"?>" ++ w)).dropWhile isBlank →
      parseNamedAttributeBytes E b!"standalone" parseStandaloneDeclValue t = .ok sv { t with cur := b!"?>" ++ w } := by
    intro sv h1 h2 t ht
    exact pseudo_run E h2 (by intro y hy; cases hy; decide) (by simp) (fun q s hq hs => parseStandalone_run h1 q s hq hs) t ht
  have hnb : ∀ y, (b!"?>" ++ y).dropWhile isBlank = b!"?>" ++ y := fun y => rfl
  have hc' : c = [] ∧ sd = -2 ∨ ∃ sv, (sv = b!"yes" ∨ sv = b!"no") ∧ Pseudo b!"standalone" sv c ∧ sd = (if sv = b!"yes" then 1 else 0) := by
    rcases hc with h | h | h
    · exact Or.inl h
    · exact Or.inr ⟨_, Or.inl rfl, h.1, by rw [if_pos rfl]; exact h.2⟩
    · exact Or.inr ⟨_, Or.inr rfl, h.1, by rw [if_neg (by decide)]; exact h.2⟩
  rcases hb with ⟨rfl, rfl⟩ | ⟨hen, hb⟩
  · rcases hc' with ⟨rfl, rfl⟩ | ⟨sv, h1, h2, rfl⟩
    · have e3 : peekB E 1 { s with cur := [] ++ ([] ++ (b!"?>" ++ w)), version := v } = .ok 63 { s with cur := [] ++ ([] ++ (b!"?>" ++ w)), version := v } := rfl
      rw [bind_run e3, if_neg (by decide)]
      rw [bind_run (closeDecl_run w { s with cur := [] ++ ([] ++ (b!"?>" ++ w)), version := v } rfl)]
      simp only [if_true, ← he, ← hsd]
      rfl
    · obtain ⟨y, c', hc1, hy⟩ := pseudo_head h2
      have hby := (isBlank_iff y).2 hy
      have e3 : peekB E 1 { s with cur := [] ++ (c ++ (b!"?>" ++ w)), version := v } = .ok y { s with cur := [] ++ (c ++ (b!"?>" ++ w)), version := v } := by
        rw [hc1]; rfl
      rw [bind_run e3, if_pos hby]
      have e4 : M.attempt (parseNamedAttributeBytes E b!"encoding" (parseEncodingName E)) { s with cur := [] ++ (c ++ (b!"?>" ++ w)), version := v } =
          .ok (.error (.parse (.attrNotFound b!"encoding"))) { s with cur := (c ++ (b!"?>" ++ w)).dropWhile isBlank, version := v } := by
        have : parseNamedAttributeBytes E b!"encoding" (parseEncodingName E) { s with cur := [] ++ (c ++ (b!"?>" ++ w)), version := v } =
            .err (.parse (.attrNotFound b!"encoding")) { s with cur := (c ++ (b!"?>" ++ w)).dropWhile isBlank, version := v } := by
          unfold parseNamedAttributeBytes
          run
          rw [bind_run (consume_run_false (l := b!"encoding") (by
            rintro ⟨z, hz⟩
            obtain ⟨ws, w1, w2, q, _, h4, _, _, _, rfl⟩ := h2
            rw [List.nil_append, List.append_assoc, dropWhile_blank h4 (by intro c hc; cases hc; decide)] at hz
            simp at hz))]
          rfl
        unfold M.attempt
        rw [this]
      rw [bind_run e4]
      simp only [pure_bind', Bool.false_eq_true, if_false]
      rw [bind_run (hyn h1 h2 _ (dropWhile_idem _ _))]
      run
      rw [bind_run (closeDecl_run w _ rfl)]
      simp only [if_true, ← he]
      rfl
  · obtain ⟨y, b', hb1, hy⟩ := pseudo_head hb
    have hby := (isBlank_iff y).2 hy
    have e3 : peekB E 1 { s with cur := b ++ (c ++ (b!"?>" ++ w)), version := v } = .ok y { s with cur := b ++ (c ++ (b!"?>" ++ w)), version := v } := by
      rw [hb1]; rfl
    rw [bind_run e3, if_pos hby]
    have e4 := pseudo_run E hb (w := c ++ (b!"?>" ++ w)) (by intro y hy; cases hy; decide) (by simp) (fun q s hq hs => parseEncodingName_run E hen q s hq hs)
      { s with cur := b ++ (c ++ (b!"?>" ++ w)), version := v } rfl
    rw [bind_run (attempt_run e4)]
    rcases hc' with ⟨rfl, rfl⟩ | ⟨sv, h1, h2, rfl⟩
    · refine Eq.trans (bind_run (a := true) (t := { s with cur := w, version := v, encoding := e }) ?_) ?_
      · rfl
      · simp only [if_true, ← hsd]
        rfl
    · refine Eq.trans (bind_run (a := false) (t := { s with cur := c ++ (b!"?>" ++ w), version := v, encoding := e }) ?_) ?_
      · simp only []
        run
        obtain ⟨y, c', hc1, hy⟩ := pseudo_head h2
        unfold closeDecl
        refine consume_run_false (l := b!"?>") ?_
        rintro ⟨z, hz⟩
        rw [hc1] at hz
        simp at hz
        rw [← hz.1] at hy
        revert hy
        decide
      · simp only [Bool.false_eq_true, if_false]
        rw [bind_run (hyn h1 h2 _ rfl)]
        run
        rw [bind_run (closeDecl_run w _ rfl)]
        rfl

/-! ### prolog and epilog -/

variable {E H} {G : Nat → HC σ → Prop}

theorem parseMiscLoop_blank {fuel : Nat} {c : Nat} {r : List Nat} (hc : Ws c) {s : St σ} (hs : s.cur = c :: r) :
    parseMiscLoop E H (fuel + 1) s = parseMiscLoop E H fuel { s with cur := r.dropWhile isBlank } := by
  have hb := (isBlank_iff c).2 hc
  have p : ∀ x, (60 :: x).isPrefixOf s.cur = false := by
    intro x; rw [hs]; unfold Ws at hc; simp [List.isPrefixOf]; omega
  rw [parseMiscLoop]
  run
  simp only [p, Bool.false_eq_true, if_false]
  rw [hs]
  simp only [List.isEmpty_cons, Bool.false_eq_true, if_false, List.getD_cons_zero, hb, if_true, List.dropWhile_cons]

/-- what follows the `Misc`: the end, an element, or a document type declaration. -/
def Stop (w : List Nat) : Prop := w = [] ∨ ∃ c t, w = 60 :: c :: t ∧ c ≠ 63 ∧ (c ≠ 33 ∨ t.head? = some 68)

theorem misc_run {B : Nat} {D : HV} {F : HC σ → Prop} (W : Willing B D H F G) {t : List Nat} {evs : List Ev} (h : Misc E t evs) {w : List Nat} (hw : Stop w) :
    ∀ (fuel n : Nat) (s : St σ), t.length + 1 ≤ fuel → s.cur = t ++ w → s.inSubset = 0 → G n s.hc →
      ∃ s', parseMiscLoop E H fuel s = .ok () s' ∧ Went G n w s.ns s.nodes evs s s' := by
  induction h with
  | nil =>
    intro fuel n s hf hs hi hg
    refine ⟨s, ?_, [], s.hc, by simp at hs; simp [← hs], rfl, by simp, hg⟩
    cases fuel with
    | zero => simp at hf
    | succ fuel =>
      rw [parseMiscLoop]
      run
      rw [hs]
      rcases hw with rfl | ⟨c, t, rfl, h1, h2⟩
      · rfl
      · have p1 : (b!"<?").isPrefixOf ([] ++ 60 :: c :: t) = false := by simp [List.isPrefixOf]; omega
        have p2 : (b!"<!--").isPrefixOf ([] ++ 60 :: c :: t) = false := by
          rcases h2 with h2 | h2
          · simp [List.isPrefixOf]; omega
          · cases t with
            | nil => cases h2
            | cons d t => cases h2; simp [List.isPrefixOf]
        rw [p1, p2]
        rfl
  | @space c r evs hc hr ih =>
    intro fuel n s hf hs hi hg
    match fuel, hf with
    | fuel + 2, hf =>
    rw [parseMiscLoop_blank (r := r ++ w) hc (by rw [hs]; rfl)]
    by_cases hb : ∃ d r', r ++ w = d :: r' ∧ Ws d
    · obtain ⟨d, r', h1, h2⟩ := hb
      obtain ⟨s', e1, w1⟩ := ih (fuel + 2) n { s with cur := r ++ w } (by simp at hf ⊢; omega) rfl hi hg
      rw [parseMiscLoop_blank h2 (s := { s with cur := r ++ w }) h1] at e1
      have h3 : (r ++ w).dropWhile isBlank = r'.dropWhile isBlank := by
        rw [h1, List.dropWhile_cons, if_pos ((isBlank_iff d).2 h2)]
      rw [h3]
      exact ⟨s', e1, w1⟩
    · have h3 : (r ++ w).dropWhile isBlank = r ++ w := by
        cases h4 : r ++ w with
        | nil => rfl
        | cons d r' =>
          rw [List.dropWhile_cons, if_neg]
          intro h5
          exact hb ⟨d, r', h4, (isBlank_iff d).1 h5⟩
      rw [h3]
      exact ih (fuel + 1) n { s with cur := r ++ w } (by simp at hf ⊢; omega) rfl hi hg
    | 0, hf => simp at hf
    | 1, hf => simp at hf
  | @comment b r evs hb hr ih =>
    intro fuel n s hf hs hi hg
    obtain ⟨s1, e1, w1⟩ := cb_took (H := H) (G := G) (n := n) (ev := .comment (encodeRunes (unixLines b))) (s := { s with cur := r ++ w }) (W.comment hi hg)
    obtain ⟨tr, hc, hs1, h1, h2, hg1⟩ := id w1
    cases fuel with
    | zero => simp at hf
    | succ fuel =>
      obtain ⟨s2, e2, w2⟩ := ih fuel n s1 (by simp at hf ⊢; omega) (by rw [hs1]) (by rw [hs1]; exact hi) (by rw [hs1]; exact hg1)
      refine ⟨s2, ?_, ?_⟩
      · have p1 : (b!"<?").isPrefixOf s.cur = false := by rw [hs]; simp [List.isPrefixOf]
        have p3 : (b!"<!--").isPrefixOf s.cur = true := by rw [hs]; rfl
        have p0 : s.cur.isEmpty = false := by rw [hs]; rfl
        rw [parseMiscLoop]
        run
        simp only [p0, p1, p3, Bool.false_eq_true, if_false, if_true]
        have := parseComment_run H (w := r ++ w) (fun c hc => (hb.legal c hc).isChar) hb.hyphen s (by rw [hs]; simp)
        rw [replaceCRLF_encodeRunes, ← unixLines_eq] at this
        rw [bind_run (wrap_eq this e1)]
        exact e2
      · have h3 : s1.ns = s.ns := by rw [hs1]
        have h4 : s1.nodes = s.nodes := by rw [hs1]
        rw [h3, h4] at w2
        exact w1.trans w2
  | @pi t n d r evs ht hr ih =>
    intro fuel n' s hf hs hi hg
    obtain ⟨s1, e1, w1⟩ := cb_took (H := H) (G := G) (n := n') (ev := .pi (encodeRunes n) (encodeRunes d)) (s := { s with cur := r ++ w }) (W.pi hi hg)
    obtain ⟨tr, hc, hs1, h1, h2, hg1⟩ := id w1
    cases fuel with
    | zero => simp at hf
    | succ fuel =>
      obtain ⟨s2, e2, w2⟩ := ih fuel n' s1 (by simp at hf ⊢; omega) (by rw [hs1]) (by rw [hs1]; exact hi) (by rw [hs1]; exact hg1)
      refine ⟨s2, ?_, ?_⟩
      · have p1 : (b!"<?").isPrefixOf s.cur = true := by rw [hs]; rfl
        have p0 : s.cur.isEmpty = false := by rw [hs]; rfl
        rw [parseMiscLoop]
        run
        simp only [p0, p1, Bool.false_eq_true, if_false, if_true]
        rw [bind_run (wrap_eq (pi_run E H ht s (by rw [hs]; simp)) e1)]
        exact e2
      · have h3 : s1.ns = s.ns := by rw [hs1]
        have h4 : s1.nodes = s.nodes := by rw [hs1]
        rw [h3, h4] at w2
        exact w1.trans w2

theorem parseMisc_run {B : Nat} {D : HV} {F : HC σ → Prop} (W : Willing B D H F G) {t : List Nat} {evs : List Ev} (h : Misc E t evs) {w : List Nat} (hw : Stop w) (n : Nat)
    (s : St σ) (hs : s.cur = t ++ w) (hi : s.inSubset = 0) (hg : G n s.hc) :
    ∃ s', parseMisc E H s = .ok () s' ∧ Went G n w s.ns s.nodes evs s s' := by
  unfold parseMisc
  run
  exact misc_run W h hw _ n s (by rw [hs]; simp) hs hi hg

/-! ### the document -/

theorem encodeRune_bytes {c b : Nat} (hb : b ∈ encodeRune c) : (c < 128 ∧ b = c) ∨ (128 ≤ c ∧ 128 ≤ b) := by
  unfold encodeRune at hb
  split at hb
  · simp at hb; omega
  · split at hb
    · simp at hb; omega
    · split at hb
      · simp at hb; omega
      · split at hb
        · simp at hb; omega
        · simp at hb; omega

theorem encodeRunes_nonzero {l : List Nat} (h : ∀ c ∈ l, c ≠ 0) : ∀ b ∈ encodeRunes l, b ≠ 0 := by
  intro b hb
  unfold encodeRunes at hb
  obtain ⟨c, hc, h1⟩ := List.mem_flatMap.1 hb
  have := encodeRune_bytes h1
  have := h c hc
  omega

theorem ascii_prefix : ∀ {l r : List Nat}, (∀ c ∈ l, c < 128) → l.isPrefixOf (encodeRunes r) = true → l <+: r
  | [], r, _, _ => List.nil_prefix
  | a :: l, [], _, h => by cases h
  | a :: l, c :: r, hl, h => by
    rw [encodeRunes_cons] at h
    cases hc : encodeRune c with
    | nil => exact absurd hc (encodeRune_ne_nil c)
    | cons b bs =>
      rw [hc, List.cons_append, List.isPrefixOf_cons_cons] at h
      simp only [Bool.and_eq_true, beq_iff_eq] at h
      obtain ⟨rfl, h⟩ := h
      have h1 := encodeRune_bytes (c := c) (b := a) (by rw [hc]; simp)
      have h2 := hl a (by simp)
      have h3 : c < 128 ∧ a = c := by omega
      rw [encodeRune_ascii c h3.1] at hc
      cases hc
      rw [List.nil_append] at h
      exact List.cons_prefix_cons.2 ⟨rfl, ascii_prefix (fun x hx => hl x (by simp [hx])) h⟩

theorem detect_bom (x : List Nat) : detectEncoding (encodeRunes (0xFEFF :: x)) = some (b!"utf8", encodeRunes x) := by
  rw [encodeRunes_cons]
  rfl

theorem detect_plain {x : List Nat} (h1 : ∀ c, x.head? = some c → Ws c ∨ c = 60) (h0 : ∀ c ∈ x, c ≠ 0) :
    detectEncoding x = none ∨ detectEncoding x = some (b!"utf8", x) := by
  have key : ∀ {a b : Nat} {l : List Nat}, a ≠ 60 → ¬ Ws a → (a :: b :: l).isPrefixOf x = false := by
    intro a b l ha hw
    cases x with
    | nil => rfl
    | cons c x =>
      have := h1 c rfl
      simp only [List.isPrefixOf_cons_cons, Bool.and_eq_false_iff]
      left
      simp
      rintro rfl
      rcases this with h | h
      · exact hw h
      · exact ha h
  have key2 : ∀ {l : List Nat}, (60 :: 0 :: l).isPrefixOf x = false := by
    intro l
    match x with
    | [] => rfl
    | [c] => simp [List.isPrefixOf]
    | c :: d :: x =>
      have := h0 d (by simp)
      simp [List.isPrefixOf]
      intro _ h
      omega
  have k0 : List.isPrefixOf [0, 0, 0, 0x3C] x = false := key (by decide) (by decide)
  have k1 : List.isPrefixOf [0x3C, 0, 0, 0] x = false := key2
  have k2 : List.isPrefixOf [0, 0, 0x3C, 0] x = false := key (by decide) (by decide)
  have k3 : List.isPrefixOf [0, 0x3C, 0, 0] x = false := key (by decide) (by decide)
  have k4 : List.isPrefixOf [0x4C, 0x6F, 0xA7, 0x94] x = false := key (by decide) (by decide)
  have k5 : List.isPrefixOf [0x3C, 0, 0x3F, 0] x = false := key2
  have k6 : List.isPrefixOf [0, 0x3C, 0, 0x3F] x = false := key (by decide) (by decide)
  have k7 : List.isPrefixOf [0xEF, 0xBB, 0xBF] x = false := key (by decide) (by decide)
  have k8 : List.isPrefixOf [0xFE, 0xFF] x = false := key (by decide) (by decide)
  have k9 : List.isPrefixOf [0xFF, 0xFE] x = false := key (by decide) (by decide)
  unfold detectEncoding detectRows
  by_cases hx : List.isPrefixOf [0x3C, 0x3F, 0x78, 0x6D] x = true
  · right
    simp only [List.find?_cons, k0, k1, k2, k3, k4, hx]
    rfl
  · left
    have hx : List.isPrefixOf [0x3C, 0x3F, 0x78, 0x6D] x = false := Bool.eq_false_iff.2 hx
    simp only [List.find?_cons, k0, k1, k2, k3, k4, k5, k6, k7, k8, k9, hx]
    rfl

theorem pseudo_ascii {name v t : List Nat} (h : Pseudo name v t) (hn : ∀ c ∈ name, c < 128) (hv : ∀ c ∈ v, c < 128) : ∀ c ∈ t, c < 128 := by
  obtain ⟨ws, w1, w2, q, h1, h2, h3, h4, hq, rfl⟩ := h
  have hb : ∀ {l : List Nat}, Blank l → ∀ c ∈ l, c < 128 := by
    intro l hl c hc
    have := hl c hc
    unfold Ws at this
    omega
  intro c hc
  simp only [List.mem_append, List.mem_cons, List.not_mem_nil, or_false] at hc
  rcases hc with hc | hc | hc | hc | hc | hc | hc | hc
  · exact hb h2 c hc
  · exact hn c hc
  · exact hb h3 c hc
  · omega
  · exact hb h4 c hc
  · omega
  · exact hv c hc
  · omega

theorem xmlDecl_ascii {t v e : List Nat} {sd : Int} (h : XmlDecl t v e sd) : ∀ c ∈ t, c < 128 := by
  obtain ⟨a, b, c, rfl, hv, ha, hb, hc⟩ := h
  have hv' : ∀ c ∈ v, c < 128 := by
    obtain ⟨ds, _, h1, rfl⟩ := hv
    intro c hc
    rcases List.mem_append.1 hc with hc | hc
    · simp at hc; omega
    · have := h1 c hc; omega
  intro x hx
  simp only [List.mem_append] at hx
  rcases hx with hx | hx | hx | hx | hx
  · simp at hx; omega
  · exact pseudo_ascii ha (by decide) hv' x hx
  · rcases hb with ⟨rfl, _⟩ | ⟨he, hb⟩
    · cases hx
    · refine pseudo_ascii hb (by decide) ?_ x hx
      intro c hc
      have : (if 65 ≤ c ∧ c ≤ 90 then c + 32 else c) ∈ b!"utf-8" := by
        rw [← he]
        exact List.mem_map.2 ⟨c, hc, rfl⟩
      simp at this
      split at this <;> omega
  · rcases hc with ⟨rfl, _⟩ | ⟨hc, _⟩ | ⟨hc, _⟩
    · cases hx
    · exact pseudo_ascii hc (by decide) (by decide) x hx
    · exact pseudo_ascii hc (by decide) (by decide) x hx
  · simp at hx; omega

/-- after the byte order mark. -/
theorem head_detect {bom x : List Nat} (hb : bom = [] ∨ bom = [0xFEFF]) (h1 : ∀ c, (encodeRunes x).head? = some c → Ws c ∨ c = 60) (h0 : ∀ c ∈ x, c ≠ 0) :
    detectEncoding (encodeRunes (bom ++ x)) = some (b!"utf8", encodeRunes x) ∨
      detectEncoding (encodeRunes (bom ++ x)) = none ∧ bom = [] := by
  rcases hb with rfl | rfl
  · rcases detect_plain h1 (encodeRunes_nonzero h0) with h | h
    · exact Or.inr ⟨h, rfl⟩
    · exact Or.inl h
  · exact Or.inl (detect_bom x)

theorem ascii_head {x : List Nat} (h : ∀ c, x.head? = some c → Ws c ∨ c = 60) : ∀ c, (encodeRunes x).head? = some c → Ws c ∨ c = 60 := by
  intro c hc
  cases x with
  | nil => cases hc
  | cons y x =>
    have h1 := h y rfl
    have h2 : y < 128 := by unfold Ws at h1; omega
    rw [encodeRunes_cons, encodeRune_ascii y h2] at hc
    cases hc
    exact h1

theorem head_rest {t rest v e : List Nat} {sd : Int} (h : Head t rest v e sd) (hr : ∀ c, rest.head? = some c → Ws c ∨ c = 60) (hne : rest ≠ [])
    (hl : ∀ c ∈ t ++ rest, c ≠ 0) (s : St σ) (hs : s.cur = encodeRunes (t ++ rest))
    (hv : s.version = []) (he : s.encoding = []) (hd : s.detected = b!"utf8") (hsd : s.standalone = -2) :
    (do
      let s ← M.get
      if s.encoding = [] then
        match detectEncoding s.cur with
        | some (n, r) => M.modify (fun s => { s with detected := n, cur := r })
        | none => pure ()
      else pure ()
      if (← isDone) then M.cerr .mEmptyDocument
      else if (← hasPrefix b!"<?xml") then M.wrap (parseXMLDecl E)
      else pure () : P σ Unit) s = .ok () { s with cur := encodeRunes rest, version := v, encoding := e, standalone := sd } := by
  obtain ⟨bom, d, rfl, hbom, hcase⟩ := h
  have e3 : s.cur = encodeRunes (bom ++ (d ++ rest)) := by rw [← List.append_assoc, ← hs]
  have hx : ∀ c, (d ++ rest).head? = some c → Ws c ∨ c = 60 := by
    rcases hcase with ⟨a, b, c, rfl, _⟩ | ⟨rfl, _⟩
    · intro c hc; cases hc; exact Or.inr rfl
    · exact hr
  have h0 : ∀ c ∈ d ++ rest, c ≠ 0 := by
    intro c hc
    exact hl c (by rw [List.append_assoc]; exact List.mem_append.2 (Or.inr hc))
  have tail : (do
      if (← isDone) then M.cerr .mEmptyDocument
      else if (← hasPrefix b!"<?xml") then M.wrap (parseXMLDecl E)
      else pure () : P σ Unit) { s with cur := encodeRunes (d ++ rest) } =
      .ok () { s with cur := encodeRunes rest, version := v, encoding := e, standalone := sd } := by
    run
    have e5 : (encodeRunes (d ++ rest)).isEmpty = false := by
      cases hc : encodeRunes (d ++ rest) with
      | nil => exact absurd hc (encodeRunes_ne (by simp [hne]))
      | cons => rfl
    rw [e5]
    simp only [Bool.false_eq_true, if_false]
    rcases hcase with hdecl | ⟨rfl, rfl, rfl, rfl, hno⟩
    · have e6 : encodeRunes (d ++ rest) = d ++ encodeRunes rest := by
        rw [encodeRunes_append, encodeRunes_ascii d (xmlDecl_ascii hdecl)]
      rw [e6]
      have e7 : (b!"<?xml").isPrefixOf (d ++ encodeRunes rest) = true := by
        obtain ⟨a, b, c, rfl, _⟩ := hdecl
        rfl
      rw [e7]
      simp only [if_true]
      exact wrap_run (parseXMLDecl_run E (xmlDecl_any hdecl) { s with cur := d ++ encodeRunes rest } rfl he hsd)
    · have e7 : (b!"<?xml").isPrefixOf (encodeRunes ([] ++ rest)) = false := by
        rw [Bool.eq_false_iff]
        exact fun hp => hno (ascii_prefix (by decide) hp)
      rw [e7]
      simp only [Bool.false_eq_true, if_false, List.nil_append]
      cases s
      simp only at hv he hsd
      subst hv he hsd
      rfl
  rw [get_bind, if_pos he]
  rcases head_detect hbom (ascii_head hx) h0 with h1 | ⟨h1, h2⟩
  · rw [e3, h1]
    simp only []
    rw [modify_bind, ← hd]
    exact tail
  · rw [e3, h1]
    subst h2
    rw [List.nil_append] at e3
    rw [← e3] at tail
    exact tail

theorem head_run {t rest v e : List Nat} {sd : Int} (h : Head t rest v e sd) (hr : ∀ c, rest.head? = some c → Ws c ∨ c = 60) (hne : rest ≠ [])
    (hl : ∀ c ∈ t ++ rest, c ≠ 0) {F : HC σ → Prop} {B : Nat} {D : HV} (W : Willing B D H F G) (s : St σ) (hs : s.cur = encodeRunes (t ++ rest))
    (hv : s.version = []) (he : s.encoding = []) (hd : s.detected = b!"utf8") (hsd : s.standalone = -2) (hf : F s.hc) :
    ∃ o hc, Took o ∧ F hc ∧ parseHead E H s =
      .ok () { s with cur := encodeRunes rest, version := v, encoding := e, standalone := sd, hc := hc, trace := s.trace ++ [(.setDocumentLocator, o)] } := by
  have hw := W.locator (v := s.view) hf
  refine ⟨_, _, hw.1, hw.2, ?_⟩
  have e1 : cb H .setDocumentLocator s = .ok () (cbSt H .setDocumentLocator s) := by
    unfold cb callback
    rcases hw.1 with h1 | h1 <;> simp only [Bind.bind, M.bind, h1] <;> simp [cbSt, h1, Pure.pure, M.pure]
  refine Eq.trans (bind_run e1) ?_
  exact head_rest (E := E) h hr hne hl (cbSt H .setDocumentLocator s) hs hv he hd hsd

theorem misc_head {t : List Nat} {evs : List Ev} (h : Misc E t evs) : ∀ c, t.head? = some c → Ws c ∨ c = 60 := by
  intro c hc
  cases h with
  | nil => cases hc
  | space h => cases hc; exact Or.inl h
  | comment => cases hc; exact Or.inr rfl
  | pi => cases hc; exact Or.inr rfl

/-- the root element and what follows, after attribute declarations. -/
theorem tail_run_declared {B : Nat} {D : HV} {F : HC σ → Prop} (W : Willing B D H F G)
    {sp : List (Bytes × Nat)} {df : List (Bytes × List (Bytes × Nat))} (WS : Supplied B H G (defaultAttrs E df)) {root m2 : List Nat} {e2 e3 : List Ev} {used : List (Bytes × Bytes)}
    (hroot : Src E true [] [] root e2 used) (hm2 : Misc E m2 e3) (fuel : Nat) (s2 : St σ)
    (b1 : s2.cur = root ++ m2) (b2 : s2.ns = []) (b4 : s2.inSubset = 0) (b5 : s2.attsSpecial = sp) (b6 : s2.attsDefault = df)
    (b7 : G 0 s2.hc) (hf : root.length ≤ fuel) (hB : (encodeRunes root).length + 1 < B)
    (hW : ∀ ev ∈ e2, Worded (tokOf sp) ev) :
    ∃ s', parseTail E H fuel s2 = .ok () s' ∧ Went G 0 [] used s2.nodes (e2.map (declared (tokOf sp) (defaultAttrs E df)) ++ (e3 ++ [.endDocument])) s2 s' := by
  obtain ⟨c, r, hr, c1, c2, c3⟩ := src_elem_head hroot rfl
  unfold parseTail
  have hblank : s2.cur.dropWhile isBlank = s2.cur := by rw [b1, hr]; rfl
  run
  obtain ⟨n1, n2, s3, r4, w3⟩ := src_run W WS hroot fuel 0 m2 s2 (by simpa using hf) b1 b2 ⟨by simp, by simp⟩ (by simp) hB b4 b5 b6 b7 hW (by simp)
  rw [hblank, need_bind (by rw [b1, hr]; rfl)]
  show ∃ s', (M.wrap (parseElement E H fuel) >>= _) s2 = _ ∧ _
  rw [bind_run (wrap_run (show parseElement E H fuel s2 = _ from r4))]
  have g3 : s3.cur = m2 ++ [] ∧ s3.ns = used ∧ s3.nodes = s2.nodes ∧ s3.inSubset = 0 ∧ G 0 s3.hc := by
    obtain ⟨tr, hc, h1, h2, h3, h4⟩ := w3
    rw [h1]
    exact ⟨(List.append_nil _).symm, rfl, rfl, b4, h4⟩
  obtain ⟨d1, d2, d3, d4, d5⟩ := g3
  obtain ⟨s4, r5, w4⟩ := parseMisc_run W hm2 (Or.inl rfl) 0 s3 d1 d4 d5
  rw [bind_run (wrap_run r5)]
  have g4 : s4.cur = [] ∧ s4.ns = used ∧ s4.nodes = s2.nodes ∧ s4.inSubset = 0 ∧ G 0 s4.hc := by
    obtain ⟨tr, hc, h1, h2, h3, h4⟩ := w4
    rw [h1]
    exact ⟨rfl, d2, d3, d4, h4⟩
  obtain ⟨f1, f2, f3, f4, f5⟩ := g4
  run
  rw [f1, need_bind (by rfl)]
  obtain ⟨s5, r6, w5⟩ := cb_took (H := H) (G := G) (n := 0) (s := s4) (ev := .endDocument) (W.endDoc f5)
  refine ⟨s5, r6, ?_⟩
  rw [f1, f2, f3] at w5
  exact w3.trans (w4.trans w5)

theorem declared_none (E : Env) : declared (tokOf []) (defaultAttrs E []) = id := by
  funext ev
  cases ev with
  | startElement l p u ns as =>
    have h : ∀ a, tokenValue (tokOf [] l) a = a := by
      intro a
      cases a with
      | parsed p n v => simp [tokenValue, tokOf, mapGet]
      | dflt i => rfl
    have h1 : as.map (tokenValue (tokOf [] l)) = as := by
      rw [List.map_congr_left (g := id) (fun a _ => h a)]
      simp
    simp only [declared, h1, id]
    rw [show defaultAttrs E [] p l = [] from rfl, List.append_nil]
  | _ => rfl

theorem worded_none (ev : Ev) : Worded (tokOf []) ev := by
  cases ev with
  | startElement l p u ns as => exact ⟨fun _ _ _ _ h => by simp [tokOf, mapGet] at h, fun _ _ _ => by simp [tokOf, mapGet]⟩
  | _ => trivial

/-- the root element and what follows. -/
theorem tail_run {B : Nat} {D : HV} {F : HC σ → Prop} (W : Willing B D H F G) {root m2 : List Nat} {e2 e3 : List Ev} {used : List (Bytes × Bytes)}
    (hroot : Src E true [] [] root e2 used) (hm2 : Misc E m2 e3) (fuel : Nat) (s2 : St σ)
    (b1 : s2.cur = root ++ m2) (b2 : s2.ns = []) (b4 : s2.inSubset = 0) (b5 : s2.attsSpecial = []) (b6 : s2.attsDefault = [])
    (b7 : G 0 s2.hc) (hf : root.length ≤ fuel) (hB : (encodeRunes root).length + 1 < B) :
    ∃ s', parseTail E H fuel s2 = .ok () s' ∧ Went G 0 [] used s2.nodes (e2 ++ (e3 ++ [.endDocument])) s2 s' := by
  have := tail_run_declared W (sp := []) (df := []) (Willing.supplied W) hroot hm2 fuel s2 b1 b2 b4 b5 b6 b7 hf hB (fun ev _ => worded_none ev)
  rw [declared_none] at this
  simpa using this

/-- the part of the document after the XML declaration. -/
theorem body_run {B : Nat} {D : HV} {F : HC σ → Prop} (W : Willing B D H F G) {m1 root m2 : List Nat} {e1 e2 e3 : List Ev} {used : List (Bytes × Bytes)}
    (hm1 : Misc E m1 e1) (hroot : Src E true [] [] root e2 used) (hm2 : Misc E m2 e3) (fuel snl : Nat) (s : St σ)
    (hs : s.cur = m1 ++ (root ++ m2)) (hns : s.ns = []) (hi : s.inSubset = 0) (ha : s.attsSpecial = []) (hd : s.attsDefault = [])
    (hD : s.view = D) (hF : F s.hc) (hf : root.length ≤ fuel) (hB : (encodeRunes root).length + 1 < B) :
    ∃ s', (do cb H .startDocument; M.wrap (parseMisc E H); parseDoctypePart E H snl; parseTail E H fuel : P σ Unit) s = .ok () s' ∧
      Went G 0 [] used s.nodes ([.startDocument] ++ (e1 ++ (e2 ++ (e3 ++ [.endDocument])))) s s' := by
  obtain ⟨c, r, hr, c1, c2, c3⟩ := src_elem_head hroot rfl
  obtain ⟨s1, r1, w1⟩ := cb_took (H := H) (G := G) (n := 0) (s := s) (ev := .startDocument) (by rw [hD]; exact W.startDoc hF)
  rw [bind_run r1]
  have g1 : s1.cur = m1 ++ (root ++ m2) ∧ s1.ns = [] ∧ s1.nodes = s.nodes ∧ s1.inSubset = 0 ∧ s1.attsSpecial = [] ∧ s1.attsDefault = [] ∧ G 0 s1.hc := by
    obtain ⟨tr, hc, h1, h2, h3, h4⟩ := w1
    rw [h1]
    exact ⟨hs, hns, rfl, hi, ha, hd, h4⟩
  obtain ⟨a1, a2, a3, a4, a5, a6, a7⟩ := g1
  have hstop : Stop (root ++ m2) := Or.inr ⟨c, r ++ m2, by rw [hr]; rfl, c2, .inl c3⟩
  obtain ⟨s2, r2, w2⟩ := parseMisc_run W hm1 hstop 0 s1 a1 a4 a7
  rw [bind_run (wrap_run r2)]
  have g2 : s2.cur = root ++ m2 ∧ s2.ns = [] ∧ s2.nodes = s.nodes ∧ s2.inSubset = 0 ∧ s2.attsSpecial = [] ∧ s2.attsDefault = [] ∧ G 0 s2.hc := by
    obtain ⟨tr, hc, h1, h2, h3, h4⟩ := w2
    rw [h1]
    exact ⟨rfl, a2, a3, a4, a5, a6, h4⟩
  obtain ⟨b1, b2, b3, b4, b5, b6, b7⟩ := g2
  have r3 : parseDoctypePart E H snl s2 = .ok () s2 := by
    unfold parseDoctypePart
    run
    rw [b1, hr]
    have : (b!"<!DOCTYPE").isPrefixOf (60 :: c :: r ++ m2) = false := by
      simp [List.isPrefixOf_cons_cons, Ne.symm c3]
    rw [this]
    rfl
  rw [bind_run r3]
  obtain ⟨s5, r6, w3⟩ := tail_run W hroot hm2 fuel s2 b1 b2 b4 b5 b6 b7 hf hB
  refine ⟨s5, r6, ?_⟩
  rw [b3] at w3
  exact w1.trans (w2.trans w3)

/-- the part of the document up to the end of the XML declaration, and the change of encoding. -/
theorem start_run_any {B : Nat} {h0 x v e : List Nat} {sd : Int} {D : HV} {F : HC σ → Prop} (W : Willing B D H F G) (hh : Head h0 x v e sd)
    (hhd : ∀ c, x.head? = some c → Ws c ∨ c = 60) (hne : x ≠ []) (hl : ∀ c ∈ h0 ++ x, isScalar c ∧ c ≠ 0) (usr : σ) (fuel snl : Nat) (hF : F ⟨usr, Heap.empty, none, none⟩) :
    ∃ o hc, Took o ∧ F hc ∧ parseDocument E H fuel snl (initSt usr Heap.empty (encodeRunes (h0 ++ x))) =
      (do cb H .startDocument; M.wrap (parseMisc E H); parseDoctypePart E H snl; parseTail E H fuel : P σ Unit)
        { (initSt usr Heap.empty (encodeRunes (h0 ++ x))) with
          cur := x, version := v, encoding := e, standalone := sd, hc := hc, trace := [] ++ [(.setDocumentLocator, o)] } := by
  obtain ⟨o, hc, ho, hFc, r1⟩ := head_run hh hhd hne (fun c hc => (hl c hc).2) W (initSt usr Heap.empty (encodeRunes (h0 ++ x))) rfl rfl rfl rfl rfl hF
  refine ⟨o, hc, ho, hFc, ?_⟩
  unfold parseDocument
  rw [bind_run r1]
  have hsc : ∀ c ∈ x, isScalar c := fun c hx => (hl c (List.mem_append.2 (Or.inr hx))).1
  have henc : encLoad (if e ≠ [] then e else if b!"utf8" ≠ [] then b!"utf8" else b!"utf8") = some .utf8 := by
    obtain ⟨bom, d, rfl, hbom, hcase⟩ := hh
    have : e = [] ∨ Utf8Name e := by
      rcases hcase with ⟨a, b, c, _, _, _, h, _⟩ | ⟨_, _, h, _⟩
      · rcases h with ⟨_, h⟩ | ⟨h, _⟩
        · exact Or.inl h
        · exact Or.inr h
      · exact Or.inl h
    rcases this with rfl | h
    · rfl
    · have hne : e ≠ [] := by rintro rfl; cases h
      rw [if_pos hne]
      unfold encLoad
      have : toLower e = b!"utf-8" := h
      rw [this]
      rfl
  have hsw : ∀ s1 : St σ, s1.cur = encodeRunes x → s1.encoding = e → s1.detected = b!"utf8" →
      switchEncoding E s1 = .ok () { s1 with cur := x } := by
    intro s1 h1 h2 h3
    unfold switchEncoding
    rw [get_bind]
    simp only [h2, h3]
    rw [henc, ← h2, ← h3]
    unfold M.modify
    simp only [h1, E.decode_utf8 _ hsc]
  rw [bind_run (wrap_run (hsw _ rfl rfl rfl))]
  rfl

@[inherit_doc start_run_any]
theorem start_run {B : Nat} {h0 x v e : List Nat} {sd : Int} {D : HV} {F : HC σ → Prop} (W : Willing B D H F G) (hh : Head h0 x v e sd)
    (hhd : ∀ c, x.head? = some c → Ws c ∨ c = 60) (hne : x ≠ []) (hl : ∀ c ∈ h0 ++ x, Legal c) (usr : σ) (fuel snl : Nat) (hF : F ⟨usr, Heap.empty, none, none⟩) :
    ∃ o hc, Took o ∧ F hc ∧ parseDocument E H fuel snl (initSt usr Heap.empty (encodeRunes (h0 ++ x))) =
      (do cb H .startDocument; M.wrap (parseMisc E H); parseDoctypePart E H snl; parseTail E H fuel : P σ Unit)
        { (initSt usr Heap.empty (encodeRunes (h0 ++ x))) with
          cur := x, version := v, encoding := e, standalone := sd, hc := hc, trace := [] ++ [(.setDocumentLocator, o)] } :=
  start_run_any W hh hhd hne (fun c hc => ⟨(hl c hc).scalar, fun h => by
    have := (hl c hc).1
    unfold XmlChar at this
    omega⟩) usr fuel snl hF

theorem document_run {B : Nat} {t v e : List Nat} {sd : Int} {F : HC σ → Prop} (W : Willing B ⟨v, e, sd, 0⟩ H F G) {evs : List Ev} (h : Document E t v e sd evs)
    (usr : σ) (fuel snl : Nat) (hF : F ⟨usr, Heap.empty, none, none⟩) (hf : t.length ≤ fuel) (hB : (encodeRunes t).length + 1 < B) :
    ∃ s', parseDocument E H fuel snl (initSt usr Heap.empty (encodeRunes t)) = .ok () s' ∧ s'.trace.map (fun x => plainEv x.1) = evs ∧
      (∀ x ∈ s'.trace, Took x.2) ∧ G 0 s'.hc ∧ s'.version = v ∧ s'.encoding = e ∧ s'.standalone = sd := by
  obtain ⟨h0, m1, root, m2, e1, e2, e3, used, rfl, hh, hm1, hroot, hm2, hl, rfl⟩ := h
  obtain ⟨c, r, hr, c1, c2, c3⟩ := src_elem_head hroot rfl
  have hne : m1 ++ (root ++ m2) ≠ [] := by simp [hr]
  have hhd : ∀ c, (m1 ++ (root ++ m2)).head? = some c → Ws c ∨ c = 60 := by
    intro x hx
    cases m1 with
    | nil => rw [hr] at hx; cases hx; exact Or.inr rfl
    | cons y m => cases hx; exact misc_head hm1 _ rfl
  obtain ⟨o, hc, ho, hFc, r1⟩ := start_run W hh hhd hne hl usr fuel snl hF
  rw [r1]
  have hlen : (encodeRunes root).length ≤ (encodeRunes (h0 ++ (m1 ++ (root ++ m2)))).length := by
    simp only [encodeRunes_append, List.length_append]; omega
  obtain ⟨s2, r2, tr, hc2, rfl, q2, q3, q4⟩ := body_run W hm1 hroot hm2 fuel snl
    { (initSt usr Heap.empty (encodeRunes (h0 ++ (m1 ++ (root ++ m2))))) with
      cur := m1 ++ (root ++ m2), version := v, encoding := e, standalone := sd, hc := hc, trace := [] ++ [(.setDocumentLocator, o)] }
    rfl rfl rfl rfl rfl rfl hFc (by simp only [List.length_append] at hf; omega) (by omega)
  refine ⟨_, r2, ?_, ?_, q4, rfl, rfl, rfl⟩
  · simp only [List.map_append, q2]
    rfl
  · intro x hx
    rcases List.mem_append.1 hx with hx | hx
    · rw [List.nil_append, List.mem_singleton] at hx
      rw [hx]; exact ho
    · exact q3 x hx

end
end Helium
