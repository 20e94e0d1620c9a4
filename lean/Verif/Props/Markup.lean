import Verif.Lemmas.MarkupRun
import Verif.Model.TreeBuilder
import Verif.Model.Dump
import Verif.Model.StdEnv
/-! Properties C14-C18 and C42: comments, processing instructions, CDATA sections, line ends, character references, names. -/
namespace Helium
open Spec
section
variable {σ : Type}

/-- context with the given input left, for concrete cases. -/
def testSt (u : List Nat) : St Unit := initSt () Heap.empty u
/-- a handler that ignores everything. -/
def quietHandler : Handler Unit := fun _ _ c => (.ok, c)

/-- what a run leaves: remaining input and events, when it succeeded. -/
def Out.view {σ α : Type} : Out (St σ) α → Option (List Nat × List Ev)
  | .ok _ s => some (s.cur, s.trace.map (·.1))
  | _ => none

/-- the run reported exactly the event `ev` and left `w` to be read. -/
def Reported (s s' : St σ) (ev : Ev) (w : List Nat) : Prop := s'.cur = w ∧ ∃ r, s'.trace = s.trace ++ [(ev, r)]

theorem cb_reported {H : Handler σ} {ev : Ev} {s s' : St σ} {w : List Nat} (h : cb H ev { s with cur := w } = .ok () s') :
    Reported s s' ev w := by
  have h1 := cb_cur H h
  have h2 := cb_post (H := H) (L := NT H) (ev := ev) { s with cur := w }
  rw [h] at h2
  exact ⟨h1, _, by rw [show s' = _ from h2]; rfl⟩

/-! ### C14 -/

/-- a comment body: legal characters, no `--`, not ending in `-` (production [15]). -/
def CommentBody (b : List Nat) : Prop := (∀ c ∈ b, XmlChar c) ∧ ¬ [45, 45] <:+: b ++ [45]

/-- the claim at full strength: an accepted comment is closed and its body is what is reported (after line end normalisation). -/
def C14_statement : Prop := ∀ (H : Handler Unit) (s s' : St Unit) (u : List Nat), s.cur = b!"<!--" ++ u → parseComment H s = .ok () s' →
  ∃ b w, u = b ++ (b!"-->" ++ w) ∧ CommentBody b ∧ Reported s s' (.comment (replaceCRLF (encodeRunes b))) w

/-- an unterminated comment is accepted. -/
theorem C14_refuted : ¬ C14_statement := by
  intro h
  obtain ⟨b, w, h1, -⟩ := h quietHandler (testSt b!"<!-- xy") _ b!" xy" rfl rfl
  have h2 : (62 : Nat) ∈ (b!" xy" : List Nat) := by rw [h1]; simp
  revert h2
  decide

/-- **C14**, what does hold: an accepted comment is closed by `-->`, has a legal body, and exactly that body is reported, unless
the input ended, or had an illegal character, before the comment was closed. -/
theorem C14_accepted_partial (H : Handler σ) {s s' : St σ} {u : List Nat} (hs : s.cur = b!"<!--" ++ u) (h : parseComment H s = .ok () s') :
    (∃ b w, u = b ++ (b!"-->" ++ w) ∧ CommentBody b ∧ Reported s s' (.comment (replaceCRLF (encodeRunes b))) w) ∨
    (∃ l t, u = l ++ t ∧ (∀ c ∈ l, XmlChar c) ∧ ¬ b!"-->" <:+: l ∧ (∀ c, t.head? = some c → ¬ XmlChar c ∨ c = 0xFFFD)) := by
  rcases parseComment_sound H hs h with ⟨b, w, h1, h2, h3, h4⟩ | ⟨l, t, h1, h2, h3, h4, _⟩
  · exact Or.inl ⟨b, w, h1, ⟨fun c hc => isChar_xml (h2 c hc), h3⟩, cb_reported h4⟩
  · refine Or.inr ⟨l, t, h1, fun c hc => isChar_xml (h2 c hc), ?_, ?_⟩
    · rintro ⟨p, q, hpq⟩
      apply h3
      rcases List.eq_nil_or_concat q with rfl | ⟨q, x, rfl⟩
      · exact ⟨p, [], by
          rw [List.append_nil] at hpq ⊢; rw [← hpq, show p ++ [45, 45, 62] = (p ++ [45, 45]) ++ [62] by simp, List.dropLast_concat]⟩
      · exact ⟨p, 62 :: q, by rw [← hpq, List.concat_eq_append, ← List.append_assoc, List.dropLast_concat]; simp⟩
    · intro c hc
      have := h4 c hc
      by_cases hf : c = 0xFFFD
      · exact Or.inr hf
      · left
        intro hx
        unfold isChar XmlChar at *
        rw [if_neg hf] at this
        split at this <;> simp at this <;> omega

theorem isChar_of_xml {c : Nat} (h : XmlChar c) (hf : c ≠ 0xFFFD) : isChar c = true := by
  unfold isChar XmlChar at *
  rw [if_neg hf]
  split <;> simp <;> omega

/-- **C14**, other direction: every legal comment is accepted and reported verbatim; the only thing that can go wrong is the
handler. U+FFFD, which the parser refuses everywhere, is excluded. -/
theorem C14_delivered (H : Handler σ) {b w : List Nat} (hb : CommentBody b) (hf : 0xFFFD ∉ b) (s : St σ)
    (hs : s.cur = b!"<!--" ++ (b ++ (b!"-->" ++ w))) :
    parseComment H s = cb H (.comment (replaceCRLF (encodeRunes b))) { s with cur := w } :=
  parseComment_run H (fun c hc => isChar_of_xml (hb.1 c hc) (fun h => hf (h ▸ hc))) hb.2 s hs

example : CommentBody b!" a-b " := by
  refine ⟨by decide, ?_⟩
  decide
example : (parseComment quietHandler (testSt b!"<!-- a-b --><c/>")).view = some (b!"<c/>", [.comment b!" a-b "]) := by decide +kernel

/-! ### C15 -/

/-- the claim at full strength: accepted means closed, reported as written, and written back by the serialiser. -/
def C15_statement : Prop :=
  (∀ (E : Env) (H : Handler Unit) (s s' : St Unit) (u : List Nat), s.cur = b!"<?" ++ u → parsePI E H s = .ok () s' →
    ∃ n ws d w, u = n ++ (ws ++ (d ++ (b!"?>" ++ w))) ∧ ¬ b!"?>" <:+: d ∧ (∀ c ∈ ws, Ws c) ∧ Reported s s' (.pi (encodeRunes n) (encodeRunes d)) w) ∧
  (∀ (target data : Bytes) (h : Heap) (i fuel : Nat), h.at' i = mkPI target data →
    dumpNode h (fuel + 1) i [] = .ok () (b!"<?" ++ target ++ [32] ++ data ++ b!"?>"))

/-- the serialiser loses processing instructions altogether. -/
theorem C15_refuted : ¬ C15_statement := by
  rintro ⟨-, h⟩
  have := h b!"a" b!"b" (Heap.empty.alloc (mkPI b!"a" b!"b")) 0 0 rfl
  have h2 : dumpNode (Heap.empty.alloc (mkPI b!"a" b!"b")) 1 0 [] = .ok () b!"<></>" := by rfl
  rw [h2] at this
  injection this with _ this
  revert this
  decide

/-- what the serialiser writes for every processing instruction node. -/
theorem C15_dump_loses (target data : Bytes) (h : Heap) (i fuel : Nat) (hi : h.at' i = mkPI target data) :
    dumpNode h (fuel + 1) i [] = .ok () b!"<></>" := by
  unfold dumpNode
  simp only [hi, mkPI, forChain, chain]
  rfl

/-- **C15**, parsing: on input without NUL an accepted instruction is closed by `?>`, its target is a name other than `xml`, and
target and data (what follows the white space, up to the first `?>`) are reported unchanged. -/
theorem C15_accepted_partial (E : Env) (H : Handler σ) {s s' : St σ} {u : List Nat} (h0 : 0 ∉ u) (hs : s.cur = b!"<?" ++ u)
    (h : parsePI E H s = .ok () s') :
    ∃ n ws d w, u = n ++ (ws ++ (d ++ (b!"?>" ++ w))) ∧ (∃ c a, n = c :: a ∧ NameStartChar E c ∧ ∀ x ∈ a, NameChar E x) ∧ n ≠ b!"xml" ∧
      (∀ c ∈ ws, Ws c) ∧ (ws = [] → d = []) ∧ (∀ c, d.head? = some c → ¬ Ws c) ∧ (∀ c ∈ d, XmlChar c) ∧ ¬ b!"?>" <:+: d ∧
      Reported s s' (.pi (encodeRunes n) (encodeRunes d)) w := by
  obtain ⟨n, w, h1, h2, h3⟩ := parsePI_sound E H h0 hs h
  obtain ⟨c, a, r, e1, e2, e3, e4, -, -, -⟩ := h1
  have hn : ∃ c a, n = c :: a ∧ NameStartChar E c ∧ ∀ x ∈ a, NameChar E x := by
    have hsc : ∀ x ∈ c :: a, isScalar x := by
      intro x hx
      rcases List.mem_cons.1 hx with rfl | hx
      · rcases e3 with h | h | h
        · exact (E.letter_scalar x h).1
        · subst h; decide
        · subst h; decide
      · exact nameChar_scalar E (e4 x hx)
    -- both are prefixes of the input of known encoding
    rcases h3 with ⟨h3, -⟩ | ⟨ws, d, -, -, -, -, -, h3, -⟩
    all_goals
      refine ⟨c, a, ?_, e3, e4⟩
      rw [e1] at h3
      have hnsc : ∀ k : List Nat, ∀ m : List Nat, encodeRunes k = encodeRunes m → (∀ x ∈ m, isScalar x) → ∀ p q, m ++ p = k ++ q → k = m := by
        intro k
        induction k with
        | nil =>
          intro m hm _ _ _ _
          cases m with
          | nil => rfl
          | cons y m => rw [encodeRunes_cons] at hm; have := encodeRune_ne_nil y; simp [encodeRunes] at hm; exact absurd hm.1 this
        | cons x k ih =>
          intro m hm hs p q hpq
          cases m with
          | nil => rw [encodeRunes_cons] at hm; have := encodeRune_ne_nil x; simp [encodeRunes] at hm; exact absurd hm.1 this
          | cons y m =>
            simp only [List.cons_append, List.cons.injEq] at hpq
            obtain ⟨rfl, hpq⟩ := hpq
            rw [encodeRunes_cons, encodeRunes_cons, List.append_cancel_left_eq] at hm
            rw [ih m hm (fun x hx => hs x (by simp [hx])) p q hpq]
      exact hnsc n (c :: a) e2 hsc _ _ h3
  rcases h3 with ⟨h3, h4⟩ | ⟨ws, d, h4, h5, h6, h7, h8, h9, h10⟩
  · exact ⟨n, [], [], w, by simpa using h3, hn, h2, by simp, by simp, by simp, by simp, by simp, cb_reported h4⟩
  · exact ⟨n, ws, d, w, h9, hn, h2, h5, fun h => absurd h h4, h8, fun c hc => isChar_xml (h6 c hc), h7, cb_reported h10⟩

/-- **C15**, other direction: every legal instruction is accepted and reported unchanged. -/
theorem C15_delivered (E : Env) (H : Handler σ) {n ws d w : List Nat} (hn : PITarget E n) (hne : ws ≠ []) (hw : ∀ c ∈ ws, Ws c)
    (hd : ∀ c, d.head? = some c → ¬ Ws c) (hc : ∀ c ∈ d, XmlChar c ∧ c ≠ 0xFFFD) (hq : ¬ b!"?>" <:+: d) (s : St σ)
    (hs : s.cur = b!"<?" ++ (n ++ (ws ++ (d ++ (b!"?>" ++ w))))) :
    parsePI E H s = cb H (.pi (encodeRunes n) (encodeRunes d)) { s with cur := w } :=
  parsePI_run E H hn hne hw hd (fun c h => isChar_of_xml (hc c h).1 (hc c h).2) hq s hs

example : PITarget env0 b!"abc" := ⟨⟨⟨97, b!"bc", rfl, Or.inl rfl⟩, by decide, by decide⟩, by decide, by decide⟩
example : (parsePI env0 quietHandler (testSt b!"<?ab  x?y?>z")).view = some (b!"z", [.pi b!"ab" b!"x?y"]) := by decide +kernel

/-! ### C16 -/

/-- **C16**, parsing: an accepted CDATA section is closed by `]]>`, and the text up to there is reported (line ends normalised). -/
theorem C16_accepted (E : Env) (H : Handler σ) {s s' : St σ} {u : List Nat} (hs : s.cur = b!"<![CDATA[" ++ u)
    (h : parseCDSect E H s = .ok () s') :
    ∃ l w, u = l ++ (b!"]]>" ++ w) ∧ ¬ b!"]]>" <:+: l ∧ Reported s s' (.cdata (replaceCRLF (encodeRunes l))) w := by
  obtain ⟨l, w, s1, h1, _, h3, h4, rfl⟩ := parseCDSect_sound E H hs h
  refine ⟨l, w, h1, h3, rfl, ?_⟩
  exact (cb_reported h4).2

/-- **C16**, other direction: a non-empty section (of arbitrary characters but NUL) is reported exactly; only the handler can
make it fail. -/
theorem C16_delivered_partial (E : Env) (H : Handler σ) {l w : List Nat} (hne : l ≠ []) (h0 : 0 ∉ l) (hn : ¬ b!"]]>" <:+: l ++ b!"]]") (s : St σ)
    (hs : s.cur = b!"<![CDATA[" ++ (l ++ (b!"]]>" ++ w)))
    (hok : cbRes H (.cdata (replaceCRLF (encodeRunes l))) { s with cur := b!"]]>" ++ w } = .ok) :
    ∃ s', parseCDSect E H s = .ok () s' ∧ Reported s s' (.cdata (replaceCRLF (encodeRunes l))) w := by
  rw [parseCDSect_run E H hne (fun c hc h => h0 (h ▸ hc)) hn s hs]
  have h1 : cb H (.cdata (replaceCRLF (encodeRunes l))) { s with cur := b!"]]>" ++ w } =
      .ok () (cbSt H (.cdata (replaceCRLF (encodeRunes l))) { s with cur := b!"]]>" ++ w }) := by
    unfold cb callback cbSt
    unfold cbRes at hok
    simp only [Bind.bind, M.bind, hok]
    rfl
  rw [bind_run (wrap_run h1), bind_run (consume_run (l := b!"]]>") (r := w) rfl)]
  exact ⟨_, rfl, rfl, _, rfl⟩

/-- the empty section is rejected, and the tree builder drops every section: the tree does not contain the text. -/
def C16_statement : Prop :=
  (∀ (E : Env) (H : Handler Unit) (l w : List Nat) (s : St Unit), 0 ∉ l → ¬ b!"]]>" <:+: l ++ b!"]]" →
    s.cur = b!"<![CDATA[" ++ (l ++ (b!"]]>" ++ w)) → (∀ ev t, cbRes H ev t = .ok) →
    ∃ s', parseCDSect E H s = .ok () s' ∧ Reported s s' (.cdata (replaceCRLF (encodeRunes l))) w) ∧
  (∀ (fuel : Nat) (v : HV) (b : Bytes) (e : Nat) (c : HC Unit), c.elem = some e → (c.heap.at' e).kind = .element → b ≠ [] →
    ∃ x < ((treeBuilder fuel v (.cdata b) c).2.heap).size, ((treeBuilder fuel v (.cdata b) c).2.heap.at' x).content = b)

theorem C16_refuted : ¬ C16_statement := by
  rintro ⟨h, -⟩
  obtain ⟨s', h1, -⟩ := h env0 quietHandler [] [] (testSt b!"<![CDATA[]]>") (by simp) (by decide) rfl (fun _ _ => rfl)
  have : parseCDSect env0 quietHandler (testSt b!"<![CDATA[]]>") = .err (.parse (.k .mInvalidCharData)) (testSt b!"]]>") := by rfl
  rw [this] at h1
  cases h1

/-- the tree builder ignores CDATA sections. -/
theorem C16_tree_drops (fuel : Nat) (v : HV) (b : Bytes) (c : HC σ) : treeBuilder fuel v (.cdata b) c = (.ok, c) := rfl

example : (parseCDSect env0 quietHandler (testSt b!"<![CDATA[a<b]]c]]>d")).view = some (b!"d", [.cdata b!"a<b]]c"]) := by decide +kernel

/-! ### C17 -/

/-- join with a separator. -/
def joinWith (sep : List Nat) : List (List Nat) → List Nat
  | [] => []
  | [x] => x
  | x :: y :: t => x ++ sep ++ joinWith sep (y :: t)

theorem replaceCRLF_noPair_append (x r : List Nat) (hx : ¬ [13, 10] <:+: x) (hr : r.head? ≠ some 10) : replaceCRLF (x ++ r) = x ++ replaceCRLF r := by
  induction x with
  | nil => rfl
  | cons c x ih =>
    have h1 : ¬ (c = 13 ∧ (x ++ r).head? = some 10) := by
      rintro ⟨rfl, h⟩
      cases x with
      | nil => exact hr h
      | cons d x =>
        simp at h
        subst h
        exact hx (List.IsPrefix.isInfix ⟨x, rfl⟩)
    rw [List.cons_append, replaceCRLF_cons h1, ih (fun h => hx (by rw [List.infix_cons_iff]; exact Or.inr h))]
    rfl

/-- **C17**: the function applied to all delivered text turns every CR LF pair into one LF and changes nothing else: text made of
pieces without such a pair, separated by CR LF, becomes the same pieces separated by LF. -/
theorem C17_pairs_replaced (segs : List (List Nat)) (h : ∀ x ∈ segs, ¬ [13, 10] <:+: x) :
    replaceCRLF (joinWith [13, 10] segs) = joinWith [10] segs := by
  match segs with
  | [] => rfl
  | [x] =>
    have := replaceCRLF_noPair_append x [] (h x (by simp)) (by simp)
    simpa [joinWith, replaceCRLF] using this
  | x :: y :: t =>
    have ih := C17_pairs_replaced (y :: t) (fun z hz => h z (by simp [hz]))
    simp only [joinWith, List.append_assoc]
    rw [replaceCRLF_noPair_append x _ (h x (by simp)) (by simp)]
    simp only [List.cons_append, List.nil_append, replaceCRLF]
    rw [ih]

theorem replaceCRLF_head (l : List Nat) (h : (replaceCRLF l).head? = some 10) : l.head? = some 10 ∨ [13, 10] <+: l := by
  cases l with
  | nil => simp [replaceCRLF] at h
  | cons c t =>
    by_cases hc : c = 13 ∧ t.head? = some 10
    · right
      obtain ⟨rfl, ht⟩ := hc
      cases t with
      | nil => cases ht
      | cons d t => simp at ht; subst ht; exact ⟨t, rfl⟩
    · rw [replaceCRLF_cons hc] at h
      left
      simpa using h

theorem replaceCRLF_noPair (l : List Nat) (h : ¬ [13, 13, 10] <:+: l) : ¬ [13, 10] <:+: replaceCRLF l := by
  induction l using replaceCRLF.induct with
  | case1 => simp [replaceCRLF]
  | case2 t ih =>
    rw [replaceCRLF]
    intro hc
    rw [List.infix_cons_iff] at hc
    rcases hc with ⟨z, hz⟩ | hc
    · simp at hz
    · refine ih (fun h' => h ?_) hc
      exact h'.trans ⟨[13, 10], [], by simp⟩
  | case3 x t hx ih =>
    have hne : ¬ (x = 13 ∧ t.head? = some 10) := by
      rintro ⟨rfl, ht⟩
      cases t with
      | nil => cases ht
      | cons d t => simp at ht; subst ht; exact hx t rfl rfl
    rw [replaceCRLF_cons hne]
    intro hc
    rw [List.infix_cons_iff] at hc
    rcases hc with ⟨z, hz⟩ | hc
    · simp at hz
      obtain ⟨rfl, hz⟩ := hz
      rcases replaceCRLF_head t (by rw [← hz]; rfl) with h1 | h1
      · exact hne ⟨rfl, h1⟩
      · obtain ⟨z, rfl⟩ := h1
        exact h (List.IsPrefix.isInfix ⟨z, rfl⟩)
    · refine ih (fun h' => h ?_) hc
      rw [List.infix_cons_iff]; exact Or.inr h'

theorem areBlanks_state (E : Env) {str : Bytes} {s s' : St σ} {b : Bool} (h : areBlanks E str s = .ok b s') : s' = s := by
  unfold areBlanks at h
  by_cases hc : (decodeRunes str).all isBlank = true
  · simp only [hc, if_true] at h
    run at h
    cases h1 : s.nodes.getLast? with
    | none => simp only [h1, pure_run] at h; cases h; rfl
    | some e =>
      cases h2 : s.hc.doc with
      | some d => simp only [h1, h2, pure_run] at h; cases h; rfl
      | none => simp only [h1, h2] at h; run at h; cases h; rfl
  · simp only [hc, pure_run] at h; cases h; rfl

/-- the claim at full strength: no CR LF pair is ever delivered. -/
def C17_statement : Prop := ∀ (E : Env) (H : Handler Unit) (s s' : St Unit), parseCharData E H false s = .ok () s' →
  ∃ d r, (s'.trace = s.trace ++ [(.characters d, r)] ∨ s'.trace = s.trace ++ [(.ignorable d, r)]) ∧ ¬ [13, 10] <:+: d

theorem C17_refuted : ¬ C17_statement := by
  intro h
  obtain ⟨d, r, h1, h2⟩ := h env0 quietHandler (testSt [97, 13, 13, 10]) _ rfl
  rcases h1 with h1 | h1
  · cases h1
    revert h2
    decide +kernel
  · cases h1

/-- **C17** for the character data the parser delivers: what is reported is the literal text with its CR LF pairs replaced; it
contains no pair unless the input has CR CR LF. -/
theorem C17_delivered_partial (E : Env) (H : Handler σ) {s s' : St σ} (h : parseCharData E H false s = .ok () s') :
    ∃ l w r, s.cur = l ++ w ∧ s'.cur = w ∧ (∀ c ∈ l, XmlChar c ∧ c ≠ 60 ∧ c ≠ 38) ∧
      (s'.trace = s.trace ++ [(.characters (encodeRunes (replaceCRLF l)), r)] ∨ s'.trace = s.trace ++ [(.ignorable (encodeRunes (replaceCRLF l)), r)]) ∧
      (¬ [13, 13, 10] <:+: l → ¬ [13, 10] <:+: replaceCRLF l) := by
  unfold parseCharData at h
  run at h
  cases hl : cdScan E.eof false s.cur with
  | hang => simp only [hl] at h; exact (diverge_ok.1 h).elim
  | misplaced => simp only [hl] at h; exact (cerr_ok.1 h).elim
  | ok l =>
    cases l with
    | nil => simp only [hl] at h; exact (raw_ok.1 h).elim
    | cons c l =>
      simp only [hl] at h
      run at h
      obtain ⟨t, g1, g2, _, _⟩ := cdScan_sound E.eof false s.cur (c :: l) hl
      have h5 : s.cur.drop (c :: l).length = t := by rw [g1]; simp
      rw [h5] at h
      simp only [Bool.false_eq_true, if_false] at h
      obtain ⟨b, s1, h6, h⟩ := bind_ok.1 h
      have h7 : s1 = { s with cur := t } := by
        exact areBlanks_state E h6
      subst h7
      have hx : ∀ x ∈ c :: l, XmlChar x ∧ x ≠ 60 ∧ x ≠ 38 := fun x hx => ⟨isChar_xml (g2 rfl x hx).1, (g2 rfl x hx).2⟩
      rw [replaceCRLF_encodeRunes] at h
      cases b with
      | true =>
        simp only [if_true] at h
        obtain ⟨h8, r, h9⟩ := cb_reported h
        exact ⟨c :: l, t, r, g1, h8, hx, Or.inr h9, replaceCRLF_noPair _⟩
      | false =>
        simp only [Bool.false_eq_true, if_false] at h
        obtain ⟨h8, r, h9⟩ := cb_reported h
        exact ⟨c :: l, t, r, g1, h8, hx, Or.inl h9, replaceCRLF_noPair _⟩

example : ∀ x ∈ [b!"ab", b!"", b!"c"], ¬ [13, 10] <:+: x := by decide
example : replaceCRLF [97, 13, 10, 13, 10, 98, 13] = [97, 10, 10, 98, 13] := by decide
example : (parseCharData env0 quietHandler false (testSt [97, 13, 10, 98, 60])).view = some ([60], [.characters [97, 10, 98]]) := by decide +kernel

/-! ### C18 -/

/-- opening of a character reference. -/
def refOpen (hex : Bool) : List Nat := if hex then b!"&#x" else b!"&#"
/-- digits of a character reference and the number they write. -/
def refNumber (hex : Bool) (ds : List Nat) : Option Nat := if hex then digitsVal 16 hexDigitVal 0 ds else digitsVal 10 decDigit 0 ds

theorem refNumber_eq (hex : Bool) (ds : List Nat) : refNumber hex ds = digitsVal (refBase hex) (refDigit hex) 0 ds := by
  cases hex <;> rfl

/-- the claim at full strength. -/
def C18_statement : Prop := ∀ (s s' : St Unit) (v : Nat), parseCharRef s = .ok v s' →
  ∃ hex ds n, s.cur = refOpen hex ++ (ds ++ 59 :: s'.cur) ∧ refNumber hex ds = some n ∧ XmlChar n ∧ v = n

theorem C18_refuted : ¬ C18_statement := by
  intro h
  obtain ⟨hex, ds, n, h1, h2, h3, h4⟩ := h (testSt b!"&#x100000041;") (testSt []) 65 (by rfl)
  subst h4
  have h1 : b!"&#x100000041;" = refOpen hex ++ (ds ++ [59]) := h1
  cases hex with
  | false =>
    have h5 : b!"x100000041" = ds := by
      have h6 : b!"&#" ++ (b!"x100000041" ++ [59]) = b!"&#" ++ (ds ++ [59]) := h1
      exact List.append_cancel_right (List.append_cancel_left h6)
    subst h5
    revert h2
    decide
  | true =>
    have h5 : b!"100000041" = ds := by
      have h6 : b!"&#x" ++ (b!"100000041" ++ [59]) = b!"&#x" ++ (ds ++ [59]) := h1
      exact List.append_cancel_right (List.append_cancel_left h6)
    subst h5
    revert h2
    decide

theorem charRefBody_sound {hex : Bool} {s s' : St σ} {v : Nat} (h : charRefBody hex s = .ok v s') :
    ∃ ds n, refNumber hex ds = some n ∧ v = n % 2 ^ 32 ∧ isChar v = true ∧ (s.cur = ds ++ 59 :: s'.cur ∨ (s.cur = ds ∧ s'.cur = [])) := by
  unfold charRefBody at h
  run at h
  cases hx : (charRefLoop hex 0 s.cur).1 with
  | none => simp only [hx] at h; exact (raw_ok.1 h).elim
  | some w =>
    simp only [hx] at h
    obtain ⟨ds, n, h1, h2, h3, h4⟩ := charRefLoop_sound hex s.cur 0 w (charRefLoop hex 0 s.cur).2 (by decide) (by rw [← hx])
    obtain ⟨b, s1, h5, h⟩ := bind_ok.1 h
    split at h
    · rename_i h6
      simp only [Bool.and_eq_true] at h6
      obtain ⟨rfl, rfl⟩ := pure_ok.1 h
      refine ⟨ds, n, by rw [refNumber_eq]; exact h2, h3, h6.1, ?_⟩
      generalize (charRefLoop hex 0 s.cur).2 = t at *
      rcases consume_ok.1 h5 with ⟨_, h7, rfl⟩ | ⟨_, h7, rfl⟩
      · left
        have := isPrefixOf_elim h7
        simp only at this ⊢
        rw [h1]
        conv => lhs; rw [this]
        simp
      · right
        simp only at h7 ⊢
        rcases h4 with rfl | h4
        · exact ⟨by simpa using h1, rfl⟩
        · cases t with
          | nil => cases h4
          | cons c t => simp at h4; subst h4; simp at h7
    · exact (raw_ok.1 h).elim

/-- **C18**, what does hold: an accepted reference consists of digits whose value modulo 2^32 is the character delivered, which is
a legal one; below 2^32 that is the number written. The `;` may be missing at the end of the input. -/
theorem C18_accepted_partial {s s' : St σ} {v : Nat} (h : parseCharRef s = .ok v s') :
    ∃ hex ds n, refNumber hex ds = some n ∧ v = n % 2 ^ 32 ∧ (n < 2 ^ 32 → v = n) ∧ XmlChar v ∧
      (s.cur = refOpen hex ++ (ds ++ 59 :: s'.cur) ∨ (s.cur = refOpen hex ++ ds ∧ s'.cur = [])) := by
  unfold parseCharRef at h
  obtain ⟨b, s1, h1, h⟩ := bind_ok.1 h
  cases b with
  | true =>
    obtain ⟨r, h2, rfl⟩ := consume_true h1
    simp only [if_true] at h
    obtain ⟨ds, n, h3, h4, h5, h6⟩ := charRefBody_sound h
    refine ⟨true, ds, n, h3, h4, fun hn => by rw [h4, Nat.mod_eq_of_lt hn], isChar_xml h5, ?_⟩
    rw [h2]
    rcases h6 with h6 | ⟨h6, h7⟩
    · exact Or.inl (congrArg _ h6)
    · exact Or.inr ⟨congrArg _ h6, h7⟩
  | false =>
    simp only [Bool.false_eq_true, if_false] at h
    obtain ⟨b, s2, h1', h⟩ := bind_ok.1 h
    have hs1 : s1 = s := by
      rcases consume_ok.1 h1 with ⟨h2, _⟩ | ⟨_, _, h2⟩
      · cases h2
      · exact h2
    subst hs1
    cases b with
    | false => simp only [Bool.false_eq_true, if_false] at h; exact (raw_ok.1 h).elim
    | true =>
      obtain ⟨r, h2, rfl⟩ := consume_true h1'
      simp only [if_true] at h
      obtain ⟨ds, n, h3, h4, h5, h6⟩ := charRefBody_sound h
      refine ⟨false, ds, n, h3, h4, fun hn => by rw [h4, Nat.mod_eq_of_lt hn], isChar_xml h5, ?_⟩
      rw [h2]
      rcases h6 with h6 | ⟨h6, h7⟩
      · exact Or.inl (congrArg _ h6)
      · exact Or.inr ⟨congrArg _ h6, h7⟩

theorem charRefBody_run {hex : Bool} {ds w : List Nat} {n : Nat} (hn : refNumber hex ds = some n) (hx : XmlChar n) (hf : n ≠ 0xFFFD) (s : St σ)
    (hs : s.cur = ds ++ 59 :: w) : charRefBody hex s = .ok n { s with cur := w } := by
  unfold charRefBody
  have hlt : n < 2 ^ 31 ∧ n ≤ 0x10FFFF := by unfold XmlChar at hx; omega
  have h1 := charRefLoop_run hex w ds 0 n (by rw [← refNumber_eq]; exact hn) (by decide)
  rw [Nat.mod_eq_of_lt (by omega)] at h1
  run
  rw [hs, h1]
  simp only
  rw [bind_run (consume_run (l := [59]) (r := w) rfl)]
  simp only [isChar_of_xml hx hf, hlt, decide_true, Bool.and_self, if_true]
  rfl

/-- **C18**, other direction: a reference to a legal character (other than U+FFFD), decimal or hexadecimal, of any length, delivers
that character. -/
theorem C18_delivered {hex : Bool} {ds w : List Nat} {n : Nat} (hn : refNumber hex ds = some n) (hx : XmlChar n) (hf : n ≠ 0xFFFD)
    (s : St σ) (hs : s.cur = refOpen hex ++ (ds ++ 59 :: w)) : parseCharRef s = .ok n { s with cur := w } := by
  unfold parseCharRef
  cases hex with
  | true =>
    rw [bind_run (consume_run (l := b!"&#x") hs)]
    exact charRefBody_run hn hx hf _ rfl
  | false =>
    rw [bind_run (consume_run_false (l := b!"&#x") (by
      rw [hs]
      rintro ⟨z, hz⟩
      simp [refOpen] at hz
      cases ds with
      | nil => simp at hz
      | cons c ds =>
        simp at hz
        rw [← hz.1] at hn
        simp [refNumber, digitsVal, decDigit] at hn))]
    simp only [Bool.false_eq_true, if_false]
    rw [bind_run (consume_run (l := b!"&#") hs)]
    exact charRefBody_run hn hx hf _ rfl

/-- U+FFFD is a legal character but a reference to it is refused. -/
theorem C18_fffd_refused : parseCharRef (testSt b!"&#xFFFD;") = .err (.k .invalidChar) (testSt []) := by rfl

example : refNumber true b!"00041" = some 65 ∧ XmlChar 65 := by decide
example : (parseCharRef (testSt b!"&#0066;x")).view = some (b!"x", []) := by decide +kernel

/-! ### C42 -/

/-- **C42**, names: an accepted name starts with a name start character, goes on with name characters, has fewer than 50001
characters, and is what stands in the input (a NUL after it is swallowed). -/
theorem C42_name (E : Env) {s s' : St σ} {v : Bytes} (h : parseName E s = .ok v s') :
    ∃ c a r, s.cur = c :: a ++ r ∧ v = encodeRunes (c :: a) ∧ NameStartChar E c ∧ (∀ x ∈ a, NameChar E x) ∧ (c :: a).length ≤ 50000 ∧
      (s'.cur = r ∨ r = 0 :: s'.cur) := by
  obtain ⟨cur', rfl, c, a, r, h1, h2, h3, h4, h5, h6, _⟩ := parseName_sound E h
  refine ⟨c, a, r, h1, h2, h3, h4, by simp; omega, ?_⟩
  rcases h6 with h6 | ⟨h6, h7⟩
  · exact Or.inl h6
  · cases r with
    | nil => cases h6
    | cons x r => simp at h6 h7; subst h6 h7; exact Or.inr rfl

/-- **C42**, names without colon. -/
theorem C42_ncname (E : Env) {s s' : St σ} {v : Bytes} (h : parseNCName E s = .ok v s') :
    ∃ c a r, s.cur = c :: a ++ r ∧ v = encodeRunes (c :: a) ∧ NameStartChar E c ∧ (∀ x ∈ a, NameChar E x ∧ x ≠ 58) ∧ (c :: a).length ≤ 50000 ∧
      (s'.cur = r ∨ r = 0 :: s'.cur) := by
  obtain ⟨cur', rfl, c, a, r, h1, h2, h3, h4, h5, h6, _⟩ := parseNCName_sound E h
  refine ⟨c, a, r, h1, h2, h3, h4, by simp; omega, ?_⟩
  rcases h6 with h6 | ⟨h6, h7⟩
  · exact Or.inl h6
  · cases r with
    | nil => cases h6
    | cons x r => simp at h6 h7; subst h6 h7; exact Or.inr rfl

/-- shape of a name, or part of a qualified name. -/
def NameShape (E : Env) (v : Bytes) : Prop :=
  ∃ c a, v = encodeRunes (c :: a) ∧ NameStartChar E c ∧ (∀ x ∈ a, NameChar E x) ∧ (c :: a).length ≤ 50000

/-- **C42**, qualified names as they are used for elements and attributes: both parts are names, except that the local part can be
empty after `prefix:` (where the code calls a loop meant for name tokens). -/
theorem C42_qname_partial (E : Env) {s s' : St σ} {l p : Bytes} (h : parseQName E s = .ok (l, p) s') :
    (NameShape E l ∨ (l = [] ∧ p ≠ [])) ∧ (p = [] ∨ NameShape E p) := by
  have hN : ∀ {t t' : St σ} {v : Bytes}, parseName E t = .ok v t' → NameShape E v := by
    intro t t' v h
    obtain ⟨c, a, r, _, h2, h3, h4, h5, _⟩ := C42_name E h
    exact ⟨c, a, h2, h3, h4, h5⟩
  have hC : ∀ {t t' : St σ} {v : Bytes}, parseNCName E t = .ok v t' → NameShape E v := by
    intro t t' v h
    obtain ⟨c, a, r, _, h2, h3, h4, h5, _⟩ := C42_ncname E h
    exact ⟨c, a, h2, h3, fun x hx => (h4 x hx).1, h5⟩
  have hne : ∀ {v : Bytes}, NameShape E v → v ≠ [] := by
    rintro v ⟨c, a, rfl, _⟩
    rw [encodeRunes_cons]
    have := encodeRune_ne_nil c
    simp [this]
  unfold parseQName at h
  obtain ⟨x, s1, h1, h⟩ := bind_ok.1 h
  rcases attempt_ok.1 h1 with ⟨v, rfl, h2⟩ | ⟨e, rfl, h2⟩
  · simp only at h
    run at h
    split at h
    · cases h
      exact ⟨Or.inl (hC h2), Or.inl rfl⟩
    · obtain ⟨x, s3, h3, h⟩ := bind_ok.1 h
      rcases attempt_ok.1 h3 with ⟨w, rfl, h4⟩ | ⟨e, rfl, h4⟩
      · simp only at h
        cases h
        exact ⟨Or.inl (hC h4), Or.inr (hC h2)⟩
      · simp only at h
        obtain ⟨x, s5, h5, h⟩ := bind_ok.1 h
        rcases attempt_ok.1 h5 with ⟨w, rfl, h6⟩ | ⟨e, rfl, h6⟩
        · simp only at h
          cases h
          unfold parseNmtoken at h6
          run at h6
          split at h6
          · exact (diverge_ok.1 h6).elim
          · cases h6
            exact ⟨Or.inr ⟨rfl, hne (hC h2)⟩, Or.inr (hC h2)⟩
        · simp only at h
          obtain ⟨w, s7, h7, h⟩ := bind_ok.1 h
          cases h
          exact ⟨Or.inl (hN (wrap_ok.1 h7)), Or.inr (hC h2)⟩
  · simp only at h
    run at h
    split at h
    · obtain ⟨x, s3, h3, h⟩ := bind_ok.1 h
      rcases attempt_ok.1 h3 with ⟨w, rfl, h4⟩ | ⟨e, rfl, h4⟩
      · simp only at h
        cases h
        exact ⟨Or.inl (hN h4), Or.inl rfl⟩
      · exact (cerr_ok.1 h).elim
    · exact (fail_ok.1 h).elim

/-- the claim at full strength for qualified names. -/
def C42_statement : Prop := ∀ (E : Env) (s s' : St Unit) (l p : Bytes), parseQName E s = .ok (l, p) s' →
  NameShape E l ∧ (p = [] ∨ NameShape E p)

/-- an attribute `b:` with an empty local name is accepted. -/
theorem C42_refuted : ¬ C42_statement := by
  intro h
  obtain ⟨⟨c, a, h1, -⟩, -⟩ := h env0 (testSt b!"b:='c'") (testSt b!"='c'") [] b!"b" (by rfl)
  rw [encodeRunes_cons] at h1
  have := encodeRune_ne_nil c
  simp [this] at h1

/-- **C42**, other direction: proper names are accepted and returned as written. -/
theorem C42_accepted (E : Env) {n r : List Nat} (hn : Name E n) (hr : ∀ c, r.head? = some c → c ≠ 0 ∧ ¬ NameChar E c) (s : St σ)
    (hs : s.cur = n ++ r) : parseName E s = .ok (encodeRunes n) { s with cur := r } := parseName_run E hn hr s hs

example : Name env0 b!"a:b-1" := ⟨⟨97, b!":b-1", rfl, Or.inl rfl⟩, by decide, by decide⟩
example : (parseName env0 (testSt b!"a:b-1 x")).view = some (b!" x", []) := by decide +kernel
example : (parseQName env0 (testSt b!"p:b x")).view = some (b!" x", []) := by decide +kernel

end
end Helium
