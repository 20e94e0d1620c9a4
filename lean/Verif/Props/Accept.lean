import Verif.Lemmas.AcceptDtd
import Verif.Lemmas.TreeParse
import Verif.Props.Bom
import Verif.Props.Tree
/-! Properties C05, C48, C49: what an accepted document looks like. -/
namespace Helium
open Spec
section
variable {σ : Type}

/-! ### what is accepted -/

theorem headRest_plain {E : Env} {s s' : St σ} (h : headRest E s = .ok () s') (he : s.encoding = []) (hd : s.detected = b!"utf8")
    (hb : PlainUtf8 s.cur) (hx : ¬ b!"<?xml" <+: s.cur) : s' = s := by
  unfold headRest at h
  run at h
  rw [if_pos he] at h
  have hx' : ¬ (List.isPrefixOf b!"<?xml" s.cur = true) := fun hc => hx (isPrefixOf_iff.1 hc)
  have key : ∀ {t : St σ}, t.cur = s.cur → (do
      if (← isDone) then M.cerr .mEmptyDocument
      else if (← hasPrefix b!"<?xml") then M.wrap (parseXMLDecl E)
      else pure () : P σ Unit) t = .ok () s' → s' = t := by
    intro t ht h
    run at h
    split at h
    · exact (cerr_ok.1 h).elim
    · rw [ht, if_neg hx'] at h
      cases h; rfl
  rcases detectEncoding_plain hb with hp | hp
  · rw [hp] at h
    exact key rfl h
  · rw [hp] at h
    have := key (t := { s with cur := s.cur, detected := b!"utf8" }) rfl h
    rw [this]
    cases s
    simp only at hd
    subst hd
    rfl

theorem switchEncoding_ok {E : Env} {s s' : St σ} (h : switchEncoding E s = .ok () s') :
    ∃ cs, s' = { s with cur := E.decode cs s.cur } ∧ (s.encoding = [] → s.detected = b!"utf8" → cs = .utf8) := by
  unfold switchEncoding at h
  rw [get_bind] at h
  cases he : encLoad (if s.encoding ≠ [] then s.encoding else if s.detected ≠ [] then s.detected else b!"utf8") with
  | none => rw [he] at h; cases h
  | some c =>
    rw [he] at h
    cases h
    refine ⟨c, rfl, fun h1 h2 => ?_⟩
    rw [h1, h2] at he
    simp only [ne_eq, not_true_eq_false, if_false] at he
    have : encLoad b!"utf8" = some .utf8 := by decide
    rw [if_pos (by decide), this] at he
    cases he; rfl

theorem parseDoctypePart_outside {E : Env} {H : Handler σ} {snl : Nat} {s s' : St σ} (h : parseDoctypePart E H snl s = .ok () s')
    (h0 : s.inSubset = 0) : s'.inSubset = 0 := by
  unfold parseDoctypePart at h
  run at h
  split at h
  · have key : ∀ {t : St σ}, (do
        M.modify (fun s => { s with inSubset := 2 })
        let s ← M.get
        cb H (.externalSubset s.intSubName s.extSubSystem s.extSubURI)
        M.modify (fun s => { s with inSubset := 0, attsSpecial := s.attsSpecial.filter (fun p => p.2 != 1) })
        M.wrap (parseMisc E H) : P σ Unit) t = .ok () s' → s'.inSubset = 0 := by
      intro t h
      run at h
      obtain ⟨_, s3, _, h4⟩ := bind_ok.1 h
      run at h4
      have hst := Sat.parseMisc (L := stayL H) E (Admits.of (fun _ _ _ => trivial))
        ({ s3 with inSubset := 0, attsSpecial := s3.attsSpecial.filter (fun p => p.2 != 1) } : St σ)
      rw [wrap_ok.1 h4] at hst
      exact hst.sub
    obtain ⟨_, s1, _, h2⟩ := bind_ok.1 h
    run at h2
    split at h2
    · obtain ⟨_, s2, _, h3⟩ := bind_ok.1 h2
      exact key h3
    · exact key h2
  · cases h; exact h0

/-- **C05**, with the liberties the parser takes spelled out: an accepted input is, after its head and decoded, a prolog, one element
of the grammar `Accepted`, and nothing but white space, comments and processing instructions up to the end; the events are those of the
grammar; every entity reference outside the DTD names a predefined entity or one the handler has handed out, and in an attribute value stands for itself
if the handler is the tree builder. Missing from the full claim: a comment after the root element may be open (`C05_refuted`). Inputs with a NUL character are
left out. -/
theorem C05_accepted_partial (E : Env) (H : Handler σ) (usr : σ) (fuel snl : Nat) (input : Bytes) (doc : Option Nat) (heap : Heap)
    (trace : List (Ev × HOut)) (h : parserParse E H usr fuel snl input = .done doc none heap trace) :
    ∃ cs rest, rest <:+ input ∧ (PlainUtf8 input → ¬ b!"<?xml" <+: input → cs = .utf8 ∧ rest = input) ∧
      (0 ∉ E.decode cs rest → ∃ pre root tail ep er et, E.decode cs rest = pre ++ (root ++ tail) ∧
        Accepted E (fun n x => Answered trace n ∧ HeldFor H n x) true root er ∧ LooseMisc E tail et ∧
        trace.map (·.1) = [.setDocumentLocator, .startDocument] ++ (ep ++ (er ++ (et ++ [.endDocument]))) ∧ (∀ ev ∈ er ++ et, ¬ IsSubset ev) ∧
        (LooseMisc E pre ep ∨ ∃ m dt m2 e1 e2 n mid, pre = m ++ (dt ++ m2) ∧ LooseMisc E m e1 ∧ LooseDoctype E n dt mid ∧ LooseMisc E m2 e2 ∧ mid <:+: trace ∧
          ep = e1 ++ (.internalSubset (encodeRunes n) [] [] :: (mid.map (·.1) ++ (.externalSubset (encodeRunes n) [] [] :: e2))))) := by
  unfold parserParse at h
  cases hp : parseDocument E H fuel snl (initSt usr Heap.empty input) with
  | panic => rw [hp] at h; cases h
  | diverge => rw [hp] at h; cases h
  | err e s => rw [hp] at h; cases h
  | ok u s =>
    rw [hp] at h
    cases h
    unfold parseDocument at hp
    rw [parseHead_eq] at hp
    simp only [bind_ok] at hp
    obtain ⟨_, s1, ⟨_, s0, r0, r1⟩, _, s2, r2, _, s3, r3, _, s4, r4, _, s5, r5, r6⟩ := hp
    have t0 := cb_step r0
    have q1 := Silent.headRest (kb := false) E s0
    rw [r1] at q1
    obtain ⟨cs, rfl, hcs⟩ := switchEncoding_ok (wrap_ok.1 r2)
    have hc0 : s0.cur = input := t0.cur.symm
    have he0 : s0.encoding = [] ∧ s0.detected = b!"utf8" := by
      obtain ⟨rfl, _⟩ := cb_trace r0
      exact ⟨rfl, rfl⟩
    refine ⟨cs, s1.cur, by rw [← hc0]; exact q1.cur, ?_, ?_⟩
    · intro hb hx
      rw [← hc0] at hb hx
      have := headRest_plain r1 he0.1 he0.2 hb hx
      subst this
      exact ⟨hcs he0.1 he0.2, hc0⟩
    · intro h0
      have t3 := cb_step r3
      have hc3 : s3.cur = E.decode cs s1.cur := t3.cur.symm
      have h03 : 0 ∉ s3.cur := by rw [hc3]; exact h0
      have hs3 : s3.inSubset = 0 := t3.sub.trans (q1.inSubset.trans t0.sub)
      have hk : Knows H (fun n x => Answered s.trace n ∧ HeldFor H n x) s := fun n e hn x hx => ⟨⟨e, hn⟩, hx⟩
      have hf0 : Safe H (initSt usr Heap.empty input) := fun _ _ => entOK_init usr input
      have hf3 : Safe H s3 := t3.safe ((Safe.heap (t0.safe hf0) q1.trace q1.tabs.toTabs).heap rfl (Tabs.refl _ _))
      obtain ⟨t, em, m1, m2, m3⟩ := parseMisc_step (wrap_ok.1 r4) h03
      have tr4 : s4.trace.map (·.1) = [.setDocumentLocator, .startDocument] ++ em := by
        rw [m2.trace, t3.trace]
        show s1.trace.map _ ++ _ ++ _ = _
        rw [q1.trace, t0.trace]
        rfl
      have f0 := Fl.ok (Fl.cb H _) r0
      have f1 := Fl.ok (Fl.headRest E) r1
      have f3 := Fl.ok (Fl.cb H _) r3
      have f4 := Fl.ok (Fl.wrap (Fl.parseMisc E H)) r4
      have f : SameFlags (initSt usr Heap.empty input) s4 := (f0.trans f1).trans (f3.trans f4)
      have hns : ∀ {er et : List Ev}, s.trace.map (·.1) = s5.trace.map (·.1) ++ (er ++ (et ++ [.endDocument])) → ∀ ev ∈ er ++ et, ¬ IsSubset ev := by
        intro er et ht ev hev
        obtain ⟨m, hm, hx⟩ := tail_noSubset r6
        rw [hm, List.map_append] at ht
        have ht := List.append_cancel_left ht
        have hin : ev ∈ m.map (·.1) := by
          rw [ht, ← List.append_assoc]
          exact List.mem_append_left _ hev
        obtain ⟨x, hx1, rfl⟩ := List.mem_map.1 hin
        exact hx x hx1
      rcases parseDoctypePart_step r5 (m2.nul h03) (congrArg (·.1) f.2) f.1 (m2.sub.trans hs3) with ⟨rfl, -⟩ | ⟨n, dt, mid, x2, e2, g1, g2, g3, g4, g5⟩
      · obtain ⟨b0, ws, root, tail, er, et, b1, b2, b3, b4, b5⟩ := parseTail_step r6 ⟨m2.nul h03, .inl (m2.sub.trans hs3), .inl (m2.safe hf3)⟩ hk
        refine ⟨t ++ ws, root, tail, em, er, et, ?_, b2, b3, ?_, hns b5, Or.inl (m3 b0 ws b1)⟩
        · rw [← hc3, m2.cur, b4]; simp
        · rw [b5, tr4]; simp
      · obtain ⟨b0, ws, root, tail, er, et, b1, b2, b3, b4, b5⟩ := parseTail_step r6 ⟨g3.nul (m2.nul h03), .inl (g3.sub.trans (m2.sub.trans hs3)), .inl (g3.safe (m2.safe hf3))⟩ hk
        refine ⟨t ++ (dt ++ (x2 ++ ws)), root, tail, _, er, et, ?_, b2, b3, ?_, hns b5, Or.inr ⟨t, dt, x2 ++ ws, em, e2, n, mid, rfl, m1, g5, g4 b0 ws b1, ?_, rfl⟩⟩
        · rw [← hc3, m2.cur, g3.cur, b4]; simp
        · rw [b5, g3.trace, tr4]; simp
        · obtain ⟨m, hm⟩ := AL_ext (AL_wide.tail E fuel) r6
          rw [hm]
          exact g2.trans ⟨[], m, rfl⟩

/-! ### C05 at full strength fails -/

/-- the full claim for documents without XML declaration: what follows the root element is closed. -/
def C05_statement : Prop := ∀ (E : Env) (H : Handler Unit) (fuel snl : Nat) (input : Bytes) (doc : Option Nat) (heap : Heap) (trace : List (Ev × HOut)),
  PlainUtf8 input → ¬ b!"<?xml" <+: input → 0 ∉ E.decode .utf8 input → parserParse E H () fuel snl input = .done doc none heap trace →
  ∃ pre root tail er, E.decode .utf8 input = pre ++ (root ++ tail) ∧ Accepted E (fun _ _ => True) true root er ∧ ClosedMisc E tail

theorem accepted_last {E : Env} {K : List Nat → Bytes → Prop} {t : List Nat} {evs : List Ev} (h : Accepted E K true t evs) : ∃ u, t = u ++ [62] := by
  cases h with
  | empty => exact ⟨60 :: (_ ++ (_ ++ (_ ++ [47]))), by simp; rfl⟩
  | full => exact ⟨60 :: (_ ++ (_ ++ 62 :: (_ ++ (b!"</" ++ _)))), by simp; rfl⟩

theorem closedMisc_last {E : Env} {t : List Nat} (h : ClosedMisc E t) : t = [] ∨ ∃ u c, t = u ++ [c] ∧ (c = 62 ∨ Ws c) := by
  induction h with
  | nil => exact Or.inl rfl
  | @space c r h1 _ ih =>
    right
    rcases ih with rfl | ⟨u, d, rfl, hd⟩
    · exact ⟨[], c, rfl, Or.inr h1⟩
    · exact ⟨c :: u, d, rfl, hd⟩
  | @comment b r _ ih =>
    right
    rcases ih with rfl | ⟨u, d, rfl, hd⟩
    · exact ⟨b!"<!--" ++ (b ++ [45, 45]), 62, by simp, Or.inl rfl⟩
    · exact ⟨b!"<!--" ++ (b ++ (b!"-->" ++ u)), d, by simp, hd⟩
  | @pi b r _ ih =>
    right
    rcases ih with rfl | ⟨u, d, rfl, hd⟩
    · exact ⟨b!"<?" ++ (b ++ [63]), 62, by simp, Or.inl rfl⟩
    · exact ⟨b!"<?" ++ (b ++ (b!"?>" ++ u)), d, by simp, hd⟩

/-- a well-formed input meets the hypotheses, and the input is what the theorem says. -/
example : ∃ doc heap trace, parserParse env0 nullHandler () 9 9 b!"<?p q?><a b='c'><d/>t</a> <!-- x -->" = .done doc none heap trace := by
  have h0 : (parserParse env0 nullHandler () 9 9 b!"<?p q?><a b='c'><d/>t</a> <!-- x -->").events.isSome := by decide +kernel
  obtain ⟨evs, h0⟩ := Option.isSome_iff_exists.1 h0
  obtain ⟨d, hp, tr, h1, _⟩ := ParseRes.good_of_events h0
  exact ⟨d, hp, tr, h1⟩

/-- **C05** fails: an unterminated comment after the root element is accepted. -/
theorem C05_refuted : ¬ C05_statement := by
  intro h
  have h0 : (parserParse env0 nullHandler () 9 9 b!"<a/><!-- x").events.isSome := by decide +kernel
  obtain ⟨evs, h0⟩ := Option.isSome_iff_exists.1 h0
  obtain ⟨d, hp, tr, h1, _⟩ := ParseRes.good_of_events h0
  have hdec : env0.decode .utf8 b!"<a/><!-- x" = b!"<a/><!-- x" := by decide +kernel
  obtain ⟨pre, root, tail, er, e1, e2, e3⟩ := h env0 nullHandler 9 9 _ d hp tr (by decide) (by decide) (by rw [hdec]; decide) h1
  rw [hdec] at e1
  obtain ⟨u, rfl⟩ := accepted_last e2
  have hl : (b!"<a/><!-- x").getLast? = some 120 := by decide
  rw [e1] at hl
  rcases closedMisc_last e3 with rfl | ⟨v, c, rfl, hc⟩
  · simp at hl
  · have hl' : some c = some 120 := by
      rw [← hl, show pre ++ (u ++ [62] ++ (v ++ [c])) = (pre ++ (u ++ ([62] ++ v))) ++ [c] by simp, List.getLast?_concat]
    cases hl'
    rcases hc with hc | hc
    · exact absurd hc (by decide)
    · revert hc; unfold Ws; decide

/-! ### C48 -/

/-- the full claim about start tags: every attribute has `=` and a quoted value. -/
def C48_statement : Prop := ∀ (E : Env) (H : Handler Unit) (s s' : St Unit), 0 ∉ s.cur → parseStartTag E H s = .ok () s' →
  ∃ n a, LooseName E n ∧ StrictAtts E a ∧ s.cur = 60 :: (n ++ a) ++ s'.cur

/-- remaining input after a success. -/
def okCur : Out (St Unit) Unit → Option Bytes
  | .ok _ s => some s.cur
  | _ => none

theorem okCur_ok {o : Out (St Unit) Unit} {rest : Bytes} (h : okCur o = some rest) : ∃ s, o = .ok () s ∧ s.cur = rest := by
  cases o with
  | ok u s => cases u; exact ⟨s, rfl, Option.some.inj h⟩
  | err e s => cases h
  | panic => cases h
  | diverge => cases h

/-- remaining input after a start tag. -/
def tagRest (input : Bytes) : Option Bytes := okCur (parseStartTag env0 nullHandler (initSt () Heap.empty input))

theorem tagRest_ok {input rest : Bytes} (h : tagRest input = some rest) :
    ∃ s0 s, s0.cur = input ∧ parseStartTag env0 nullHandler s0 = .ok () s ∧ s.cur = rest := by
  obtain ⟨s, h1, h2⟩ := okCur_ok h
  exact ⟨initSt () Heap.empty input, s, rfl, h1, h2⟩

/-- **C48** fails: `<a b"c"/>` is accepted, any character does for `=`. -/
theorem C48_refuted : ¬ C48_statement := by
  intro h
  obtain ⟨s0, s, hc, h1, h2⟩ := tagRest_ok (show tagRest b!"<a b\"c\"/>" = some b!"/>" by decide +kernel)
  obtain ⟨n, a, g1, g2, g3⟩ := h env0 nullHandler s0 s (by rw [hc]; decide) h1
  rw [hc, h2] at g3
  have h61 : 61 ∉ b!"<a b\"c\"/>" := by decide
  have h34 : 34 ∈ n ++ a := by
    have e : b!"<a b\"c\"" = 60 :: (n ++ a) := List.append_cancel_right (show b!"<a b\"c\"" ++ b!"/>" = _ ++ _ from g3)
    have : (34 : Nat) ∈ 60 :: (n ++ a) := by rw [← e]; decide
    simpa using this
  cases g2 with
  | nil hb =>
    rcases List.mem_append.1 h34 with h34 | h34
    · rcases g1.chars _ h34 with h | h | h | h | h | h
      · rw [env0.letter_ascii 34 (by decide)] at h; simp at h
      · rw [env0.digit_ascii 34 (by decide)] at h; simp at h
      all_goals omega
    · exact absurd (hb _ h34) (by unfold Ws; decide)
  | attr _ ha _ =>
    obtain ⟨m, w1, w2, q, b, _, _, _, _, _, rfl⟩ := ha
    apply h61
    have e := g3
    generalize b!"<a b\"c\"/>" = l at e ⊢
    rw [e]
    simp

/-- **C48** with the liberties spelled out: an accepted start tag is `<`, a name and attributes, each of which is a name, some character
and, unless it is missing, a properly quoted value without `<`; the reported attributes are among those written and in their order, and
their values follow from the text between the quotes (`LooseValue`, see `C48_value_unique`), for declared attributes up to superfluous spaces. Missing: that the character is `=` and that the value is there (`C48_refuted`). -/
theorem C48_tag_partial (E : Env) (H : Handler σ) (s s' : St σ) (h0 : 0 ∉ s.cur) (hs : s.inSubset = 0) (h : parseStartTag E H s = .ok () s') :
    ∃ n p l a e ns look u d as, LooseName E n ∧ encodeRunes n = (if p = [] then l else p ++ 58 :: l) ∧ LooseAtts E (fun n _ => Answered s'.trace n) a ns ∧
      (e = [] ∧ (b!"/>" <+: s'.cur) ∨ e = [62]) ∧ OnlyLookups look ∧
      (writtenAttrs as).Sublist (attrBytes ns) ∧ s.cur = 60 :: (n ++ (a ++ e)) ++ s'.cur ∧
      s'.trace.map (·.1) = s.trace.map (·.1) ++ (look ++ [.startElement l p u d as]) := by
  obtain ⟨n, p, l, a, e, ns, look, u, d, as, g1, g2, g3, g4, g5, g6, _, s5, g7, g8⟩ :=
    parseStartTag_step h ⟨h0, .inl hs, .inr fun _ _ _ => id⟩ (K := fun n _ => Answered s'.trace n) (fun n e hn _ _ => ⟨e, hn⟩)
  have hc : s5.cur = s'.cur := by rw [g8]
  have ht : s5.trace = s'.trace := by rw [g8]
  exact ⟨n, p, l, a, e, ns, look, u, d, as, g1, g2, g3, g4.symm, g5, g6, by rw [← hc]; exact g7.cur, by rw [← ht]; exact g7.trace⟩

example : tagRest b!"<a b='c' d = \"&lt;\">x" = some b!"x" := by decide +kernel

theorem nameChar_semi {E : Env} : ¬ NameChar E 59 := by
  rintro (h | h | h | h | h | h)
  · rw [E.letter_ascii 59 (by decide)] at h; simp at h
  · rw [E.digit_ascii 59 (by decide)] at h; simp at h
  all_goals omega

theorem Spec.LooseName.semi {E : Env} {n : List Nat} (h : LooseName E n) : 59 ∉ n := by
  obtain ⟨c, t, rfl, hc, ht⟩ := h
  intro hm
  rcases List.mem_cons.1 hm with rfl | hm
  · exact nameChar_semi (nameStart_nameChar hc)
  · exact nameChar_semi (ht _ hm)

theorem Spec.LooseName.hash {E : Env} {n r t : List Nat} (h : LooseName E n) : n ++ r ≠ 35 :: t := by
  obtain ⟨c, u, rfl, hc, -⟩ := h
  intro e
  obtain rfl : c = 35 := (List.cons.inj e).1
  rcases hc with hc | hc | hc
  · rw [E.letter_ascii 35 (by decide)] at hc; revert hc; decide
  · cases hc
  · cases hc

theorem upto_unique {d : Nat} {a b r u : List Nat} (ha : d ∉ a) (hb : d ∉ b) (h : a ++ d :: r = b ++ d :: u) : a = b ∧ r = u := by
  induction a generalizing b with
  | nil =>
    cases b with
    | nil => exact ⟨rfl, (List.cons.inj h).2⟩
    | cons c b => exact (hb (by rw [(List.cons.inj h).1]; simp)).elim
  | cons c a ih =>
    cases b with
    | nil => exact (ha (by rw [← (List.cons.inj h).1]; simp)).elim
    | cons e b =>
      obtain ⟨h1, h2⟩ := List.cons.inj h
      obtain ⟨h3, h4⟩ := ih (fun hc => ha (by simp [hc])) (fun hc => hb (by simp [hc])) h2
      exact ⟨by rw [h1, h3], h4⟩

theorem Spec.LooseCharRef.opens {t : List Nat} {v : Nat} (h : LooseCharRef t v) : ∃ u, t = 38 :: 35 :: u := by
  obtain ⟨ds, n, h | h, -⟩ := h
  · exact ⟨_, h.1⟩
  · exact ⟨_, h.1⟩

theorem Spec.LooseCharRef.unique {t t' l l' : List Nat} {v v' : Nat} (h : LooseCharRef t v) (h' : LooseCharRef t' v') (e : t ++ l = t' ++ l') : v = v' ∧ l = l' := by
  obtain ⟨ds, n, h, rfl, -⟩ := h
  obtain ⟨ds', n', h', rfl, -⟩ := h'
  have nx : ∀ {ds a r u : List Nat} {n}, digitsVal 10 decDigit 0 ds = some n → ds ++ 59 :: r ≠ 120 :: u := by
    intro ds a r u n h e
    cases ds with
    | nil => cases e
    | cons c ds =>
      obtain rfl : c = 120 := (List.cons.inj e).1
      simp [digitsVal, decDigit] at h
  rcases h with ⟨rfl, h⟩ | ⟨rfl, h⟩ <;> rcases h' with ⟨rfl, h'⟩ | ⟨rfl, h'⟩
  · have e : ds ++ 59 :: l = ds' ++ 59 :: l' := by simpa using e
    obtain ⟨rfl, rfl⟩ := upto_unique (digitsVal_none_semi false ds 0 n h) (digitsVal_none_semi false ds' 0 n' h') e
    rw [h] at h'; cases h'
    exact ⟨rfl, rfl⟩
  · exact absurd (by simpa using e : ds ++ 59 :: l = 120 :: (ds' ++ 59 :: l')) (nx (a := []) h)
  · exact absurd (by simpa using e.symm : ds' ++ 59 :: l' = 120 :: (ds ++ 59 :: l)) (nx (a := []) h')
  · have e : ds ++ 59 :: l = ds' ++ 59 :: l' := by simpa using e
    obtain ⟨rfl, rfl⟩ := upto_unique (digitsVal_none_semi true ds 0 n h) (digitsVal_none_semi true ds' 0 n' h') e
    rw [h] at h'; cases h'
    exact ⟨rfl, rfl⟩

/-- **C48, attribute values**: the text between the quotes of an accepted attribute determines its value, if it is determined what references to
entities that are not predefined stand for (with the tree builder, themselves: `C38_accepted_partial`). -/
theorem C48_value_unique (E : Env) (K : List Nat → Bytes → Prop) (hK : ∀ n x y, K n x → K n y → x = y) (q : Nat) (t : List Nat) (v w : Bytes)
    (h1 : LooseValue E K q t v) (h2 : LooseValue E K q t w) : v = w := by
  generalize hu : t = u at h2
  induction h1 generalizing u w with
  | nil =>
    cases h2 with
    | nil => rfl
    | char => cases hu
    | charRef k => obtain ⟨x, rfl⟩ := k.opens; cases hu
    | predefined => cases hu
    | entity => cases hu
  | char _ _ h3 _ _ ih =>
    cases h2 with
    | nil => cases hu
    | char _ _ _ _ k =>
      obtain ⟨rfl, rfl⟩ := List.cons.inj hu
      rw [ih _ _ rfl k]
    | charRef k => obtain ⟨x, rfl⟩ := k.opens; exact (h3 (List.cons.inj hu).1).elim
    | predefined => exact (h3 (List.cons.inj hu).1).elim
    | entity => exact (h3 (List.cons.inj hu).1).elim
  | charRef h3 _ ih =>
    cases h2 with
    | nil => obtain ⟨x, rfl⟩ := h3.opens; cases hu
    | char _ _ k => obtain ⟨x, rfl⟩ := h3.opens; exact (k (List.cons.inj hu).1.symm).elim
    | charRef k k2 =>
      obtain ⟨rfl, rfl⟩ := h3.unique k hu
      rw [ih _ _ rfl k2]
    | predefined k =>
      obtain ⟨x, rfl⟩ := h3.opens
      exact absurd (List.cons.inj hu).2.symm k.hash
    | entity k =>
      obtain ⟨x, rfl⟩ := h3.opens
      exact absurd (List.cons.inj hu).2.symm k.hash
  | predefined h3 h4 _ ih =>
    cases h2 with
    | nil => cases hu
    | char _ _ k => exact (k (List.cons.inj hu).1.symm).elim
    | charRef k =>
      obtain ⟨x, rfl⟩ := k.opens
      exact absurd (List.cons.inj hu).2 h3.hash
    | predefined k k2 k3 =>
      obtain ⟨rfl, rfl⟩ := upto_unique h3.semi k.semi (List.cons.inj hu).2
      rw [h4] at k2; cases k2
      rw [ih _ _ rfl k3]
    | entity k k2 =>
      obtain ⟨rfl, rfl⟩ := upto_unique h3.semi k.semi (List.cons.inj hu).2
      rw [h4] at k2; cases k2
  | entity h3 h4 h5 _ ih =>
    cases h2 with
    | nil => cases hu
    | char _ _ k => exact (k (List.cons.inj hu).1.symm).elim
    | charRef k =>
      obtain ⟨x, rfl⟩ := k.opens
      exact absurd (List.cons.inj hu).2 h3.hash
    | predefined k k2 =>
      obtain ⟨rfl, rfl⟩ := upto_unique h3.semi k.semi (List.cons.inj hu).2
      rw [h4] at k2; cases k2
    | entity k _ k2 k3 =>
      obtain ⟨rfl, rfl⟩ := upto_unique h3.semi k.semi (List.cons.inj hu).2
      rw [hK _ _ _ h5 k2, ih _ _ rfl k3]

/-- `a<tab>&#38;&lt;` stands for `a &#38;<`. -/
example : LooseValue env0 (fun n x => x = refTo n) 34 ([97, 9] ++ b!"&#38;&lt;") b!"a &#38;<" :=
  .char (c := 97) (by unfold XmlChar; omega) (by decide) (by decide) (by decide)
    (.char (c := 9) (by unfold XmlChar; omega) (by decide) (by decide) (by decide)
      (.charRef (t := b!"&#38;") (x := 38) ⟨b!"38", 38, .inl ⟨rfl, rfl⟩, rfl, by unfold XmlChar; omega⟩
        (.predefined (n := b!"lt") (x := 60) ⟨108, [116], rfl, .inl rfl, by rintro x hx; obtain rfl := List.mem_singleton.1 hx; exact .inl rfl⟩ rfl .nil)))
/-- `&e;` stands for itself. -/
example : LooseValue env0 (fun n x => x = refTo n) 34 b!"&e;" b!"&e;" :=
  .entity (n := b!"e") (txt := b!"&e;") ⟨101, [], rfl, .inl rfl, by rintro x hx; cases hx⟩ rfl rfl .nil

/-! ### C49 -/

/-- the full claim about elements: delimited by tags of the same name. -/
def C49_statement : Prop := ∀ (E : Env) (H : Handler Unit) (fuel : Nat) (s s' : St Unit), 0 ∉ s.cur → parseElement E H fuel s = .ok () s' →
  ∃ t, Delimited E t ∧ s.cur = t ++ s'.cur

/-- remaining input after an element. -/
def elemRest (input : Bytes) : Option Bytes := okCur (parseElement env0 nullHandler 9 (initSt () Heap.empty input))

theorem elemRest_ok {input rest : Bytes} (h : elemRest input = some rest) :
    ∃ s0 s, s0.cur = input ∧ parseElement env0 nullHandler 9 s0 = .ok () s ∧ s.cur = rest := by
  obtain ⟨s, h1, h2⟩ := okCur_ok h
  exact ⟨initSt () Heap.empty input, s, rfl, h1, h2⟩

/-- **C49** fails: `<a>/>` is accepted. -/
theorem C49_refuted : ¬ C49_statement := by
  intro h
  obtain ⟨s0, s, hc, h1, h2⟩ := elemRest_ok (show elemRest b!"<a>/>" = some [] by decide +kernel)
  obtain ⟨t, ⟨n, a, ns, g1, g2, g3⟩, g4⟩ := h env0 nullHandler 9 s0 s (by rw [hc]; decide) h1
  rw [hc, h2] at g4
  have g4 : b!"<a>/>" = t := by simpa using g4
  rcases g3 with rfl | ⟨k, rfl⟩
  · have e : b!"<a>" = 60 :: (n ++ a) := List.append_cancel_right (show b!"<a>" ++ b!"/>" = 60 :: (n ++ a) ++ b!"/>" by rw [show b!"<a>" ++ b!"/>" = _ from g4]; simp)
    obtain ⟨c, u, rfl, _, hu⟩ := g1
    have e2 : [62] = u ++ a := by simpa using (List.cons.inj (List.cons.inj e).2).2
    cases u with
    | nil =>
      cases g2 with
      | nil hb => exact absurd (hb 62 (by have := e2; simp only [List.nil_append] at this; rw [← this]; simp)) (by unfold Ws; decide)
      | @attr ws t n wv r ns hw ha hr =>
        cases ws with
        | cons d ws =>
          have : 62 = d := by simpa using (List.cons.inj e2).1
          subst this
          exact absurd (hw 62 (by simp)) (by unfold Ws; decide)
        | nil =>
          obtain ⟨⟨d, m, rfl, hd, _⟩, w1, x, w2, v, rfl, _⟩ := ha
          have : 62 = d := by simpa using (List.cons.inj e2).1
          subst this
          have := nameChar_range env0 (Or.elim hd Or.inl (fun h => Or.inr (Or.inr (Or.inr (Or.inr h)))))
          omega
    | cons d u =>
      have : 62 = d := by simpa using (List.cons.inj e2).1
      subst this
      have := nameChar_range env0 (hu 62 (by simp))
      omega
  · have h60 := congrArg (List.count 60) g4
    simp [List.count_append] at h60

/-- **C49** with the liberty spelled out: an accepted element is an empty-element tag (or that with a stray `>` before `/>`), or its
content is followed by `</`, exactly the name of the start tag and `>`; and so for all elements inside it. Missing: see `C49_refuted`. -/
theorem C49_element_partial (E : Env) (H : Handler σ) (fuel : Nat) (s s' : St σ) (h0 : 0 ∉ s.cur) (hs : s.inSubset = 0) (h : parseElement E H fuel s = .ok () s') :
    ∃ t evs, Accepted E (fun n _ => Answered s'.trace n) true t evs ∧ s.cur = t ++ s'.cur ∧ s'.trace.map (·.1) = s.trace.map (·.1) ++ evs ∧ s'.nodes = s.nodes := by
  obtain ⟨t, evs, g1, g2⟩ := parseElementW_step (K := fun n _ => Answered s'.trace n) (parseContent_step fuel) (BL_content E fuel) h ⟨h0, .inl hs, .inr fun _ _ _ => id⟩ (fun n e hn _ _ => ⟨e, hn⟩)
  exact ⟨t, evs, g1, g2.cur, g2.trace, g2.nodes⟩

example : elemRest b!"<a><b c='d'/>x<e>&amp;</e></a>y" = some b!"y" := by decide +kernel
example : elemRest b!"<a><b></a></b>" = none := by decide +kernel

end

end Helium
