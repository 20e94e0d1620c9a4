import Verif.Props.ModelLang
import Verif.Props.AcceptDtd
/-! C74 for everything the parser accepts: the content models it reports allow nothing that was not declared. -/
namespace Helium
open Spec

/-- names as the parser reads them. -/
def ReadNames (E : Env) : Names := fun w p l => LooseName E w ∧ NameParts w p l

/-- one set of sequences is within another. -/
def Within (A B : Seqs) : Prop := ∀ w, A w → B w

/-- the sequences of two parts joined by an operator. -/
def opSeqs (t : Nat) (A B : Seqs) : Seqs := if t = 3 then fun s => ∃ u v, A u ∧ B v ∧ s = u ++ v else fun s => A s ∨ B s

/-- the sequences of a chain of operators that ends in `B`. -/
def chainSeqs (t : Nat) : List EC → Seqs → Seqs
  | [], B => B
  | e :: es, B => opSeqs t (Allowed e) (chainSeqs t es B)

theorem opSeqs_mono {t : Nat} {A A' B B' : Seqs} (ha : Within A A') (hb : Within B B') : Within (opSeqs t A B) (opSeqs t A' B') := by
  unfold opSeqs
  split
  · rintro w ⟨u, v, h1, h2, h3⟩; exact ⟨u, v, ha u h1, hb v h2, h3⟩
  · rintro w (h | h)
    · exact .inl (ha w h)
    · exact .inr (hb w h)

theorem chainSeqs_mono {t : Nat} : ∀ (es : List EC) {B B' : Seqs}, Within B B' → Within (chainSeqs t es B) (chainSeqs t es B')
  | [], _, _, h => h
  | _ :: es, _, _, h => opSeqs_mono (fun _ h => h) (chainSeqs_mono es h)

theorem chainSeqs_append (t : Nat) (e : EC) (B : Seqs) : ∀ es : List EC, chainSeqs t (es ++ [e]) B = chainSeqs t es (opSeqs t (Allowed e) B)
  | [] => rfl
  | x :: es => by rw [List.cons_append, chainSeqs, chainSeqs_append t e B es, chainSeqs]

theorem allowed_op {t : Nat} (ht : t = 3 ∨ t = 4) (a b : EC) : Allowed (.mk t 1 [] [] a b) = opSeqs t (Allowed a) (Allowed b) := by
  rcases ht with rfl | rfl
  · exact allowed_seq a b
  · exact allowed_choice a b

theorem allowed_chained {t : Nat} (ht : t = 3 ∨ t = 4) (last : EC) : ∀ es : List EC, Allowed (chained t es last) = chainSeqs t es (Allowed last)
  | [] => rfl
  | e :: es => by rw [chained, allowed_op ht, allowed_chained ht last es, chainSeqs]

theorem opType_cases (c : Nat) : opType c = 3 ∨ opType c = 4 := by unfold opType; split <;> simp

/-- after a lost member, what was there before it and a new operator. -/
theorem chainSeqs_lost {t : Nat} {A B : Seqs} (ht : t = 3 ∨ t = 4) : ∀ es : List EC, Within (opSeqs t (chainSeqs t es (fun _ => False)) B) (chainSeqs t es (opSeqs t A B))
  | [] => by
    rcases ht with rfl | rfl
    · rintro w ⟨u, v, h, _⟩; exact h.elim
    · rintro w (h | h)
      · exact (h : False).elim
      · exact .inr h
  | e :: es => by
    have ih := chainSeqs_lost (A := A) (B := B) ht es
    rcases ht with rfl | rfl
    · rintro w ⟨u, v, ⟨u1, u2, h1, h2, rfl⟩, hv, rfl⟩
      exact ⟨u1, u2 ++ v, h1, ih _ ⟨u2, v, h2, hv, rfl⟩, by rw [List.append_assoc]⟩
    · rintro w ((h | h) | h)
      · exact .inl h
      · exact .inr (ih w (.inl h))
      · exact .inr (ih w (.inr h))

theorem allowed_closedBy {o : Bool} {e : EC} {A : Seqs} (h : Within (Allowed e) A) : Within (Allowed (closedBy o e)) (Repeated (if o then 2 else 1) A) := by
  cases o with
  | false => exact h
  | true =>
    cases e with
    | nil => exact fun w hw => absurd hw id
    | mk t o n p a b =>
      intro w hw
      show w = [] ∨ A w
      by_cases ho : o = 4
      · subst ho
        have hw : Many (unmarked t n p a b) w := hw
        cases hw with
        | none => exact .inl rfl
        | more h1 h2 => exact .inr (h _ ⟨_, _, h1, h2, rfl⟩)
      · rw [show closedBy true (.mk t o n p a b) = .mk t 2 n p a b from by simp [closedBy, ho]] at hw
        rcases (show w = [] ∨ unmarked t n p a b w from hw) with h1 | h1
        · exact .inl h1
        · exact .inr (h _ (Repeated.one o h1))

/-- what a part of a content model stands for as XML reads it, and that its model allows no more. -/
def Meant (N : Names) : LK → List Nat → Prop
  | .member e, t => ∃ A, Written N .member t A ∧ Within (Allowed e) A
  | .first e, t => ∃ A, Written N .member t A ∧ Within (Allowed e) A
  | .others c es o, r => ∃ r0 m, r = r0 ++ 41 :: m ∧ OccMark (if o then 2 else 1) m ∧ ∀ x A w, Written N .member x A → Blank w →
      ∃ B, Written N (.others (c != 44)) (x ++ (w ++ r0)) B ∧
        ∀ pre last, Within (Allowed last) A → Within (Allowed (joined (opType c) pre last es)) (chainSeqs (opType c) pre B)

theorem looseModel_meant {E : Env} {k : LK} {t : List Nat} (h : LooseModel E k t) : Meant (ReadNames E) k t := by
  induction h with
  | name h1 h2 h3 => exact ⟨_, .name ⟨h1, h2⟩ h3, by rw [allowed_name]; exact fun _ h => h⟩
  | @group w1 e m w2 c es o r h1 _ h3 _ ih1 ih2 =>
    obtain ⟨A, a1, a2⟩ := ih1
    obtain ⟨r0, mk, rfl, b1, b2⟩ := ih2
    obtain ⟨B, c1, c2⟩ := b2 m A w2 a1 h3
    refine ⟨Repeated (if o then 2 else 1) B, ?_, allowed_closedBy (c2 [] e a2)⟩
    have := Written.paren h1 (.group c1) b1
    simpa using this
  | firstName _ _ ih => exact ih
  | firstLost _ _ ih =>
    obtain ⟨A, a1, _⟩ := ih
    exact ⟨A, a1, fun w hw => absurd hw id⟩
  | @close c =>
    refine ⟨[], [], rfl, .once, fun x A w h1 h2 => ⟨A, ?_, fun pre last hl => ?_⟩⟩
    · rw [List.append_nil]; exact .last h1 h2
    · rw [show joined (opType c) pre last [] = chained (opType c) pre last from by cases last <;> rfl, allowed_chained (opType_cases c)]
      exact chainSeqs_mono pre hl
  | @closeOpt c =>
    refine ⟨[], [63], rfl, .opt, fun x A w h1 h2 => ⟨A, ?_, fun pre last hl => ?_⟩⟩
    · rw [List.append_nil]; exact .last h1 h2
    · rw [show joined (opType c) pre last [] = chained (opType c) pre last from by cases last <;> rfl, allowed_chained (opType_cases c)]
      exact chainSeqs_mono pre hl
  | @more c w1 e m w2 es o r hc h1 _ h3 _ ih1 ih2 =>
    obtain ⟨Ae, a1, a2⟩ := ih1
    obtain ⟨r0, mk, rfl, b1, b2⟩ := ih2
    obtain ⟨B', c1, c2⟩ := b2 m Ae w2 a1 h3
    refine ⟨c :: (w1 ++ (m ++ (w2 ++ r0))), mk, by simp, b1, fun x A w hx hw => ⟨opSeqs (opType c) A B', ?_, fun pre last hl => ?_⟩⟩
    · rcases hc with rfl | rfl
      · exact .seq hx hw h1 c1
      · exact .choice hx hw h1 c1
    · cases last with
      | nil =>
        intro s hs
        have := c2 [chained (opType c) pre .nil] e a2 s hs
        rw [chainSeqs, allowed_chained (opType_cases c)] at this
        exact chainSeqs_lost (opType_cases c) pre s this
      | mk o1 o2 o3 o4 o5 o6 =>
        intro s hs
        have := c2 (pre ++ [.mk o1 o2 o3 o4 o5 o6]) e a2 s hs
        rw [chainSeqs_append] at this
        exact chainSeqs_mono pre (opSeqs_mono hl fun _ h => h) s this

theorem looseDefs_noElement {E : Env} {el : Bytes} {t : List Nat} {evs : List Ev} (h : LooseDefs E el t evs) (n : Bytes) (typ : Nat) (e : EC) : Ev.elementDecl n typ e ∉ evs := by
  have hl : ∀ {look : List Ev}, OnlyLookups look → Ev.elementDecl n typ e ∉ look := fun h hm => by
    obtain ⟨m, hm⟩ := h _ hm
    cases hm
  induction h with
  | last _ _ _ _ _ _ _ _ h1 => simp [hl h1]
  | more _ _ _ _ _ _ _ _ _ h1 _ ih => simp [hl h1, ih]

/-- declarations of element content in an internal subset. -/
theorem looseSubset_children {E : Env} {seen : Bool} {t : List Nat} {evs : List (Ev × HOut)} (h : LooseSubset E seen t evs) {n : Bytes} {e : EC}
    (hm : Ev.elementDecl n 4 e ∈ evs.map (·.1)) :
    ∃ d m A, d <:+: t ∧ LooseName E m ∧ n = encodeRunes m ∧ DeclaresBy (ReadNames E) m d A ∧ Within (Allowed e) A := by
  induction h with
  | nil => simp at hm
  | @space _ c r _ _ _ ih =>
    obtain ⟨d, m, A, g1, g2⟩ := ih hm
    exact ⟨d, m, A, g1.trans ⟨[c], [], by simp⟩, g2⟩
  | @decl _ t es r _ h1 _ ih =>
    rw [List.map_append, List.mem_append] at hm
    rcases hm with hm | hm
    · refine ⟨t, ?_⟩
      generalize es.map (·.1) = evs at h1 hm
      cases h1 with
      | @element w1 m w2 typ x w3 ec k1 k2 k3 k4 k5 k6 k7 =>
        simp only [List.mem_singleton, Ev.elementDecl.injEq] at hm
        obtain ⟨rfl, rfl, rfl⟩ := hm
        cases k6 with
        | children g1 g2 =>
          cases g1 with
          | name g3 _ _ =>
            obtain ⟨c, u, rfl, k, _⟩ := g3
            exact absurd (Option.some.inj g2) (fun (hc : c = 40) => by
              subst hc
              exact (ascii_notName E (by decide) (by decide) (by decide) : (40 : Nat) ≠ 0 ∧ ¬ NameChar E 40).2 (nameStart_nameChar k))
          | @group wa f mm wb c es o r f1 f2 f3 f4 =>
            obtain ⟨A, a1, a2⟩ := looseModel_meant f2
            obtain ⟨r0, mk, rfl, b1, b2⟩ := looseModel_meant f4
            obtain ⟨B, c1, c2⟩ := b2 mm A wb a1 f3
            exact ⟨m, Repeated (if o then 2 else 1) B, ⟨[], r, by simp⟩, k3, rfl,
              ⟨w1, w2, w3, wa, _, _, mk, B, k1, k2, k4, k5, k7, f1, .group c1, b1, rfl, by simp⟩, allowed_closedBy (c2 [] f a2)⟩
      | @entity p _ _ _ _ _ _ v => cases p <;> cases v <;> simp [entityReport, entityLookup] at hm
      | @valueless p => cases p <;> simp [entityLookup] at hm
      | attlist _ _ _ _ _ k => exact absurd hm (looseDefs_noElement k _ _ _)
      | comment k => cases k <;> simp at hm
      | pi k => cases k <;> simp at hm
    · obtain ⟨d, m, A, g1, g2⟩ := ih hm
      exact ⟨d, m, A, g1.trans ⟨t, [], by simp⟩, g2⟩
  | @pe _ nm r _ _ _ _ _ ih =>
    simp only [List.map_cons, List.mem_cons, reduceCtorEq, false_or] at hm
    obtain ⟨d, m, A, g1, g2⟩ := ih hm
    exact ⟨d, m, A, g1.trans ⟨37 :: (nm ++ [59]), [], by simp⟩, g2⟩

/-- C74 for all documents the parser accepts, whatever they declare (partial): the content model reported for a declaration of element content allows
only sequences the declaration allows as XML reads it, also where the parser loses a group or a mark. That it allows all of them is
`C74_text_partial`, for the declarations read without loss. -/
theorem C74_accepted_partial {σ : Type} (E : Env) (H : Handler σ) (usr : σ) (fuel snl : Nat) (input : Bytes) (doc : Option Nat) (heap : Heap)
    (trace : List (Ev × HOut)) (h : parserParse E H usr fuel snl input = .done doc none heap trace) (hd : ∃ n s u, Ev.internalSubset n s u ∈ trace.map (·.1)) :
    ∃ cs rest, rest <:+ input ∧ (PlainUtf8 input → ¬ b!"<?xml" <+: input → cs = .utf8 ∧ rest = input) ∧
      (0 ∉ E.decode cs rest → ∃ r e1 mid e2, trace.map (·.1) = e1 ++ (.internalSubset r [] [] :: (mid ++ (.externalSubset r [] [] :: e2))) ∧
        ∀ n e, Ev.elementDecl n 4 e ∈ mid → ∃ d m A, d <:+: E.decode cs rest ∧ LooseName E m ∧ n = encodeRunes m ∧ DeclaresBy (ReadNames E) m d A ∧
          ∀ w, Allowed e w → A w) := by
  obtain ⟨cs, rest, h1, h2, h3⟩ := C61_doctype_partial E H usr fuel snl input doc heap trace h hd
  refine ⟨cs, rest, h1, h2, fun h0 => ?_⟩
  obtain ⟨m, dt, m2, root, n, mid, e1, e2, er, g1, _, g3, _, _, g6⟩ := h3 h0
  refine ⟨encodeRunes n, [.setDocumentLocator, .startDocument] ++ e1, mid.map (·.1), e2 ++ er, by rw [g6]; simp, fun k e hk => ?_⟩
  cases g3 with
  | plain => simp at hk
  | @subset w1 w2 g t _ w3 _ _ _ _ hs _ =>
    obtain ⟨d, m', A, a1, a2⟩ := looseSubset_children hs hk
    refine ⟨d, m', A, a1.trans ?_, a2⟩
    rw [g1]
    exact ⟨m ++ (b!"<!DOCTYPE" ++ (w1 ++ (n ++ (w2 ++ (g ++ [91]))))), 93 :: (w3 ++ 62 :: (m2 ++ root)), by simp⟩

/-- the first group of `((b),c)` is lost: the model reported allows nothing at all. -/
theorem C74_lost_group : (parse env0 99 b!"<!DOCTYPE a [<!ELEMENT a ((b),c)>]><a/>").events.any (fun evs =>
    evs.contains (.elementDecl b!"a" 4 (.mk 3 1 [] [] .nil (nameModel [] b!"c" 1)))) = true ∧ ∀ w, ¬ Allowed (.mk 3 1 [] [] .nil (nameModel [] b!"c" 1)) w := by
  refine ⟨by decide +kernel, fun w h => ?_⟩
  rw [allowed_seq] at h
  obtain ⟨u, v, h, _⟩ := h
  exact h

/-- the hypotheses of `C74_accepted_partial` are met by a document with a declaration of element content. -/
example : ∃ doc heap trace, parse env0 99 b!"<!DOCTYPE a [<!ELEMENT a (b,(c|d)?,((e),f*))>]><a/>" = .done doc none heap trace ∧
    (∃ n s u, Ev.internalSubset n s u ∈ trace.map (·.1)) ∧ ∃ n e, Ev.elementDecl n 4 e ∈ trace.map (·.1) := by
  have h0 : (parse env0 99 b!"<!DOCTYPE a [<!ELEMENT a (b,(c|d)?,((e),f*))>]><a/>").events.any (fun evs => evs.contains (.internalSubset b!"a" [] []) &&
      evs.any fun ev => match ev with | .elementDecl _ 4 _ => true | _ => false) = true := by decide +kernel
  cases he : (parse env0 99 b!"<!DOCTYPE a [<!ELEMENT a (b,(c|d)?,((e),f*))>]><a/>").events with
  | none => rw [he] at h0; cases h0
  | some evs =>
    rw [he] at h0
    obtain ⟨d, hp, tr, h1, h2⟩ := ParseRes.good_of_events he
    simp only [Option.any_some, Bool.and_eq_true, List.any_eq_true] at h0
    obtain ⟨ha, ev, hb, hc⟩ := h0
    refine ⟨d, hp, tr, h1, ⟨_, _, _, by rw [h2]; simpa using ha⟩, ?_⟩
    split at hc
    · exact ⟨_, _, by rw [h2]; exact hb⟩
    · cases hc

end Helium
