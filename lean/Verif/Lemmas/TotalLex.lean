import Verif.Lemmas.Total
import Verif.Lemmas.SourceContent
/-! Total correctness: references, attribute values, comments, processing instructions, character data. -/
namespace Helium
open Spec
section
variable {σ : Type} {S α β : Type} {E : Env} {H : Handler σ} {pn : Bool} {B : Nat} {F : HC σ → Prop} {G : Nat → HC σ → Prop}

theorem Tot.with {p : M S α} {s : S} {R R' : α → S → Prop} {X : S → Prop} (h : Tot pn (p s) R X) (h' : ∀ a t, p s = .ok a t → R' a t) :
    Tot pn (p s) (fun a t => R a t ∧ R' a t) X := by
  cases hp : p s with
  | ok a t => rw [hp] at h; exact ⟨h, h' a t hp⟩
  | err e t => rw [hp] at h; exact h
  | panic => rw [hp] at h; exact h
  | diverge => rw [hp] at h; exact h

theorem Tot.any {o : Out S α} {R : α → S → Prop} {X : S → Prop} (h : Tot pn o R X) : Tot pn o R (fun _ => True) := h.mono (fun _ _ h => h) (fun _ _ => trivial)

/-- a callback the handler answers, keeping its context sound. -/
theorem cb_tot {ev : Ev} {s : St σ} {Q : HC σ → Prop} (h : Tame pn (H s.view ev s.hc).1 ∧ (Spec.NoErr (H s.view ev s.hc).1 → Q (H s.view ev s.hc).2)) :
    Tot pn (cb H ev s) (fun _ s' => ∃ c t, s' = { s with hc := c, trace := t } ∧ Q c) (fun _ => True) := by
  unfold cb callback
  simp only [Bind.bind, M.bind]
  cases hr : (H s.view ev s.hc).1 with
  | ok => exact ⟨_, _, rfl, h.2 (Or.inl hr)⟩
  | ent e => exact ⟨_, _, rfl, h.2 (Or.inr (Or.inr ⟨e, hr⟩))⟩
  | unspecified => exact ⟨_, _, rfl, h.2 (Or.inr (Or.inl hr))⟩
  | err e => trivial
  | panic =>
    cases hp : pn with
    | true => rfl
    | false => exact absurd hr (h.1.2 hp)
  | diverge => exact absurd hr h.1.1

/-- such a callback that leaves the depth alone. -/
theorem cb_same {ev : Ev} {s : St σ} (h : Tame pn (H s.view ev s.hc).1 ∧ (Spec.NoErr (H s.view ev s.hc).1 → G s.nodes.length (H s.view ev s.hc).2)) :
    Tot pn (cb H ev s) (fun _ s' => Same G s s' ∧ s'.cur = s.cur) (fun _ => True) := by
  refine (cb_tot (Q := G s.nodes.length) h).mono (fun _ s' h => ?_) (fun _ h => h)
  obtain ⟨c, t, rfl, h⟩ := h
  exact ⟨⟨List.suffix_refl _, rfl, rfl, rfl, rfl, rfl, fun _ => h⟩, rfl⟩

/-! ### references -/

theorem peek_cons {s : St σ} {c : Nat} (h : s.cur.getD 0 E.eof = c) (hc : c ≠ 0 ∧ c ≠ 0xFFFD) : ∃ r, s.cur = c :: r := by
  cases hs : s.cur with
  | nil =>
    rw [hs, List.getD_nil] at h
    rcases E.eof_spec with he | he
    · exact absurd (h.symm.trans he) hc.1
    · exact absurd (h.symm.trans he) hc.2
  | cons x r => rw [hs] at h; exact ⟨r, by rw [← h]; rfl⟩

theorem resolve_all {n : List Nat} (h : n ∈ [b!"lt", b!"gt", b!"amp", b!"apos", b!"quot"]) : ∃ p, resolvePredef (encodeRunes n) = some p := by
  simp only [List.mem_cons, List.not_mem_nil, or_false] at h
  rcases h with rfl | rfl | rfl | rfl | rfl
  · exact ⟨_, rfl⟩
  · exact ⟨_, rfl⟩
  · exact ⟨_, rfl⟩
  · exact ⟨_, rfl⟩
  · exact ⟨_, rfl⟩

/-- a reference gives a predefined entity, or an error. -/
theorem parseEntityRef_tot (hH : Sturdy pn B H F G) (s : St σ) (hs : Good pn E G B s) :
    Tot pn (parseEntityRef E H s) (fun e s' => Same G s s' ∧ s'.cur.length + 1 ≤ s.cur.length ∧ ∃ p, e = .pre p) (fun _ => True) := by
  unfold parseEntityRef
  rw [peek_bind]
  by_cases h38 : s.cur.getD 0 E.eof = 38
  case neg =>
    rw [show (s.cur.getD 0 E.eof == 38) = false from by simpa using h38]
    trivial
  obtain ⟨r, hr⟩ := peek_cons h38 (by decide)
  rw [need_bind (by simpa using h38), adv_bind]
  have h1 : Same G s { s with cur := r } := Same.cut s (by rw [hr]; exact List.suffix_cons _ _)
  rw [show s.cur.drop 1 = r by rw [hr]; rfl]
  refine Tot.bind ((Still.parseName _ (hs.same h1)).orElse.any.with (fun v t h => parseName_sound E (orElse_ok.1 h))) ?_
  rintro v t ⟨⟨h2, h2l⟩, cur', rfl, c, a, q, e1, e2, e3, e4, -, e6, -⟩
  rw [peek_bind]
  by_cases h59 : cur'.getD 0 E.eof = 59
  case neg =>
    show Tot pn (((M.need (cur'.getD 0 E.eof == 59) .semicolonRequired : P σ Unit) >>= _) _) _ _
    rw [show (cur'.getD 0 E.eof == 59) = false from by simpa using h59]
    trivial
  obtain ⟨z, hz⟩ := peek_cons (s := { s with cur := cur' }) h59 (by decide)
  have hz : cur' = 59 :: z := hz
  rw [need_bind (by simpa using h59), adv_bind]
  subst hz
  have h3 : Same G s { s with cur := z } :=
    (h1.trans h2).trans (Same.cut _ (List.suffix_cons _ _))
  have h3l : z.length + 1 ≤ s.cur.length := by
    have := (h1.trans h2).cur.length_le
    simp only [List.length_cons] at this
    omega
  show Tot pn ((match resolvePredef v with | some p => _ | none => _ : P σ ERef) { s with cur := z }) _ _
  cases hp : resolvePredef v with
  | some p => exact ⟨h3, h3l, p, rfl⟩
  | none =>
    have hpn : pn = true := by
      cases hpn : pn with
      | true => rfl
      | false =>
        exfalso
        have e1 : r = c :: a ++ q := e1
        rcases e6 with e6 | ⟨e6, e7⟩
        · have h5 := hs.safe.entity hpn (c :: a) z (by
            rw [hr, e1, ← e6]; exact List.suffix_refl _) (by
            intro x hx
            rcases List.mem_cons.1 hx with rfl | hx
            · left; unfold NameChar; rcases e3 with h | h | h <;> simp [h]
            · exact Or.inl (e4 x hx))
          obtain ⟨p, h6⟩ := resolve_all (n := c :: a) (by
            rcases List.mem_cons.1 h5 with h | h
            · cases h
            · exact h)
          rw [e2, h6] at hp
          cases hp
        · obtain ⟨q', rfl⟩ : ∃ q', q = 0 :: q' := by
            cases q with
            | nil => cases e6
            | cons x q => simp only [List.head?_cons, Option.some.injEq] at e6; exact ⟨q, by rw [e6]⟩
          have e7 : 59 :: z = q' := e7
          have h5 := hs.safe.entity hpn (c :: a ++ [0]) z (by
            rw [hr, e1, ← e7]; simp) (by
            intro x hx
            rcases List.mem_append.1 hx with hx | hx
            · rcases List.mem_cons.1 hx with rfl | hx
              · left; unfold NameChar; rcases e3 with h | h | h <;> simp [h]
              · exact Or.inl (e4 x hx)
            · right; simpa using hx)
          have h6 : (0 : Nat) ∈ c :: a ++ [0] := by simp
          simp only [List.mem_cons, List.not_mem_nil, or_false] at h5
          rcases h5 with h | h | h | h | h | h <;> rw [h] at h6 <;> revert h6 <;> decide
    have hg := hs.same h3
    have h4 := hH.entity (v := ({ s with cur := z } : St σ).view) (b := v) hpn hg.sub hg.hc
    simp only
    unfold ask callback
    simp only [Bind.bind, M.bind]
    have h7 : ∀ (e : Err) (u : St σ), u.inSubset = 0 → G u.nodes.length u.hc → Tot pn ((do
      match (← ctxGetEntity v) with
      | none =>
        let s ← M.get
        if s.standalone = 1 ∨ (!s.hasExternalSubset && s.hasPERefs) then M.cerr .undeclaredEntity
        else
          if s.inSubset = 0 then cb H (.reference v) else pure ()
          M.panic
      | some e =>
        let s ← M.get
        let t := (s.hc.heap.at' e).entType
        if t = 3 then M.cerr .mUnparsed
        else if t = 5 then M.cerr .mParamEntity
        else pure (.ptr e) : P σ ERef) u) (fun e s' => Same G s s' ∧ s'.cur.length + 1 ≤ s.cur.length ∧ ∃ p, e = .pre p) (fun _ => True) := by
      intro e u hu0 hug
      have : (ctxGetEntity v : P σ _) u = .ok none u := by
        unfold ctxGetEntity
        rw [get_bind, if_pos hu0]
        rfl
      rw [bind_run this]
      simp only
      rw [get_bind]
      split
      · trivial
      · -- outside the subset
        refine Tot.bind (R := fun _ _ => True) ((cb_tot (Q := fun _ => True) ⟨⟨hH.reference hpn hu0 hug, fun hp => by rw [hpn] at hp; cases hp⟩, fun _ => trivial⟩).mono (fun _ _ _ => trivial) (fun _ h => h)) ?_
        intro _ _ _
        exact hpn
    rcases h4.1 with h5 | ⟨e, h5⟩
    · rw [h5]
      exact h7 (.k .handlerUnspecified) _ hg.sub h4.2
    · rw [h5]
      exact h7 e _ hg.sub h4.2

/-! ### attribute values -/

theorem legal_of_isChar {c : Nat} (h : isChar c = true) : Legal c := by
  refine ⟨isChar_xml h, ?_⟩
  rintro rfl
  revert h
  decide

theorem peekChar_cons {s : St σ} {c : Nat} (h : s.cur.getD 0 E.eof = c) (hc : isChar c = true) : ∃ r, s.cur = c :: r := by
  refine peek_cons h ⟨?_, ?_⟩ <;> rintro rfl <;> revert hc <;> decide

theorem reported_one_len (v : Nat) : ((if v = 38 then b!"&#38;" else encodeRune v) : Bytes).length ≤ 5 := by
  split
  · decide
  · have := (encodeRune_len v).1; omega

theorem pre_reported (p : Predef) : ∃ c, Legal c ∧ (if p.content = [38] then b!"&#38;" else p.content) = (if c = 38 then b!"&#38;" else encodeRune c) ∧
    c ≠ 32 := by
  cases p
  · exact ⟨60, by decide, by decide, by decide⟩
  · exact ⟨62, by decide, by decide, by decide⟩
  · exact ⟨38, by decide, by decide, by decide⟩
  · exact ⟨39, by decide, by decide, by decide⟩
  · exact ⟨34, by decide, by decide, by decide⟩

/-- what an attribute value loop has added to the buffer. -/
def Added (G : Nat → HC σ → Prop) (s : St σ) (b : Bytes) (x : Bytes × Nat × Bool) (s' : St σ) : Prop :=
  Same G s s' ∧ ∃ w, (∀ c ∈ w, Legal c) ∧ x.1 = b ++ reported w ∧ (reported w).length + 5 * s'.cur.length ≤ 5 * s.cur.length

theorem Added.step {s t s' : St σ} {b : Bytes} {c : Nat} {x : Bytes × Nat × Bool} (h1 : Same G s t) (hl : t.cur.length + 1 ≤ s.cur.length) (hc : Legal c)
    (h : Added G t (b ++ if c = 38 then b!"&#38;" else encodeRune c) x s') : Added G s b x s' := by
  obtain ⟨h2, w, h3, h4, h5⟩ := h
  refine ⟨h1.trans h2, c :: w, ?_, ?_, ?_⟩
  · intro d hd
    rcases List.mem_cons.1 hd with rfl | hd
    · exact hc
    · exact h3 d hd
  · rw [h4, reported_cons, List.append_assoc]
  · rw [reported_cons, List.length_append]
    have := reported_one_len c
    omega

theorem Added.skip {s t s' : St σ} {b : Bytes} {x : Bytes × Nat × Bool} (h1 : Same G s t) (hl : t.cur.length + 1 ≤ s.cur.length)
    (h : Added G t b x s') : Added G s b x s' := by
  obtain ⟨h2, w, h3, h4, h5⟩ := h
  exact ⟨h1.trans h2, w, h3, h4, by omega⟩

theorem Spec.NoSpaceRef.ref {s s' : St σ} {v : Nat} (hn : NoSpaceRef s.cur) (h : parseCharRef s = .ok v s') : v ≠ 32 := by
  obtain ⟨hex, ds, n, h1, h2, _, _, h5⟩ := C18_accepted_partial h
  rw [h2]
  rcases h5 with h5 | ⟨h5, _⟩
  · refine hn ds (59 :: s'.cur) n (Or.inr ⟨_, rfl⟩) ?_
    rw [h5]
    cases hex
    · exact Or.inl ⟨List.suffix_refl _, h1⟩
    · exact Or.inr ⟨List.suffix_refl _, h1⟩
  · refine hn ds [] n (Or.inl rfl) ?_
    rw [h5, List.append_nil]
    cases hex
    · exact Or.inl ⟨List.suffix_refl _, h1⟩
    · exact Or.inr ⟨List.suffix_refl _, h1⟩

/-- the buffer does not start with a space. -/
def Firm (b : Bytes) : Prop := b.head? ≠ some 32

theorem Firm.append {b c : Bytes} (h : Firm b) (hc : b ≠ [] ∨ Firm c) : Firm (b ++ c) := by
  cases b with
  | nil => rcases hc with hc | hc <;> first | exact absurd rfl hc | exact hc
  | cons x b => exact h

theorem one_firm {c : Nat} (h : c ≠ 32) : Firm (if c = 38 then b!"&#38;" else encodeRune c) := by
  split
  · unfold Firm; decide
  · intro he
    have h1 : (32 : Nat) ∈ encodeRune c := List.mem_of_mem_head? he
    exact h ((mem_encodeRune_ascii c 32 (by decide)).1 h1).symm

theorem one_ne {c : Nat} : (if c = 38 then b!"&#38;" else encodeRune c : Bytes) ≠ [] := by
  split
  · decide
  · exact encodeRune_ne_nil c

theorem attrValueLoop_tot (hH : Sturdy pn B H F G) (q : Nat) (nm : Bool) : ∀ (fuel : Nat) (s : St σ) (b : Bytes) (sp : Bool) (n : Nat), Good pn E G B s →
    s.cur.length < fuel → (nm = true → b = [] → sp = false) →
    Tot pn (attrValueLoop E H q nm fuel b sp n s) (fun x s' => Added G s b x s' ∧ (nm = true → x.1 = [] → x.2.2 = false) ∧
      (nm = true → NoSpaceRef s.cur → Firm b → Firm x.1)) (fun _ => True)
  | 0, s, _, _, _, _, h, _ => absurd h (Nat.not_lt_zero _)
  | fuel + 1, s, b, sp, n, hs, hf, hsp => by
    rw [attrValueLoop, peek_bind]
    split
    · exact ⟨⟨Same.refl s, [], by simp, by simp [reported], by simp [reported]⟩, hsp, fun _ _ h => h⟩
    · rename_i h1
      have hchar : isChar (s.cur.getD 0 E.eof) = true := by
        cases h : isChar (s.cur.getD 0 E.eof) with
        | true => rfl
        | false => exact absurd (Or.inr (Or.inl h)) h1
      obtain ⟨r, hr⟩ := peekChar_cons rfl hchar
      have h2 : Same G s { s with cur := r } := Same.cut s (by rw [hr]; exact List.suffix_cons _ _)
      have h2l : r.length + 1 ≤ s.cur.length := by
        have := congrArg List.length hr
        simp only [List.length_cons] at this
        omega
      have hd : s.cur.drop 1 = r := by rw [hr]; rfl
      split
      · rw [peekN_bind]
        split
        · refine Tot.bind ((Still.parseCharRef _ hs).wrap.any.with (fun v t h => (⟨parseCharRef_val (wrap_ok.1 h), fun hn => hn.ref (wrap_ok.1 h)⟩ :
            (isChar v = true ∧ v ≤ 0x10FFFF) ∧ (NoSpaceRef s.cur → v ≠ 32)))) ?_
          rintro v t ⟨⟨h3, h3l⟩, ⟨hv, -⟩, hns⟩
          refine (attrValueLoop_tot hH q nm fuel t _ _ _ (hs.same h3) (by omega) (fun _ _ => rfl)).mono (fun x s' h => ?_) (fun _ h => h)
          exact ⟨Added.step h3 (by omega) (legal_of_isChar hv) h.1, h.2.1, fun hm hn hb => h.2.2 hm (hn.mono h3.cur) (hb.append (Or.inr (one_firm (hns hn))))⟩
        · refine Tot.bind (parseEntityRef_tot hH s hs).wrap ?_
          rintro e t ⟨h3, h3l, p, rfl⟩
          rw [get_bind]
          obtain ⟨c, hc, he, hc32⟩ := pre_reported p
          show Tot pn (attrValueLoop E H q nm fuel (b ++ if p.content = [38] then b!"&#38;" else p.content) false (n + 1) t) _ _
          rw [he]
          refine (attrValueLoop_tot hH q nm fuel t _ _ _ (hs.same h3) (by omega) (fun _ _ => rfl)).mono (fun x s' h => ?_) (fun _ h => h)
          exact ⟨Added.step h3 h3l hc h.1, h.2.1, fun hm hn hb => h.2.2 hm (hn.mono h3.cur) (hb.append (Or.inr (one_firm hc32)))⟩
      · rename_i h38
        split
        · rw [adv_bind, hd]
          split
          · rename_i hbn
            refine (attrValueLoop_tot hH q nm fuel _ _ _ _ (hs.same h2) (by show r.length < fuel; omega) ?_).mono (fun x s' h => ?_) (fun _ h => h)
            · intro hm he
              rcases hbn with hbn | hbn
              · split at he
                · simp at he
                · exact absurd he hbn
              · rw [hm] at hbn; cases hbn
            · refine ⟨?_, h.2.1, fun hm hn hb => h.2.2 hm (hn.mono h2.cur) ?_⟩
              · have ha := h.1
                split at ha
                · exact Added.step (c := 32) h2 h2l (by decide) ha
                · exact Added.skip h2 h2l ha
              · rcases hbn with hbn | hbn
                · split
                  · exact hb.append (Or.inl hbn)
                  · exact hb
                · rw [hm] at hbn; cases hbn
          · rename_i hbn
            have hb0 : b = [] := Classical.byContradiction (fun h => hbn (Or.inl h))
            refine (attrValueLoop_tot hH q nm fuel _ _ _ _ (hs.same h2) (by show r.length < fuel; omega) hsp).mono (fun x s' h => ?_) (fun _ h => h)
            exact ⟨Added.skip h2 h2l h.1, h.2.1, fun hm hn hb => h.2.2 hm (hn.mono h2.cur) hb⟩
        · rename_i hws
          rw [adv_bind, hd]
          refine (attrValueLoop_tot hH q nm fuel _ _ _ _ (hs.same h2) (by show r.length < fuel; omega) (fun _ _ => rfl)).mono (fun x s' h => ?_) (fun _ h => h)
          have e0 : encodeRune (s.cur.getD 0 E.eof) = if s.cur.getD 0 E.eof = 38 then b!"&#38;" else encodeRune (s.cur.getD 0 E.eof) := by rw [if_neg h38]
          refine ⟨Added.step (c := s.cur.getD 0 E.eof) h2 h2l (legal_of_isChar hchar) ?_, h.2.1, fun hm hn hb => h.2.2 hm (hn.mono h2.cur) (hb.append (Or.inr ?_))⟩
          · rw [if_neg h38]
            exact h.1
          · rw [e0]
            exact one_firm (fun he => hws (Or.inl he))

/-- a value of an attribute as the parser reports it. -/
def GoodVal (B : Nat) (v : Bytes) : Prop := ∃ w, v = reported w ∧ (∀ c ∈ w, Legal c) ∧ (reported w).length + 1 < B

theorem reported_snoc (w : List Nat) (c : Nat) : reported (w ++ [c]) = reported w ++ if c = 38 then b!"&#38;" else encodeRune c := by
  induction w with
  | nil => rw [List.nil_append, reported_cons]; simp [reported]
  | cons x w ih => rw [List.cons_append, reported_cons, reported_cons, ih, List.append_assoc]

theorem trimRight_space (x : Bytes) : trimRight (x ++ [32]) = trimRight x := by unfold trimRight; simp

theorem trimRight_reported (w : List Nat) : ∃ w', w' <+: w ∧ trimRight (reported w) = reported w' := by
  have key : ∀ u : List Nat, ∃ w', w' <+: u.reverse ∧ trimRight (reported u.reverse) = reported w' := by
    intro u
    induction u with
    | nil => exact ⟨[], List.prefix_refl _, rfl⟩
    | cons c u ih =>
      rw [List.reverse_cons, reported_snoc]
      by_cases h : c = 32
      · subst h
        obtain ⟨w', h1, h2⟩ := ih
        refine ⟨w', h1.trans (List.prefix_append _ _), ?_⟩
        rw [show (if (32 : Nat) = 38 then b!"&#38;" else encodeRune 32 : Bytes) = [32] from rfl, trimRight_space, h2]
      · refine ⟨u.reverse ++ [c], List.prefix_refl _, ?_⟩
        rw [reported_snoc]
        have hm : (32 : Nat) ∉ (if c = 38 then b!"&#38;" else encodeRune c : Bytes) := by
          split
          · decide
          · exact fun hc => h ((mem_encodeRune_ascii c 32 (by decide)).1 hc).symm
        generalize hx : (if c = 38 then b!"&#38;" else encodeRune c : Bytes) = x at hm
        have hx0 : x ≠ [] := by rw [← hx]; exact one_ne
        unfold trimRight
        rw [List.reverse_append]
        cases hr : x.reverse with
        | nil => exact absurd (List.reverse_eq_nil_iff.1 hr) hx0
        | cons y ys =>
          have hy : y ≠ 32 := by
            rintro rfl
            exact hm (List.mem_reverse.1 (by rw [hr]; simp))
          rw [List.cons_append, List.dropWhile_cons_of_neg (by simpa using hy), ← List.cons_append, ← hr, ← List.reverse_append, List.reverse_reverse]
  have := key w.reverse
  rwa [List.reverse_reverse] at this

theorem Firm.prefix {a b : Bytes} (h : Firm b) (hp : a <+: b) : Firm a := by
  obtain ⟨t, rfl⟩ := hp
  cases a with
  | nil => exact fun h => by cases h
  | cons x a => exact h

theorem trimRight_prefix (b : Bytes) : trimRight b <+: b := by
  obtain ⟨k, hk⟩ := trimRight_eq b
  exact ⟨_, hk.symm⟩

theorem parseAttributeValueInternal_tot (hH : Sturdy pn B H F G) (q : Nat) (nm : Bool) (s : St σ) (hs : Good pn E G B s) :
    Tot pn (parseAttributeValueInternal E H q nm s) (fun x s' => Same G s s' ∧ GoodVal B x.1 ∧ (nm = true → NoSpaceRef s.cur → Firm x.1)) (fun _ => True) := by
  unfold parseAttributeValueInternal
  rw [rest_bind]
  refine Tot.bind (attrValueLoop_tot hH q nm _ s [] false 0 hs (Nat.lt_succ_self _) (fun _ _ => rfl)) ?_
  rintro x t ⟨⟨h1, w, h2, h3, h4⟩, h5, h6⟩
  have h3 : x.1 = reported w := by simpa using h3
  have hl := hs.len
  have h6' : nm = true → NoSpaceRef s.cur → Firm x.1 := fun a b => h6 a b (fun h => by cases h)
  split
  · rename_i hc
    rw [if_neg (fun he => by have := h5 hc.2 he; rw [this] at hc; cases hc.1)]
    obtain ⟨w', p1, p2⟩ := trimRight_reported w
    refine ⟨h1, ⟨w', by rw [← p2, ← h3], fun c hc => h2 c (p1.subset hc), ?_⟩, fun a b => (h6' a b).prefix (trimRight_prefix _)⟩
    have := (trimRight_prefix (reported w)).length_le
    rw [p2] at this
    omega
  · exact ⟨h1, ⟨w, h3, h2, by omega⟩, h6'⟩

theorem parseAttributeValue_tot (hH : Sturdy pn B H F G) (nm : Bool) (s : St σ) (hs : Good pn E G B s) :
    Tot pn (parseAttributeValue E H nm s) (fun x s' => Same G s s' ∧ GoodVal B x.1 ∧ (nm = true → NoSpaceRef s.cur → Firm x.1)) (fun _ => True) := by
  unfold parseAttributeValue
  rw [peek_bind]
  split
  · rw [adv_bind]
    have h1 : Same G s { s with cur := s.cur.drop 1 } := Same.cut s (List.drop_suffix _ _)
    have h2 := parseAttributeValueInternal_tot hH (s.cur.getD 0 E.eof) nm _ (hs.same h1)
    simp only [Bind.bind, M.bind, M.attempt]
    cases hp : parseAttributeValueInternal E H (s.cur.getD 0 E.eof) nm { s with cur := s.cur.drop 1 } with
    | diverge => rw [hp] at h2; exact h2
    | panic => rw [hp] at h2; exact h2
    | err e t =>
      simp only [peek, peekN]
      split <;> trivial
    | ok x t =>
      rw [hp] at h2
      simp only [peek, peekN]
      have h3 : Same G t { t with cur := t.cur.drop 1 } := Same.cut t (List.drop_suffix _ _)
      have h4 : nm = true → NoSpaceRef s.cur → Firm x.1 := fun a b => h2.2.2 a (b.mono (List.drop_suffix _ _))
      split
      · exact ⟨(h1.trans h2.1).trans h3, h2.2.1, h4⟩
      · exact ⟨h1.trans h2.1, h2.2.1, h4⟩
  · exact ⟨Same.refl s, ⟨[], rfl, by simp, by have := hs.len; show 0 + 1 < B; omega⟩, fun _ _ h => by cases h⟩

theorem attrNormalizeSpace_tot {v : Bytes} (s : St σ) (hv : GoodVal B v) (hf : pn = true ∨ Firm v) :
    Tot pn ((attrNormalizeSpace v : P σ Bytes) s) (fun x s' => s' = s ∧ GoodVal B x) (fun _ => True) := by
  by_cases h : v = [] ∨ ∃ c ∈ v, c ≠ 32
  · rw [C43_normalize_partial v s h]
    obtain ⟨w, rfl, hw, hl⟩ := hv
    rw [reported_unwords]
    refine ⟨rfl, unwords (words [] w), rfl, ?_, ?_⟩
    · intro c hc
      rcases unwords_sub _ c hc with rfl | ⟨x, hx, hcx⟩
      · decide
      · exact hw c (words_sub w [] x hx c hcx |>.resolve_left (by simp))
    · rw [← reported_unwords]
      have := words_length (reported w) []
      simp only [List.length_nil] at this
      omega
  · have hn : v ≠ [] := fun he => h (Or.inl he)
    have ha : ∀ c ∈ v, c = 32 := fun c hc => Classical.byContradiction (fun hx => h (Or.inr ⟨c, hc, hx⟩))
    rw [C43_spaces_panic v s hn ha]
    rcases hf with hf | hf
    · exact hf
    · exfalso
      cases v with
      | nil => exact hn rfl
      | cons c v => exact hf (by rw [ha c (by simp)]; rfl)

theorem parseQName_xmlns (s s' : St σ) (h : parseQName E s = .ok (b!"xmlns", []) s') : ∃ u, s.cur = b!"xmlns" ++ u ∧ u.head? ≠ some 58 := by
  have key : ∀ {chr : Nat → Prop} {cur cur' : List Nat}, (∀ c, chr c → NameChar E c) → NameParsed (NameStartChar E) chr cur b!"xmlns" cur' →
      ∃ u, cur = b!"xmlns" ++ u ∧ (cur' = u ∨ u.head? = some 0) ∧ ∀ x, u.head? = some x → ¬ (chr x ∧ x ≠ 0) := by
    rintro chr cur cur' hchr ⟨c, a, r, e1, e2, e3, e4, -, e6, e7⟩
    have h1 : c :: a = b!"xmlns" := by
      refine encodeRunes_injective ?_ (by decide) (by rw [← e2]; rfl)
      intro x hx
      rcases List.mem_cons.1 hx with rfl | hx
      · rcases e3 with h | h | h
        · exact (E.letter_scalar _ h).1
        · subst h; decide
        · subst h; decide
      · rcases hchr x (e4 x hx) with h | h | h | h | h | h
        · exact (E.letter_scalar _ h).1
        · exact (E.digit_scalar _ h).1
        all_goals subst h; decide
    refine ⟨r, by rw [e1, ← h1], ?_, e7⟩
    rcases e6 with h | h
    · exact Or.inl h
    · exact Or.inr h.1
  unfold parseQName at h
  obtain ⟨x, s1, h1, h⟩ := bind_ok.1 h
  rcases attempt_ok.1 h1 with ⟨v, rfl, k⟩ | ⟨e, rfl, k⟩
  · obtain ⟨cur1, rfl, hn⟩ := parseNCName_sound E k
    simp only at h
    rw [peek_bind] at h
    split at h
    · rename_i h58
      cases h
      obtain ⟨u, e1, e2, -⟩ := key (fun c hc => hc.1) hn
      refine ⟨u, e1, ?_⟩
      intro hu
      rcases e2 with rfl | e2
      · cases cur1 with
        | nil => cases hu
        | cons c r =>
          simp only [List.head?_cons, Option.some.injEq] at hu
          exact h58 (by subst hu; rfl)
      · rw [hu] at e2; cases e2
    · exfalso
      have hv : v ≠ [] := by
        obtain ⟨c, a, r, e1, e2, -⟩ := hn
        rw [e2]
        exact encodeRunes_ne (by simp)
      rw [adv_bind] at h
      obtain ⟨x, s2, h2, h⟩ := bind_ok.1 h
      cases x with
      | ok l => cases h; exact hv rfl
      | error e =>
        simp only at h
        obtain ⟨x, s3, h3, h⟩ := bind_ok.1 h
        cases x with
        | ok l => cases h; exact hv rfl
        | error e =>
          simp only at h
          obtain ⟨l, s4, h4, h⟩ := bind_ok.1 h
          cases h; exact hv rfl
  · simp only at h
    rw [peek_bind] at h
    split at h
    · rename_i h58
      obtain ⟨x, s2, h2, h⟩ := bind_ok.1 h
      cases x with
      | error e => cases h
      | ok v =>
        cases h
        exfalso
        -- a name that `parseName` reads but `parseNCName` does not is longer
        rcases attempt_ok.1 h2 with ⟨v, hv, k2⟩ | ⟨e, hv, -⟩
        · cases hv
          have hk : s1 = s ∧ ∀ c t, s.cur = c :: t → isNameStart E c = true → c ≠ 32 → c ≠ 62 → c ≠ 47 → 50000 < (nameScan (ncNameCh E) E.eof 2 t).2 := by
            unfold parseNCName at k
            rw [rest_bind] at k
            cases hc : s.cur with
            | nil => rw [hc] at k; cases k; exact ⟨rfl, by simp⟩
            | cons c t =>
              rw [hc] at k
              simp only at k
              split at k
              · rename_i hq
                cases k
                refine ⟨rfl, ?_⟩
                rintro c' t' ⟨⟩ h1 h2 h3 h4
                rcases hq with h | h | h | h
                · exact absurd h h2
                · exact absurd h h3
                · exact absurd h h4
                · rw [h1] at h; cases h
              · split at k
                · rename_i hl
                  cases k
                  exact ⟨rfl, by rintro c' t' ⟨⟩ _ _ _ _; exact hl⟩
                · cases k
          obtain ⟨rfl, hk⟩ := hk
          obtain ⟨cur1, -, hn⟩ := parseName_sound E k2
          obtain ⟨u, e1, -, e7⟩ := key (fun c hc => hc) hn
          have h3 := hk 120 (b!"mlns" ++ u) e1 (by unfold isNameStart; rw [E.letter_ascii 120 (by decide)]; decide) (by decide) (by decide) (by decide)
          have h4 := nameScan_le (ncNameCh E) E.eof (b!"mlns" ++ u) 2
          have h5 : (u.takeWhile (ncNameCh E)) = [] := by
            cases u with
            | nil => rfl
            | cons x u =>
              rw [List.takeWhile_cons, if_neg]
              intro hx
              refine e7 x rfl ⟨ncNameCh_name hx, ?_⟩
              rintro rfl
              unfold ncNameCh at hx
              rw [E.letter_ascii 0 (by decide), E.digit_ascii 0 (by decide)] at hx
              revert hx; decide
          have h6 : ((b!"mlns" ++ u).takeWhile (ncNameCh E)).length ≤ 4 + (u.takeWhile (ncNameCh E)).length := by
            rw [List.takeWhile_append]
            split
            · simp; omega
            · have := (List.takeWhile_prefix (ncNameCh E) (l := b!"mlns")).length_le
              simp only [List.length_cons, List.length_nil] at this
              omega
          rw [h5] at h6
          simp only [List.length_nil] at h6
          omega
        · cases hv
    · cases h

/-- an attribute with its value, a character read at least. -/
theorem parseAttribute_tot (hH : Sturdy pn B H F G) (el : Bytes) (s : St σ) (hs : Good pn E G B s) :
    Tot pn (parseAttribute E H el s) (fun x s' => (Same G s s' ∧ s'.cur.length + 1 ≤ s.cur.length) ∧ GoodVal B x.2.2 ∧
      (pn = false → ¬ (x.1 = b!"xmlns" ∧ x.2.1 = []))) (fun _ => True) := by
  rw [parseAttribute_eq]
  refine Tot.bind ((Still.parseQName s hs).wrap.any.with (fun q t h => (show pn = false → ¬ (q.1 = b!"xmlns" ∧ q.2 = []) from by
    rintro hpn ⟨h1, h2⟩
    obtain ⟨q1, q2⟩ := q
    simp only at h1 h2
    subst h1 h2
    obtain ⟨u, e1, e2⟩ := parseQName_xmlns s t (wrap_ok.1 h)
    exact e2 (hs.safe.xmlns hpn u (by rw [e1]; exact List.suffix_refl _))))) ?_
  rintro q t ⟨⟨h1, h1l⟩, hx⟩
  rw [get_bind]
  have hg := hs.same h1
  generalize hnm : tokOf t.attsSpecial el q.1 = nm
  refine Tot.bind (Still.skipBlanks t hg).any ?_
  rintro _ t1 ⟨h2, h2l⟩
  refine Tot.bind (Still.adv 1 t1 (hg.same h2)).any ?_
  rintro _ t2 ⟨h3, h3l⟩
  refine Tot.bind (Still.skipBlanks t2 ((hg.same h2).same h3)).any ?_
  rintro _ t3 ⟨h4, h4l⟩
  have hg3 := ((hg.same h2).same h3).same h4
  refine Tot.bind (parseAttributeValue_tot hH nm t3 hg3).wrap ?_
  rintro v t4 ⟨h5, h6, h7⟩
  have h8 : Same G s t4 ∧ t4.cur.length + 1 ≤ s.cur.length := ⟨(((h1.trans h2).trans h3).trans h4).trans h5, by
    have := h5.cur.length_le
    omega⟩
  split
  · rename_i hc
    have hf : pn = true ∨ Firm v.1 := by
      rcases hg3.special with h | h | h
      · exact Or.inl h
      · rw [h4.special, h3.special, h2.special] at h
        rw [h] at hnm
        rw [← hnm] at hc
        cases hc.1
      · exact Or.inr (h7 hc.1 h)
    refine Tot.bind (attrNormalizeSpace_tot t4 h6 hf) ?_
    rintro x _ ⟨rfl, hv⟩
    exact ⟨h8, hv, hx⟩
  · exact ⟨h8, h6, hx⟩

/-! ### comments, processing instructions, character data -/

variable (E H pn G B)

/-- the computation returns; if it succeeds it leaves alone what `Same` says and has read at least `k` characters. -/
def Settles (k : Nat) (p : P σ α) : Prop :=
  ∀ s, Good pn E G B s → Tot pn (p s) (fun _ s' => Same G s s' ∧ s'.cur.length + k ≤ s.cur.length) (fun _ => True)

variable {E H pn G B}

theorem Still.settles {k : Nat} {p : P σ α} (h : Still pn E G B k p) : Settles E pn B G k p := fun s hs => (h s hs).any

theorem Settles.weak {k j : Nat} {p : P σ α} (h : Settles E pn B G k p) (hj : j ≤ k) : Settles E pn B G j p := fun s hs =>
  (h s hs).mono (fun _ _ h => ⟨h.1, by have := h.2; omega⟩) (fun _ h => h)

theorem Settles.bind {k j : Nat} {p : P σ α} {f : α → P σ β} (h : Settles E pn B G k p) (hf : ∀ a, Settles E pn B G j (f a)) :
    Settles E pn B G (k + j) (p >>= f) := by
  intro s hs
  refine Tot.bind (h s hs) ?_
  intro a t ht
  exact (hf a t (hs.same ht.1)).mono (fun _ u hu => ⟨ht.1.trans hu.1, by have := ht.2; have := hu.2; omega⟩) (fun _ hu => hu)

theorem Settles.then {k : Nat} {p : P σ α} {f : α → P σ β} (h : Settles E pn B G 0 p) (hf : ∀ a, Settles E pn B G k (f a)) :
    Settles E pn B G k (p >>= f) := (Settles.bind h hf).weak (by omega)

theorem Settles.first {k : Nat} {p : P σ α} {f : α → P σ β} (h : Settles E pn B G k p) (hf : ∀ a, Settles E pn B G 0 (f a)) :
    Settles E pn B G k (p >>= f) := (Settles.bind h hf).weak (by omega)

theorem Settles.wrap {k : Nat} {p : P σ α} (h : Settles E pn B G k p) : Settles E pn B G k (M.wrap p) := fun s hs => (h s hs).wrap

theorem Settles.consumeIf {k j : Nat} {l : List Nat} {p q : P σ α} (hp : Settles E pn B G j p) (hq : Settles E pn B G k q) (hk : k ≤ l.length + j) :
    Settles E pn B G k (Helium.consume l >>= fun b => if b then p else q) := by
  intro s hs
  show Tot pn (M.bind (Helium.consume l) _ s) _ _
  unfold M.bind Helium.consume
  by_cases hl : l.isPrefixOf s.cur = true
  · rw [if_pos hl]
    have h1 : Same G s { s with cur := s.cur.drop l.length } := Same.cut s (List.drop_suffix _ _)
    have h2 := hp _ (hs.same h1)
    refine h2.mono (fun _ t h => ⟨h1.trans h.1, ?_⟩) (fun _ h => h)
    have h3 : l.length ≤ s.cur.length := (List.isPrefixOf_iff_prefix.1 hl).length_le
    have h4 := h.2
    simp only [List.length_drop] at h4
    omega
  · rw [if_neg hl]
    exact hq s hs

theorem Settles.cb {ev : Ev} (h : ∀ {n v c}, v.inSubset = 0 → G n c → Tame pn (H v ev c).1 ∧ (Spec.NoErr (H v ev c).1 → G n (H v ev c).2)) :
    Settles E pn B G 0 (cb H ev) := by
  intro s hs
  refine (cb_same (h (show s.view.inSubset = 0 from hs.sub) hs.hc)).mono (fun _ t h => ⟨h.1, by rw [h.2]; exact Nat.le_refl _⟩) (fun _ h => h)

theorem Settles.parseComment (hH : Sturdy pn B H F G) : Settles E pn B G 4 (parseComment H) := by
  unfold Helium.parseComment
  refine Settles.consumeIf (j := 0) ?_ (Still.cerr _).settles (by decide)
  refine Settles.then Still.rest.settles (fun r => ?_)
  split
  · refine Settles.then (Still.need _ _).settles (fun _ => Settles.then (Still.need _ _).settles (fun _ => ?_))
    split
    · exact (Still.cerr _).settles
    · exact Settles.then (Still.adv _).settles (fun _ => Settles.cb (hH.comment))
  · exact (Still.cerr _).settles

theorem Still.parsePITarget : Still pn E G B 0 (parsePITarget E : P σ Bytes) := by
  unfold Helium.parsePITarget
  refine Still.then (Still.wrap (Still.parseName.zero)) (fun n => ?_)
  still

theorem Settles.parsePI (hH : Sturdy pn B H F G) : Settles E pn B G 2 (parsePI E H) := by
  unfold Helium.parsePI
  refine Settles.consumeIf (j := 0) ?_ (Still.cerr _).settles (by decide)
  refine Settles.then (Still.wrap Still.parsePITarget).settles (fun n => ?_)
  refine Settles.consumeIf (j := 0) (Settles.cb hH.pi) ?_ (Nat.zero_le _)
  refine Settles.then Still.needBlanks.settles (fun _ => Settles.then Still.rest.settles (fun r => Settles.then (Still.adv _).settles (fun _ => ?_)))
  exact Settles.consumeIf (j := 0) (Settles.cb hH.pi) (Still.cerr _).settles (Nat.zero_le _)

theorem cdScan_le (eof : Nat) (cd : Bool) : ∀ (l m : List Nat), cdScan eof cd l = .ok m → m.length ≤ l.length
  | [], m, h => by unfold cdScan at h; split at h <;> cases h; simp
  | c :: t, m, h => by
    unfold cdScan at h
    split at h
    · cases h; simp
    · split at h
      · cases h; simp
      · split at h
        · split at h <;> cases h; simp
        · cases hr : cdScan eof cd t with
          | ok m' =>
            rw [hr] at h
            cases h
            have := cdScan_le eof cd t m' hr
            simp only [List.length_cons]
            omega
          | misplaced => rw [hr] at h; cases h
          | hang => rw [hr] at h; cases h

/-- scanning a CDATA section that ends does not hang. -/
theorem cdScan_ends {eof : Nat} {cd : Bool} : ∀ {l : List Nat}, cd = false ∨ eof = 0 ∨ 0 ∈ l ∨ b!"]]>" <:+: l → cdScan eof cd l ≠ .hang
  | [], h => by
    unfold cdScan
    rcases h with h | h | h | h
    · simp [h]
    · simp [h]
    · cases h
    · have := h.length_le; simp at this
  | c :: t, h => by
    unfold cdScan
    split
    · simp
    · rename_i hc
      split
      · simp
      · split
        · split <;> simp
        · rename_i h93
          have h1 : cdScan eof cd t ≠ .hang := by
            refine cdScan_ends ?_
            rcases h with h | h | h | h
            · exact Or.inl h
            · exact Or.inr (Or.inl h)
            · rcases List.mem_cons.1 h with h | h
              · exact absurd h.symm hc
              · exact Or.inr (Or.inr (Or.inl h))
            · right; right; right
              rcases List.infix_cons_iff.1 h with h | h
              · exfalso
                obtain ⟨r, hr⟩ := h
                cases hr
                exact h93 ⟨rfl, rfl, rfl⟩
              · exact h
          intro h2
          cases h3 : cdScan eof cd t with
          | hang => exact h1 h3
          | ok m => rw [h3] at h2; cases h2
          | misplaced => rw [h3] at h2; cases h2

theorem Still.areBlanks (b : Bytes) : Still pn E G B 0 (areBlanks E b : P σ Bool) := by
  unfold Helium.areBlanks; still

theorem parseCharData_tot (hH : Sturdy pn B H F G) (cd : Bool) (s : St σ) (hs : Good pn E G B s) (hn : s.nodes ≠ [])
    (hc : cd = false ∨ E.eof = 0 ∨ 0 ∈ s.cur ∨ b!"]]>" <:+: s.cur) :
    Tot pn (parseCharData E H cd s) (fun _ s' => Same G s s' ∧ s'.cur.length + 1 ≤ s.cur.length) (fun _ => True) := by
  unfold parseCharData
  rw [rest_bind]
  cases hsc : cdScan E.eof cd s.cur with
  | hang => exact absurd hsc (cdScan_ends hc)
  | misplaced => trivial
  | ok l =>
    cases l with
    | nil => trivial
    | cons x l =>
      simp only
      rw [adv_bind]
      have h1 : Same G s { s with cur := s.cur.drop (x :: l).length } := Same.cut s (List.drop_suffix _ _)
      have h1l : (s.cur.drop (x :: l).length).length + 1 ≤ s.cur.length := by
        have := cdScan_le _ _ _ _ hsc
        simp only [List.length_cons, List.length_drop] at this ⊢
        omega
      have hg := hs.same h1
      have fin : ∀ (ev : Ev) (u : St σ), Same G s u → u.cur.length + 1 ≤ s.cur.length →
          (∀ {n v c}, v.inSubset = 0 → G (n + 1) c → Tame pn (H v ev c).1 ∧ (Spec.NoErr (H v ev c).1 → G (n + 1) (H v ev c).2)) →
          Tot pn (cb H ev u) (fun _ s' => Same G s s' ∧ s'.cur.length + 1 ≤ s.cur.length) (fun _ => True) := by
        intro ev u hu hl hev
        have hgu := hs.same hu
        obtain ⟨n, hn'⟩ : ∃ n, u.nodes.length = n + 1 := by
          rw [hu.nodes]
          cases hsn : s.nodes with
          | nil => exact absurd hsn hn
          | cons a b => exact ⟨b.length, rfl⟩
        have hG := hgu.hc
        rw [hn'] at hG
        refine (cb_same (G := G) ?_).mono (fun _ t h => ⟨hu.trans h.1, by rw [h.2]; exact hl⟩) (fun _ h => h)
        rw [hn']
        exact hev hgu.sub hG
      split
      · exact fin _ _ h1 h1l hH.cdata
      · refine Tot.bind (Still.areBlanks _ _ hg).any ?_
        rintro b t ⟨h2, h2l⟩
        have hl : t.cur.length + 1 ≤ s.cur.length := by
          have := h2.cur.length_le
          have : ({ s with cur := s.cur.drop (x :: l).length } : St σ).cur.length = (s.cur.drop (x :: l).length).length := rfl
          omega
        split
        · exact fin _ _ (h1.trans h2) hl hH.blank
        · exact fin _ _ (h1.trans h2) hl hH.text

theorem parseCDSect_tot (hH : Sturdy pn B H F G) (s : St σ) (hs : Good pn E G B s) (hn : s.nodes ≠ []) :
    Tot pn (parseCDSect E H s) (fun _ s' => Same G s s' ∧ s'.cur.length + 1 ≤ s.cur.length) (fun _ => True) := by
  unfold parseCDSect
  simp only [Bind.bind, M.bind, consume]
  by_cases hl : (b!"<![CDATA[").isPrefixOf s.cur = true
  · rw [if_pos hl]
    obtain ⟨u, hu⟩ := List.isPrefixOf_iff_prefix.1 hl
    have e1 : s.cur.drop (b!"<![CDATA[").length = u := by rw [← hu]; rfl
    rw [e1]
    have h1 : Same G s { s with cur := u } := Same.cut s ⟨_, hu⟩
    have h2 := (parseCharData_tot hH true _ (hs.same h1) hn (Or.inr (hs.safe.cdata u (by rw [hu]; exact List.suffix_refl _)))).wrap
    refine (Tot.bind h2 (f := fun _ => (consume b!"]]>" >>= fun b => if b then pure () else M.cerr .cdataNotFinished : P σ Unit)) ?_)
    rintro _ t ⟨h3, h3l⟩
    have h4 : Settles E pn B G 0 (consume b!"]]>" >>= fun b => if b then pure () else M.cerr .cdataNotFinished : P σ Unit) :=
      Settles.consumeIf (j := 0) (Still.pure ()).settles (Still.cerr _).settles (Nat.zero_le _)
    refine (h4 t ((hs.same h1).same h3)).mono (fun _ v h => ⟨(h1.trans h3).trans h.1, ?_⟩) (fun _ h => h)
    have := h.2
    have := h1.cur.length_le
    omega
  · rw [if_neg hl]
    trivial

theorem parseMiscLoop_tot (hH : Sturdy pn B H F G) : ∀ (fuel : Nat) (s : St σ), Good pn E G B s → s.cur.length < fuel →
    Tot pn (parseMiscLoop E H fuel s) (fun _ s' => Same G s s') (fun _ => True)
  | 0, s, _, h => absurd h (Nat.not_lt_zero _)
  | fuel + 1, s, hs, hf => by
    have go : ∀ {k : Nat} {p : P σ Unit}, Settles E pn B G (k + 1) p →
        Tot pn ((p >>= fun _ => parseMiscLoop E H fuel) s) (fun _ s' => Same G s s') (fun _ => True) := by
      intro k p hp
      refine Tot.bind (hp s hs) ?_
      rintro _ t ⟨h1, h2⟩
      exact (parseMiscLoop_tot hH fuel t (hs.same h1) (by omega)).mono (fun _ _ h => h1.trans h) (fun _ h => h)
    rw [parseMiscLoop, isDone_bind]
    split
    · exact Same.refl s
    · rw [hasPrefix_bind]
      split
      · exact go (Settles.wrap (Settles.parsePI hH))
      · rw [hasPrefix_bind]
        split
        · exact go (Settles.wrap (Settles.parseComment hH))
        · rw [peek_bind]
          split
          · rename_i hb
            rw [skipBlanks_bind]
            have h1 : Same G s { s with cur := s.cur.dropWhile isBlank } := Same.cut s (List.dropWhile_suffix _)
            refine (parseMiscLoop_tot hH fuel _ (hs.same h1) ?_).mono (fun _ _ h => h1.trans h) (fun _ h => h)
            obtain ⟨r, hr⟩ : ∃ r, s.cur = s.cur.getD 0 E.eof :: r := peek_cons rfl ⟨(by rintro h; rw [h] at hb; cases hb), (by rintro h; rw [h] at hb; cases hb)⟩
            have h2 : s.cur.dropWhile isBlank = r.dropWhile isBlank := by
              conv => lhs; rw [hr]
              rw [List.dropWhile_cons, if_pos hb]
            have h3 := (List.dropWhile_suffix (l := r) isBlank).length_le
            have h4 := congrArg List.length hr
            simp only [List.length_cons] at h4
            show (s.cur.dropWhile isBlank).length < fuel
            rw [h2]
            omega
          · exact Same.refl s

theorem parseMisc_tot (hH : Sturdy pn B H F G) (s : St σ) (hs : Good pn E G B s) :
    Tot pn (parseMisc E H s) (fun _ s' => Same G s s') (fun _ => True) := by
  unfold parseMisc
  rw [rest_bind]
  exact parseMiscLoop_tot hH _ s hs (Nat.lt_succ_self _)

end
end Helium
