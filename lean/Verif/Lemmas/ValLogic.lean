import Verif.Lemmas.NsLogic
import Verif.Lemmas.Pieces

/-! Attribute values reported. -/

namespace Helium
open Spec
section
variable {σ : Type} (E : Env) {tb : Nat}

theorem isChar_legal {c : Nat} (h : isChar c = true) : Legal c := by
  refine ⟨isChar_xml h, ?_⟩
  rintro rfl
  exact absurd h (by decide)

/-- the values in an event: of attributes written in a start tag, or declared. -/
def Ev.holds : Ev → Bytes → Prop
  | .startElement _ _ _ _ as, v => ∃ q n, .parsed q n v ∈ as
  | .attributeDecl _ _ _ _ w _, v => v = w
  | _, _ => False

/-- events with values. -/
def Ev.valued : Ev → Prop
  | .startElement .. | .attributeDecl .. => True
  | _ => False

/-- the values in events. -/
def SoundTrace (tr : List (Ev × HOut)) : Prop := ∀ pre ev o suf, tr = pre ++ (ev, o) :: suf → ∀ v, Ev.holds ev v → Woven E pre v

variable {E} in
theorem SoundTrace.snoc {tr : List (Ev × HOut)} (h : SoundTrace E tr) {x : Ev × HOut} (hx : ∀ v, Ev.holds x.1 v → Woven E tr v) :
    SoundTrace E (tr ++ [x]) := by
  intro pre ev o suf heq
  rcases List.eq_nil_or_concat suf with rfl | ⟨suf', y, rfl⟩
  · obtain ⟨h1, h2⟩ := List.append_inj' heq rfl
    subst h1
    cases h2
    exact hx
  · have : tr ++ [x] = (pre ++ (ev, o) :: suf') ++ [y] := by
      rw [heq]; simp
    exact h pre ev o suf' (List.append_inj' this rfl).1

/-- events have been added. -/
def Ext (s s' : St σ) : Prop := ∃ mid, s'.trace = s.trace ++ mid

/-- what is kept by a step. -/
def ValStep (s s' : St σ) : Prop := EntOK s → Ext s s' ∧ EntOK s' ∧ (SoundTrace E s.trace → SoundTrace E s'.trace)

variable {E} in
theorem ValStep.trans {a b c : St σ} (h : ValStep E a b) (k : ValStep E b c) : ValStep E a c := by
  intro e
  obtain ⟨⟨m, h1⟩, h2, h3⟩ := h e
  obtain ⟨⟨m', h1'⟩, h2', h3'⟩ := k h2
  exact ⟨⟨m ++ m', by rw [h1', h1, List.append_assoc]⟩, h2', fun t => h3' (h3 t)⟩

variable {E} in
theorem ValStep.still {s s' : St σ} (ht : s'.trace = s.trace) (hh : Tabs (fun _ => False) s.hc.heap s'.hc.heap) : ValStep E s s' :=
  fun e => ⟨⟨[], by simp [ht]⟩, e.heap ht hh, fun t => by rw [ht]; exact t⟩

variable {E} in
theorem ValStep.event {s : St σ} {ev : Ev} (h : ∀ v, Ev.holds ev v → Woven E s.trace v) : ValStep E s (cbSt (treeBuilder tb) ev s) :=
  fun e => ⟨⟨_, rfl⟩, e.call ev, fun t => SoundTrace.snoc t h⟩

variable {E} in
theorem ValStep.call {s : St σ} {ev : Ev} (h : ¬ Ev.valued ev) : ValStep E s (cbSt (treeBuilder tb) ev s) :=
  .event (fun v hv => absurd (by cases ev <;> first | exact hv.elim | trivial) h)

/-- the logic. -/
def valL (E : Env) (tb : Nat) : Logic false (treeBuilder (σ := σ) tb) where
  R := ValStep E
  X s _ s' := ValStep E s s'
  Q ev := ¬ Ev.valued ev
  quiet q := .still q.trace q.tabs.toTabs
  trans := .trans
  transX := .trans
  xquiet h q := h.trans (.still q.trace q.tabs.toTabs)
  fail _ := .still rfl (Tabs.refl _ _)
  wrap h := h
  call hq _ := .call hq
  callX hq _ := .call hq
  look := by
    intro s ev h
    exact .call (by cases ev <;> first | exact id | exact h.elim)

theorem valL_ns (s : St σ) (n : List (Bytes × Bytes)) : (valL E tb).R s { s with ns := n } := .still rfl (Tabs.refl _ _)

theorem valL_admits : Admits (valL (σ := σ) E tb) :=
  have hq : ∀ ev : Ev, ev.inner → ev.noAtt → ¬ Ev.valued ev := fun ev h1 h2 => by
    cases ev <;> first | exact (h1 : False).elim | exact (h2 : False).elim | exact id
  ⟨fun ev h1 _ _ h2 => hq ev h1 h2,
    fun _ => Sat.bind (Sat.cb (hq _ trivial trivial)) (fun _ => Silent.sat Silent.panic _), fun fuel a b c => Silent.sat (Silent.addAttributeDefault fuel a b c) _,
    fun _ l he => Sat.bind (Sat.ask he) (fun r => Silent.sat (Silent.setOrig r l) _), fun b => Silent.sat (Silent.ctxGetEntity b) _⟩

/-- what holds of a result and the state after it. -/
def Yields (s : St σ) {α : Type} (V : St σ → α → Prop) (p : P σ α) : Prop := EntOK s → ∀ a s', p s = .ok a s' → V s' a

/-- the step that is made from one state. -/
def Guard (E : Env) (s : St σ) {α : Type} (p : P σ α) : Prop := EntOK s → post (p s) (ValStep E s) (fun _ t => ValStep E s t)

variable {E}

theorem Yields.pure {α : Type} {V : St σ → α → Prop} {a : α} {s : St σ} (h : V s a) : Yields s V (Pure.pure a) := by
  intro _ b s' hr
  cases hr
  exact h

theorem Yields.of_err {α : Type} {V : St σ → α → Prop} {p : P σ α} {s : St σ} (h : ∀ s a s', p s ≠ .ok a s') : Yields s V p :=
  fun _ a s' hr => absurd hr (h s a s')

theorem Yields.bind {α β : Type} {V : St σ → α → Prop} {W : St σ → β → Prop} {p : P σ α} {f : α → P σ β} {s : St σ} (hs : Sat (valL E tb) p)
    (hp : Yields s V p) (hf : ∀ a t, Ext s t → V t a → Yields t W (f a)) : Yields s W (p >>= f) := by
  intro e b s' hr
  obtain ⟨a, s1, h1, h2⟩ := bind_ok.1 hr
  have k1 := hs s
  rw [h1] at k1
  exact hf a s1 (k1 e).1 (hp e a s1 h1) (k1 e).2.1 b s' h2

theorem Yields.then {α β : Type} {W : St σ → β → Prop} {p : P σ α} {f : α → P σ β} {s : St σ} (hs : Sat (valL E tb) p)
    (hf : ∀ a t, Ext s t → Yields t W (f a)) : Yields s W (p >>= f) :=
  Yields.bind (V := fun _ _ => True) hs (fun _ _ _ _ => trivial) (fun a t h _ => hf a t h)

theorem Yields.wrap {α : Type} {V : St σ → α → Prop} {p : P σ α} {s : St σ} (h : Yields s V p) : Yields s V (M.wrap p) := by
  intro e a s' hr
  refine h e a s' ?_
  unfold M.wrap at hr
  cases hp : p s with
  | ok b t => rw [hp] at hr; exact hr
  | err x t => rw [hp] at hr; cases hr
  | panic => rw [hp] at hr; cases hr
  | diverge => rw [hp] at hr; cases hr

theorem Ext.woven {s t : St σ} (h : Ext s t) {v : Bytes} (hv : Woven E s.trace v) : Woven E t.trace v := by
  obtain ⟨m, hm⟩ := h
  rw [hm]
  exact hv.mono

/-- what a reference has been resolved to: a predefined entity, or one that has been declared. -/
def Resolved (E : Env) (s : St σ) : ERef → Prop
  | .pre _ => True
  | .ptr i => ∃ n, LooseName E n ∧ Declared s.trace (encodeRunes n) ∧ IsEnt (s.hc.heap.at' i) (encodeRunes n) ∧
    ∃ pre o, s.trace = pre ++ [(.getEntity (encodeRunes n), o)]

theorem docGetEntity_tab {h : Heap} {d x : Nat} {n : Bytes} (hx : docGetEntity h d n = some x) : ∃ i, mapGet (h.at' i).entities n = some x := by
  unfold docGetEntity at hx
  split at hx
  · exact ⟨_, hx⟩
  · split at hx
    · exact ⟨_, hx⟩
    · cases hx

theorem treeBuilder_found {fuel : Nat} {v : HV} {n : Bytes} {c : HC σ} {i : Nat} (h : (treeBuilder fuel v (.getEntity n) c).1 = .ent (some (.ptr i))) :
    ∃ j, mapGet (c.heap.at' j).entities n = some i := by
  unfold treeBuilder tbOut tbDoc at h
  cases hd : c.doc with
  | none => simp [Bind.bind, M.bind, M.get, M.deref, M.panic, hd] at h
  | some d =>
    simp only [Bind.bind, M.bind, M.get, M.deref, hd, Pure.pure, M.pure] at h
    cases hg : docGetEntity c.heap d n with
    | none => rw [hg] at h; simp [M.raw, M.fail] at h
    | some x =>
      rw [hg] at h
      injection h with h; injection h with h; injection h with h
      subst h
      exact docGetEntity_tab hg

theorem attrNormalizeSpace_same {b v : Bytes} {s s' : St σ} (h : (attrNormalizeSpace b : P σ Bytes) s = .ok v s') : s' = s := by
  unfold attrNormalizeSpace at h
  split at h
  · cases h; rfl
  · simp only at h
    cases hl : (collapseSp (b.dropWhile (· == 32))).getLast? with
    | none => rw [hl] at h; cases h
    | some c => rw [hl] at h; cases h; rfl

theorem ask_trace {H : Handler σ} {ev : Ev} {s s' : St σ} {r : Except Err (Option ERef)} (h : ask H ev s = .ok r s') :
    ∃ o, s'.trace = s.trace ++ [(ev, o)] := by
  unfold ask callback at h
  obtain ⟨o, t, h1, h⟩ := bind_ok.1 h
  simp only [Out.ok.injEq] at h1
  obtain ⟨rfl, rfl⟩ := h1
  have : s' = cbSt H ev s := by
    cases hr : (H s.view ev s.hc).1 <;> rw [hr] at h <;> simp only [Pure.pure, M.pure, M.panic, M.diverge, Out.ok.injEq, reduceCtorEq] at h
    all_goals (obtain ⟨-, rfl⟩ := h; simp [cbSt, hr])
  rw [this]
  exact ⟨_, rfl⟩

theorem parseEntityRef_found (s : St σ) : Yields s (Resolved E) (parseEntityRef E (treeBuilder tb)) := by
  intro e a s' h
  cases a with
  | pre p => trivial
  | ptr i =>
    unfold parseEntityRef at h
    have step : ∀ {α β : Type} {p : P σ α} {f : α → P σ β} {s : St σ} {b : β} {s' : St σ}, Sat (valL E tb) p → EntOK s → (p >>= f) s = .ok b s' →
        ∃ a t, EntOK t ∧ p s = .ok a t ∧ f a t = .ok b s' := by
      intro α β p f s b s' hs e h
      obtain ⟨a, t, h1, h2⟩ := bind_ok.1 h
      have k1 := hs s
      rw [h1] at k1
      exact ⟨a, t, (k1 e).2.1, h1, h2⟩
    obtain ⟨_, s1, e, _, h⟩ := step (Silent.sat (Silent.peek E) _) e h
    obtain ⟨_, s1, e, _, h⟩ := step (Silent.sat (Silent.need _ _) _) e h
    obtain ⟨_, s1, e, _, h⟩ := step (Silent.sat (Silent.adv _) _) e h
    obtain ⟨n, s2, e, hn, h⟩ := step (Silent.sat (Silent.orElse (Silent.parseName E)) _) e h
    have hname : ∃ m, LooseName E m ∧ n = encodeRunes m := by
      obtain ⟨_, _, c, a, r, _, h2, h3, h4, _⟩ := parseName_sound E (orElse_ok.1 hn)
      exact ⟨c :: a, ⟨c, a, rfl, h3, h4⟩, h2⟩
    obtain ⟨m, hm, rfl⟩ := hname
    obtain ⟨_, s1, e, _, h⟩ := step (Silent.sat (Silent.peek E) _) e h
    obtain ⟨_, s1, e, _, h⟩ := step (Silent.sat (Silent.need _ _) _) e h
    obtain ⟨_, s1, e, _, h⟩ := step (Silent.sat (Silent.adv _) _) e h
    cases hpd : resolvePredef (encodeRunes m) with
    | some p => rw [hpd] at h; cases h
    | none =>
      rw [hpd] at h
      obtain ⟨r, s2, h2, h⟩ := bind_ok.1 h
      have hask : Sat (valL (σ := σ) E tb) (ask (treeBuilder tb) (.getEntity (encodeRunes m))) := Sat.ask trivial
      have k2 := hask s1
      rw [h2] at k2
      have e2 := (k2 e).2.1
      cases r with
      | ok o =>
        cases o with
        | none => cases h
        | some x =>
          cases h
          have : ∃ j, mapGet (s1.hc.heap.at' j).entities (encodeRunes m) = some i ∧ s'.hc = (treeBuilder tb s1.view (.getEntity (encodeRunes m)) s1.hc).2 ∧
              ∃ o, s'.trace = s1.trace ++ [(.getEntity (encodeRunes m), o)] := by
            unfold ask callback at h2
            simp only [Bind.bind, M.bind] at h2
            cases hr : (treeBuilder tb s1.view (.getEntity (encodeRunes m)) s1.hc).1 <;>
              rw [hr] at h2 <;> simp only [Pure.pure, M.pure, M.panic, M.diverge, Out.ok.injEq, reduceCtorEq, false_and] at h2
            all_goals
              obtain ⟨h3, h4⟩ := h2
              injection h3 with h3
              first
                | (subst h3
                   obtain ⟨j, hj⟩ := treeBuilder_found hr
                   exact ⟨j, hj, by rw [← h4], _, by rw [← h4]⟩)
                | exact absurd h3 nofun
          obtain ⟨j, hj, h3, o, h4⟩ := this
          refine ⟨m, hm, by rw [h4]; exact declared_mono (e.tab j _ i hj), ?_, _, _, h4⟩
          rw [h3]
          exact ((treeBuilder_tabs tb s1.view (.getEntity (encodeRunes m)) s1.hc).ents.isEnt (e.kept j _ i hj).1 (e.kept j _ i hj).2).2
      | error x =>
        simp only at h
        obtain ⟨y, s3, h3, h⟩ := bind_ok.1 h
        have k3 : Quiet false s2 s3 := by
          have := (Silent.ctxGetEntity (encodeRunes m)) s2
          rw [h3] at this
          exact this
        cases y with
        | none =>
          simp only at h
          rw [get_bind] at h
          split at h
          · cases h
          · split at h
            · obtain ⟨_, _, _, h⟩ := bind_ok.1 h
              cases h
            · cases h
        | some y =>
          have hd : ∃ j, mapGet (s2.hc.heap.at' j).entities (encodeRunes m) = some y := by
            unfold ctxGetEntity at h3
            rw [get_bind] at h3
            split at h3
            · cases h3
            · obtain ⟨d, s4, h4, h3⟩ := bind_ok.1 h3
              have : s4 = s2 := by
                cases hd : s2.hc.doc with
                | none => rw [hd] at h4; cases h4
                | some d' => rw [hd] at h4; cases h4; rfl
              subst this
              cases hg : docGetEntity s4.hc.heap d (encodeRunes m) with
              | none =>
                rw [hg] at h3
                simp only at h3
                split at h3
                · obtain ⟨_, _, _, h3⟩ := bind_ok.1 h3
                  cases h3
                · cases h3
              | some z =>
                rw [hg] at h3
                cases h3
                exact docGetEntity_tab hg
          have : s' = s3 ∧ y = i := by
            simp only at h
            rw [get_bind] at h
            split at h
            · cases h
            · split at h
              · cases h
              · cases h; exact ⟨rfl, rfl⟩
          obtain ⟨rfl, rfl⟩ := this
          obtain ⟨j, hj⟩ := hd
          obtain ⟨o, ho⟩ := ask_trace h2
          refine ⟨m, hm, by rw [k3.trace]; exact e2.tab j _ y hj, ?_, s1.trace, o, by rw [k3.trace, ho]⟩
          exact (k3.tabs.toTabs.ents.isEnt (e2.kept j _ y hj).1 (e2.kept j _ y hj).2).2

variable (E)

theorem attrValueLoop_sound (q : Nat) (nz : Bool) (fuel : Nat) : ∀ b sp n (s : St σ), Woven E s.trace b →
    Yields s (fun t x => Woven E t.trace x.1) (attrValueLoop E (treeBuilder tb) q nz fuel b sp n) := by
  have hR : Sat (valL (σ := σ) E tb) (parseEntityRef E (treeBuilder tb)) := Sat.parseEntityRef E (valL_admits E)
  induction fuel with
  | zero => intro b sp n s _; exact Yields.of_err (fun s a s' h => by cases h)
  | succ fuel ih =>
    intro b sp n s hb e a s' h
    unfold attrValueLoop at h
    rw [peek_bind] at h
    generalize hc : s.cur.getD 0 E.eof = c at h
    split at h
    · cases h; exact hb
    · rename_i hn
      simp only [not_or] at hn
      have hleg : Legal c := isChar_legal (by simpa using hn.2.1)
      split at h
      · rename_i h38
        refine Yields.then (E := E) (tb := tb) (s := s) (W := fun t x => Woven E t.trace x.1) (Silent.sat (Silent.peekN E 2) _) ?_ e a s' h
        intro x t ht
        split
        · refine Yields.bind (E := E) (tb := tb) (V := fun _ r => Legal r) (Silent.sat (Silent.parseCharRef).wrap _) ?_ ?_
          · refine Yields.wrap (fun _ r s' hr => (isChar_legal (parseCharRef_val hr).1))
          · exact fun r t' ht' hr => ih _ _ _ t' ((ht'.woven (ht.woven hb)).chr hr)
        · refine Yields.bind (E := E) (tb := tb) (Sat.wrap hR) (Yields.wrap (parseEntityRef_found _)) ?_
          intro en t' ht' hen e a s' h
          have hb' := ht'.woven (ht.woven hb)
          rw [get_bind] at h
          refine ih _ _ _ t' ?_ e a s' h
          cases en with
          | ptr i =>
            obtain ⟨m, h1, h2, h3, -⟩ := hen
            have h6 : ¬ ERef.typ t'.hc.heap (.ptr i) = 6 := by
              unfold ERef.typ
              rcases h3.2.2 with h | h | h <;> simp only [h] <;> decide
            simp only [h6, if_false]
            have := hb'.snoc (p := .ref m) ⟨h1, h2⟩
            unfold Piece.text at this
            unfold ERef.name
            simp only [h3.2.1]
            exact this
          | pre p =>
            cases p
            · exact hb'.chr (c := 60) (by decide)
            · exact hb'.chr (c := 62) (by decide)
            · exact hb'.chr (c := 38) (by decide)
            · exact hb'.chr (c := 39) (by decide)
            · exact hb'.chr (c := 34) (by decide)
      · rename_i h38
        split at h
        · refine Yields.then (E := E) (tb := tb) (s := s) (W := fun t x => Woven E t.trace x.1) (Silent.sat (Silent.adv 1) _) ?_ e a s' h
          intro _ t ht
          have hb' := ht.woven hb
          split
          · refine ih _ _ _ t ?_
            split
            · exact hb'.chr (c := 32) (by decide)
            · exact hb'
          · exact ih _ _ _ t hb'
        · refine Yields.then (E := E) (tb := tb) (s := s) (W := fun t x => Woven E t.trace x.1) (Silent.sat (Silent.adv 1) _) (fun _ t ht => ih _ _ _ t ?_) e a s' h
          have := (ht.woven hb).chr hleg
          rwa [if_neg h38] at this

theorem parseAttributeValueInternal_sound (q : Nat) (nz : Bool) (s : St σ) :
    Yields s (fun t x => Woven E t.trace x.1) (parseAttributeValueInternal E (treeBuilder tb) q nz) := by
  unfold parseAttributeValueInternal
  refine Yields.then (E := E) (tb := tb) (Silent.sat Silent.rest _) (fun r t _ => ?_)
  refine Yields.bind (E := E) (tb := tb) (Sat.attrValueLoop E (valL_admits E) q nz _ _ _ _) (attrValueLoop_sound E q nz _ _ _ _ _ (Spec.Woven.nil E)) ?_
  intro x t' _ hx
  split
  · split
    · exact Yields.of_err (fun s a s' h => by cases h)
    · exact Yields.pure (hx.trim)
  · exact Yields.pure hx


/-! ### declarations of attributes -/

theorem parseQuotedText_sound {α : Type} {f : Nat → P σ α} {V : St σ → α → Prop} (hV : ∀ (s s' : St σ) a, Ext s s' → V s a → V s' a)
    (hf : ∀ q, Sat (valL (σ := σ) E tb) (f q)) (h : ∀ q s, Yields s V (f q)) (s : St σ) : Yields s V (parseQuotedText E f) := by
  unfold parseQuotedText
  refine Yields.then (E := E) (tb := tb) (Silent.sat (Silent.peek E) _) (fun q s _ => ?_)
  split
  · refine Yields.then (E := E) (tb := tb) (Silent.sat (Silent.adv 1) _) (fun _ s _ => ?_)
    refine Yields.bind (E := E) (tb := tb) (hf q) (h q s) (fun v s _ hv => ?_)
    refine Yields.then (E := E) (tb := tb) (Silent.sat (Silent.peek E) _) (fun c t ht => ?_)
    have hv := hV _ _ _ ht hv
    refine Yields.then (E := E) (tb := tb) (Silent.sat (Silent.needRaw _ _) _) (fun _ t ht => ?_)
    have hv := hV _ _ _ ht hv
    refine Yields.then (E := E) (tb := tb) (Silent.sat (Silent.adv 1) _) (fun _ t ht => ?_)
    exact Yields.pure (hV _ _ _ ht hv)
  · exact Yields.of_err (fun s a s' h => by cases h)

theorem parseDefaultDecl_sound (s : St σ) : Yields s (fun t x => Woven E t.trace x.2) (parseDefaultDecl E (treeBuilder tb)) := by
  have hq := parseQuotedText_sound (σ := σ) (tb := tb) E (f := fun q => parseAttributeValueInternal E (treeBuilder tb) q false) (V := fun t x => Woven E t.trace x.1)
    (fun s s' a h hv => h.woven hv) (fun q => Sat.parseAttributeValueInternal E (valL_admits E) q false) (fun q s => parseAttributeValueInternal_sound E q false s)
  have hs := Sat.parseQuotedText (L := valL (σ := σ) E tb) E (fun q => Sat.parseAttributeValueInternal E (valL_admits E) q false)
  unfold parseDefaultDecl
  refine Yields.then (E := E) (tb := tb) (Silent.sat (Silent.consume _) _) (fun c s _ => ?_)
  split
  · exact Yields.pure (Spec.Woven.nil E)
  refine Yields.then (E := E) (tb := tb) (Silent.sat (Silent.consume _) _) (fun c s _ => ?_)
  split
  · exact Yields.pure (Spec.Woven.nil E)
  refine Yields.then (E := E) (tb := tb) (by sat) (fun t s _ => ?_)
  exact Yields.bind (E := E) (tb := tb) (Sat.wrap hs) (Yields.wrap (hq _)) (fun v s _ hv => Yields.pure hv)

theorem Guard.of_sat {α : Type} {p : P σ α} (h : Sat (valL (σ := σ) E tb) p) (s : St σ) : Guard E s p := fun _ => h s

theorem Guard.sat {α : Type} {p : P σ α} (h : ∀ s, Guard E s p) : Sat (valL (σ := σ) E tb) p := by
  intro s
  by_cases e : EntOK s
  · exact h s e
  · cases hp : p s with
    | ok a t => exact fun e' => absurd e' e
    | err x t => exact fun e' => absurd e' e
    | panic => trivial
    | diverge => trivial

variable {E} in
theorem Guard.bind {α β : Type} {V : St σ → α → Prop} {p : P σ α} {f : α → P σ β} {s : St σ} (hp : Guard E s p) (hv : Yields s V p)
    (hf : ∀ a t, Ext s t → V t a → Guard E t (f a)) : Guard E s (p >>= f) := by
  intro e
  have k := hp e
  have v := hv e
  show post (M.bind p f s) _ _
  unfold M.bind
  cases hr : p s with
  | panic => trivial
  | diverge => trivial
  | err x t => rw [hr] at k; exact k
  | ok a t =>
    rw [hr] at k
    have k : ValStep E s t := k
    have h2 := hf a t (k e).1 (v a t hr) (k e).2.1
    simp only
    cases hr2 : f a t with
    | panic => trivial
    | diverge => trivial
    | err x u => rw [hr2] at h2; exact k.trans h2
    | ok b u => rw [hr2] at h2; exact k.trans h2

variable {E} in
theorem Guard.then {α β : Type} {p : P σ α} {f : α → P σ β} {s : St σ} (hp : Guard E s p) (hf : ∀ a t, Ext s t → Guard E t (f a)) :
    Guard E s (p >>= f) := Guard.bind (V := fun _ _ => True) hp (fun _ _ _ _ => trivial) (fun a t h _ => hf a t h)

theorem Guard.cb {ev : Ev} {s : St σ} (h : ∀ v, Ev.holds ev v → Woven E s.trace v) : Guard E s (Helium.cb (treeBuilder tb) ev) := by
  intro _
  have hstep := ValStep.event (tb := tb) h
  unfold cbSt at hstep
  simp only [Bind.bind, M.bind, Helium.cb, callback]
  cases hr : (treeBuilder tb s.view ev s.hc).1 <;> simp only [hr, Pure.pure, M.pure, M.fail, M.panic, M.diverge] at hstep ⊢
  case panic => trivial
  case diverge => trivial
  all_goals exact hstep

theorem valL_attlist (snl : Nat) (elem : Bytes) (fuel : Nat) :
    Sat (valL (σ := σ) E tb) (attlistLoop E (treeBuilder tb) snl elem fuel) := by
  induction fuel with
  | zero => exact Silent.diverge.sat _
  | succ fuel ih =>
    have hD : Sat (valL (σ := σ) E tb) (parseDefaultDecl E (treeBuilder tb)) := Sat.parseDefaultDecl E (valL_admits E)
    have hA : ∀ a b c d, Sat (valL (σ := σ) E tb) (addAttributeDefault a b c d) := fun a b c d => Silent.sat (Silent.addAttributeDefault a b c d) _
    refine Guard.sat E (fun s => ?_)
    unfold Helium.attlistLoop
    refine Guard.then (Guard.of_sat E (tb := tb) (by sat) _) (fun c s _ => ?_)
    split
    · exact Guard.of_sat E (tb := tb) (by sat) _
    refine Guard.then (Guard.of_sat E (tb := tb) (by sat) _) (fun attr s _ => ?_)
    refine Guard.then (Guard.of_sat E (tb := tb) (by sat) _) (fun _ s _ => ?_)
    refine Guard.then (Guard.of_sat E (tb := tb) (by sat) _) (fun te s _ => ?_)
    refine Guard.then (Guard.of_sat E (tb := tb) (by sat) _) (fun _ s _ => ?_)
    refine Guard.bind (Guard.of_sat E (tb := tb) (by sat) _) (Yields.wrap (parseDefaultDecl_sound E s)) (fun dv s _ hdv => ?_)
    refine Guard.bind (V := fun t v => Woven E t.trace v) (Guard.of_sat E (tb := tb) (by sat) _) ?_ (fun v s _ hv => ?_)
    · split
      · intro _ v t hr
        rw [attrNormalizeSpace_same hr]
        exact hdv.normal hr
      · exact Yields.pure hdv
    refine Guard.then (Guard.of_sat E (tb := tb) (by sat) _) (fun c s h1 => ?_)
    have key : ∀ s : St σ, Woven E s.trace v → Guard E s (do
        Helium.cb (treeBuilder tb) (.attributeDecl elem attr te.1 dv.1 v te.2)
        if v ≠ [] ∧ dv.1 ≠ 3 ∧ dv.1 ≠ 2 then addAttributeDefault snl elem attr v else pure ()
        M.modify (fun s => { s with attsSpecial := mapSet s.attsSpecial (specialKey elem attr) te.1 })
        if (← peek E) = 62 then adv 1
        else attlistLoop E (treeBuilder tb) snl elem fuel) := by
      intro s hv
      refine Guard.then (Guard.cb E (fun w hw => ?_)) (fun _ s _ => Guard.of_sat E (tb := tb) ?_ _)
      · have hw : w = v := hw
        rw [hw]; exact hv
      · repeat first | with_reducible exact hA _ _ _ _ | sat1
    dsimp only
    split
    · exact Guard.then (Guard.of_sat E (tb := tb) (Silent.sat (Silent.needBlanks E) _) _) (fun _ s h2 => key s (h2.woven (h1.woven hv)))
    · exact key s (h1.woven hv)

theorem parseAttributeValue_sound (nz : Bool) (s : St σ) : Yields s (fun t x => Woven E t.trace x.1) (parseAttributeValue E (treeBuilder tb) nz) := by
  have hQ := valL_admits (σ := σ) (tb := tb) E
  intro e a s' h
  unfold parseAttributeValue at h
  rw [peek_bind] at h
  split at h
  · rw [adv_bind] at h
    have e1 : EntOK { s with cur := s.cur.drop 1 } := e.heap rfl (Tabs.refl _ _)
    obtain ⟨v, s1, h1, h⟩ := bind_ok.1 h
    unfold M.attempt at h1
    have hv := parseAttributeValueInternal_sound (σ := σ) (tb := tb) E (s.cur.getD 0 E.eof) nz _ e1
    cases hp : parseAttributeValueInternal E (treeBuilder tb) (s.cur.getD 0 E.eof) nz { s with cur := s.cur.drop 1 } with
    | ok x t =>
      rw [hp] at h1
      cases h1
      have hv := hv x _ hp
      have : a = x ∧ s'.trace = s1.trace := by
        rw [peek_bind] at h
        split at h
        · rw [adv_bind] at h; cases h; exact ⟨rfl, rfl⟩
        · cases h; exact ⟨rfl, rfl⟩
      rw [this.1, this.2]
      exact hv
    | err x t =>
      rw [hp] at h1
      cases h1
      rw [peek_bind] at h
      split at h
      · rw [adv_bind] at h; cases h
      · cases h
    | panic => rw [hp] at h1; cases h1
    | diverge => rw [hp] at h1; cases h1
  · cases h; exact Spec.Woven.nil E

theorem parseAttribute_sound (loc : Bytes) (s : St σ) : Yields s (fun t x => Woven E t.trace x.2.2) (parseAttribute E (treeBuilder tb) loc) := by
  have hQ := valL_admits (σ := σ) (tb := tb) E
  unfold parseAttribute
  refine Yields.then (E := E) (tb := tb) (Silent.sat (Silent.parseQName E).wrap _) (fun q _ _ => ?_)
  refine Yields.then (E := E) (tb := tb) (Silent.sat Silent.get _) (fun st _ _ => ?_)
  refine Yields.then (E := E) (tb := tb) (Silent.sat Silent.skipBlanks _) (fun _ _ _ => ?_)
  refine Yields.then (E := E) (tb := tb) (Silent.sat (Silent.adv 1) _) (fun _ _ _ => ?_)
  refine Yields.then (E := E) (tb := tb) (Silent.sat Silent.skipBlanks _) (fun _ _ _ => ?_)
  refine Yields.bind (E := E) (tb := tb) (Sat.wrap (Sat.parseAttributeValue E hQ _)) (Yields.wrap (parseAttributeValue_sound E _ _)) (fun v s _ hv => ?_)
  intro e a s' h
  have fin : ∀ c : Prop, [Decidable c] → (if c then (do let v' ← attrNormalizeSpace v.1; pure (q.1, q.2, v')) else pure (q.1, q.2, v.1) : P σ _) s = .ok a s' →
      Woven E s'.trace a.2.2 := by
    intro c _ h
    split at h
    · obtain ⟨x, s1, h1, h⟩ := bind_ok.1 h
      cases h
      have := hv.normal h1
      have hs : s' = s := attrNormalizeSpace_same h1
      rw [hs]; exact this
    · cases h; exact hv
  exact fin _ h

theorem attrsLoop_sound (loc : Bytes) (fuel : Nat) : ∀ nb attrs (s : St σ), (∀ q n v, .parsed q n v ∈ attrs → Woven E s.trace v) →
    Yields s (fun t x => ∀ q n v, .parsed q n v ∈ x.2 → Woven E t.trace v) (attrsLoop E (treeBuilder tb) loc fuel nb attrs) := by
  have hQ := valL_admits (σ := σ) (tb := tb) E
  have hN := valL_ns (σ := σ) (tb := tb) E
  induction fuel with
  | zero => intro b n s _; exact Yields.of_err (fun s a s' h => by cases h)
  | succ fuel ih =>
    intro nb attrs s ha
    have hA : Sat (valL (σ := σ) E tb) (afterNs E : P σ Bool) := by unfold afterNs; sat
    have hM : ∀ f : St σ → List (Bytes × Bytes), Sat (valL (σ := σ) E tb) (M.modify (fun s => { s with ns := f s }) : P σ Unit) :=
      fun f => Sat.modify (fun s => hN s _)
    have up : ∀ {s t : St σ} {as : List AttrD}, Ext s t → (∀ q n v, .parsed q n v ∈ as → Woven E s.trace v) →
        ∀ q n v, .parsed q n v ∈ as → Woven E t.trace v := fun h k q n v hv => h.woven (k q n v hv)
    unfold attrsLoop
    refine Yields.then (E := E) (tb := tb) (Silent.sat Silent.skipBlanks _) (fun _ t ht => ?_)
    have ha := up ht ha
    refine Yields.then (E := E) (tb := tb) (Silent.sat (Silent.consume _) _) (fun c t ht => ?_)
    have ha := up ht ha
    split
    · exact Yields.pure ha
    refine Yields.then (E := E) (tb := tb) (Silent.sat (Silent.hasPrefix _) _) (fun c t ht => ?_)
    have ha := up ht ha
    split
    · exact Yields.pure ha
    refine Yields.bind (E := E) (tb := tb) (Sat.wrap (Sat.parseAttribute E hQ loc)) (Yields.wrap (parseAttribute_sound E loc _)) (fun x t ht hx => ?_)
    have ha := up ht ha
    have hadd : ∀ q n v, .parsed q n v ∈ attrs ++ [AttrD.parsed x.2.1 x.1 x.2.2] → Woven E t.trace v := by
      intro q n v h
      rcases List.mem_append.1 h with h | h
      · exact ha q n v h
      · rw [List.mem_singleton] at h; cases h; exact hx
    split
    · refine Yields.then (E := E) (tb := tb) (hM _) (fun _ t ht => ?_)
      refine Yields.then (E := E) (tb := tb) hA (fun b t' ht' => ?_)
      split
      · exact ih _ _ _ (up ht' (up ht hadd))
      · exact ih _ _ _ (up ht' (up ht ha))
    · split
      · refine Yields.then (E := E) (tb := tb) (Silent.sat Silent.get _) (fun st t ht => ?_)
        have ha := up ht ha
        split
        · exact Yields.of_err (fun s a s' h => by cases h)
        · exact Yields.then (E := E) (tb := tb) hA (fun _ t ht => ih _ _ _ (up ht ha))
        · refine Yields.then (E := E) (tb := tb) (hM _) (fun _ t ht => ?_)
          exact Yields.then (E := E) (tb := tb) hA (fun _ t' ht' => ih _ _ _ (up ht' (up ht ha)))
      · exact ih _ _ _ hadd

theorem valL_startTag : Sat (valL (σ := σ) E tb) (parseStartTag E (treeBuilder tb)) := by
  have hQ := valL_admits (σ := σ) (tb := tb) E
  have hN := valL_ns (σ := σ) (tb := tb) E
  unfold Helium.parseStartTag
  refine Sat.bind (Silent.sat (Silent.peek E) _) (fun _ => ?_)
  refine Sat.bind (Silent.sat (Silent.need _ _) _) (fun _ => ?_)
  refine Sat.bind (Silent.sat (Silent.adv _) _) (fun _ => ?_)
  refine Sat.bind (Silent.sat (Silent.orElse (Silent.parseQName E)) _) (fun q => ?_)
  refine Sat.bind (Silent.sat (Silent.need _ _) _) (fun _ => ?_)
  refine Sat.bind (Silent.sat Silent.rest _) (fun r => ?_)
  intro s
  have h1 := Sat.attrsLoop E hQ hN q.1 (r.length + 1) 0 [] s
  have h2 := attrsLoop_sound (σ := σ) (tb := tb) E q.1 (r.length + 1) 0 [] s (by simp)
  show post (M.bind _ _ s) _ _
  unfold M.bind
  cases hr : attrsLoop E (treeBuilder tb) q.1 (r.length + 1) 0 [] s with
  | panic => trivial
  | diverge => trivial
  | err e t => rw [hr] at h1; exact h1
  | ok na t =>
    rw [hr] at h1
    simp only
    rw [get_bind]
    split
    · exact h1
    · have h1 : ValStep E s t := h1
      by_cases e : EntOK s
      case neg =>
        simp only [Bind.bind, M.bind, Helium.cb, callback]
        cases hr : (treeBuilder tb t.view (.startElement q.1 q.2 (nsLookup t.ns q.2) (nsList t.ns na.1) (na.2 ++ defaultAttrs E t.attsDefault q.2 q.1)) t.hc).1 <;>
          simp only [Pure.pure, M.pure, M.fail, M.panic, M.diverge, M.modify]
        all_goals first | trivial | exact fun e' => absurd e' e
      have hstep : ValStep E s (cbSt (treeBuilder tb) (.startElement q.1 q.2 (nsLookup t.ns q.2) (nsList t.ns na.1) (na.2 ++ defaultAttrs E t.attsDefault q.2 q.1)) t) := by
        refine h1.trans (.event ?_)
        rintro v ⟨q, n, hm⟩
        have hs := h2 e na t hr
        rcases List.mem_append.1 hm with hm | hm
        · exact hs q n v hm
        · unfold defaultAttrs at hm
          dsimp only at hm
          split at hm
          · obtain ⟨_, _, h⟩ := List.mem_map.1 hm; cases h
          · cases hm
      generalize Ev.startElement q.1 q.2 (nsLookup t.ns q.2) (nsList t.ns na.1) (na.2 ++ defaultAttrs E t.attsDefault q.2 q.1) = ev at *
      unfold cbSt at hstep
      simp only [Bind.bind, M.bind, Helium.cb, callback]
      cases hr : (treeBuilder tb t.view ev t.hc).1 <;> simp only [hr, Pure.pure, M.pure, M.fail, M.panic, M.diverge, M.modify] at hstep ⊢
      case err e => exact hstep
      case panic => trivial
      case diverge => trivial
      all_goals exact hstep.trans (.still rfl (Tabs.refl _ _))

theorem valL_nodes (f : St σ → List EInfo) : Sat (valL (σ := σ) E tb) (M.modify (fun s => { s with nodes := f s }) : P σ Unit) :=
  Sat.modify (fun s => .still rfl (Tabs.refl _ _))

theorem valL_endTag : Sat (valL (σ := σ) E tb) (parseEndTag E (treeBuilder tb)) := by
  have hQ : Admits (valL (σ := σ) E tb) := valL_admits E
  have h1 : ∀ l p u, Sat (valL (σ := σ) E tb) (Helium.cb (treeBuilder tb) (.endElement l p u)) := fun l p u => Sat.cb (fun h => h)
  have h2 := valL_nodes (σ := σ) (tb := tb) E
  unfold Helium.parseEndTag
  repeat first | with_reducible exact h1 _ _ _ | exact h2 _ | sat1

theorem valL_frame : Frame (valL (σ := σ) E tb) (fun _ => True) := ⟨valL_admits E, fun _ _ => trivial, fun _ _ => trivial⟩

theorem valL_element {body : P σ Unit} (hb : SatI (valL (σ := σ) E tb) (fun _ => True) body) :
    SatI (valL (σ := σ) E tb) (fun _ => True) (parseElementW E (treeBuilder tb) body) := by
  unfold Helium.parseElementW
  refine SatI.bind (valL_frame E) (Sat.satI (Sat.wrap (valL_startTag E))) (fun _ => ?_)
  refine SatI.bind (valL_frame E) (Sat.satI (Silent.sat (Silent.hasPrefix _) _)) (fun c => ?_)
  have h2 : SatI (valL (σ := σ) E tb) (fun _ => True) (M.wrap (Helium.parseEndTag E (treeBuilder tb))) := Sat.satI (Sat.wrap (valL_endTag E))
  split
  · exact h2
  · exact SatI.bind (valL_frame E) (SatI.wrap hb) (fun _ => h2)

theorem valL_reference {body : P σ Unit} (hb : SatI (valL (σ := σ) E tb) (fun _ => True) body) :
    SatI (valL (σ := σ) E tb) (fun _ => True) (parseReference E (treeBuilder tb) body) := by
  refine SatI.parseReferenceG E (valL_frame E) (fun _ _ _ _ _ _ _ => id) (fun s i s' _ h c => post_seq ?_ (fun _ t =>
    Sat.bind (Silent.sat Silent.get _) (fun _ => Sat.cbRaw ((valL_admits E).ev (.reference _) trivial nofun trivial trivial)) t))
  have key : ∀ d h c fc lc t, Entered s'.hc.heap h fc lc → ValStep E (chunkSt s' d h c) t → ValStep E s' (chunkBack s' d fc lc t) := by
    intro d h c fc lc t ht hR
    have h1 : ValStep E s' (chunkSt s' d h c) := .still rfl ht.tabs.toTabs
    exact (h1.trans hR).trans (.still rfl (Tabs.upd _ t.hc.heap d (f := fun x => { x with first := fc, last := lc }) rfl ⟨id, fun h => ⟨h, rfl, rfl⟩⟩))
  exact post_parseChunk E (valL_frame E) hb c s' trivial (fun _ _ _ _ _ => trivial) key (fun d h c fc lc t e => key d h c fc lc t)

theorem valL_document (fuel snl : Nat) : Sat (valL (σ := σ) E tb) (parseDocument E (treeBuilder tb) fuel snl) := by
  rw [parseDocument_eq]
  refine Sat.bind (Sat.parseProlog E (valL_admits E) (valL_attlist E) id id (fun _ _ _ => ⟨id, id⟩) (fun s c => .still rfl (Tabs.refl _ _))
    (fun s n => .still rfl (Tabs.refl _ _)) snl) (fun _ => ?_)
  exact (SatI.parseTail E (valL_frame E) (fun _ h => valL_reference E h) (fun _ h => valL_element E h) id fuel).sat

theorem soundTrace_parse {usr : σ} {fuel snl : Nat} {input : Bytes} {d : Option Nat} {e : Option Err} {h : Heap} {t : List (Ev × HOut)}
    (hp : parserParse E (treeBuilder tb) usr fuel snl input = .done d e h t) : SoundTrace E t := by
  have := valL_document (σ := σ) (tb := tb) E fuel snl (initSt usr Heap.empty input)
  have h0 : SoundTrace E (initSt usr Heap.empty input).trace := fun pre _ _ _ h => (by cases pre <;> cases h)
  unfold parserParse at hp
  cases hr : parseDocument E (treeBuilder tb) fuel snl (initSt usr Heap.empty input) with
  | ok a s =>
    rw [hr] at hp this
    cases hp
    exact (this (entOK_init usr input)).2.2 h0
  | err e s =>
    rw [hr] at hp this
    cases hp
    exact (this (entOK_init usr input)).2.2 h0
  | panic => rw [hr] at hp; cases hp
  | diverge => rw [hr] at hp; cases hp

end
end Helium
