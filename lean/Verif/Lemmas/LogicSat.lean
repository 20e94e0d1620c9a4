import Verif.Lemmas.LogicLex
/-! Every parsing function that makes callbacks respects every `Logic` that admits its events. -/
namespace Helium

/-- closes a goal `Sat L (f ..)` for a known `f`; extended below. -/
syntax "sat_leaf" : tactic
macro_rules | `(tactic| sat_leaf) => `(tactic| first
  | with_reducible assumption
  | with_reducible exact Silent.sat (by silent_leaf) _
  | with_reducible exact Sat.cb (by assumption)
  | ((with_reducible refine Sat.ask ?_); exact trivial))

macro "sat1" : tactic => `(tactic| first
  | sat_leaf
  | with_reducible refine Sat.bind ?_ (fun _ => ?_) | with_reducible refine Sat.wrap ?_
  | (with_reducible refine Silent.sat (Silent.attempt ?_) _; silent_leaf)
  | (with_reducible refine Silent.sat (Silent.orElse ?_) _; silent_leaf)
  | split
  | dsimp only)

macro "sat" : tactic => `(tactic| repeat sat1)

section
variable {kb : Bool} {σ : Type} {α β : Type} {H : Handler σ} {L : Logic kb H} (E : Env)

/-- not the declaration of an attribute. -/
def Ev.noAtt : Ev → Prop
  | .attributeDecl .. => False
  | _ => True

/-- the logic admits the events made from inside functions, other than declarations of attributes, and the places where the parser itself
changes the tree. -/
structure Admits (L : Logic kb H) : Prop where
  ev : ∀ ev : Ev, ev.inner → (kb = true → ∀ n, ev ≠ .reference n) → ev.dataOK → ev.noAtt → L.Q ev
  ref : ∀ n : Bytes, Sat L (Helium.cb H (.reference n) >>= fun _ => (M.panic : P σ ERef))
  dflt : ∀ (fuel : Nat) (a b c : Bytes), Sat L (addAttributeDefault fuel a b c)
  orig : ∀ (ev : Ev) (l : Bytes), ev.lookup → Sat L (do let cur ← Helium.ask H ev; setOrig cur l)
  ctx : ∀ b : Bytes, Sat L (ctxGetEntity b)

/-- a logic that says nothing about the tree admits all changes made by the parser. -/
theorem Admits.of {L : Logic false H} (h : ∀ ev : Ev, ev.inner → ev.dataOK → L.Q ev) : Admits L :=
  ⟨fun ev h1 _ h2 _ => h ev h1 h2, fun _ => Sat.bind (Sat.cb (h _ trivial trivial)) (fun _ => Silent.sat Silent.panic L), fun fuel a b c => Silent.sat (Silent.addAttributeDefault fuel a b c) L,
    fun _ l he => Sat.bind (Sat.ask he) (fun r => Silent.sat (Silent.setOrig r l) L), fun b => Silent.sat (Silent.ctxGetEntity b) L⟩

theorem Sat.cbi {ev : Ev} (hQ : Admits L) (h : ev.inner) (hr : kb = true → ∀ n, ev ≠ .reference n) (h' : ev.dataOK) (ha : ev.noAtt) :
    Sat L (Helium.cb H ev) := Sat.cb (hQ.ev _ h hr h' ha)
macro_rules | `(tactic| sat_leaf) => `(tactic| ((with_reducible refine Sat.cbi (by assumption) ?_ ?_ ?_ ?_) <;> first | exact trivial | (intro _ _ h; cases h)))

theorem Sat.ctxGetEntity (hQ : Admits L) (b : Bytes) : Sat L (ctxGetEntity b) := hQ.ctx b
macro_rules | `(tactic| sat_leaf) => `(tactic| with_reducible exact Sat.ctxGetEntity (by assumption) _)
theorem Sat.addAttributeDefault (hQ : Admits L) (fuel : Nat) (a b c : Bytes) : Sat L (addAttributeDefault fuel a b c) := hQ.dflt fuel a b c
macro_rules | `(tactic| sat_leaf) => `(tactic| with_reducible exact Sat.addAttributeDefault (by assumption) _ _ _ _)

theorem Sat.parseComment (hQ : Admits L) : Sat L (parseComment H) := by
  unfold Helium.parseComment; sat
macro_rules | `(tactic| sat_leaf) => `(tactic| with_reducible exact Sat.parseComment (by assumption))

theorem Sat.parsePI (hQ : Admits L) : Sat L (parsePI E H) := by
  unfold Helium.parsePI; sat
macro_rules | `(tactic| sat_leaf) => `(tactic| with_reducible exact Sat.parsePI _ (by assumption))

theorem Sat.parseEntityRef (hQ : Admits L) : Sat L (parseEntityRef E H) := by
  unfold Helium.parseEntityRef
  repeat first | with_reducible exact hQ.ref _ | sat1
macro_rules | `(tactic| sat_leaf) => `(tactic| with_reducible exact Sat.parseEntityRef _ (by assumption))

theorem Sat.attrValueLoop (hQ : Admits L) (q : Nat) (nz : Bool) (fuel : Nat) :
    ∀ b sp n, Sat L (attrValueLoop E H q nz fuel b sp n) := by
  induction fuel with
  | zero => intro b sp n; exact Silent.diverge.sat L
  | succ n ih =>
    intro b sp n
    unfold Helium.attrValueLoop
    repeat first | with_reducible exact ih _ _ _ | sat1
macro_rules | `(tactic| sat_leaf) => `(tactic| with_reducible exact Sat.attrValueLoop _ (by assumption) _ _ _ _ _ _)

theorem Sat.parseAttributeValueInternal (hQ : Admits L) (q : Nat) (nz : Bool) :
    Sat L (parseAttributeValueInternal E H q nz) := by
  unfold Helium.parseAttributeValueInternal; sat
macro_rules | `(tactic| sat_leaf) => `(tactic| with_reducible exact Sat.parseAttributeValueInternal _ (by assumption) _ _)

theorem Sat.parseAttributeValue (hQ : Admits L) (nz : Bool) :
    Sat L (parseAttributeValue E H nz) := by
  unfold Helium.parseAttributeValue
  refine Sat.bind (Silent.sat (Silent.peek E) L) (fun q => ?_)
  split
  · refine Sat.bind (Silent.sat (Silent.adv 1) L) (fun _ => ?_)
    have := Sat.rethrow (q := do if (← peek E) = q then adv 1 else Pure.pure ())
      (Sat.parseAttributeValueInternal E hQ q nz) (by
        intro s
        simp only [Bind.bind, M.bind, peek, peekN]
        split
        · exact ⟨_, rfl, List.drop_suffix _ _, rfl, rfl, rfl, rfl, rfl, rfl, rfl, fun _ => ⟨rfl, rfl⟩, Tabs0.refl _, rfl⟩
        · exact ⟨_, rfl, Quiet.refl s⟩)
    intro s
    have h2 := this s
    revert h2
    simp only [Bind.bind, M.bind, peek, peekN]
    generalize M.attempt (Helium.parseAttributeValueInternal E H q nz) s = o
    cases o with
    | ok a s' =>
      by_cases hc : s'.cur.getD (1 - 1) E.eof = q <;>
        simp only [hc, if_true, if_false, M.bind, adv, M.modify, Pure.pure, M.pure] <;> cases a <;> exact id
    | _ => exact id
  · exact Silent.sat (Silent.pure _) L
macro_rules | `(tactic| sat_leaf) => `(tactic| with_reducible exact Sat.parseAttributeValue _ (by assumption) _)

theorem Sat.parseAttribute (hQ : Admits L) (b : Bytes) :
    Sat L (parseAttribute E H b) := by
  unfold Helium.parseAttribute; sat
macro_rules | `(tactic| sat_leaf) => `(tactic| with_reducible exact Sat.parseAttribute _ (by assumption) _)

theorem cdScan_chars (eof : Nat) (l : List Nat) : ∀ r, cdScan eof false l = .ok r → (∀ c ∈ r, isChar c = true) ∧ r <+: l := by
  induction l with
  | nil =>
    intro r h
    simp only [cdScan] at h
    simp at h
    subst h
    exact ⟨by simp, List.nil_prefix⟩
  | cons c t ih =>
    intro r h
    unfold cdScan at h
    split at h
    · cases h; exact ⟨by simp, List.nil_prefix⟩
    · split at h
      · cases h; exact ⟨by simp, List.nil_prefix⟩
      · rename_i h0 h1
        split at h
        · simp at h
        · cases hc : cdScan eof false t with
          | ok r' =>
            rw [hc] at h
            cases h
            obtain ⟨i1, i2⟩ := ih r' hc
            refine ⟨?_, List.cons_prefix_cons.2 ⟨rfl, i2⟩⟩
            intro x hx
            rcases List.mem_cons.1 hx with rfl | hx
            · by_cases hx : isChar x = true
              · exact hx
              · exact absurd ⟨rfl, Or.inr (Or.inr (by simpa using hx))⟩ h1
            · exact i1 x hx
          | misplaced => rw [hc] at h; cases h
          | hang => rw [hc] at h; cases h

theorem Sat.parseCharData (hQ : Admits L) (b : Bool) : Sat L (parseCharData E H b) := by
  unfold Helium.parseCharData
  refine Sat.bind (Silent.sat Silent.rest L) (fun r => ?_)
  split
  · sat
  · sat
  · sat
  · rename_i l hne heq
    cases b with
    | true => simp only [if_true]; sat
    | false =>
      have hd : TextData (replaceCRLF (encodeRunes l)) :=
        ⟨l, by intro h; subst h; exact hne rfl, (cdScan_chars _ _ _ heq).1, rfl⟩
      have h2 : Sat L (Helium.cb H (.characters (replaceCRLF (encodeRunes l)))) := Sat.cbi hQ trivial (by intro _ _ h; cases h) (Or.inl hd) trivial
      by_cases hb : ∀ c ∈ decodeRunes (replaceCRLF (encodeRunes l)), isBlank c = true
      · have h1 : Sat L (Helium.cb H (.ignorable (replaceCRLF (encodeRunes l)))) := Sat.cbi hQ trivial (by intro _ _ h; cases h) ⟨hd, hb⟩ trivial
        sat
      · have hf : Helium.areBlanks E (replaceCRLF (encodeRunes l)) = (pure false : P σ Bool) := by
          unfold Helium.areBlanks
          rw [if_neg (by rw [List.all_eq_true]; exact hb)]
        simp only [hf]
        exact Sat.bind (Silent.sat (Silent.adv _) L) (fun _ => h2)
macro_rules | `(tactic| sat_leaf) => `(tactic| with_reducible exact Sat.parseCharData _ (by assumption) _)

theorem Sat.parseCDSect (hQ : Admits L) : Sat L (parseCDSect E H) := by
  unfold Helium.parseCDSect; sat
macro_rules | `(tactic| sat_leaf) => `(tactic| with_reducible exact Sat.parseCDSect _ (by assumption))

theorem Sat.parseMiscLoop (hQ : Admits L) (fuel : Nat) : Sat L (parseMiscLoop E H fuel) := by
  induction fuel with
  | zero => exact Silent.diverge.sat L
  | succ n ih => unfold Helium.parseMiscLoop; sat
macro_rules | `(tactic| sat_leaf) => `(tactic| with_reducible exact Sat.parseMiscLoop _ (by assumption) _)

theorem Sat.parseMisc (hQ : Admits L) : Sat L (parseMisc E H) := by
  unfold Helium.parseMisc; sat
macro_rules | `(tactic| sat_leaf) => `(tactic| with_reducible exact Sat.parseMisc _ (by assumption))

/-! ### DTD -/

theorem Sat.parsePEReference (hQ : Admits L) : Sat L (parsePEReference E H) := by
  unfold Helium.parsePEReference; sat
macro_rules | `(tactic| sat_leaf) => `(tactic| with_reducible exact Sat.parsePEReference _ (by assumption))

/-- every value returned has the property. -/
def Ret (V : α → Prop) (p : P σ α) : Prop := ∀ s a s', p s = .ok a s' → V a

theorem Ret.pure {V : α → Prop} {a : α} (h : V a) : Ret (σ := σ) V (Pure.pure a) := by
  intro s b s' hb
  cases hb
  exact h

theorem Ret.bindW {V : α → Prop} {W : β → Prop} {p : P σ α} {f : α → P σ β} (hp : Ret V p) (hf : ∀ a, V a → Ret W (f a)) : Ret W (p >>= f) := by
  intro s b s' hb
  cases hs : p s with
  | ok a t => rw [show (p >>= f) s = f a t from by show M.bind p f s = _; unfold M.bind; rw [hs]] at hb; exact hf a (hp _ _ _ hs) _ _ _ hb
  | err e t => rw [show (p >>= f) s = .err e t from by show M.bind p f s = _; unfold M.bind; rw [hs]] at hb; cases hb
  | panic => rw [show (p >>= f) s = .panic from by show M.bind p f s = _; unfold M.bind; rw [hs]] at hb; cases hb
  | diverge => rw [show (p >>= f) s = .diverge from by show M.bind p f s = _; unfold M.bind; rw [hs]] at hb; cases hb

theorem Ret.any (p : P σ α) : Ret (fun _ => True) p := fun _ _ _ _ => True.intro

theorem Ret.bind {W : β → Prop} {p : P σ α} {f : α → P σ β} (hf : ∀ a, Ret W (f a)) : Ret W (p >>= f) := (Ret.any p).bindW (fun a _ => hf a)

theorem Ret.wrap {V : α → Prop} {p : P σ α} (hp : Ret V p) : Ret V (M.wrap p) := by
  intro s a s' h
  unfold M.wrap at h
  cases hs : p s with
  | ok b t => rw [hs] at h; cases h; exact hp _ _ _ hs
  | err e t => rw [hs] at h; cases h
  | panic => rw [hs] at h; cases h
  | diverge => rw [hs] at h; cases h

theorem Ret.fails {V : α → Prop} {p : P σ α} (hp : ∀ s a s', p s ≠ .ok a s') : Ret V p := fun s a s' h => absurd h (hp s a s')

theorem Sat.bindR {V : α → Prop} {p : P σ α} {f : α → P σ β} (hp : Sat L p) (hr : Ret V p) (hf : ∀ a, V a → Sat L (f a)) : Sat L (p >>= f) := by
  intro s
  have h1 := hp s
  show post (M.bind p f s) _ _
  unfold M.bind
  cases hps : p s with
  | ok a s' =>
    rw [hps] at h1
    exact post_mono (hf a (hr _ _ _ hps) s') (fun _ h => L.trans h1 h) (fun _ _ h => L.transX h1 h)
  | err e s' => rw [hps] at h1; exact h1
  | panic => trivial
  | diverge => trivial

theorem ret_notationLoop : ∀ (fuel : Nat) (l : List Bytes), Ret (σ := σ) (fun x => x ≠ []) (notationLoop E fuel l)
  | 0, l => Ret.fails nofun
  | fuel + 1, l => by
    unfold notationLoop
    refine Ret.bind (fun _ => Ret.bind (fun _ => Ret.bind (fun _ => ?_)))
    split
    · exact Ret.bind (fun _ => Ret.bind (fun _ => ret_notationLoop fuel _))
    · exact Ret.pure (by simp)

theorem ret_enumLoop : ∀ (fuel : Nat) (l : List Bytes), Ret (σ := σ) (fun x => x ≠ []) (enumLoop E fuel l)
  | 0, l => Ret.fails nofun
  | fuel + 1, l => by
    unfold enumLoop
    refine Ret.bind (fun _ => Ret.bind (fun _ => Ret.bind (fun _ => ?_)))
    split
    · exact Ret.bind (fun _ => Ret.bind (fun _ => ret_enumLoop fuel _))
    · exact Ret.pure (by simp)

theorem ret_attributeType : Ret (σ := σ) (fun x => (1 ≤ x.1 ∧ x.1 ≤ 10) ∧ (x.2 = [] ↔ x.1 ≠ 9 ∧ x.1 ≠ 10)) (parseAttributeType E) := by
  unfold parseAttributeType
  repeat first
    | (refine Ret.bind (fun _ => ?_); split; (exact Ret.pure (by simp)))
  refine Ret.bind (fun _ => ?_)
  split
  · refine Ret.bind (fun _ => Ret.bindW (V := fun x => x ≠ []) (Ret.wrap ?_) (fun l hl => Ret.pure (by simp [hl])))
    unfold parseNotationType
    exact Ret.bind (fun _ => Ret.bind (fun _ => Ret.bind (fun _ => Ret.bind (fun _ => Ret.bind (fun _ => Ret.bindW (ret_notationLoop E _ _)
      (fun l hl => Ret.bind (fun _ => Ret.bind (fun _ => Ret.bind (fun _ => Ret.pure hl)))))))))
  · refine Ret.bindW (V := fun x => x ≠ []) (Ret.wrap ?_) (fun l hl => Ret.pure (by simp [hl]))
    unfold parseEnumerationType
    exact Ret.bind (fun _ => Ret.bind (fun _ => Ret.bind (fun _ => Ret.bind (fun _ => Ret.bind (fun _ => Ret.bindW (ret_enumLoop E _ _)
      (fun l hl => Ret.bind (fun _ => Ret.bind (fun _ => Ret.bind (fun _ => Ret.pure hl)))))))))

theorem ret_defaultDecl : Ret (fun x => (1 ≤ x.1 ∧ x.1 ≤ 4) ∧ (x.1 = 2 ∨ x.1 = 3 → x.2 = [])) (parseDefaultDecl E H) := by
  unfold parseDefaultDecl
  refine Ret.bind (fun _ => ?_)
  split
  · exact Ret.pure (by simp)
  · refine Ret.bind (fun _ => ?_)
    split
    · exact Ret.pure (by simp)
    · refine Ret.bindW (V := fun x => x = 4 ∨ x = 1) (Ret.bind (fun _ => ?_)) (fun x hx => Ret.bind (fun _ => Ret.pure ?_))
      · split
        · exact Ret.bind (fun _ => Ret.pure (.inl rfl))
        · exact Ret.pure (.inr rfl)
      · rcases hx with rfl | rfl <;> simp

theorem ret_elementContent : Ret (σ := σ) (fun x => x.2 = 3 ∨ x.2 = 4) (parseElementContentDecl E) := by
  unfold parseElementContentDecl
  refine Ret.bind (fun _ => Ret.bind (fun _ => Ret.bind (fun _ => Ret.bind (fun _ => Ret.bindW (V := fun x => x.2 = 3 ∨ x.2 = 4) (Ret.bind (fun _ => ?_))
    (fun x hx => Ret.bind (fun _ => Ret.pure hx))))))
  split
  · exact Ret.bind (fun _ => Ret.pure (by simp))
  · exact Ret.bind (fun _ => Ret.bind (fun _ => Ret.pure (by simp)))

theorem Sat.parseElementDecl (hQ : Admits L) : Sat L (parseElementDecl E H) := by
  have hcb : ∀ n t ec, t ≤ 4 → (t ≤ 2 → ec = EC.nil) → Sat L (Helium.cb H (.elementDecl n t ec)) := fun n t ec h1 h2 =>
    Sat.cbi hQ trivial (by intro _ _ h; cases h) ⟨h1, h2⟩ trivial
  have htail : ∀ (n : Bytes) (ct : EC × Nat), ct.2 ≤ 4 → (ct.2 ≤ 2 → ct.1 = EC.nil) → Sat L (do
      let _ ← skipBlanks
      M.need ((← peek E) == 62) .gtRequired
      adv 1
      Helium.cb H (.elementDecl n ct.2 ct.1)) := fun n ct h1 h2 => by
    have := hcb n ct.2 ct.1 h1 h2
    sat
  unfold Helium.parseElementDecl
  refine Sat.bind (by sat) (fun _ => ?_)
  split
  · refine Sat.bind (by sat) (fun _ => Sat.bind (by sat) (fun n => Sat.bind (by sat) (fun _ => Sat.bindR
      (V := fun ct => ct.2 ≤ 4 ∧ (ct.2 ≤ 2 → ct.1 = EC.nil)) (by sat) (Ret.bind (fun _ => ?_)) (fun ct h => htail n ct h.1 h.2))))
    split
    · exact Ret.pure (by simp)
    · refine Ret.bind (fun _ => ?_)
      split
      · exact Ret.pure (by simp)
      · refine Ret.bind (fun _ => ?_)
        split
        · intro s a s' h
          have h := (ret_elementContent E).wrap s a s' h
          omega
        · exact Ret.pure (by simp)
  · sat
macro_rules | `(tactic| sat_leaf) => `(tactic| with_reducible exact Sat.parseElementDecl _ (by assumption))

theorem Sat.parseEntityDecl (hQ : Admits L) : Sat L (parseEntityDecl E H) := by
  have hcb : ∀ n t (c : Bytes), ¬ (indexByte n 58).isSome = true → (t = 1 ∨ t = 4 ∨ t = 5) → Sat L (Helium.cb H (.entityDecl n t [] [] c)) := fun n t c h1 h2 =>
    Sat.cbi hQ trivial (by intro _ _ h; cases h) ⟨h2, rfl, rfl, fun hc => h1 (by
      unfold indexByte
      rw [List.findIdx?_isSome]
      exact List.any_eq_true.2 ⟨58, hc, rfl⟩)⟩ trivial
  have hx : Ret (σ := σ) (fun x => x = ([], [])) (M.orElse parseExternalID .valueRequired) := by
    intro s a s' h
    cases h
    rfl
  unfold Helium.parseEntityDecl
  repeat first
    | exact hcb _ _ _ (by assumption) (by split <;> simp)
    | exact hcb _ _ _ (by assumption) (by simp)
    | ((with_reducible refine Sat.bindR (p := M.orElse parseExternalID .valueRequired) (V := fun x => x = ([], [])) (by sat) hx (fun x hx => ?_)); subst hx)
    | ((with_reducible refine hQ.orig _ _ ?_); split <;> exact trivial)
    | sat1
macro_rules | `(tactic| sat_leaf) => `(tactic| with_reducible exact Sat.parseEntityDecl _ (by assumption))

theorem Sat.parseQuotedText {f : Nat → P σ α} (h : ∀ q, Sat L (f q)) : Sat L (parseQuotedText E f) := by
  unfold Helium.parseQuotedText
  repeat first | exact h _ | sat1

theorem Sat.parseDefaultDecl (hQ : Admits L) : Sat L (parseDefaultDecl E H) := by
  have := Sat.parseQuotedText E (fun q => Sat.parseAttributeValueInternal E hQ q false)
  unfold Helium.parseDefaultDecl; sat
macro_rules | `(tactic| sat_leaf) => `(tactic| with_reducible exact Sat.parseDefaultDecl _ (by assumption))

/-- a list of attribute declarations, where all that are well formed are admitted. -/
theorem Sat.attlistAll (hq : ∀ a b t d v es, (Ev.attributeDecl a b t d v es).dataOK → L.Q (.attributeDecl a b t d v es))
    (hd : ∀ fuel a b c, Sat L (Helium.addAttributeDefault fuel a b c)) (hv : Sat L (Helium.parseDefaultDecl E H)) (snl : Nat) (b : Bytes) (fuel : Nat) : Sat L (attlistLoop E H snl b fuel) := by
  induction fuel with
  | zero => exact Silent.diverge.sat L
  | succ n ih =>
    unfold Helium.attlistLoop
    refine Sat.bind (by sat) (fun _ => ?_)
    split
    · sat
    · refine Sat.bind (by sat) (fun attr => Sat.bind (by sat) (fun _ => Sat.bindR (by sat) (ret_attributeType E).wrap (fun te hte => Sat.bind (by sat) (fun _ =>
        Sat.bindR (by sat) (ret_defaultDecl E).wrap (fun dv hdv => Sat.bindR (V := fun v => dv.2 = [] → v = []) (by sat) ?_ (fun v hv => ?_))))))
      · split
        · intro s a s' h he
          rw [he] at h
          cases h
          rfl
        · exact Ret.pure id
      · have : Sat L (Helium.cb H (.attributeDecl b attr te.1 dv.1 v te.2)) :=
          Sat.cb (hq _ _ _ _ _ _ ⟨hte.1, hdv.1, hte.2, fun h => hv (hdv.2 h)⟩)
        repeat first | with_reducible exact hd _ _ _ _ | sat1

theorem Sat.attlistLoop (hQ : Admits L) (hq : ∀ a b t d v es, (Ev.attributeDecl a b t d v es).dataOK → L.Q (.attributeDecl a b t d v es)) (snl : Nat)
    (b : Bytes) (fuel : Nat) : Sat L (attlistLoop E H snl b fuel) := Sat.attlistAll E hq hQ.dflt (Sat.parseDefaultDecl E hQ) snl b fuel

section
variable (hA : ∀ (snl : Nat) (b : Bytes) (fuel : Nat), Sat L (Helium.attlistLoop E H snl b fuel))
include hA

theorem Sat.parseAttributeListDecl (snl : Nat) : Sat L (parseAttributeListDecl E H snl) := by
  unfold Helium.parseAttributeListDecl
  repeat first | with_reducible exact hA _ _ _ | sat1
macro_rules | `(tactic| sat_leaf) => `(tactic| with_reducible exact Sat.parseAttributeListDecl _ (by assumption) _)

theorem Sat.parseMarkupDecl (hQ : Admits L) (snl : Nat) : Sat L (parseMarkupDecl E H snl) := by
  unfold Helium.parseMarkupDecl; sat
macro_rules | `(tactic| sat_leaf) => `(tactic| with_reducible exact Sat.parseMarkupDecl _ (by assumption) (by assumption) _)

theorem Sat.internalSubsetLoop (hQ : Admits L) (snl : Nat) (fuel : Nat) : Sat L (internalSubsetLoop E H snl fuel) := by
  induction fuel with
  | zero => exact Silent.diverge.sat L
  | succ n ih => unfold Helium.internalSubsetLoop; sat
macro_rules | `(tactic| sat_leaf) => `(tactic| with_reducible exact Sat.internalSubsetLoop _ (by assumption) (by assumption) _ _)

theorem Sat.parseInternalSubset (hQ : Admits L) (snl : Nat) : Sat L (parseInternalSubset E H snl) := by
  unfold Helium.parseInternalSubset; sat
macro_rules | `(tactic| sat_leaf) => `(tactic| with_reducible exact Sat.parseInternalSubset _ (by assumption) (by assumption) _)

end

theorem Sat.parseDocTypeDecl (hQ : Admits L) (hS : ∀ n e u, L.Q (.internalSubset n e u) ∧ L.Q (.externalSubset n e u)) :
    Sat L (parseDocTypeDecl E H) := by
  have h1 := fun n e u => Sat.cb (hS n e u).1
  unfold Helium.parseDocTypeDecl
  repeat first | with_reducible exact h1 _ _ _ | sat1
macro_rules | `(tactic| sat_leaf) => `(tactic| with_reducible exact Sat.parseDocTypeDecl _ (by assumption) (by assumption))

theorem Sat.parseDoctypePart (hQ : Admits L) (hA : ∀ (snl : Nat) (b : Bytes) (fuel : Nat), Sat L (Helium.attlistLoop E H snl b fuel))
    (hS : ∀ n e u, L.Q (.internalSubset n e u) ∧ L.Q (.externalSubset n e u))
    (hm : ∀ s n, L.R s { s with inSubset := n }) (snl : Nat) :
    Sat L (parseDoctypePart E H snl) := by
  have h1 := fun n e u => Sat.cb (hS n e u).2
  unfold Helium.parseDoctypePart
  repeat first
    | with_reducible exact h1 _ _ _
    | (with_reducible refine Sat.modify ?_
       intro s
       first
        | exact hm s _
        | exact L.trans (hm s 0) (L.quiet ⟨List.suffix_refl _, rfl, rfl, rfl, rfl, rfl, rfl, rfl, fun _ => ⟨rfl, rfl⟩, Tabs0.refl _, rfl⟩))
    | sat1

theorem Sat.attrsLoop (hQ : Admits L) (hN : ∀ s n, L.R s { s with ns := n }) (b : Bytes) (fuel : Nat) : ∀ n l, Sat L (attrsLoop E H b fuel n l) := by
  induction fuel with
  | zero => intro n l; exact Silent.diverge.sat L
  | succ n ih =>
    intro n l
    unfold Helium.attrsLoop
    have h2 : ∀ f : St σ → List (Bytes × Bytes), Sat L (M.modify (fun s => { s with ns := f s }) : P σ Unit) :=
      fun f => Sat.modify (fun s => hN s _)
    repeat first | with_reducible exact ih _ _ | exact h2 _ | sat1
macro_rules | `(tactic| sat_leaf) => `(tactic| with_reducible exact Sat.attrsLoop _ (by assumption) (by assumption) _ _ _ _)

end
end Helium
