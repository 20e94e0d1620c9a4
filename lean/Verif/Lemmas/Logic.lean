import Verif.Model.Parser.Content
import Verif.Lemmas.Tabs
import Verif.Spec.Sax
/-!
A small program logic for the parser: relations between the state before and after a call that every parser function respects,
proved once per function for an arbitrary such relation.
-/
namespace Helium
section
variable {kb : Bool} {σ : Type}

/-- nothing observable happened: input consumed, private fields or the heap changed at most. -/
structure Quiet (kb : Bool) (s s' : St σ) : Prop where
  cur : s'.cur <:+ s.cur
  trace : s'.trace = s.trace
  nodes : s'.nodes = s.nodes
  depth : s'.depth = s.depth
  usr : s'.hc.usr = s.hc.usr
  doc : s'.hc.doc = s.hc.doc
  elem : s'.hc.elem = s.hc.elem
  inSubset : s'.inSubset = s.inSubset
  heap : kb = true → s'.hc.heap = s.hc.heap ∧ s'.attsDefault = s.attsDefault
  tabs : Tabs0 s.hc.heap s'.hc.heap
  ns : s'.ns = s.ns

theorem Quiet.refl (s : St σ) : Quiet kb s s := ⟨List.suffix_refl _, rfl, rfl, rfl, rfl, rfl, rfl, rfl, fun _ => ⟨rfl, rfl⟩, Tabs0.refl _, rfl⟩

theorem Quiet.trans {a b c : St σ} (h : Quiet kb a b) (k : Quiet kb b c) : Quiet kb a c :=
  ⟨k.cur.trans h.cur, k.trace.trans h.trace, k.nodes.trans h.nodes, k.depth.trans h.depth, k.usr.trans h.usr,
    k.doc.trans h.doc, k.elem.trans h.elem, k.inSubset.trans h.inSubset, fun e =>
      have k' := k.heap e
      have h' := h.heap e
      ⟨k'.1.trans h'.1, k'.2.trans h'.2⟩, h.tabs.trans k.tabs, k.ns.trans h.ns⟩

/-- errors the parser itself produces: at most one parse-error wrapper. -/
def GoodErr (e : Err) : Prop := ∀ e', e ≠ .parse (.parse e')

theorem goodErr_wrap {e : Err} (h : GoodErr e) : GoodErr (wrapErr e) := by
  intro e' he
  cases e with
  | parse x => exact h e' he
  | _ => cases he

/-- callbacks made from inside parsing functions, other than element and document start/end. -/
def Ev.inner : Ev → Prop
  | .startElement .. | .endElement .. | .setDocumentLocator | .startDocument | .endDocument => False
  | .getEntity _ | .getParameterEntity _ | .internalSubset .. | .externalSubset .. => False
  | _ => True

/-- entity lookups. -/
def Ev.lookup : Ev → Prop
  | .getEntity _ | .getParameterEntity _ => True
  | _ => False

/-- what a successful text scan delivers: a non-empty run of legal characters with CR LF replaced. -/
def TextData (d : Bytes) : Prop := ∃ l : List Nat, l ≠ [] ∧ (∀ c ∈ l, isChar c = true) ∧ d = replaceCRLF (encodeRunes l)

/-- data that can be delivered as characters from a reference: one legal character. -/
def CharData (d : Bytes) : Prop := ∃ c : Nat, isChar c = true ∧ c ≤ 0x10FFFF ∧ d = encodeRune c

/-- constraint on the data of text events and declarations. -/
def Ev.dataOK : Ev → Prop
  | .characters d => TextData d ∨ CharData d
  | .ignorable d => TextData d ∧ ∀ c ∈ decodeRunes d, isBlank c = true
  | ev => Spec.DeclOK ev

/-- state after a callback. -/
def cbSt (H : Handler σ) (ev : Ev) (s : St σ) : St σ :=
  let r := H s.view ev s.hc
  { s with hc := r.2, trace := s.trace ++ [(ev, r.1)] }

/-- result of a callback. -/
def cbRes (H : Handler σ) (ev : Ev) (s : St σ) : HOut := (H s.view ev s.hc).1

/-- a relation `R` for normal returns and `X` for error returns that is respected by quiet steps, sequencing, wrapping, and the
callbacks satisfying `Q`. -/
structure Logic (kb : Bool) (H : Handler σ) where
  R : St σ → St σ → Prop
  X : St σ → Err → St σ → Prop
  Q : Ev → Prop
  quiet : ∀ {s s'}, Quiet kb s s' → R s s'
  trans : ∀ {a b c}, R a b → R b c → R a c
  transX : ∀ {a b e c}, R a b → X b e c → X a e c
  xquiet : ∀ {a e b c}, X a e b → Quiet kb b c → X a e c
  fail : ∀ {s e}, GoodErr e → X s e s
  wrap : ∀ {s e s'}, X s e s' → X s (wrapErr e) s'
  call : ∀ {s ev}, Q ev → cbRes H ev s ∈ [HOut.ok, .unspecified] ∨ (∃ e, cbRes H ev s = .ent e) → R s (cbSt H ev s)
  callX : ∀ {s ev e}, Q ev → cbRes H ev s = .err e → X s e (cbSt H ev s)
  look : ∀ {s ev}, ev.lookup → R s (cbSt H ev s)

/-- what holds of an outcome: `R` of the final state of a normal return, `X` of an error return. -/
def post {S α : Type} (o : Out S α) (R : S → Prop) (X : Err → S → Prop) : Prop :=
  match o with
  | .ok _ s => R s
  | .err e s => X e s
  | _ => True

theorem post_mono {S α : Type} {o : Out S α} {R R' : S → Prop} {X X' : Err → S → Prop} (h : post o R X)
    (hR : ∀ s, R s → R' s) (hX : ∀ e s, X e s → X' e s) : post o R' X' := by
  cases o with
  | ok a s => exact hR _ h
  | err e s => exact hX _ _ h
  | panic => trivial
  | diverge => trivial

/-- `p` respects `L`. -/
def Sat {H : Handler σ} (L : Logic kb H) {α : Type} (p : P σ α) : Prop :=
  ∀ s, post (p s) (L.R s) (L.X s)

/-- `p` is silent. -/
def Silent (kb : Bool) {α : Type} (p : P σ α) : Prop :=
  ∀ s, post (p s) (Quiet kb s) (fun e s' => Quiet kb s s' ∧ GoodErr e)

variable {α β : Type} {H : Handler σ} {L : Logic kb H}

theorem Silent.sat {p : P σ α} (h : Silent kb p) (L : Logic kb H) : Sat L p := by
  intro s
  have := h s
  cases hp : p s with
  | ok a s' => rw [hp] at this; exact L.quiet this
  | err e s' => rw [hp] at this; exact L.xquiet (L.fail this.2) this.1
  | panic => trivial
  | diverge => trivial

theorem Sat.bind {p : P σ α} {f : α → P σ β} (hp : Sat L p) (hf : ∀ a, Sat L (f a)) : Sat L (p >>= f) := by
  intro s
  have h1 := hp s
  show post (M.bind p f s) _ _
  unfold M.bind
  cases hps : p s with
  | ok a s' =>
    rw [hps] at h1
    have h2 := hf a s'
    simp only
    cases hf' : f a s' with
    | ok b s'' => rw [hf'] at h2; exact L.trans h1 h2
    | err e s'' => rw [hf'] at h2; exact L.transX h1 h2
    | panic => trivial
    | diverge => trivial
  | err e s' => rw [hps] at h1; exact h1
  | panic => trivial
  | diverge => trivial

theorem Silent.bind {p : P σ α} {f : α → P σ β} (hp : Silent kb p) (hf : ∀ a, Silent kb (f a)) : Silent kb (p >>= f) := by
  intro s
  have h1 := hp s
  show post (M.bind p f s) _ _
  unfold M.bind
  cases hps : p s with
  | ok a s' =>
    rw [hps] at h1
    have h2 := hf a s'
    simp only
    cases hf' : f a s' with
    | ok b s'' => rw [hf'] at h2; exact h1.trans h2
    | err e s'' => rw [hf'] at h2; exact ⟨Quiet.trans h1 h2.1, h2.2⟩
    | panic => trivial
    | diverge => trivial
  | err e s' => rw [hps] at h1; exact h1
  | panic => trivial
  | diverge => trivial

theorem Silent.pure (a : α) : Silent kb (Pure.pure a : P σ α) := fun s => Quiet.refl s
theorem Silent.fail {e : Err} (h : GoodErr e) : Silent kb (M.fail e : P σ α) := fun s => ⟨Quiet.refl s, h⟩
theorem Silent.cerr (e : EK) : Silent kb (M.cerr e : P σ α) := Silent.fail (by intro e' h; cases h)
theorem Silent.raw (e : EK) : Silent kb (M.raw e : P σ α) := Silent.fail (by intro e' h; cases h)
theorem Silent.panic : Silent kb (M.panic : P σ α) := fun _ => trivial
theorem Silent.diverge : Silent kb (M.diverge : P σ α) := fun _ => trivial
theorem Silent.get : Silent kb (M.get : P σ (St σ)) := fun s => Quiet.refl s
theorem Silent.need (c : Bool) (e : EK) : Silent kb (M.need c e : P σ Unit) := by
  unfold M.need; split
  · exact Silent.pure ()
  · exact Silent.cerr e
theorem Silent.needRaw (c : Bool) (e : EK) : Silent kb (M.needRaw c e : P σ Unit) := by
  unfold M.needRaw; split
  · exact Silent.pure ()
  · exact Silent.raw e
theorem Silent.deref (o : Option α) : Silent kb (M.deref o : P σ α) := by
  unfold M.deref; split
  · exact Silent.pure _
  · exact Silent.panic

theorem Silent.wrap {p : P σ α} (h : Silent kb p) : Silent kb (M.wrap p) := by
  intro s
  have := h s
  unfold M.wrap
  cases hp : p s with
  | ok a s' => rw [hp] at this; exact this
  | err e s' => rw [hp] at this; exact ⟨this.1, goodErr_wrap this.2⟩
  | panic => trivial
  | diverge => trivial

theorem Silent.orElse {p : P σ α} {e : EK} (h : Silent kb p) : Silent kb (M.orElse p e) := by
  intro s
  have := h s
  unfold M.orElse
  cases hp : p s with
  | ok a s' => rw [hp] at this; exact this
  | err e s' => rw [hp] at this; exact ⟨this.1, by intro e' h; cases h⟩
  | panic => trivial
  | diverge => trivial

theorem Silent.attempt {p : P σ α} (h : Silent kb p) : Silent kb (M.attempt p) := by
  intro s
  have := h s
  unfold M.attempt
  cases hp : p s with
  | ok a s' => rw [hp] at this; exact this
  | err e s' => rw [hp] at this; exact this.1
  | panic => trivial
  | diverge => trivial

/-- state updates that leave everything observable alone. -/
theorem Silent.modify {f : St σ → St σ} (h : ∀ s, Quiet kb s (f s)) : Silent kb (M.modify f : P σ Unit) := fun s => h s

theorem Silent.adv (n : Nat) : Silent kb (adv n : P σ Unit) :=
  Silent.modify (fun s => ⟨List.drop_suffix _ _, rfl, rfl, rfl, rfl, rfl, rfl, rfl, fun _ => ⟨rfl, rfl⟩, Tabs0.refl _, rfl⟩)
theorem Silent.peekN (E : Env) (n : Nat) : Silent kb (peekN E n : P σ Nat) := fun s => Quiet.refl s
theorem Silent.peek (E : Env) : Silent kb (peek E : P σ Nat) := fun s => Quiet.refl s
theorem Silent.peekB (E : Env) (n : Nat) : Silent kb (peekB E n : P σ Nat) := fun s => Quiet.refl s
theorem Silent.isDone : Silent kb (isDone : P σ Bool) := fun s => Quiet.refl s
theorem Silent.hasPrefix (l : List Nat) : Silent kb (hasPrefix l : P σ Bool) := fun s => Quiet.refl s
theorem Silent.rest : Silent kb (rest : P σ (List Nat)) := fun s => Quiet.refl s
theorem Silent.consume (l : List Nat) : Silent kb (consume l : P σ Bool) := by
  intro s
  unfold Helium.consume
  split
  · exact ⟨List.drop_suffix _ _, rfl, rfl, rfl, rfl, rfl, rfl, rfl, fun _ => ⟨rfl, rfl⟩, Tabs0.refl _, rfl⟩
  · exact Quiet.refl s
theorem Silent.skipBlanks : Silent kb (skipBlanks : P σ Bool) :=
  fun _ => ⟨List.dropWhile_suffix _, rfl, rfl, rfl, rfl, rfl, rfl, rfl, fun _ => ⟨rfl, rfl⟩, Tabs0.refl _, rfl⟩

/-- a DOM computation whose errors are plain. -/
theorem keep_ok {p : HM α} (hk : KeepT (fun _ => False) p) (hs : KeepS p) {a : α} {h h' : Heap} (hp : p h = .ok a h') : Tabs0 h h' :=
  ⟨(hk _).1 _ _ hp, fun T => by have := hs h T; unfold Calms at this; rw [hp] at this; exact this.1⟩
theorem keep_err {p : HM α} (hk : KeepT (fun _ => False) p) (hs : KeepS p) {e : Err} {h h' : Heap} (hp : p h = .err e h') : Tabs0 h h' :=
  ⟨(hk _).2 _ _ hp, fun T => by have := hs h T; unfold Calms at this; rw [hp] at this; exact this⟩

theorem Silent.liftH {p : HM α} (hk : KeepT (fun _ => False) p) (hs : KeepS p) (h : ∀ hp e h', p hp = .err e h' → GoodErr e) : Silent false (liftH p : P σ α) := by
  intro s
  unfold Helium.liftH
  cases hp : p s.hc.heap with
  | ok a h => exact ⟨List.suffix_refl _, rfl, rfl, rfl, rfl, rfl, rfl, rfl, fun e => (by cases e), keep_ok hk hs hp, rfl⟩
  | err e h' => exact ⟨⟨List.suffix_refl _, rfl, rfl, rfl, rfl, rfl, rfl, rfl, fun e => (by cases e), keep_err hk hs hp, rfl⟩, h _ _ _ hp⟩
  | panic => trivial
  | diverge => trivial

theorem Silent.ite {c : Prop} [Decidable c] {p q : P σ α} (hp : Silent kb p) (hq : Silent kb q) : Silent kb (if c then p else q) := by
  split <;> assumption

theorem Silent.attemptLiftH {p : HM α} (hk : KeepT (fun _ => False) p) (hs : KeepS p) : Silent false (M.attempt (Helium.liftH p : P σ α)) := by
  intro s
  unfold M.attempt Helium.liftH
  cases hp : p s.hc.heap with
  | ok a h => exact ⟨List.suffix_refl _, rfl, rfl, rfl, rfl, rfl, rfl, rfl, fun e => (by cases e), keep_ok hk hs hp, rfl⟩
  | err e h' => exact ⟨List.suffix_refl _, rfl, rfl, rfl, rfl, rfl, rfl, rfl, fun e => (by cases e), keep_err hk hs hp, rfl⟩
  | panic => trivial
  | diverge => trivial

theorem Silent.updNode (i : Nat) {f : Node → Node} (hf : ∀ x, x.sameLinks (f x) ∧ Lasts x (f x)) : Silent false (Helium.liftH (Helium.updNode i f) : P σ Unit) :=
  Silent.liftH (KeepT.updNode i (fun x => ⟨(hf x).1.2.2.2.2.2.2.2.1, (hf x).2⟩)) (fun _ T => Calms.upd (Gentle.upd_same T i (hf _).1)) (by intro hp e h' h; cases h)

theorem Silent.attemptBind {p : P σ α} {f : Except Err α → P σ β} (hp : Silent kb p) (hok : ∀ a, Silent kb (f (.ok a)))
    (herr : ∀ e, GoodErr e → Silent kb (f (.error e))) : Silent kb (M.attempt p >>= f) := by
  intro s
  have h1 := hp s
  show post (M.bind (M.attempt p) f s) _ _
  unfold M.bind M.attempt
  cases hps : p s with
  | ok a s' =>
    rw [hps] at h1
    have h2 := hok a s'
    simp only
    cases hf' : f (.ok a) s' with
    | ok b s'' => rw [hf'] at h2; exact h1.trans h2
    | err e s'' => rw [hf'] at h2; exact ⟨Quiet.trans h1 h2.1, h2.2⟩
    | panic => trivial
    | diverge => trivial
  | err e s' =>
    rw [hps] at h1
    have h2 := herr e h1.2 s'
    simp only
    cases hf' : f (.error e) s' with
    | ok b s'' => rw [hf'] at h2; exact h1.1.trans h2
    | err e s'' => rw [hf'] at h2; exact ⟨Quiet.trans h1.1 h2.1, h2.2⟩
    | panic => trivial
    | diverge => trivial
  | panic => trivial
  | diverge => trivial

/-! ### rules for `Sat` -/

theorem Sat.wrap {p : P σ α} (h : Sat L p) : Sat L (M.wrap p) := by
  intro s
  have := h s
  unfold M.wrap
  cases hp : p s with
  | ok a s' => rw [hp] at this; exact this
  | err e s' => rw [hp] at this; exact L.wrap this
  | panic => trivial
  | diverge => trivial

theorem Sat.cb {ev : Ev} (h : L.Q ev) : Sat L (cb H ev) := by
  intro s
  have h1 := @L.call s ev h
  have h2 := fun e => @L.callX s ev e h
  unfold cbRes cbSt at h1 h2
  unfold Helium.cb callback
  simp only [Bind.bind, M.bind]
  cases hr : (H s.view ev s.hc).1 <;> simp only [hr, Pure.pure, M.pure, M.fail, M.panic, M.diverge] at h1 h2 ⊢
  · exact h1 (by simp)
  · exact h1 (Or.inr ⟨_, rfl⟩)
  · exact h1 (by simp)
  · exact L.wrap (h2 _ rfl)
  all_goals trivial

theorem Sat.cbRaw {ev : Ev} (h : L.Q ev) : Sat L (cbRaw H ev) := by
  intro s
  have h1 := @L.call s ev h
  have h2 := fun e => @L.callX s ev e h
  unfold cbRes cbSt at h1 h2
  unfold Helium.cbRaw callback
  simp only [Bind.bind, M.bind]
  cases hr : (H s.view ev s.hc).1 <;> simp only [hr, Pure.pure, M.pure, M.fail, M.panic, M.diverge] at h1 h2 ⊢
  · exact h1 (by simp)
  · exact h1 (Or.inr ⟨_, rfl⟩)
  · exact h1 (by simp)
  · exact h2 _ rfl
  all_goals trivial

theorem Sat.ask {ev : Ev} (h : ev.lookup) : Sat L (ask H ev) := by
  intro s
  have h1 := @L.look s ev h
  unfold cbSt at h1
  unfold Helium.ask callback
  simp only [Bind.bind, M.bind]
  cases hr : (H s.view ev s.hc).1 <;> simp only [hr, Pure.pure, M.pure, M.fail, M.panic, M.diverge] at h1 ⊢ <;> first | exact h1 | trivial

theorem Sat.modify {f : St σ → St σ} (h : ∀ s, L.R s (f s)) : Sat L (M.modify f : P σ Unit) := fun s => h s

/-- `parseAttributeValue`-like use of `attempt`: the error comes back after quiet steps. -/
theorem Sat.rethrow {p : P σ α} {q : P σ Unit} (hp : Sat L p) (hq : ∀ s, ∃ s', q s = .ok () s' ∧ Quiet kb s s') :
    Sat L (do
      let v ← M.attempt p
      q
      match v with
      | .ok v => Pure.pure v
      | .error e => M.fail e) := by
  intro s
  have h1 := hp s
  simp only [Bind.bind, M.bind, M.attempt]
  cases hps : p s with
  | ok a s' =>
    rw [hps] at h1
    obtain ⟨s'', hq', h2⟩ := hq s'
    simp only [hq']
    exact L.trans h1 (L.quiet h2)
  | err e s' =>
    rw [hps] at h1
    obtain ⟨s'', hq', h2⟩ := hq s'
    simp only [hq']
    exact L.xquiet h1 h2
  | panic => trivial
  | diverge => trivial

end
end Helium
