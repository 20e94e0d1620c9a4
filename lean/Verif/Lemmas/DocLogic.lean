import Verif.Lemmas.TraceLogic
/-! The whole document: errors are wrapped, and any logic that ignores the cursor and the element stack is respected. -/
namespace Helium
section
variable {σ : Type} {α β : Type} {H : Handler σ} (E : Env)

/-- every error of `p` is an `ErrParseError`. -/
def Wrapped (p : P σ α) : Prop := ∀ s, post (p s) (fun _ => True) (fun e _ => ∃ e', e = .parse e')

theorem Wrapped.bind {p : P σ α} {f : α → P σ β} (hp : Wrapped p) (hf : ∀ a, Wrapped (f a)) : Wrapped (p >>= f) := by
  intro s
  have h1 := hp s
  show post (M.bind p f s) _ _
  unfold M.bind
  cases hps : p s with
  | ok a s' => exact hf a s'
  | err e s' => rw [hps] at h1; exact h1
  | panic => trivial
  | diverge => trivial

theorem Wrapped.wrap (p : P σ α) : Wrapped (M.wrap p) := by
  intro s
  unfold M.wrap
  cases p s with
  | err e s' => cases e <;> exact ⟨_, rfl⟩
  | _ => trivial

theorem Wrapped.cb (ev : Ev) : Wrapped (Helium.cb H ev) := by
  intro s
  unfold Helium.cb callback
  simp only [Bind.bind, M.bind]
  cases hr : (H s.view ev s.hc).1 <;> simp only [Pure.pure, M.pure, M.fail, M.panic, M.diverge] <;> try trivial
  rename_i e
  cases e <;> exact ⟨_, rfl⟩

theorem Wrapped.need (c : Bool) (e : EK) : Wrapped (M.need c e : P σ Unit) := by
  intro s
  unfold M.need
  cases c
  · exact ⟨_, rfl⟩
  · trivial

theorem Wrapped.ofOk {p : P σ α} (h : ∀ s, ∃ a s', p s = .ok a s') : Wrapped p := by
  intro s
  obtain ⟨a, s', h⟩ := h s
  rw [h]
  trivial

macro "wrapped" : tactic => `(tactic| repeat first
  | exact Wrapped.wrap _ | exact Wrapped.cb _ | exact Wrapped.need _ _
  | exact Wrapped.ofOk (fun s => ⟨_, _, rfl⟩)
  | exact (fun s => ⟨_, rfl⟩)
  | with_reducible refine Wrapped.bind ?_ (fun _ => ?_)
  | split)

theorem Wrapped.parseDocument (fuel snl : Nat) : Wrapped (parseDocument E H fuel snl) := by
  unfold Helium.parseDocument
  refine Wrapped.bind ?_ (fun _ => ?_)
  · unfold parseHead
    wrapped
  refine Wrapped.bind (Wrapped.wrap _) (fun _ => ?_)
  refine Wrapped.bind (Wrapped.cb _) (fun _ => ?_)
  refine Wrapped.bind (Wrapped.wrap _) (fun _ => ?_)
  refine Wrapped.bind ?_ (fun _ => ?_)
  · unfold parseDoctypePart
    wrapped
  · unfold parseTail
    wrapped

/-- ignorable white space is white space, and the data of declarations fit together. -/
def Ev.White : Ev → Prop
  | .ignorable d => ∀ c ∈ decodeRunes d, isBlank c = true
  | ev => Spec.DeclOK ev

/-- a logic that does not look at the cursor, the subset flag or the stack, and admits every event that can occur. -/
structure Wide (L : Logic false H) : Prop where
  q : ∀ ev, ev.White → L.Q ev
  cur : ∀ s c, L.R s { s with cur := c }
  sub : ∀ s n, L.R s { s with inSubset := n }
  nodes : ∀ s ns, L.R s { s with nodes := ns }
  ns : ∀ s ns, L.R s { s with ns := ns }
  leave : ∀ s d h c fc lc t, Entered s.hc.heap h fc lc → L.R (chunkSt s d h c) t → L.R s (chunkBack s d fc lc t)
  leaveX : ∀ s d h c fc lc t e, Entered s.hc.heap h fc lc → L.X (chunkSt s d h c) e t → L.X s e (chunkBack s d fc lc t)

variable {L : Logic false H}

theorem Wide.flat (W : Wide L) : Flat E L (fun _ => True) where
  admits := Admits.of fun ev _ h => W.q ev (by
    cases ev with
    | ignorable d => exact h.2
    | characters d => trivial
    | _ => exact h)
  inv := fun _ _ => trivial
  invq := fun _ _ => trivial
  enter := fun _ _ _ _ _ _ => trivial
  leave := W.leave
  leaveX := W.leaveX
  ent := fun _ _ _ _ _ _ _ => W.q _ trivial

theorem Wide.tags (W : Wide L) : FlatTags L where
  start := fun _ _ _ _ _ => W.q _ trivial
  fin := fun _ _ _ => W.q _ trivial
  nodes := W.nodes
  ns := W.ns

theorem SatI.sat {p : P σ α} (h : SatI L (fun _ => True) p) : Sat L p := fun s => h s trivial

theorem Sat.parseProlog (hQ : Admits L) (hA : ∀ (snl : Nat) (b : Bytes) (fuel : Nat), Sat L (Helium.attlistLoop E H snl b fuel))
    (h1 : L.Q .setDocumentLocator) (h2 : L.Q .startDocument)
    (hS : ∀ n e u, L.Q (.internalSubset n e u) ∧ L.Q (.externalSubset n e u))
    (hc : ∀ s c, L.R s { s with cur := c }) (hm : ∀ s n, L.R s { s with inSubset := n }) (snl : Nat) :
    Sat L (parseProlog E H snl) := by
  unfold Helium.parseProlog
  refine Sat.bind (Sat.parseHead E h1) (fun _ => ?_)
  refine Sat.bind (Sat.wrap (Sat.switchEncoding E hc)) (fun _ => ?_)
  refine Sat.bind (Sat.cb h2) (fun _ => ?_)
  refine Sat.bind (Sat.wrap (Sat.parseMisc E hQ)) (fun _ => ?_)
  exact Sat.parseDoctypePart E hQ hA hS hm snl

theorem SatI.parseTail {I : St σ → Prop} (F : Frame L I)
    (hr : ∀ body : P σ Unit, SatI L I body → SatI L I (Helium.parseReference E H body))
    (he : ∀ body : P σ Unit, SatI L I body → SatI L I (Helium.parseElementW E H body)) (h3 : L.Q .endDocument) (fuel : Nat) :
    SatI L I (parseTail E H fuel) := by
  unfold Helium.parseTail
  refine SatI.bind F (Sat.satI (Silent.sat Silent.skipBlanks L)) (fun _ => ?_)
  refine SatI.bind F (Sat.satI (Silent.sat (Silent.peek E) L)) (fun _ => ?_)
  refine SatI.bind F (Sat.satI (Silent.sat (Silent.need _ _) L)) (fun _ => ?_)
  refine SatI.bind F (SatI.wrap (SatI.parseElement E F hr he fuel)) (fun _ => ?_)
  refine SatI.bind F (Sat.satI (Sat.wrap (Sat.parseMisc E F.admits))) (fun _ => ?_)
  refine SatI.bind F (Sat.satI (Silent.sat Silent.isDone L)) (fun _ => ?_)
  refine SatI.bind F (Sat.satI (Silent.sat (Silent.need _ _) L)) (fun _ => ?_)
  exact Sat.satI (Sat.cb h3)

theorem Wide.tail (W : Wide L) (fuel : Nat) : Sat L (parseTail E H fuel) :=
  (SatI.parseTail E (W.flat E).toFrame (fun _ h => SatI.parseReference E (W.flat E) h)
    (fun _ h => SatI.parseElementW E (W.flat E).toFrame W.tags h) (W.q _ trivial) fuel).sat

theorem Wide.document (W : Wide L) (fuel snl : Nat) : Sat L (parseDocument E H fuel snl) := by
  rw [parseDocument_eq]
  refine Sat.bind (Sat.parseProlog E (W.flat E).admits (Sat.attlistLoop E (W.flat E).admits (fun _ _ _ _ _ _ h => W.q _ h)) (W.q _ trivial) (W.q _ trivial) (fun _ _ _ => ⟨W.q _ trivial, W.q _ trivial⟩) W.cur W.sub snl) (fun _ => ?_)
  exact W.tail E fuel

theorem TL_wide {Q : Ev → Prop} (hQ : ∀ ev, ev.White → Q ev) (hl : ∀ ev, ev.lookup → Q ev) : Wide (TL H false Q hl) where
  q := hQ
  cur := fun _ _ => ⟨by simp, [], by simp, by simp⟩
  sub := fun _ _ => ⟨by simp, [], by simp, by simp⟩
  nodes := fun _ _ => ⟨by simp, [], by simp, by simp⟩
  ns := fun _ _ => ⟨by simp, [], by simp, by simp⟩
  leave := by
    rintro s d h c fc lc t - ⟨h0, m, h1, h2⟩
    exact ⟨by simp, m, h1, h2⟩
  leaveX := by
    rintro s d h c fc lc t e - ⟨m, h1, h2⟩
    exact ⟨m, h1, h2⟩

/-- only the error counts. -/
def EL (H : Handler σ) (hH : ∀ v ev c e c', H v ev c = (.err e, c') → GoodErr e) : Logic false H where
  R _ _ := True
  X _ e _ := GoodErr e
  Q _ := True
  quiet _ := trivial
  trans _ _ := trivial
  transX _ h := h
  xquiet h _ := h
  fail h := h
  wrap h := goodErr_wrap h
  call _ _ := trivial
  callX := by
    intro s ev e _ h
    exact hH s.view ev s.hc e (H s.view ev s.hc).2 (by rw [← h]; rfl)
  look _ := trivial

theorem EL_wide (hH : ∀ v ev c e c', H v ev c = (.err e, c') → GoodErr e) : Wide (EL H hH) where
  q := fun _ _ => trivial
  cur := fun _ _ => trivial
  sub := fun _ _ => trivial
  nodes := fun _ _ => trivial
  ns := fun _ _ => trivial
  leave := fun _ _ _ _ _ _ _ _ _ => trivial
  leaveX := fun _ _ _ _ _ _ _ _ _ h => h

end
end Helium
