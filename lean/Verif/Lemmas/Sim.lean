import Verif.Model.Parser.Content
import Verif.Lemmas.Tabs
/-!
Two runs of the parser side by side: the same input, two handlers whose own states and records of callbacks are related,
possibly a larger budget and another order of the map of default attributes in the second run. The parser never looks at the
state of a handler, so the two runs stay together.
-/
namespace Helium
variable {σ τ : Type} {α β : Type}

/-- the same parser state around another handler state and record of callbacks. -/
def St.re (s : St σ) (u : τ) (tr : List (Ev × HOut)) : St τ :=
  { cur := s.cur, hc := ⟨u, s.hc.heap, s.hc.doc, s.hc.elem⟩, trace := tr, ns := s.ns, nodes := s.nodes,
    version := s.version, encoding := s.encoding, detected := s.detected, standalone := s.standalone,
    inSubset := s.inSubset, hasExternalSubset := s.hasExternalSubset, hasPERefs := s.hasPERefs,
    intSubName := s.intSubName, extSubSystem := s.extSubSystem, extSubURI := s.extSubURI, attsSpecial := s.attsSpecial,
    attsDefault := s.attsDefault, depth := s.depth }

/-- external code that differs in the order in which maps are gone through only. -/
@[reducible] def Env.reorder (E : Env) (o : List Nat → List Nat) (ho : ∀ l, (o l).Perm l) : Env :=
  { E with order := o, order_perm := ho }

/-- how two runs are compared: `rel` relates handler state and record of the one to those of the other, `lax` allows the second
run to go on where the first has exhausted a budget, `perm` allows it to report default attributes in another order, `strict`
asks that all of these are marked as such. -/
structure Sync (σ τ : Type) where
  lax : Prop := False
  perm : Prop := False
  strict : Prop := False
  rel : σ → List (Ev × HOut) → τ → List (Ev × HOut) → Prop

/-- all attributes in the table are marked as default attributes. -/
def Marked (m : List (Bytes × List (Bytes × Nat))) (h : Heap) : Prop :=
  ∀ k l, mapGet m k = some l → ∀ a i, (a, i) ∈ l → i < h.size ∧ (h.at' i).isDefault = true

theorem Marked.grows {m : List (Bytes × List (Bytes × Nat))} {h h' : Heap} (hm : Marked m h) (hg : Grows h h') : Marked m h' :=
  fun k l hl a i hi => ⟨Nat.lt_of_lt_of_le (hm k l hl a i hi).1 hg.1, hg.2 i (hm k l hl a i hi).1 (hm k l hl a i hi).2⟩

theorem mem_mapSet {α : Type} {m : List (Bytes × α)} {k k' : Bytes} {v v' : α} (h : (k', v') ∈ mapSet m k v) :
    (k', v') ∈ m ∨ v' = v := by
  induction m with
  | nil => simp only [mapSet, List.mem_singleton] at h; exact .inr (congrArg Prod.snd h)
  | cons x m ih =>
    obtain ⟨a, b⟩ := x
    unfold mapSet at h
    split at h
    · rcases List.mem_cons.mp h with h | h
      · exact .inr (congrArg Prod.snd h)
      · exact .inl (List.mem_cons_of_mem _ h)
    · rcases List.mem_cons.mp h with h | h
      · exact .inl (h ▸ List.mem_cons_self)
      · exact (ih h).imp (List.mem_cons_of_mem _) id

theorem Marked.entry {m : List (Bytes × List (Bytes × Nat))} {h : Heap} (hm : Marked m h) (k : Bytes) :
    Marked (match mapGet m k with
      | some _ => m
      | none => mapSet m k []) h := by
  split
  · exact hm
  · intro k' l hl a i hi
    rw [mapGet_mapSet] at hl
    split at hl
    · cases hl; cases hi
    · exact hm k' l hl a i hi

theorem Marked.add {m : List (Bytes × List (Bytes × Nat))} {h : Heap} (hm : Marked m h) (k at' : Bytes) {n : Nat} (hn : n < h.size)
    (hd : (h.at' n).isDefault = true) : Marked (mapSet m k (mapSet ((mapGet m k).getD []) at' n)) h := by
  intro k' l hl a i hi
  rw [mapGet_mapSet] at hl
  split at hl
  · cases hl
    rcases mem_mapSet hi with hi | hi
    · cases hg : mapGet m k with
      | none => rw [hg] at hi; cases hi
      | some l => rw [hg] at hi; exact hm k l hg a i hi
    · subst hi; exact ⟨hn, hd⟩
  · exact hm k' l hl a i hi

/-- something that stays true of a growing heap. -/
structure Stays where
  p : Heap → Prop
  grows : ∀ {h h' : Heap}, Grows h h' → p h → p h'

/-- the two runs are related, with the first in state `s`. -/
def Sync.Rel (L : Sync σ τ) (K : Stays) (s : St σ) (u : τ) (tr : List (Ev × HOut)) : Prop :=
  L.rel s.hc.usr s.trace u tr ∧ (L.strict → Marked s.attsDefault s.hc.heap ∧ K.p s.hc.heap)

theorem Sync.Rel.grows {L : Sync σ τ} {K : Stays} {s s' : St σ} {u : τ} {tr : List (Ev × HOut)} (h : L.Rel K s u tr)
    (h1 : s'.hc.usr = s.hc.usr) (h2 : s'.trace = s.trace) (h3 : s'.attsDefault = s.attsDefault) (h4 : Grows s.hc.heap s'.hc.heap) :
    L.Rel K s' u tr := by
  refine ⟨by rw [h1, h2]; exact h.1, fun x => ⟨?_, K.grows h4 (h.2 x).2⟩⟩
  rw [h3]
  exact (h.2 x).1.grows h4

/-- the two outcomes agree. -/
def Sync.Match (L : Sync σ τ) (K : Stays) : Out (St σ) α → Out (St τ) α → Prop
  | .ok a s, o => ∃ u tr, o = .ok a (s.re u tr) ∧ L.Rel K s u tr
  | .err e s, o => ∃ u tr, o = .err e (s.re u tr) ∧ L.Rel K s u tr
  | .panic, o => o = .panic
  | .diverge, o => L.lax ∨ o = .diverge

/-- the two computations run in step. -/
def Sim (L : Sync σ τ) (f : P σ α) (g : P τ α) : Prop :=
  ∀ K s u tr, L.Rel K s u tr → L.Match K (f s) (g (s.re u tr))

/-- the first computation gives what the second does, or has exhausted its budget. -/
def Upto {S : Type} (lax : Prop) (p q : M S α) : Prop := ∀ s, (p s = .diverge ∧ lax) ∨ p s = q s

variable {L : Sync σ τ} {o : List Nat → List Nat} {ho : ∀ l, (o l).Perm l}

theorem Sim.pure (a : α) : Sim L (Pure.pure a : P σ α) (Pure.pure a) := fun _ _ u tr h => ⟨u, tr, rfl, h⟩
theorem Sim.mpure (a : α) : Sim L (M.pure a : P σ α) (M.pure a) := fun _ _ u tr h => ⟨u, tr, rfl, h⟩
theorem Sim.fail (e : Err) : Sim L (M.fail e : P σ α) (M.fail e) := fun _ _ u tr h => ⟨u, tr, rfl, h⟩
theorem Sim.cerr (e : EK) : Sim L (M.cerr e : P σ α) (M.cerr e) := Sim.fail _
theorem Sim.raw (e : EK) : Sim L (M.raw e : P σ α) (M.raw e) := Sim.fail _
theorem Sim.panic : Sim L (M.panic : P σ α) M.panic := fun _ _ _ _ _ => rfl
theorem Sim.diverge : Sim L (M.diverge : P σ α) M.diverge := fun _ _ _ _ _ => .inr rfl
theorem Sim.lax (h : L.lax) (g : P τ α) : Sim L (M.diverge : P σ α) g := fun _ _ _ _ _ => .inl h

theorem Sync.Match.bind {K : Stays} {f : P σ α} {g : P τ α} {k : α → P σ β} {l : α → P τ β} {s : St σ} {t : St τ}
    (h : L.Match K (f s) (g t)) (hk : ∀ a s', f s = .ok a s' → Sim L (k a) (l a)) : L.Match K ((f >>= k) s) ((g >>= l) t) := by
  show L.Match K (M.bind f k s) (M.bind g l _)
  unfold M.bind
  cases hf : f s with
  | ok a s' =>
    rw [hf] at h
    obtain ⟨u', tr', e, hr'⟩ := h
    rw [e]
    exact hk a s' hf K s' u' tr' hr'
  | err e s' =>
    rw [hf] at h
    obtain ⟨u', tr', e, hr'⟩ := h
    rw [e]
    exact ⟨u', tr', rfl, hr'⟩
  | panic =>
    rw [hf] at h
    rw [show g t = .panic from h]
    rfl
  | diverge =>
    rw [hf] at h
    rcases h with l | e
    · exact .inl l
    · rw [e]; exact .inr rfl

theorem Sim.bind {f : P σ α} {g : P τ α} {k : α → P σ β} {l : α → P τ β} (h : Sim L f g) (hk : ∀ a, Sim L (k a) (l a)) :
    Sim L (f >>= k) (g >>= l) := fun K s u tr hr => (h K s u tr hr).bind (fun a _ _ => hk a)

/-- with what is known of the result of the first. -/
theorem Sim.bind_of {Q : α → Prop} {f : P σ α} {g : P τ α} {k : α → P σ β} {l : α → P τ β} (h : Sim L f g)
    (hq : ∀ s a s', f s = .ok a s' → Q a) (hk : ∀ a, Q a → Sim L (k a) (l a)) :
    Sim L (f >>= k) (g >>= l) := fun K s u tr hr => (h K s u tr hr).bind (fun a s' e => hk a (hq s a s' e))

theorem Sim.get_bind {k : St σ → P σ β} {l : St τ → P τ β} (hk : ∀ s u tr, Sim L (k s) (l (St.re s u tr))) :
    Sim L (M.get >>= k) (M.get >>= l) := fun K s u tr hr => hk s u tr K s u tr hr

theorem Sim.modify {f : St σ → St σ} {g : St τ → St τ}
    (h : ∀ (s : St σ) (u : τ) tr, g (s.re u tr) = (f s).re u tr ∧ (f s).hc.usr = s.hc.usr ∧ (f s).trace = s.trace ∧
      (f s).attsDefault = s.attsDefault ∧ (f s).hc.heap = s.hc.heap) :
    Sim L (M.modify f) (M.modify g) := by
  intro K s u tr hr
  obtain ⟨h1, h2, h3, h4, h5⟩ := h s u tr
  exact ⟨u, tr, congrArg (Out.ok ()) h1, hr.grows h2 h3 h4 (by rw [h5]; exact Grows.refl _)⟩

/-- a computation that only reads. -/
theorem Sim.reads {f : P σ α} {g : P τ α} (v : St σ → α) (hf : ∀ s, f s = .ok (v s) s)
    (hg : ∀ (s : St σ) (u : τ) tr, g (s.re u tr) = .ok (v s) (s.re u tr)) : Sim L f g := by
  intro K s u tr hr
  rw [hf, hg]
  exact ⟨u, tr, rfl, hr⟩

theorem Sim.wrap {f : P σ α} {g : P τ α} (h : Sim L f g) : Sim L (M.wrap f) (M.wrap g) := by
  intro K s u tr hr
  have := h K s u tr hr
  unfold M.wrap
  cases hf : f s with
  | ok a s' => rw [hf] at this; obtain ⟨u', tr', e, hr'⟩ := this; rw [e]; exact ⟨u', tr', rfl, hr'⟩
  | err e s' => rw [hf] at this; obtain ⟨u', tr', e, hr'⟩ := this; rw [e]; exact ⟨u', tr', rfl, hr'⟩
  | panic => rw [hf] at this; rw [show g (s.re u tr) = .panic from this]; rfl
  | diverge =>
    rw [hf] at this
    rcases this with l | e
    · exact .inl l
    · rw [e]; exact .inr rfl

theorem Sim.orElse {f : P σ α} {g : P τ α} {k : EK} (h : Sim L f g) : Sim L (M.orElse f k) (M.orElse g k) := by
  intro K s u tr hr
  have := h K s u tr hr
  unfold M.orElse
  cases hf : f s with
  | ok a s' => rw [hf] at this; obtain ⟨u', tr', e, hr'⟩ := this; rw [e]; exact ⟨u', tr', rfl, hr'⟩
  | err e s' => rw [hf] at this; obtain ⟨u', tr', e, hr'⟩ := this; rw [e]; exact ⟨u', tr', rfl, hr'⟩
  | panic => rw [hf] at this; rw [show g (s.re u tr) = .panic from this]; rfl
  | diverge =>
    rw [hf] at this
    rcases this with l | e
    · exact .inl l
    · rw [e]; exact .inr rfl

theorem Sim.attempt {f : P σ α} {g : P τ α} (h : Sim L f g) : Sim L (M.attempt f) (M.attempt g) := by
  intro K s u tr hr
  have := h K s u tr hr
  unfold M.attempt
  cases hf : f s with
  | ok a s' => rw [hf] at this; obtain ⟨u', tr', e, hr'⟩ := this; rw [e]; exact ⟨u', tr', rfl, hr'⟩
  | err e s' => rw [hf] at this; obtain ⟨u', tr', e, hr'⟩ := this; rw [e]; exact ⟨u', tr', rfl, hr'⟩
  | panic => rw [hf] at this; rw [show g (s.re u tr) = .panic from this]; rfl
  | diverge =>
    rw [hf] at this
    rcases this with l | e
    · exact .inl l
    · rw [e]; exact .inr rfl

theorem Sim.ite {c : Prop} {i j : Decidable c} {f f' : P σ α} {g g' : P τ α} (h : c → Sim L f g) (h' : ¬c → Sim L f' g') :
    Sim L (@ite _ c i f f') (@ite _ c j g g') := by
  by_cases hc : c
  · rw [if_pos hc, if_pos hc]; exact h hc
  · rw [if_neg hc, if_neg hc]; exact h' hc

theorem Sim.need (c : Bool) (e : EK) : Sim L (M.need c e : P σ Unit) (M.need c e) := by
  unfold M.need; cases c
  · exact Sim.cerr _
  · exact Sim.pure _
theorem Sim.needRaw (c : Bool) (e : EK) : Sim L (M.needRaw c e : P σ Unit) (M.needRaw c e) := by
  unfold M.needRaw; cases c
  · exact Sim.raw _
  · exact Sim.pure _
theorem Sim.deref (o : Option α) : Sim L (M.deref o : P σ α) (M.deref o) := by
  unfold M.deref; cases o
  · exact Sim.panic
  · exact Sim.pure _

theorem Sim.adv (n : Nat) : Sim L (adv n : P σ Unit) (adv n) := Sim.modify (fun _ _ _ => ⟨rfl, rfl, rfl, rfl, rfl⟩)
theorem Sim.peekN (E : Env) (n : Nat) : Sim L (peekN E n : P σ Nat) (peekN (E.reorder o ho) n) := Sim.reads _ (fun _ => rfl) (fun _ _ _ => rfl)
theorem Sim.peek (E : Env) : Sim L (peek E : P σ Nat) (peek (E.reorder o ho)) := Sim.peekN _ _
theorem Sim.peekB (E : Env) (n : Nat) : Sim L (peekB E n : P σ Nat) (peekB (E.reorder o ho) n) := Sim.reads _ (fun _ => rfl) (fun _ _ _ => rfl)
theorem Sim.isDone : Sim L (isDone : P σ Bool) isDone := Sim.reads _ (fun _ => rfl) (fun _ _ _ => rfl)
theorem Sim.hasPrefix (l : List Nat) : Sim L (hasPrefix l : P σ Bool) (hasPrefix l) := Sim.reads _ (fun _ => rfl) (fun _ _ _ => rfl)
theorem Sim.rest : Sim L (rest : P σ (List Nat)) rest := Sim.reads _ (fun _ => rfl) (fun _ _ _ => rfl)
theorem Sim.consume (l : List Nat) : Sim L (consume l : P σ Bool) (consume l) := by
  intro K s u tr hr
  show L.Match K (if l.isPrefixOf s.cur then _ else _) (if l.isPrefixOf s.cur then _ else _)
  by_cases h : l.isPrefixOf s.cur
  · rw [if_pos h, if_pos h]; exact ⟨u, tr, rfl, hr⟩
  · rw [if_neg h, if_neg h]; exact ⟨u, tr, rfl, hr⟩
theorem Sim.skipBlanks : Sim L (skipBlanks : P σ Bool) skipBlanks := fun _ _ u tr hr => ⟨u, tr, rfl, hr⟩

theorem Upto.refl {S : Type} {lax : Prop} (p : M S α) : Upto lax p p := fun _ => .inr rfl

theorem Upto.bind {S : Type} {lax : Prop} {p q : M S α} {k l : α → M S β} (h : Upto lax p q) (hk : ∀ a, Upto lax (k a) (l a)) :
    Upto lax (p >>= k) (q >>= l) := by
  intro s
  show (M.bind p k s = _ ∧ _) ∨ M.bind p k s = M.bind q l s
  unfold M.bind
  rcases h s with ⟨e, x⟩ | e
  · rw [e]; exact .inl ⟨rfl, x⟩
  · rw [← e]
    cases p s with
    | ok a s' => exact hk a s'
    | err _ _ => exact .inr rfl
    | panic => exact .inr rfl
    | diverge => exact .inr rfl

theorem Upto.diverge {S : Type} {lax : Prop} (h : lax) (q : M S α) : Upto lax (M.diverge : M S α) q := fun _ => .inl ⟨rfl, h⟩

theorem Sim.liftH {N : Bytes → Prop} {p q : HM α} (h : Upto L.lax p q) (hk : KeepT N p) : Sim L (liftH p : P σ α) (liftH q) := by
  intro K s u tr hr
  unfold Helium.liftH
  simp only [St.re]
  rcases h s.hc.heap with ⟨e, x⟩ | e
  · rw [e]; exact .inl x
  · rw [← e]
    cases hp : p s.hc.heap with
    | ok a h' => exact ⟨u, tr, rfl, hr.grows rfl rfl rfl ((hk _).1 _ _ hp).grows⟩
    | err e h' => exact ⟨u, tr, rfl, hr.grows rfl rfl rfl ((hk _).2 _ _ hp).grows⟩
    | panic => rfl
    | diverge => exact .inr rfl

/-! ### handlers -/

/-- the two callbacks that return an entity. -/
def Ev.asks : Ev → Bool
  | .getEntity _ | .getParameterEntity _ => true
  | _ => false

/-- what the parser makes of the answer of a callback that returns only an error. -/
def HOut.plain : HOut → HOut
  | .ent _ | .unspecified => .ok
  | o => o

/-- what the parser makes of the answer of a lookup: which error was returned does not matter. -/
def HOut.asked : HOut → HOut
  | .ok => .ent none
  | .err _ => .unspecified
  | o => o

/-- what the parser makes of an answer. -/
def HOut.seen (ev : Ev) (o : HOut) : HOut := if ev.asks then o.asked else o.plain

/-- all default attributes of the event are marked. -/
def Ev.marked (h : Heap) : Ev → Prop
  | .startElement _ _ _ _ as => ∀ i, AttrD.dflt i ∈ as → i < h.size ∧ (h.at' i).isDefault = true
  | _ => True

/-- the same event but for the order of default attributes. -/
def Ev.Reordered (ev ev' : Ev) : Prop :=
  ∃ l p u ns as is js, List.Perm is js ∧ ev = .startElement l p u ns (as ++ is.map .dflt) ∧
    ev' = .startElement l p u ns (as ++ js.map .dflt)

/-- what the second handler is told when the first is told `ev`. -/
def Sync.Like (L : Sync σ τ) (ev ev' : Ev) : Prop := ev' = ev ∨ (L.perm ∧ ev.Reordered ev')

/-- the two handlers answer alike and stay related. -/
def InStep (L : Sync σ τ) (H : Handler σ) (G : Handler τ) : Prop :=
  ∀ v ev ev' (c : HC σ) u tr tr', L.rel c.usr tr u tr' → L.Like ev ev' → (L.strict → ev.marked c.heap) →
    ((H v ev c).1 = .diverge ∧ L.lax) ∨
    ((G v ev' ⟨u, c.heap, c.doc, c.elem⟩).1.seen ev = (H v ev c).1.seen ev ∧ (L.strict → Grows c.heap (H v ev c).2.heap) ∧
      ∃ w, (G v ev' ⟨u, c.heap, c.doc, c.elem⟩).2 = ⟨w, (H v ev c).2.heap, (H v ev c).2.doc, (H v ev c).2.elem⟩ ∧
        L.rel (H v ev c).2.usr (tr ++ [(ev, (H v ev c).1)]) w (tr' ++ [(ev', (G v ev' ⟨u, c.heap, c.doc, c.elem⟩).1)]))

variable {H : Handler σ} {G : Handler τ}

/-- what follows a callback, in a given state. -/
theorem match_callback (hA : InStep L H G) {ev ev' : Ev} (he : L.Like ev ev') {k : HOut → P σ α} {l : HOut → P τ α}
    (hd : k .diverge = M.diverge)
    (hk : ∀ o o' : HOut, o'.seen ev = o.seen ev → Sim L (k o) (l o')) (K : Stays) (s : St σ) (u : τ)
    (tr : List (Ev × HOut)) (hr : L.Rel K s u tr) (hm : L.strict → ev.marked s.hc.heap) :
    L.Match K ((callback H ev >>= k) s) ((callback G ev' >>= l) (s.re u tr)) := by
  show L.Match K (k (H s.view ev s.hc).1 _) (l (G s.view ev' ⟨u, s.hc.heap, s.hc.doc, s.hc.elem⟩).1
    { s.re u tr with hc := (G s.view ev' ⟨u, s.hc.heap, s.hc.doc, s.hc.elem⟩).2,
                     trace := tr ++ [(ev', (G s.view ev' ⟨u, s.hc.heap, s.hc.doc, s.hc.elem⟩).1)] })
  rcases hA s.view ev ev' s.hc u s.trace tr hr.1 he hm with ⟨e, x⟩ | ⟨ho, hg, w, hw, hr'⟩
  · rw [e, hd]; exact .inl x
  · have := hk _ _ ho K { s with hc := (H s.view ev s.hc).2, trace := s.trace ++ [(ev, (H s.view ev s.hc).1)] } w _
      ⟨hr', fun x => ⟨(hr.2 x).1.grows (hg x), K.grows (hg x) (hr.2 x).2⟩⟩
    rw [hw]
    exact this

/-- what follows a callback other than the start of an element. -/
theorem sim_callback (hA : InStep L H G) (ev : Ev) (hm : ∀ h, ev.marked h) {k : HOut → P σ α} {l : HOut → P τ α}
    (hd : k .diverge = M.diverge)
    (hk : ∀ o o' : HOut, o'.seen ev = o.seen ev → Sim L (k o) (l o')) :
    Sim L (callback H ev >>= k) (callback G ev >>= l) :=
  fun K s u tr hr => match_callback hA (.inl rfl) hd hk K s u tr hr (fun _ => hm _)

theorem match_cb (hA : InStep L H G) {ev ev' : Ev} (he : L.Like ev ev') (hl : ev.asks = false) (K : Stays) (s : St σ) (u : τ)
    (tr : List (Ev × HOut)) (hr : L.Rel K s u tr) (hm : L.strict → ev.marked s.hc.heap) : L.Match K (cb H ev s) (cb G ev' (s.re u tr)) := by
  refine match_callback hA he rfl (fun o o' h => ?_) K s u tr hr hm
  simp only [HOut.seen, hl] at h
  cases o <;> cases o' <;> simp [HOut.plain] at h <;> first
    | exact Sim.pure _ | exact Sim.panic | exact Sim.diverge | (subst h; exact Sim.fail _)

theorem Ev.marked_asks {ev : Ev} (h : ev.asks = true) (hp : Heap) : ev.marked hp := by
  cases ev <;> first | trivial | cases h

theorem Sim.cb (hA : InStep L H G) (ev : Ev) (hl : ev.asks = false ∧ ∀ h, ev.marked h) : Sim L (cb H ev) (cb G ev) := by
  refine sim_callback hA ev hl.2 rfl (fun o o' h => ?_)
  simp only [HOut.seen, hl.1] at h
  cases o <;> cases o' <;> simp [HOut.plain] at h <;> first
    | exact Sim.pure _ | exact Sim.panic | exact Sim.diverge | (subst h; exact Sim.fail _)

theorem Sim.cbRaw (hA : InStep L H G) (ev : Ev) (hl : ev.asks = false ∧ ∀ h, ev.marked h) : Sim L (cbRaw H ev) (cbRaw G ev) := by
  refine sim_callback hA ev hl.2 rfl (fun o o' h => ?_)
  simp only [HOut.seen, hl.1] at h
  cases o <;> cases o' <;> simp [HOut.plain] at h <;> first
    | exact Sim.pure _ | exact Sim.panic | exact Sim.diverge | (subst h; exact Sim.fail _)

/-- after a lookup. -/
theorem Sim.ask_bind (hA : InStep L H G) (ev : Ev) (hl : ev.asks = true) {k : Except Err (Option ERef) → P σ α}
    {l : Except Err (Option ERef) → P τ α} (h1 : ∀ x, Sim L (k (.ok x)) (l (.ok x)))
    (h2 : ∀ e e', Sim L (k (.error e)) (l (.error e'))) : Sim L (ask H ev >>= k) (ask G ev >>= l) := by
  have e1 : ∀ {ρ : Type} (F : Handler ρ) (m : Except Err (Option ERef) → P ρ α), (ask F ev >>= m) = (callback F ev >>= fun o =>
      (match o with
        | .ok => m (.ok none)
        | .ent e => m (.ok e)
        | .unspecified => m (.error (.k .handlerUnspecified))
        | .err e => m (.error e)
        | .panic => M.panic
        | .diverge => M.diverge : P ρ α)) := by
    intro ρ F m
    funext s
    unfold ask
    simp only [Bind.bind, M.bind, callback]
    cases (F s.view ev s.hc).1 <;> rfl
  rw [e1, e1]
  refine sim_callback hA ev (Ev.marked_asks hl) rfl (fun o o' h => ?_)
  simp only [HOut.seen, hl] at h
  cases o <;> cases o' <;> simp [HOut.asked] at h <;> first
    | exact h1 _ | exact h2 _ _ | exact Sim.panic | exact Sim.diverge | (subst h; exact h1 _)

end Helium
