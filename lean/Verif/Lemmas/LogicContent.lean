import Verif.Lemmas.LogicSat
import Verif.Lemmas.Run
/-! The content parser and the whole document respect every logic that does not look at the element stack. -/
namespace Helium
section
variable {kb : Bool} {σ : Type} {α β : Type} {H : Handler σ} {L : Logic kb H} (E : Env)

/-- a DOM computation that never returns an error. -/
def NoErr (p : HM α) : Prop := ∀ h e h', p h ≠ .err e h'

theorem NoErr.bind {p : HM α} {f : α → HM β} (hp : NoErr p) (hf : ∀ a, NoErr (f a)) : NoErr (p >>= f) := by
  intro h e h'
  show M.bind p f h ≠ _
  unfold M.bind
  cases hps : p h with
  | ok a s' => exact hf a s' e h'
  | err e s' => exact absurd hps (hp _ _ _)
  | panic => simp
  | diverge => simp

theorem NoErr.pure (a : α) : NoErr (Pure.pure a : HM α) := by intro h e h' hc; cases hc
theorem NoErr.updNode (i : Nat) (f : Node → Node) : NoErr (updNode i f) := by intro h e h' hc; cases hc
theorem NoErr.node (i : Nat) : NoErr (node i) := by intro h e h' hc; cases hc
theorem NoErr.newNode (n : Node) : NoErr (newNode n) := by intro h e h' hc; cases hc
theorem NoErr.get : NoErr (M.get : HM Heap) := by intro h e h' hc; cases hc
theorem NoErr.diverge : NoErr (M.diverge : HM α) := by intro h e h' hc; cases hc
theorem NoErr.attempt (p : HM α) : NoErr (M.attempt p) := by
  intro h e h'
  unfold M.attempt
  split <;> simp

theorem NoErr.forM {l : List α} {f : α → HM Unit} (hf : ∀ a, NoErr (f a)) : NoErr (l.forM f) := by
  induction l with
  | nil => exact NoErr.pure ()
  | cons a t ih => exact NoErr.bind (hf a) (fun _ => ih)

theorem NoErr.setTreeDoc (doc : Option Nat) (fuel : Nat) : ∀ n, NoErr (setTreeDoc doc fuel n) := by
  induction fuel with
  | zero => intro n; unfold Helium.setTreeDoc; exact NoErr.diverge
  | succ f ih =>
    intro n
    have hl : ∀ s, NoErr (setTreeDoc.setList doc f s) := by
      intro s
      unfold setTreeDoc.setList
      refine NoErr.bind NoErr.get (fun h => ?_)
      split
      · exact NoErr.diverge
      · exact NoErr.forM ih
    unfold Helium.setTreeDoc
    refine NoErr.bind NoErr.get (fun h => ?_)
    dsimp only
    repeat first
      | exact NoErr.pure _ | exact hl _ | exact NoErr.diverge | exact NoErr.updNode _ _
      | refine NoErr.bind ?_ (fun _ => ?_) | refine NoErr.forM (fun _ => ?_) | split

theorem NoErr.nodeSetTreeDoc (n : Nat) (doc : Option Nat) : NoErr (nodeSetTreeDoc n doc) :=
  NoErr.bind NoErr.get (fun _ => NoErr.setTreeDoc _ _ _)

theorem Silent.liftNoErr {p : HM α} (h : NoErr p) (hk : KeepT (fun _ => False) p) (hs : KeepS p) : Silent false (Helium.liftH p : P σ α) :=
  Silent.liftH hk hs (fun hp e h' h2 => absurd h2 (h hp e h'))

theorem Silent.chunkAdopt (d : Nat) : Silent false (chunkAdopt d : P σ Unit) := by
  unfold Helium.chunkAdopt
  have h1 : ∀ l : List Nat, Silent false (Helium.liftH (l.forM (fun e => do
      Helium.nodeSetTreeDoc e (some d)
      Helium.updNode e (fun x => { x with parent := none }))) : P σ Unit) := fun l =>
    Silent.liftNoErr (NoErr.forM (fun _ => NoErr.bind (NoErr.nodeSetTreeDoc _ _) (fun _ => NoErr.updNode _ _)))
      (KeepT.forM (fun _ => KeepT.bind (KeepT.nodeSetTreeDoc _ _) (fun _ => KeepT.updNode _ (fun x => ⟨rfl, id, fun h => ⟨h, rfl, rfl⟩⟩))))
      (fun _ T => Calms.forM T (fun _ _ k => Calms.bind (Calms.nodeSetTreeDoc k.typed) (fun _ _ k2 _ =>
        Calms.upd (Gentle.upd_same k2.typed _ ⟨rfl, rfl, rfl, rfl, rfl, rfl, rfl, rfl, rfl⟩))))
  repeat first
    | with_reducible exact h1 _
    | silent1

/-- `I` is an invariant of the parser state and the logic admits the events made from inside functions. -/
structure Frame (L : Logic kb H) (I : St σ → Prop) : Prop where
  admits : Admits L
  inv : ∀ {s s'}, L.R s s' → I s → I s'
  invq : ∀ {s s'}, Quiet kb s s' → I s → I s'

/-- the heap with which an entity's text starts being parsed, and the children of the document put aside. -/
structure Entered (h h' : Heap) (fc lc : Option Nat) : Prop where
  tabs : Tabs0 h h'
  kids : Typed h → OptNA h' fc ∧ OptNA h' lc

/-- closure properties needed by the content parser, entity expansion included. -/
structure Flat (L : Logic kb H) (I : St σ → Prop) : Prop extends Frame L I where
  enter : ∀ s d h c, Tabs0 s.hc.heap h → I s → I (chunkSt s d h c)
  leave : ∀ s d h c fc lc t, Entered s.hc.heap h fc lc → L.R (chunkSt s d h c) t → L.R s (chunkBack s d fc lc t)
  leaveX : ∀ s d h c fc lc t e, Entered s.hc.heap h fc lc → L.X (chunkSt s d h c) e t → L.X s e (chunkBack s d fc lc t)
  ent : ∀ s e s', I s → parseEntityRef E H s = .ok e s' → e.name s'.hc.heap = [] ∨ e.typ s'.hc.heap = 6 →
    e.content s'.hc.heap ≠ [] → L.Q (.characters (e.content s'.hc.heap))

/-- closure under what start and end tags do. -/
structure FlatTags (L : Logic kb H) : Prop where
  start : ∀ l p u n a, L.Q (.startElement l p u n a)
  fin : ∀ l p u, L.Q (.endElement l p u)
  nodes : ∀ s ns, L.R s { s with nodes := ns }
  ns : ∀ s ns, L.R s { s with ns := ns }

/-- `Sat` from states satisfying `I`. -/
def SatI (L : Logic kb H) (I : St σ → Prop) (p : P σ α) : Prop := ∀ s, I s → post (p s) (L.R s) (L.X s)

variable {I : St σ → Prop}

theorem Sat.satI {p : P σ α} (h : Sat L p) : SatI L I p := fun s _ => h s

theorem SatI.bind (F : Frame L I) {p : P σ α} {f : α → P σ β} (hp : SatI L I p) (hf : ∀ a, SatI L I (f a)) :
    SatI L I (p >>= f) := by
  intro s hI
  have h1 := hp s hI
  show post (M.bind p f s) _ _
  unfold M.bind
  cases hps : p s with
  | ok a s' =>
    rw [hps] at h1
    exact post_mono (hf a s' (F.inv h1 hI)) (fun _ h => L.trans h1 h) (fun _ _ h => L.transX h1 h)
  | err e s' => rw [hps] at h1; exact h1
  | panic => trivial
  | diverge => trivial

theorem post_seq {p : P σ α} {f : α → P σ β} {s : St σ} (hp : post (p s) (L.R s) (L.X s))
    (hf : ∀ a t, post (f a t) (L.R t) (L.X t)) : post ((p >>= f) s) (L.R s) (L.X s) := by
  show post (M.bind p f s) _ _
  unfold M.bind
  cases hps : p s with
  | ok a s' =>
    rw [hps] at hp
    exact post_mono (hf a s') (fun _ h => L.trans hp h) (fun _ _ h => L.transX hp h)
  | err e s' => rw [hps] at hp; exact hp
  | panic => trivial
  | diverge => trivial

theorem SatI.wrap {p : P σ α} (h : SatI L I p) : SatI L I (M.wrap p) := by
  intro s hI
  have := h s hI
  unfold M.wrap
  cases hp : p s with
  | ok a s' => rw [hp] at this; exact this
  | err e s' => rw [hp] at this; exact L.wrap this
  | panic => trivial
  | diverge => trivial

theorem Sat.parseStartTag (hQ : Admits L) (F : FlatTags L) : Sat L (parseStartTag E H) := by
  have h1 : ∀ l p u n a, Sat L (Helium.cb H (.startElement l p u n a)) := fun l p u n a => Sat.cb (F.start l p u n a)
  have h2 : ∀ f : St σ → List EInfo, Sat L (M.modify (fun s => { s with nodes := f s }) : P σ Unit) :=
    fun f => Sat.modify (fun s => F.nodes s _)
  have hN := F.ns
  unfold Helium.parseStartTag
  repeat first | with_reducible exact h1 _ _ _ _ _ | exact h2 _ | sat1

theorem Sat.parseEndTag (F : FlatTags L) : Sat L (parseEndTag E H) := by
  have h1 : ∀ l p u, Sat L (Helium.cb H (.endElement l p u)) := fun l p u => Sat.cb (F.fin l p u)
  have h2 : ∀ f : St σ → List EInfo, Sat L (M.modify (fun s => { s with nodes := f s }) : P σ Unit) :=
    fun f => Sat.modify (fun s => F.nodes s _)
  unfold Helium.parseEndTag
  repeat first | with_reducible exact h1 _ _ _ | exact h2 _ | sat1

theorem chunk_tabs {s : St σ} {u : Unit} {h : Heap} (heq : (do
        let root ← newNode (mkElement (some (chunkDoc s).1) b!"pseudoroot")
        let _ ← M.attempt (nodeAddChild (chunkDoc s).1 root)
        pure () : HM Unit) ((chunkDoc s).2.upd (chunkDoc s).1 (fun x => { x with first := none, last := none })) = .ok u h) :
    Entered s.hc.heap h ((chunkDoc s).2.at' (chunkDoc s).1).first ((chunkDoc s).2.at' (chunkDoc s).1).last := by
  have h1 : Tabs0 s.hc.heap (chunkDoc s).2 := by
    unfold chunkDoc
    split
    · exact Tabs0.refl _
    · exact ⟨Tabs.alloc _ _ rfl, fun T => Gentle.alloc T ⟨rfl, rfl, rfl, rfl, rfl, rfl⟩⟩
  have h2 : Tabs0 (chunkDoc s).2 ((chunkDoc s).2.upd (chunkDoc s).1 (fun x => { x with first := none, last := none })) :=
    ⟨Tabs.upd _ _ _ rfl ⟨id, fun h => ⟨h, rfl, rfl⟩⟩, fun T => Gentle.upd T _ rfl OptNA.none OptNA.none (T.next _) (fun _ => ⟨rfl, rfl, rfl⟩) rfl (T.ents _) (T.elems _)⟩
  have h3 := keep_ok (KeepT.bind (N := fun _ => False) (KeepT.newNode (m := mkElement (some (chunkDoc s).1) b!"pseudoroot") rfl)
    (fun root => KeepT.bind (KeepT.attempt (KeepT.nodeAddChild (chunkDoc s).1 root)) (fun _ => KeepT.pure ())))
    (fun _ T => Calms.bind (Calms.newNA T ⟨rfl, rfl, rfl, rfl, rfl, rfl⟩ (by simp [mkElement])) (fun _ _ k hr =>
      Calms.bind (Calms.attempt (Calms.nodeAddChild k.typed hr)) (fun _ _ k2 _ => Calms.pure k2.typed trivial))) heq
  refine ⟨(h1.trans h2).trans h3, fun T => ?_⟩
  have T1 := (h1.calm T).typed
  have k := (h2.trans h3).calm T1
  exact ⟨(T1.first _).calm k, (T1.last _).calm k⟩

theorem post_parseChunk {L : Logic false H} (F : Frame L I) {body : P σ Unit} (hb : SatI L I body) (c : Bytes) (s : St σ) (hI : I s)
    (enter : ∀ d h c, Tabs0 s.hc.heap h → I s → I (chunkSt s d h c))
    (leave : ∀ d h c fc lc t, Entered s.hc.heap h fc lc → L.R (chunkSt s d h c) t → L.R s (chunkBack s d fc lc t))
    (leaveX : ∀ d h c fc lc t e, Entered s.hc.heap h fc lc → L.X (chunkSt s d h c) e t → L.X s e (chunkBack s d fc lc t)) :
    post (parseChunk E body c s) (L.R s) (L.X s) := by
  unfold Helium.parseChunk
  split
  · exact L.fail (by intro e' h; cases h)
  · dsimp only
    split
    · rename_i h heq
      have ht := chunk_tabs heq
      have := SatI.bind F hb (fun _ => Sat.satI ((Silent.chunkAdopt (chunkDoc s).1).sat L))
        (chunkSt s (chunkDoc s).1 h (E.decode .utf8 c)) (enter _ _ _ ht.tabs hI)
      cases hr : (do body; Helium.chunkAdopt (chunkDoc s).1 : P σ Unit) (chunkSt s (chunkDoc s).1 h (E.decode .utf8 c)) with
      | ok a t => rw [hr] at this; exact leave _ _ _ _ _ _ ht this
      | err e t => rw [hr] at this; exact leaveX _ _ _ _ _ _ _ ht this
      | panic => trivial
      | diverge => trivial
    · rename_i e h' heq
      exact absurd heq (NoErr.bind (NoErr.newNode _) (fun _ => NoErr.bind (NoErr.attempt _) (fun _ => NoErr.pure _)) _ _ _)
    · trivial
    · trivial

theorem SatI.parseChunk {L : Logic false H} (F : Flat E L I) {body : P σ Unit} (hb : SatI L I body) (c : Bytes) : SatI L I (parseChunk E body c) :=
  fun s hI => post_parseChunk E F.toFrame hb c s hI (F.enter s) (F.leave s) (F.leaveX s)

theorem Sat.wrapPost {p : P σ α} {s s' : St σ} {a : α} (h : M.wrap p s = .ok a s') : p s = .ok a s' := by
  unfold M.wrap at h
  split at h
  · cases h
  · exact h

theorem charRefBody_val {hex : Bool} {s s' : St σ} {v : Nat} (h : charRefBody hex s = .ok v s') :
    isChar v = true ∧ v ≤ 0x10FFFF := by
  unfold charRefBody at h
  simp only [bind_ok] at h
  obtain ⟨r, _, _, _, _, _, h⟩ := h
  cases hx : (charRefLoop hex 0 r).1 with
  | none => simp only [hx, raw_ok] at h
  | some w =>
    simp only [hx, bind_ok] at h
    obtain ⟨_, _, _, h⟩ := h
    split at h
    · rename_i hc
      simp only [pure_ok] at h
      obtain ⟨rfl, _⟩ := h
      simp only [Bool.and_eq_true, decide_eq_true_eq] at hc
      exact ⟨hc.1, hc.2.2⟩
    · simp only [raw_ok] at h

theorem parseCharRef_val {s s' : St σ} {v : Nat} (h : parseCharRef s = .ok v s') : isChar v = true ∧ v ≤ 0x10FFFF := by
  unfold parseCharRef at h
  simp only [bind_ok] at h
  obtain ⟨_, _, _, h⟩ := h
  split at h
  · exact charRefBody_val h
  · simp only [bind_ok] at h
    obtain ⟨_, _, _, h⟩ := h
    split at h
    · exact charRefBody_val h
    · simp only [raw_ok] at h

theorem SatI.parseReferenceG (F : Frame L I) {body : P σ Unit}
    (ent : ∀ s e s', I s → Helium.parseEntityRef E H s = .ok e s' → e.name s'.hc.heap = [] ∨ e.typ s'.hc.heap = 6 →
      e.content s'.hc.heap ≠ [] → L.Q (.characters (e.content s'.hc.heap)))
    (hc : ∀ s i s', I s → Helium.parseEntityRef E H s = .ok (.ptr i) s' →
        ∀ c, post ((do
          Helium.parseChunk E body c
          let s ← M.get
          Helium.cbRaw H (.reference (s.hc.heap.at' i).name) : P σ Unit) s') (L.R s') (L.X s')) :
    SatI L I (Helium.parseReference E H body) := by
  have hQ := F.admits
  unfold Helium.parseReference
  refine SatI.bind F (Sat.satI (Silent.sat (Silent.peek E) L)) (fun c => ?_)
  refine SatI.bind F (Sat.satI (Silent.sat (Silent.need _ _) L)) (fun _ => ?_)
  refine SatI.bind F (Sat.satI (Silent.sat (Silent.peekN E 2) L)) (fun c2 => ?_)
  split
  · -- character reference
    intro s hI
    have h1 := (Silent.parseCharRef (kb := kb)).wrap s
    simp only [Bind.bind, M.bind]
    cases hr : M.wrap Helium.parseCharRef s with
    | ok v s' =>
      rw [hr] at h1
      have hv : CharData (encodeRune v) :=
        have hr := parseCharRef_val (Sat.wrapPost hr)
        ⟨v, hr.1, hr.2, rfl⟩
      have hcb : Sat L (Helium.cb H (.characters (encodeRune v))) := Sat.cbi hQ trivial (by intro _ _ h; cases h) (Or.inr hv) trivial
      exact post_mono (hcb s') (fun _ h => L.trans (L.quiet h1) h)
        (fun _ _ h => L.transX (L.quiet h1) h)
    | err e s' => rw [hr] at h1; exact L.xquiet (L.fail h1.2) h1.1
    | panic => trivial
    | diverge => trivial
  · intro s hI
    have h1 := (Sat.parseEntityRef E hQ).wrap s
    simp only [Bind.bind, M.bind]
    cases hr : M.wrap (Helium.parseEntityRef E H) s with
    | ok e s' =>
      rw [hr] at h1
      have hr := Sat.wrapPost hr
      have hI' := F.inv h1 hI
      refine post_mono (R := L.R s') (X := L.X s') ?_ (fun _ h => L.trans h1 h) (fun _ _ h => L.transX h1 h)
      simp only [M.get]
      by_cases hn : e.name s'.hc.heap = [] ∨ e.typ s'.hc.heap = 6
      · simp only [hn, if_true]
        by_cases hc2 : e.content s'.hc.heap = []
        · simp only [hc2, if_true]; exact L.quiet (Quiet.refl _)
        · simp only [hc2, if_false]; exact Sat.cb (ent s e s' hI hr hn hc2) s'
      · simp only [hn, if_false]
        cases e with
        | pre p => exact L.quiet (Quiet.refl _)
        | ptr i =>
          simp only
          split
          · split
            · exact hc _ _ _ hI hr _
            · exact Silent.sat (Silent.raw _) L s'
          · exact Silent.sat (Silent.raw _) L s'
    | err e s' => rw [hr] at h1; exact h1
    | panic => trivial
    | diverge => trivial

theorem SatI.parseReference {L : Logic false H} (F : Flat E L I) {body : P σ Unit} (hb : SatI L I body) :
    SatI L I (Helium.parseReference E H body) :=
  SatI.parseReferenceG E F.toFrame F.ent (fun s i s' hI h c => post_seq (SatI.parseChunk E F hb c s' (F.inv (by
    have := Sat.parseEntityRef E F.admits s
    rwa [h] at this) hI)) (fun _ t =>
      Sat.bind (Silent.sat Silent.get L) (fun _ => Sat.cbRaw (F.admits.ev (.reference _) trivial nofun trivial trivial)) t))

theorem SatI.parseElementW (F : Frame L I) (T : FlatTags L) {body : P σ Unit} (hb : SatI L I body) : SatI L I (parseElementW E H body) := by
  unfold Helium.parseElementW
  refine SatI.bind F (Sat.satI (Sat.wrap (Sat.parseStartTag E F.admits T))) (fun _ => ?_)
  refine SatI.bind F (Sat.satI (Silent.sat (Silent.hasPrefix _) L)) (fun c => ?_)
  have h2 : SatI L I (M.wrap (Helium.parseEndTag E H)) := Sat.satI (Sat.wrap (Sat.parseEndTag E T))
  split
  · exact h2
  · refine SatI.bind F (SatI.wrap hb) (fun _ => h2)

theorem SatI.contentStep (F : Frame L I) {body : P σ Unit} (hb : SatI L I (Helium.parseReference E H body)) (he : SatI L I (Helium.parseElementW E H body)) : SatI L I (contentStep E H body) := by
  have hQ := F.admits
  unfold Helium.contentStep
  refine SatI.bind F (Sat.satI (Silent.sat (Silent.hasPrefix _) L)) (fun c => ?_)
  split
  · exact Sat.satI (Sat.wrap (Sat.parsePI E hQ))
  refine SatI.bind F (Sat.satI (Silent.sat (Silent.hasPrefix _) L)) (fun c => ?_)
  split
  · exact Sat.satI (Sat.wrap (Sat.parseCDSect E hQ))
  refine SatI.bind F (Sat.satI (Silent.sat (Silent.hasPrefix _) L)) (fun c => ?_)
  split
  · exact Sat.satI (Sat.wrap (Sat.parseComment hQ))
  refine SatI.bind F (Sat.satI (Silent.sat (Silent.hasPrefix _) L)) (fun c => ?_)
  split
  · exact SatI.wrap he
  refine SatI.bind F (Sat.satI (Silent.sat (Silent.hasPrefix _) L)) (fun c => ?_)
  split
  · exact SatI.wrap hb
  · exact Sat.satI (Sat.parseCharData E hQ false)

theorem SatI.parseContent (F : Frame L I)
    (hr : ∀ body : P σ Unit, SatI L I body → SatI L I (Helium.parseReference E H body))
    (he : ∀ body : P σ Unit, SatI L I body → SatI L I (Helium.parseElementW E H body)) (fuel : Nat) : SatI L I (parseContent E H fuel) := by
  induction fuel with
  | zero => exact fun s _ => trivial
  | succ n ih =>
    unfold Helium.parseContent
    refine SatI.bind F (Sat.satI (Silent.sat Silent.isDone L)) (fun c => ?_)
    split
    · exact Sat.satI (Silent.sat (Silent.pure _) L)
    refine SatI.bind F (Sat.satI (Silent.sat (Silent.hasPrefix _) L)) (fun c => ?_)
    split
    · exact Sat.satI (Silent.sat (Silent.pure _) L)
    exact SatI.bind F (SatI.contentStep E F (hr _ ih) (he _ ih)) (fun _ => ih)

theorem SatI.parseElement (F : Frame L I)
    (hr : ∀ body : P σ Unit, SatI L I body → SatI L I (Helium.parseReference E H body))
    (he : ∀ body : P σ Unit, SatI L I body → SatI L I (Helium.parseElementW E H body)) (fuel : Nat) :
    SatI L I (parseElement E H fuel) :=
  he _ (SatI.parseContent E F hr he fuel)

end
end Helium
