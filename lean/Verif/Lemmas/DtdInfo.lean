import Verif.Lemmas.EntLogic
/-! What is known of a document type declaration stays as it is while the rest of the tree is built. -/
namespace Helium
open Spec

/-- the part of a node that belongs to documents, document type declarations and entities. -/
def dinfo (x : Node) : Node :=
  { kind := x.kind, name := x.name, entType := x.entType, version := x.version, encoding := x.encoding, standalone := x.standalone,
    intSubset := x.intSubset, extSubset := x.extSubset, elements := x.elements, attributes := x.attributes, entities := x.entities,
    pentities := x.pentities, orig := x.orig, content := if x.kind = .entity then x.content else [] }

theorem dinfo_eq {x y : Node} (e : dinfo x = dinfo y) : x.kind = y.kind ∧ x.name = y.name ∧ x.entType = y.entType ∧ x.version = y.version ∧
    x.encoding = y.encoding ∧ x.standalone = y.standalone ∧ x.intSubset = y.intSubset ∧ x.extSubset = y.extSubset ∧ x.elements = y.elements ∧
    x.attributes = y.attributes ∧ x.entities = y.entities ∧ x.pentities = y.pentities ∧ x.orig = y.orig ∧ (x.kind = .entity → x.content = y.content) := by
  have g : ∀ {β : Type} (f : Node → β), f (dinfo x) = f (dinfo y) := fun f => congrArg f e
  have hk : x.kind = y.kind := g Node.kind
  refine ⟨hk, g Node.name, g Node.entType, g Node.version, g Node.encoding, g Node.standalone, g Node.intSubset, g Node.extSubset, g Node.elements,
    g Node.attributes, g Node.entities, g Node.pentities, g Node.orig, fun h => ?_⟩
  have hc : (if x.kind = .entity then x.content else []) = (if y.kind = .entity then y.content else []) := g Node.content
  rwa [if_pos h, if_pos (hk ▸ h)] at hc

/-- from `h` to `h'` nothing about document type declarations changed, and no entity is new. -/
structure Dtds (h h' : Heap) : Prop where
  size : h.size ≤ h'.size
  same : ∀ i, i < h.size → dinfo (h'.at' i) = dinfo (h.at' i)
  fresh : ∀ i, h.size ≤ i → i < h'.size → (h'.at' i).kind ≠ .entity

theorem Dtds.refl (h : Heap) : Dtds h h := ⟨Nat.le_refl _, fun _ _ => rfl, fun i h1 h2 => absurd h2 (Nat.not_lt.2 h1)⟩
theorem Dtds.trans {a b c : Heap} (h : Dtds a b) (k : Dtds b c) : Dtds a c := by
  refine ⟨Nat.le_trans h.size k.size, fun i hi => (k.same i (Nat.lt_of_lt_of_le hi h.size)).trans (h.same i hi), fun i h1 h2 => ?_⟩
  by_cases hb : i < b.size
  · rw [(dinfo_eq (k.same i hb)).1]
    exact h.fresh i h1 hb
  · exact k.fresh i (Nat.not_lt.1 hb) h2
theorem Dtds.upd (h : Heap) (i : Nat) {f : Node → Node} (hf : dinfo (f (h.at' i)) = dinfo (h.at' i)) : Dtds h (h.upd i f) := by
  refine ⟨Nat.le_refl _, fun j _ => ?_, fun i h1 h2 => absurd h2 (Nat.not_lt.2 h1)⟩
  by_cases hj : j = i
  · subst hj; simpa [Heap.upd, Heap.put] using hf
  · simp [Heap.upd, Heap.put, hj]
theorem Dtds.alloc (h : Heap) {m : Node} (hm : m.kind ≠ .entity) : Dtds h (h.alloc m) := by
  refine ⟨Nat.le_succ _, fun j hj => ?_, fun j h1 h2 => ?_⟩
  · simp [Heap.alloc, Nat.ne_of_lt hj]
  · have : j = h.size := Nat.le_antisymm (Nat.lt_succ_iff.1 h2) h1
    subst this
    simpa [Heap.alloc] using hm

/-- a computation that leaves document type declarations alone, from heap `h`. -/
def KeepAt (h : Heap) {α : Type} (p : HM α) : Prop :=
  (∀ a h', p h = .ok a h' → Dtds h h') ∧ (∀ e h', p h = .err e h' → Dtds h h')

/-- the same from every heap. -/
def KeepD {α : Type} (p : HM α) : Prop := ∀ h, KeepAt h p

section
variable {α β : Type}

theorem KeepD.bind {p : HM α} {f : α → HM β} (hp : KeepD p) (hf : ∀ a, KeepD (f a)) : KeepD (p >>= f) := by
  intro h
  have h1 := hp h
  show (∀ a h', M.bind p f h = .ok a h' → _) ∧ (∀ e h', M.bind p f h = .err e h' → _)
  unfold M.bind
  cases hps : p h with
  | ok a s' =>
    have h2 := hf a s'
    have h3 := h1.1 a s' hps
    exact ⟨fun b h' hb => h3.trans (h2.1 b h' hb), fun e h' hb => h3.trans (h2.2 e h' hb)⟩
  | err e s' =>
    refine ⟨fun b h' hb => (by cases hb), fun e h' hb => ?_⟩
    cases hb
    exact h1.2 _ _ hps
  | panic => exact ⟨fun b h' hb => (by cases hb), fun e h' hb => (by cases hb)⟩
  | diverge => exact ⟨fun b h' hb => (by cases hb), fun e h' hb => (by cases hb)⟩

theorem KeepD.of_read {p : HM α} (h1 : ∀ h a h', p h = .ok a h' → h' = h) (h2 : ∀ h e h', p h = .err e h' → h' = h) : KeepD p :=
  fun h => ⟨fun a h' hp => by rw [h1 h a h' hp]; exact Dtds.refl h, fun e h' hp => by rw [h2 h e h' hp]; exact Dtds.refl h⟩

theorem KeepD.pure (a : α) : KeepD (Pure.pure a : HM α) := .of_read (fun _ _ _ h => by cases h; rfl) (fun _ _ _ h => by cases h)
theorem KeepD.fail (e : Err) : KeepD (M.fail e : HM α) := .of_read (fun _ _ _ h => by cases h) (fun _ _ _ h => by cases h; rfl)
theorem KeepD.raw (e : EK) : KeepD (M.raw e : HM α) := .of_read (fun _ _ _ h => by cases h) (fun _ _ _ h => by cases h; rfl)
theorem KeepD.panic : KeepD (M.panic : HM α) := .of_read (fun _ _ _ h => by cases h) (fun _ _ _ h => by cases h)
theorem KeepD.diverge : KeepD (M.diverge : HM α) := .of_read (fun _ _ _ h => by cases h) (fun _ _ _ h => by cases h)
theorem KeepD.get : KeepD (M.get : HM Heap) := .of_read (fun _ _ _ h => by cases h; rfl) (fun _ _ _ h => by cases h)
theorem KeepD.node (i : Nat) : KeepD (node i) := .of_read (fun _ _ _ h => by cases h; rfl) (fun _ _ _ h => by cases h)
theorem KeepD.deref (o : Option α) : KeepD (M.deref o : HM α) := by
  unfold M.deref
  cases o
  · exact KeepD.panic
  · exact KeepD.pure _
theorem KeepD.content (i : Nat) : KeepD (content i) := by
  refine .of_read (fun h a h' hp => ?_) (fun h a h' hp => ?_)
  · unfold Helium.content at hp
    split at hp <;> cases hp
    rfl
  · unfold Helium.content at hp
    split at hp <;> cases hp
theorem KeepD.updNode (i : Nat) {f : Node → Node} (hf : ∀ x, dinfo (f x) = dinfo x) : KeepD (updNode i f) :=
  fun h => ⟨fun a h' hp => by cases hp; exact Dtds.upd h i (hf _), fun e h' hp => by cases hp⟩
theorem KeepD.newNode {m : Node} (hm : m.kind ≠ .entity) : KeepD (newNode m) :=
  fun h => ⟨fun a h' hp => by cases hp; exact Dtds.alloc h hm, fun e h' hp => by cases hp⟩
theorem KeepD.attempt {p : HM α} (hp : KeepD p) : KeepD (M.attempt p) := by
  intro h
  unfold KeepAt M.attempt
  cases hps : p h with
  | ok a s' => exact ⟨fun b h' hb => by cases hb; exact (hp h).1 _ _ hps, fun e h' hb => (by cases hb)⟩
  | err e s' => exact ⟨fun b h' hb => by cases hb; exact (hp h).2 _ _ hps, fun e h' hb => (by cases hb)⟩
  | panic => exact ⟨fun b h' hb => (by cases hb), fun e h' hb => (by cases hb)⟩
  | diverge => exact ⟨fun b h' hb => (by cases hb), fun e h' hb => (by cases hb)⟩
theorem KeepD.forM {l : List α} {f : α → HM Unit} (hf : ∀ a, KeepD (f a)) : KeepD (l.forM f) := by
  induction l with
  | nil => exact KeepD.pure ()
  | cons a t ih => exact KeepD.bind (hf a) (fun _ => ih)
theorem KeepD.addSibling (i j : Nat) : KeepD (addSibling i j) := by
  have key : ∀ h h1 : Heap, Dtds h h1 → ∀ k f, (∀ x, dinfo (f x) = dinfo x) → Dtds h (h1.upd k f) :=
    fun h h1 ht k f hf => ht.trans (Dtds.upd h1 k (hf _))
  intro h
  unfold KeepAt Helium.addSibling
  split
  · exact ⟨fun b h' hb => (by cases hb), fun e h' hb => (by cases hb)⟩
  · dsimp only
    split
    · refine ⟨fun b h' hb => ?_, fun e h' hb => (by cases hb)⟩
      cases hb
      refine key _ _ (key _ _ (key _ _ (Dtds.refl h) _ _ ?_) _ _ ?_) _ _ ?_ <;> exact fun _ => rfl
    · refine ⟨fun b h' hb => ?_, fun e h' hb => (by cases hb)⟩
      cases hb
      refine key _ _ (key _ _ (key _ _ (key _ _ (Dtds.refl h) _ _ ?_) _ _ ?_) _ _ ?_) _ _ ?_ <;> exact fun _ => rfl

theorem KeepAt.node {i : Nat} {f : Node → HM β} {h : Heap} (hf : KeepAt h (f (h.at' i))) : KeepAt h (node i >>= f) := hf

/-- text is added to nodes that are no entities. -/
theorem KeepAt.appendContent {h : Heap} {n : Nat} (b : Bytes) (hk : (h.at' n).kind ≠ .entity) : KeepAt h (appendContent n b) :=
  ⟨fun a h' hp => by cases hp; exact Dtds.upd h n (by simp [dinfo, hk]), fun e h' hp => by cases hp⟩

/-- closes a goal `KeepD (f ..)` for a known `f`; extended below. -/
syntax "keepD_leaf" : tactic
macro_rules | `(tactic| keepD_leaf) => `(tactic| first
  | with_reducible assumption
  | with_reducible exact KeepD.pure _ | with_reducible exact KeepD.fail _ | with_reducible exact KeepD.raw _ | with_reducible exact KeepD.panic
  | with_reducible exact KeepD.diverge | with_reducible exact KeepD.get | with_reducible exact KeepD.node _ | with_reducible exact KeepD.deref _
  | with_reducible exact KeepD.content _ | with_reducible exact KeepD.addSibling _ _
  | ((with_reducible refine KeepD.updNode _ ?_); intro x; first | exact rfl | (split <;> exact rfl)) | ((with_reducible refine KeepD.newNode ?_); simp [mkText, mkComment, mkPI, mkElement, mkAttr, mkDoc]))
macro "keepD1" : tactic => `(tactic| first
  | keepD_leaf
  | with_reducible refine KeepD.bind ?_ (fun _ => ?_) | with_reducible refine KeepD.attempt ?_
  | with_reducible refine KeepD.forM (fun _ => ?_)
  | split
  | dsimp only)
macro "keepD" : tactic => `(tactic| repeat keepD1)

theorem KeepD.nodeAddSibling (n c : Nat) : KeepD (nodeAddSibling n c) := by
  intro h
  unfold Helium.nodeAddSibling
  refine KeepAt.node ?_
  split
  · rename_i hk
    refine KeepAt.node ?_
    split
    · have : KeepAt h (Helium.content c >>= fun b => Helium.appendContent n b) := by
        unfold KeepAt
        show (∀ a h', M.bind (Helium.content c) _ h = .ok a h' → _) ∧ (∀ e h', M.bind (Helium.content c) _ h = .err e h' → _)
        unfold M.bind Helium.content
        cases contentF h (h.size + 1) c with
        | none => exact ⟨fun b h' hb => (by cases hb), fun e h' hb => (by cases hb)⟩
        | some b => exact KeepAt.appendContent b (by rw [hk]; simp)
      exact this
    · exact KeepD.addSibling _ _ h
  · exact KeepD.raw _ h
  · exact KeepD.addSibling _ _ h
macro_rules | `(tactic| keepD_leaf) => `(tactic| with_reducible exact KeepD.nodeAddSibling _ _)
theorem KeepD.addChild (n c : Nat) : KeepD (addChild n c) := by unfold Helium.addChild; keepD
macro_rules | `(tactic| keepD_leaf) => `(tactic| with_reducible exact KeepD.addChild _ _)
theorem KeepD.nodeAddChild (n c : Nat) : KeepD (nodeAddChild n c) := by
  intro h
  unfold Helium.nodeAddChild
  refine KeepAt.node ?_
  split
  · rename_i hk
    refine KeepAt.node ?_
    split
    · exact KeepAt.appendContent _ (by rw [hk]; simp)
    · exact KeepD.raw _ h
  · rename_i hk
    refine KeepAt.node ?_
    split
    · exact KeepAt.appendContent _ (by rw [hk]; simp)
    · exact KeepD.raw _ h
  · exact KeepD.addChild _ _ h
macro_rules | `(tactic| keepD_leaf) => `(tactic| with_reducible exact KeepD.nodeAddChild _ _)
theorem KeepD.nodeAddContent (n : Nat) (b : Bytes) : KeepD (nodeAddContent n b) := by
  intro h
  unfold Helium.nodeAddContent
  refine KeepAt.node ?_
  split
  · rename_i hk
    exact KeepAt.appendContent _ (by rw [hk]; simp)
  · rename_i hk
    exact KeepAt.appendContent _ (by rw [hk]; simp)
  · have : KeepD (Helium.newNode (mkText b) >>= fun t => Helium.nodeAddChild n t) := by keepD
    exact this h
macro_rules | `(tactic| keepD_leaf) => `(tactic| with_reducible exact KeepD.nodeAddContent _ _)
theorem KeepD.createCharRef (d : Option Nat) (n : Bytes) : KeepD (createCharRef d n) := by unfold Helium.createCharRef; keepD
macro_rules | `(tactic| keepD_leaf) => `(tactic| with_reducible exact KeepD.createCharRef _ _)

theorem Dtds.allocUpd (h : Heap) {m : Node} {f : Node → Node} (hm : (f m).kind ≠ .entity) : Dtds h ((h.alloc m).upd h.size f) := by
  refine ⟨Nat.le_succ _, fun j hj => ?_, fun j h1 h2 => ?_⟩
  · simp [Heap.upd, Heap.put, Heap.alloc, Nat.ne_of_lt hj]
  · have : j = h.size := Nat.le_antisymm (Nat.lt_succ_iff.1 h2) h1
    subst this
    simpa [Heap.upd, Heap.put, Heap.alloc] using hm

theorem KeepD.createReference (d : Nat) (n : Bytes) : KeepD (createReference d n) := by
  intro h
  unfold Helium.createReference Helium.createCharRef
  cases n with
  | nil => exact KeepD.raw _ h
  | cons c t =>
    have key : ∀ m : Node, m.kind ≠ .entity → KeepAt h (Helium.newNode m >>= fun n => M.get >>= fun (g : Heap) => match docGetEntity g d (g.at' n).name with
        | some ent => Helium.updNode n (fun x => { x with content := (g.at' ent).content, first := some ent, last := some ent }) >>= fun _ => Pure.pure n
        | none => Pure.pure n) := by
      intro m hm
      unfold KeepAt
      show (∀ a h', (match docGetEntity (h.alloc m) d ((h.alloc m).at' h.size).name with
        | some ent => Helium.updNode h.size (fun x => { x with content := ((h.alloc m).at' ent).content, first := some ent, last := some ent }) >>= fun _ => Pure.pure h.size
        | none => Pure.pure h.size : HM Nat) (h.alloc m) = .ok a h' → _) ∧ (∀ e h', (match docGetEntity (h.alloc m) d ((h.alloc m).at' h.size).name with
        | some ent => Helium.updNode h.size (fun x => { x with content := ((h.alloc m).at' ent).content, first := some ent, last := some ent }) >>= fun _ => Pure.pure h.size
        | none => Pure.pure h.size : HM Nat) (h.alloc m) = .err e h' → _)
      cases docGetEntity (h.alloc m) d ((h.alloc m).at' h.size).name with
      | some ent => exact ⟨fun a h' hp => by cases hp; exact Dtds.allocUpd h hm, fun e h' hp => by cases hp⟩
      | none => exact ⟨fun a h' hp => by cases hp; exact Dtds.alloc h hm, fun e h' hp => by cases hp⟩
    exact key _ (by simp)
macro_rules | `(tactic| keepD_leaf) => `(tactic| with_reducible exact KeepD.createReference _ _)
theorem KeepD.snlPush (st : SNL) (n : Nat) : KeepD (snlPush st n) := by unfold Helium.snlPush; keepD
macro_rules | `(tactic| keepD_leaf) => `(tactic| with_reducible exact KeepD.snlPush _ _)
theorem KeepD.snlFlush (d : Option Nat) (st : SNL) : KeepD (snlFlush d st) := by unfold Helium.snlFlush; keepD
macro_rules | `(tactic| keepD_leaf) => `(tactic| with_reducible exact KeepD.snlFlush _ _)

theorem KeepD.stringToNodeList (d : Option Nat) : ∀ fuel, (∀ v, KeepD (stringToNodeList d fuel v)) ∧
    ∀ l st, KeepD (stringToNodeList.loop d fuel l st) := by
  intro fuel
  induction fuel with
  | zero => exact ⟨fun v => by unfold Helium.stringToNodeList; keepD, fun l st => by unfold stringToNodeList.loop; keepD⟩
  | succ f ih =>
    refine ⟨fun v => by unfold Helium.stringToNodeList; exact ih.2 _ _, fun l st => ?_⟩
    cases l with
    | nil => unfold stringToNodeList.loop; keepD
    | cons c t =>
      unfold stringToNodeList.loop
      repeat first | with_reducible exact ih.1 _ | with_reducible exact ih.2 _ _ | keepD1

theorem KeepD.snl (d : Option Nat) (fuel : Nat) (v : Bytes) : KeepD (Helium.stringToNodeList d fuel v) := (KeepD.stringToNodeList d fuel).1 v
macro_rules | `(tactic| keepD_leaf) => `(tactic| with_reducible exact KeepD.snl _ _ _)
theorem KeepD.createAttribute (d : Option Nat) (fuel : Nat) (n v : Bytes) (ns : Option (Bytes × Bytes)) : KeepD (createAttribute d fuel n v ns) := by
  unfold Helium.createAttribute; keepD
macro_rules | `(tactic| keepD_leaf) => `(tactic| with_reducible exact KeepD.createAttribute _ _ _ _ _)
theorem KeepD.setAttribute (fuel e : Nat) (n v : Bytes) : KeepD (setAttribute fuel e n v) := by
  unfold Helium.setAttribute; keepD
macro_rules | `(tactic| keepD_leaf) => `(tactic| with_reducible exact KeepD.setAttribute _ _ _ _)
theorem KeepD.setNamespace (e : Nat) (p u : Bytes) (a : Bool) : KeepD (setNamespace e p u a) := by
  unfold Helium.setNamespace; keepD
macro_rules | `(tactic| keepD_leaf) => `(tactic| with_reducible exact KeepD.setNamespace _ _ _ _)
end

section
variable {σ α β : Type}

/-- a computation of the tree builder that leaves document type declarations alone. -/
def KeepDB (p : TB σ α) : Prop :=
  ∀ c, (∀ a c', p c = .ok a c' → Dtds c.heap c'.heap) ∧ (∀ e c', p c = .err e c' → Dtds c.heap c'.heap)

theorem KeepDB.bind {p : TB σ α} {f : α → TB σ β} (hp : KeepDB p) (hf : ∀ a, KeepDB (f a)) : KeepDB (p >>= f) := by
  intro h
  have h1 := hp h
  show (∀ a h', M.bind p f h = .ok a h' → _) ∧ (∀ e h', M.bind p f h = .err e h' → _)
  unfold M.bind
  cases hps : p h with
  | ok a s' =>
    have h2 := hf a s'
    have h3 := h1.1 a s' hps
    exact ⟨fun b h' hb => h3.trans (h2.1 b h' hb), fun e h' hb => h3.trans (h2.2 e h' hb)⟩
  | err e s' =>
    refine ⟨fun b h' hb => (by cases hb), fun e h' hb => ?_⟩
    cases hb
    exact h1.2 _ _ hps
  | panic => exact ⟨fun b h' hb => (by cases hb), fun e h' hb => (by cases hb)⟩
  | diverge => exact ⟨fun b h' hb => (by cases hb), fun e h' hb => (by cases hb)⟩

theorem KeepDB.of_read {p : TB σ α} (h1 : ∀ h a h', p h = .ok a h' → h'.heap = h.heap) (h2 : ∀ h e h', p h = .err e h' → h'.heap = h.heap) : KeepDB p :=
  fun h => ⟨fun a h' hp => by rw [h1 h a h' hp]; exact Dtds.refl _, fun e h' hp => by rw [h2 h e h' hp]; exact Dtds.refl _⟩

theorem KeepDB.pure (a : α) : KeepDB (Pure.pure a : TB σ α) := .of_read (fun _ _ _ h => by cases h; rfl) (fun _ _ _ h => by cases h)
theorem KeepDB.raw (e : EK) : KeepDB (M.raw e : TB σ α) := .of_read (fun _ _ _ h => by cases h) (fun _ _ _ h => by cases h; rfl)
theorem KeepDB.panic : KeepDB (M.panic : TB σ α) := .of_read (fun _ _ _ h => by cases h) (fun _ _ _ h => by cases h)
theorem KeepDB.get : KeepDB (M.get : TB σ (HC σ)) := .of_read (fun _ _ _ h => by cases h; rfl) (fun _ _ _ h => by cases h)
theorem KeepDB.modify {f : HC σ → HC σ} (hf : ∀ c, (f c).heap = c.heap) : KeepDB (M.modify f : TB σ Unit) :=
  .of_read (fun _ _ _ h => by cases h; exact hf _) (fun _ _ _ h => by cases h)
theorem KeepDB.deref (o : Option α) : KeepDB (M.deref o : TB σ α) := by
  unfold M.deref
  cases o
  · exact KeepDB.panic
  · exact KeepDB.pure _
theorem KeepDB.attempt {p : TB σ α} (hp : KeepDB p) : KeepDB (M.attempt p) := by
  intro h
  unfold M.attempt
  cases hps : p h with
  | ok a s' => exact ⟨fun b h' hb => by cases hb; exact (hp h).1 _ _ hps, fun e h' hb => (by cases hb)⟩
  | err e s' => exact ⟨fun b h' hb => by cases hb; exact (hp h).2 _ _ hps, fun e h' hb => (by cases hb)⟩
  | panic => exact ⟨fun b h' hb => (by cases hb), fun e h' hb => (by cases hb)⟩
  | diverge => exact ⟨fun b h' hb => (by cases hb), fun e h' hb => (by cases hb)⟩
theorem KeepDB.forM {l : List α} {f : α → TB σ Unit} (hf : ∀ a, KeepDB (f a)) : KeepDB (l.forM f) := by
  induction l with
  | nil => exact KeepDB.pure ()
  | cons a t ih => exact KeepDB.bind (hf a) (fun _ => ih)
theorem KeepDB.tbH {p : HM α} (hp : KeepD p) : KeepDB (tbH p : TB σ α) := by
  intro c
  unfold Helium.tbH
  cases hps : p c.heap with
  | ok a s' => exact ⟨fun b h' hb => by cases hb; exact (hp _).1 _ _ hps, fun e h' hb => (by cases hb)⟩
  | err e s' => exact ⟨fun b h' hb => (by cases hb), fun e h' hb => by cases hb; exact (hp _).2 _ _ hps⟩
  | panic => exact ⟨fun b h' hb => (by cases hb), fun e h' hb => (by cases hb)⟩
  | diverge => exact ⟨fun b h' hb => (by cases hb), fun e h' hb => (by cases hb)⟩
theorem KeepDB.tbDoc : KeepDB (tbDoc : TB σ Nat) := KeepDB.bind KeepDB.get (fun _ => KeepDB.deref _)

macro "keepDB1" : tactic => `(tactic| first
  | with_reducible assumption
  | with_reducible exact KeepDB.pure _ | with_reducible exact KeepDB.raw _ | with_reducible exact KeepDB.panic | with_reducible exact KeepDB.get
  | with_reducible exact KeepDB.deref _ | with_reducible exact KeepDB.tbDoc
  | ((with_reducible refine KeepDB.modify ?_); intro x; rfl)
  | ((with_reducible refine KeepDB.tbH ?_); solve | keepD)
  | with_reducible refine KeepDB.bind ?_ (fun _ => ?_) | with_reducible refine KeepDB.attempt ?_
  | with_reducible refine KeepDB.forM (fun _ => ?_)
  | split
  | dsimp only)
macro "keepDB" : tactic => `(tactic| repeat keepDB1)

theorem KeepDB.tbAttach (d n : Nat) : KeepDB (tbAttach d n : TB σ Unit) := by unfold Helium.tbAttach; keepDB
theorem KeepDB.tbSubset (v : HV) (d : Nat) : KeepDB (tbSubset v d : TB σ (Option Nat)) := by unfold Helium.tbSubset; keepDB
theorem KeepDB.tbAttr (fuel e : Nat) (a : AttrD) : KeepDB (tbAttr fuel e a : TB σ Unit) := by unfold Helium.tbAttr; keepDB

theorem KeepDB.out {p : TB σ HOut} (hp : KeepDB p) (c : HC σ) : Dtds c.heap (tbOut p c).2.heap := by
  unfold tbOut
  cases h : p c with
  | ok a s' => exact (hp c).1 _ _ h
  | err e s' => exact (hp c).2 _ _ h
  | panic => exact Dtds.refl _
  | diverge => exact Dtds.refl _
theorem KeepDB.unit {p : TB σ Unit} (hp : KeepDB p) (c : HC σ) : Dtds c.heap (tbUnit p c).2.heap :=
  KeepDB.out (KeepDB.bind hp (fun _ => KeepDB.pure _)) c

/-- events that do not belong to the document type declaration. -/
def Ev.outside : Ev → Prop
  | .internalSubset .. | .attributeDecl .. | .elementDecl .. | .entityDecl .. => False
  | _ => True

theorem treeBuilder_dtds (fuel : Nat) (v : HV) {ev : Ev} (he : ev.outside) (c : HC σ) : Dtds c.heap (treeBuilder fuel v ev c).2.heap := by
  have h1 : ∀ d n, KeepDB (Helium.tbAttach d n : TB σ Unit) := fun d n => KeepDB.tbAttach d n
  have h2 : ∀ v d, KeepDB (Helium.tbSubset v d : TB σ (Option Nat)) := fun v d => KeepDB.tbSubset v d
  have h3 : ∀ f e a, KeepDB (Helium.tbAttr f e a : TB σ Unit) := fun f e a => KeepDB.tbAttr f e a
  unfold treeBuilder
  cases ev <;> try exact (he : False).elim
  all_goals dsimp only
  all_goals first | refine KeepDB.unit ?_ c | refine KeepDB.out ?_ c
  all_goals try unfold tbStartElement
  all_goals try unfold tbEndElement
  all_goals try unfold tbCharacters
  all_goals try unfold tbPI
  all_goals try unfold tbComment
  all_goals try unfold tbReference
  all_goals repeat first | with_reducible exact h1 _ _ | with_reducible exact h2 _ _ | with_reducible exact h3 _ _ _ | keepDB1

end
end Helium
