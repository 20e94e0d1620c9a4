import Verif.Lemmas.Typed
/-! Entity tables only ever get the names that are added on purpose. -/
namespace Helium

theorem mapGet_nil {α : Type} (k : Bytes) : mapGet ([] : List (Bytes × α)) k = none := rfl

theorem mapGet_cons {α : Type} (k' : Bytes) (v : α) (m : List (Bytes × α)) (k : Bytes) :
    mapGet ((k', v) :: m) k = if k' = k then some v else mapGet m k := by
  unfold mapGet
  by_cases h : k' = k
  · simp [h]
  · simp [h]

theorem mapGet_mapSet {α : Type} (m : List (Bytes × α)) (k : Bytes) (v : α) (k' : Bytes) :
    mapGet (mapSet m k v) k' = if k = k' then some v else mapGet m k' := by
  induction m with
  | nil => simp [mapSet, mapGet_cons]
  | cons x m ih =>
    obtain ⟨a, b⟩ := x
    unfold mapSet
    by_cases h : a = k
    · subst h
      simp only [↓reduceIte, mapGet_cons]
      split <;> rfl
    · rw [if_neg h, mapGet_cons, mapGet_cons, ih]
      by_cases h2 : a = k'
      · subst h2; simp [Ne.symm h]
      · simp [h2]

/-- from `h` to `h'` no node has gone and none has ceased to be a default attribute. -/
def Grows (h h' : Heap) : Prop :=
  h.size ≤ h'.size ∧ ∀ i, i < h.size → (h.at' i).isDefault = true → (h'.at' i).isDefault = true

theorem Grows.refl (h : Heap) : Grows h h := ⟨Nat.le_refl _, fun _ _ x => x⟩
theorem Grows.trans {a b c : Heap} (h : Grows a b) (k : Grows b c) : Grows a c :=
  ⟨Nat.le_trans h.1 k.1, fun i hi x => k.2 i (Nat.lt_of_lt_of_le hi h.1) (h.2 i hi x)⟩
theorem Grows.upd (h : Heap) (i : Nat) {f : Node → Node} (hf : (h.at' i).isDefault = true → (f (h.at' i)).isDefault = true) :
    Grows h (h.upd i f) := by
  refine ⟨Nat.le_refl _, fun j _ x => ?_⟩
  by_cases hj : j = i
  · subst hj; simpa [Heap.upd, Heap.put] using hf x
  · simpa [Heap.upd, Heap.put, hj] using x
theorem Grows.alloc (h : Heap) (m : Node) : Grows h (h.alloc m) := by
  refine ⟨Nat.le_succ _, fun j hj x => ?_⟩
  have : j ≠ h.size := Nat.ne_of_lt hj
  simpa [Heap.alloc, this] using x

/-- a node that stays a default attribute and an entity of the same name and type, if it has been one. -/
def Lasts (x y : Node) : Prop :=
  (x.isDefault = true → y.isDefault = true) ∧ (x.kind = .entity → y.kind = .entity ∧ y.name = x.name ∧ y.entType = x.entType)

theorem Lasts.refl (x : Node) : Lasts x x := ⟨id, fun h => ⟨h, rfl, rfl⟩⟩

/-- the node of a declared general entity. -/
def IsEnt (x : Node) (n : Bytes) : Prop := x.kind = .entity ∧ x.name = n ∧ (x.entType = 1 ∨ x.entType = 2 ∨ x.entType = 3)

/-- from `h` to `h'` entities keep name and type, and what is new in an entity table is an entity of that name. -/
structure Ents (h h' : Heap) : Prop where
  size : h.size ≤ h'.size
  kept : ∀ i, i < h.size → (h.at' i).kind = .entity → (h'.at' i).kind = .entity ∧ (h'.at' i).name = (h.at' i).name ∧ (h'.at' i).entType = (h.at' i).entType
  tab : ∀ i n x, mapGet (h'.at' i).entities n = some x → x < h'.size ∧ IsEnt (h'.at' x) n ∨ ∃ j, mapGet (h.at' j).entities n = some x

theorem Ents.isEnt {h h' : Heap} (H : Ents h h') {x : Nat} {n : Bytes} (hx : x < h.size) (he : IsEnt (h.at' x) n) : x < h'.size ∧ IsEnt (h'.at' x) n := by
  obtain ⟨k1, k2, k3⟩ := H.kept x hx he.1
  exact ⟨Nat.lt_of_lt_of_le hx H.size, k1, k2.trans he.2.1, by rw [k3]; exact he.2.2⟩

theorem Ents.refl (h : Heap) : Ents h h := ⟨Nat.le_refl _, fun _ _ k => ⟨k, rfl, rfl⟩, fun i _ _ hx => .inr ⟨i, hx⟩⟩
theorem Ents.trans {a b c : Heap} (h : Ents a b) (k : Ents b c) : Ents a c := by
  refine ⟨Nat.le_trans h.size k.size, fun i hi he => ?_, fun i n x hx => ?_⟩
  · obtain ⟨h1, h2, h3⟩ := h.kept i hi he
    obtain ⟨k1, k2, k3⟩ := k.kept i (Nat.lt_of_lt_of_le hi h.size) h1
    exact ⟨k1, k2.trans h2, k3.trans h3⟩
  · rcases k.tab i n x hx with hn | ⟨j, hj⟩
    · exact .inl hn
    · rcases h.tab j n x hj with hn | hj
      · exact .inl (k.isEnt hn.1 hn.2)
      · exact .inr hj
theorem Ents.upd (h : Heap) (i : Nat) {f : Node → Node} (hf : (f (h.at' i)).entities = (h.at' i).entities) (hd : Lasts (h.at' i) (f (h.at' i))) :
    Ents h (h.upd i f) := by
  refine ⟨Nat.le_refl _, fun j _ he => ?_, fun j n x hx => .inr ⟨j, ?_⟩⟩
  · by_cases hj : j = i
    · subst hj; simpa [Heap.upd, Heap.put] using hd.2 he
    · simpa [Heap.upd, Heap.put, hj] using he
  · by_cases hj : j = i
    · subst hj
      rw [← hf]
      simpa [Heap.upd, Heap.put] using hx
    · simpa [Heap.upd, Heap.put, hj] using hx
theorem Ents.alloc (h : Heap) {m : Node} (hm : m.entities = []) : Ents h (h.alloc m) := by
  refine ⟨Nat.le_succ _, fun j hj he => ?_, fun j n x hx => .inr ⟨j, ?_⟩⟩
  · have : j ≠ h.size := Nat.ne_of_lt hj
    simpa [Heap.alloc, this] using he
  · by_cases hj : j = h.size
    · subst hj
      simp [Heap.alloc, hm, mapGet] at hx
    · simpa [Heap.alloc, hj] using hx

/-- from `h` to `h'` entity tables have got no new names but those in `N`, and the heap has grown. -/
structure Tabs (N : Bytes → Prop) (h h' : Heap) : Prop where
  names : ∀ i n x, mapGet (h'.at' i).entities n = some x → N n ∨ ∃ j y, mapGet (h.at' j).entities n = some y
  grows : Grows h h'
  ents : Ents h h'

/-- no new names at all, and attribute lists left alone. -/
structure Tabs0 (h h' : Heap) : Prop extends Tabs (fun _ => False) h h' where
  calm : Typed h → Gentle h h'

theorem Tabs.refl (N : Bytes → Prop) (h : Heap) : Tabs N h h := ⟨fun i _ x hx => Or.inr ⟨i, x, hx⟩, Grows.refl h, Ents.refl h⟩
theorem Tabs.trans {N : Bytes → Prop} {a b c : Heap} (h : Tabs N a b) (k : Tabs N b c) : Tabs N a c := by
  refine ⟨fun i n x hx => ?_, h.grows.trans k.grows, h.ents.trans k.ents⟩
  rcases k.names i n x hx with hn | ⟨j, y, hy⟩
  · exact Or.inl hn
  · exact h.names j n y hy
theorem Tabs0.refl (h : Heap) : Tabs0 h h := ⟨Tabs.refl _ h, Gentle.refl⟩
theorem Tabs0.trans {a b c : Heap} (h : Tabs0 a b) (k : Tabs0 b c) : Tabs0 a c :=
  ⟨h.toTabs.trans k.toTabs, fun T => (h.calm T).trans (k.calm (h.calm T).typed)⟩
theorem Tabs.mono {N M : Bytes → Prop} {a b : Heap} (h : Tabs N a b) (hm : ∀ n, N n → M n) : Tabs M a b := by
  refine ⟨fun i n x hx => ?_, h.grows, h.ents⟩
  rcases h.names i n x hx with hn | hy
  · exact Or.inl (hm n hn)
  · exact Or.inr hy

theorem Tabs.upd (N : Bytes → Prop) (h : Heap) (i : Nat) {f : Node → Node} (hf : (f (h.at' i)).entities = (h.at' i).entities)
    (hd : Lasts (h.at' i) (f (h.at' i))) : Tabs N h (h.upd i f) := by
  refine ⟨fun j n x hx => ?_, Grows.upd h i hd.1, Ents.upd h i hf hd⟩
  right
  by_cases hj : j = i
  · subst hj
    refine ⟨j, x, ?_⟩
    rw [← hf]
    simpa [Heap.upd, Heap.put] using hx
  · refine ⟨j, x, ?_⟩
    simpa [Heap.upd, Heap.put, hj] using hx

theorem Tabs.alloc (N : Bytes → Prop) (h : Heap) {m : Node} (hm : m.entities = []) : Tabs N h (h.alloc m) := by
  refine ⟨fun j n x hx => ?_, Grows.alloc h m, Ents.alloc h hm⟩
  right
  by_cases hj : j = h.size
  · subst hj
    simp [Heap.alloc, hm, mapGet] at hx
  · refine ⟨j, x, ?_⟩
    simpa [Heap.alloc, hj] using hx

/-- a computation that adds no names but those in `N` to entity tables. -/
def KeepT (N : Bytes → Prop) {α : Type} (p : HM α) : Prop :=
  ∀ h, (∀ a h', p h = .ok a h' → Tabs N h h') ∧ (∀ e h', p h = .err e h' → Tabs N h h')

section
variable {N : Bytes → Prop} {α β : Type}

theorem KeepT.bind {p : HM α} {f : α → HM β} (hp : KeepT N p) (hf : ∀ a, KeepT N (f a)) : KeepT N (p >>= f) := by
  intro h
  have h1 := hp h
  show (∀ a h', M.bind p f h = .ok a h' → _) ∧ (∀ e h', M.bind p f h = .err e h' → _)
  unfold M.bind
  cases hps : p h with
  | ok a s' =>
    have h2 := hf a s'
    have h3 := h1.1 a s' hps
    exact ⟨fun b h' hb => h3.trans (h2.1 b h' hb), fun e h' hb => h3.trans (h2.2 e h' hb)⟩
  | err e s' =>
    refine ⟨fun b h' hb => (by cases hb), fun e h' hb => ?_⟩
    cases hb
    exact h1.2 _ _ hps
  | panic => exact ⟨fun b h' hb => (by cases hb), fun e h' hb => (by cases hb)⟩
  | diverge => exact ⟨fun b h' hb => (by cases hb), fun e h' hb => (by cases hb)⟩

theorem KeepT.of_read {p : HM α} (h1 : ∀ h a h', p h = .ok a h' → h' = h) (h2 : ∀ h e h', p h = .err e h' → h' = h) : KeepT N p :=
  fun h => ⟨fun a h' hp => by rw [h1 h a h' hp]; exact Tabs.refl N h, fun e h' hp => by rw [h2 h e h' hp]; exact Tabs.refl N h⟩

theorem KeepT.pure (a : α) : KeepT N (Pure.pure a : HM α) := .of_read (fun _ _ _ h => by cases h; rfl) (fun _ _ _ h => by cases h)
theorem KeepT.fail (e : Err) : KeepT N (M.fail e : HM α) := .of_read (fun _ _ _ h => by cases h) (fun _ _ _ h => by cases h; rfl)
theorem KeepT.raw (e : EK) : KeepT N (M.raw e : HM α) := .of_read (fun _ _ _ h => by cases h) (fun _ _ _ h => by cases h; rfl)
theorem KeepT.panic : KeepT N (M.panic : HM α) := .of_read (fun _ _ _ h => by cases h) (fun _ _ _ h => by cases h)
theorem KeepT.diverge : KeepT N (M.diverge : HM α) := .of_read (fun _ _ _ h => by cases h) (fun _ _ _ h => by cases h)
theorem KeepT.get : KeepT N (M.get : HM Heap) := .of_read (fun _ _ _ h => by cases h; rfl) (fun _ _ _ h => by cases h)
theorem KeepT.node (i : Nat) : KeepT N (node i) := .of_read (fun _ _ _ h => by cases h; rfl) (fun _ _ _ h => by cases h)
theorem KeepT.deref (o : Option α) : KeepT N (M.deref o : HM α) := by
  unfold M.deref
  cases o
  · exact KeepT.panic
  · exact KeepT.pure _
theorem KeepT.content (i : Nat) : KeepT N (content i) := by
  refine .of_read (fun h a h' hp => ?_) (fun h a h' hp => ?_)
  · unfold Helium.content at hp
    split at hp <;> cases hp
    rfl
  · unfold Helium.content at hp
    split at hp <;> cases hp
theorem KeepT.updNode (i : Nat) {f : Node → Node} (hf : ∀ x, (f x).entities = x.entities ∧ Lasts x (f x)) :
    KeepT N (updNode i f) :=
  fun h => ⟨fun a h' hp => by cases hp; exact Tabs.upd N h i (hf _).1 (hf _).2, fun e h' hp => by cases hp⟩
theorem KeepT.newNode {m : Node} (hm : m.entities = []) : KeepT N (newNode m) :=
  fun h => ⟨fun a h' hp => by cases hp; exact Tabs.alloc N h hm, fun e h' hp => by cases hp⟩
theorem KeepT.attempt {p : HM α} (hp : KeepT N p) : KeepT N (M.attempt p) := by
  intro h
  unfold M.attempt
  cases hps : p h with
  | ok a s' => exact ⟨fun b h' hb => by cases hb; exact (hp h).1 _ _ hps, fun e h' hb => (by cases hb)⟩
  | err e s' => exact ⟨fun b h' hb => by cases hb; exact (hp h).2 _ _ hps, fun e h' hb => (by cases hb)⟩
  | panic => exact ⟨fun b h' hb => (by cases hb), fun e h' hb => (by cases hb)⟩
  | diverge => exact ⟨fun b h' hb => (by cases hb), fun e h' hb => (by cases hb)⟩
theorem KeepT.forM {l : List α} {f : α → HM Unit} (hf : ∀ a, KeepT N (f a)) : KeepT N (l.forM f) := by
  induction l with
  | nil => exact KeepT.pure ()
  | cons a t ih => exact KeepT.bind (hf a) (fun _ => ih)
theorem KeepT.addSibling (i j : Nat) : KeepT N (addSibling i j) := by
  have key : ∀ h h1 : Heap, Tabs N h h1 → ∀ k f, (∀ x, (f x : Node).entities = x.entities ∧ Lasts x (f x)) →
      Tabs N h (h1.upd k f) := fun h h1 ht k f hf => ht.trans (Tabs.upd N h1 k (hf _).1 (hf _).2)
  intro h
  unfold Helium.addSibling
  split
  · exact ⟨fun b h' hb => (by cases hb), fun e h' hb => (by cases hb)⟩
  · dsimp only
    split
    · refine ⟨fun b h' hb => ?_, fun e h' hb => (by cases hb)⟩
      cases hb
      refine key _ _ (key _ _ (key _ _ (Tabs.refl N h) _ _ ?_) _ _ ?_) _ _ ?_ <;> exact fun _ => ⟨rfl, id, fun h => ⟨h, rfl, rfl⟩⟩
    · refine ⟨fun b h' hb => ?_, fun e h' hb => (by cases hb)⟩
      cases hb
      refine key _ _ (key _ _ (key _ _ (key _ _ (Tabs.refl N h) _ _ ?_) _ _ ?_) _ _ ?_) _ _ ?_ <;> exact fun _ => ⟨rfl, id, fun h => ⟨h, rfl, rfl⟩⟩

/-- closes a goal `KeepT N (f ..)` for a known `f`; extended below. -/
syntax "keepT_leaf" : tactic
macro_rules | `(tactic| keepT_leaf) => `(tactic| first
  | with_reducible assumption
  | with_reducible exact KeepT.pure _ | with_reducible exact KeepT.fail _ | with_reducible exact KeepT.raw _ | with_reducible exact KeepT.panic
  | with_reducible exact KeepT.diverge | with_reducible exact KeepT.get | with_reducible exact KeepT.node _ | with_reducible exact KeepT.deref _
  | with_reducible exact KeepT.content _ | with_reducible exact KeepT.addSibling _ _
  | ((with_reducible refine KeepT.updNode _ ?_); intro x; first | exact ⟨rfl, id, fun h => ⟨h, rfl, rfl⟩⟩ | (split <;> exact ⟨rfl, id, fun h => ⟨h, rfl, rfl⟩⟩) | exact ⟨rfl, fun _ => rfl, fun h => ⟨h, rfl, rfl⟩⟩) | ((with_reducible refine KeepT.newNode ?_); rfl))
macro "keepT1" : tactic => `(tactic| first
  | keepT_leaf
  | with_reducible refine KeepT.bind ?_ (fun _ => ?_) | with_reducible refine KeepT.attempt ?_
  | with_reducible refine KeepT.forM (fun _ => ?_)
  | split
  | dsimp only)
macro "keepT" : tactic => `(tactic| repeat keepT1)

theorem KeepT.appendContent (n : Nat) (b : Bytes) : KeepT N (appendContent n b) := by unfold Helium.appendContent; keepT
macro_rules | `(tactic| keepT_leaf) => `(tactic| with_reducible exact KeepT.appendContent _ _)
theorem KeepT.nodeAddSibling (n c : Nat) : KeepT N (nodeAddSibling n c) := by unfold Helium.nodeAddSibling; keepT
macro_rules | `(tactic| keepT_leaf) => `(tactic| with_reducible exact KeepT.nodeAddSibling _ _)
theorem KeepT.addChild (n c : Nat) : KeepT N (addChild n c) := by unfold Helium.addChild; keepT
macro_rules | `(tactic| keepT_leaf) => `(tactic| with_reducible exact KeepT.addChild _ _)
theorem KeepT.nodeAddChild (n c : Nat) : KeepT N (nodeAddChild n c) := by unfold Helium.nodeAddChild; keepT
macro_rules | `(tactic| keepT_leaf) => `(tactic| with_reducible exact KeepT.nodeAddChild _ _)
theorem KeepT.nodeAddContent (n : Nat) (b : Bytes) : KeepT N (nodeAddContent n b) := by unfold Helium.nodeAddContent; keepT
macro_rules | `(tactic| keepT_leaf) => `(tactic| with_reducible exact KeepT.nodeAddContent _ _)
theorem KeepT.createCharRef (d : Option Nat) (n : Bytes) : KeepT N (createCharRef d n) := by unfold Helium.createCharRef; keepT
macro_rules | `(tactic| keepT_leaf) => `(tactic| with_reducible exact KeepT.createCharRef _ _)
theorem KeepT.createReference (d : Nat) (n : Bytes) : KeepT N (createReference d n) := by unfold Helium.createReference; keepT
macro_rules | `(tactic| keepT_leaf) => `(tactic| with_reducible exact KeepT.createReference _ _)
theorem KeepT.snlPush (st : SNL) (n : Nat) : KeepT N (snlPush st n) := by unfold Helium.snlPush; keepT
macro_rules | `(tactic| keepT_leaf) => `(tactic| with_reducible exact KeepT.snlPush _ _)
theorem KeepT.snlFlush (d : Option Nat) (st : SNL) : KeepT N (snlFlush d st) := by unfold Helium.snlFlush; keepT
macro_rules | `(tactic| keepT_leaf) => `(tactic| with_reducible exact KeepT.snlFlush _ _)

theorem KeepT.stringToNodeList (d : Option Nat) : ∀ fuel, (∀ v, KeepT N (stringToNodeList d fuel v)) ∧
    ∀ l st, KeepT N (stringToNodeList.loop d fuel l st) := by
  intro fuel
  induction fuel with
  | zero => exact ⟨fun v => by unfold Helium.stringToNodeList; keepT, fun l st => by unfold stringToNodeList.loop; keepT⟩
  | succ f ih =>
    refine ⟨fun v => by unfold Helium.stringToNodeList; exact ih.2 _ _, fun l st => ?_⟩
    cases l with
    | nil => unfold stringToNodeList.loop; keepT
    | cons c t =>
      unfold stringToNodeList.loop
      repeat first | with_reducible exact ih.1 _ | with_reducible exact ih.2 _ _ | keepT1

theorem KeepT.snl (d : Option Nat) (fuel : Nat) (v : Bytes) : KeepT N (Helium.stringToNodeList d fuel v) := (KeepT.stringToNodeList d fuel).1 v
macro_rules | `(tactic| keepT_leaf) => `(tactic| with_reducible exact KeepT.snl _ _ _)
theorem KeepT.createAttribute (d : Option Nat) (fuel : Nat) (n v : Bytes) (ns : Option (Bytes × Bytes)) : KeepT N (createAttribute d fuel n v ns) := by
  unfold Helium.createAttribute; keepT
macro_rules | `(tactic| keepT_leaf) => `(tactic| with_reducible exact KeepT.createAttribute _ _ _ _ _)
theorem KeepT.setAttribute (fuel e : Nat) (n v : Bytes) : KeepT N (setAttribute fuel e n v) := by
  unfold Helium.setAttribute; keepT
macro_rules | `(tactic| keepT_leaf) => `(tactic| with_reducible exact KeepT.setAttribute _ _ _ _)
theorem KeepT.setNamespace (e : Nat) (p u : Bytes) (a : Bool) : KeepT N (setNamespace e p u a) := by
  unfold Helium.setNamespace; keepT
macro_rules | `(tactic| keepT_leaf) => `(tactic| with_reducible exact KeepT.setNamespace _ _ _ _)
theorem KeepT.createInternalSubset (d : Nat) (n e s : Bytes) : KeepT N (createInternalSubset d n e s) := by
  unfold Helium.createInternalSubset; keepT
macro_rules | `(tactic| keepT_leaf) => `(tactic| with_reducible exact KeepT.createInternalSubset _ _ _ _)
theorem KeepT.dtdAddElementDecl (t : Nat) (n : Bytes) (typ : Nat) (ec : EC) : KeepT N (dtdAddElementDecl t n typ ec) := by
  unfold Helium.dtdAddElementDecl; keepT
macro_rules | `(tactic| keepT_leaf) => `(tactic| with_reducible exact KeepT.dtdAddElementDecl _ _ _ _)
theorem KeepT.dtdRegisterAttribute (t a : Nat) : KeepT N (dtdRegisterAttribute t a) := by
  unfold Helium.dtdRegisterAttribute; keepT
macro_rules | `(tactic| keepT_leaf) => `(tactic| with_reducible exact KeepT.dtdRegisterAttribute _ _)
theorem KeepT.addAttributeDecl (t : Option Nat) (e n p : Bytes) (a d : Nat) (v : Bytes) (tr : List Bytes) : KeepT N (addAttributeDecl t e n p a d v tr) := by
  unfold Helium.addAttributeDecl; keepT
macro_rules | `(tactic| keepT_leaf) => `(tactic| with_reducible exact KeepT.addAttributeDecl _ _ _ _ _ _ _ _)

theorem KeepT.setTreeDoc (doc : Option Nat) (fuel : Nat) : ∀ n, KeepT N (setTreeDoc doc fuel n) := by
  induction fuel with
  | zero => intro n; unfold Helium.setTreeDoc; exact KeepT.diverge
  | succ f ih =>
    intro n
    have hl : ∀ s, KeepT N (setTreeDoc.setList doc f s) := by
      intro s
      unfold setTreeDoc.setList
      repeat first | with_reducible exact ih _ | keepT1
    unfold Helium.setTreeDoc
    repeat first | with_reducible exact hl _ | keepT1
theorem KeepT.nodeSetTreeDoc (n : Nat) (doc : Option Nat) : KeepT N (nodeSetTreeDoc n doc) :=
  KeepT.bind KeepT.get (fun _ => KeepT.setTreeDoc _ _ _)
macro_rules | `(tactic| keepT_leaf) => `(tactic| with_reducible exact KeepT.nodeSetTreeDoc _ _)

/-- general entities are the only ones that get into the table. -/
theorem KeepT.dtdAddEntity (t : Nat) (n : Bytes) (typ : Nat) (p s c : Bytes) :
    KeepT (fun m => m = n ∧ (typ = 1 ∨ typ = 2 ∨ typ = 3)) (dtdAddEntity t n typ p s c) := by
  have key : ¬ (typ = 4 ∨ typ = 5) → (typ = 1 ∨ typ = 2 ∨ typ = 3 ∨ typ = 4 ∨ typ = 5) → ∀ (d : Option Nat) (h : Heap),
      Tabs (fun m => m = n ∧ (typ = 1 ∨ typ = 2 ∨ typ = 3)) h
        ((h.alloc { mkEntity n typ p s c [] with doc := d }).upd t (fun x => { x with entities := mapSet x.entities n h.size })) := by
    intro h1 h2 d h
    generalize hm0 : ({ mkEntity n typ p s c [] with doc := d } : Node) = m0
    have hE : IsEnt m0 n := by subst hm0; exact ⟨rfl, rfl, by show typ = 1 ∨ typ = 2 ∨ typ = 3; omega⟩
    have hT : m0.entities = [] := by subst hm0; rfl
    have hK := Tabs.alloc (fun m => m = n ∧ (typ = 1 ∨ typ = 2 ∨ typ = 3)) h hT
    have hlt : h.size < (h.alloc m0).size := Nat.lt_succ_self _
    have hat : (h.alloc m0).at' h.size = m0 := by simp [Heap.alloc]
    revert hlt hat hK
    generalize h.alloc m0 = g
    intro hK hlt hat
    have hold : ∀ j m x, m ≠ n → mapGet ((g.upd t (fun x => { x with entities := mapSet x.entities n h.size })).at' j).entities m = some x →
        mapGet (g.at' j).entities m = some x := by
      intro j m x hm hx
      by_cases hj : j = t
      · subst hj
        have hx : mapGet (mapSet (g.at' j).entities n h.size) m = some x := by simpa [Heap.upd, Heap.put] using hx
        rwa [mapGet_mapSet, if_neg (Ne.symm hm)] at hx
      · simpa [Heap.upd, Heap.put, hj] using hx
    have hkept : ∀ i, (g.at' i).kind = .entity → ((g.upd t (fun x => { x with entities := mapSet x.entities n h.size })).at' i).kind = .entity ∧
        ((g.upd t (fun x => { x with entities := mapSet x.entities n h.size })).at' i).name = (g.at' i).name ∧
        ((g.upd t (fun x => { x with entities := mapSet x.entities n h.size })).at' i).entType = (g.at' i).entType := by
      intro i he
      by_cases hi : i = t
      · subst hi; simpa [Heap.upd, Heap.put] using he
      · simpa [Heap.upd, Heap.put, hi] using he
    refine hK.trans ⟨fun j m x hx => ?_, Grows.upd g t id, Nat.le_refl _, fun i _ he => hkept i he, fun j m x hx => ?_⟩
    · by_cases hm : m = n
      · exact Or.inl ⟨hm, by omega⟩
      · exact .inr ⟨j, x, hold j m x hm hx⟩
    · by_cases hm : m = n
      · subst hm
        by_cases hj : j = t
        · subst hj
          have hx : mapGet (mapSet (g.at' j).entities m h.size) m = some x := by simpa [Heap.upd, Heap.put] using hx
          rw [mapGet_mapSet, if_pos rfl] at hx
          cases hx
          obtain ⟨k1, k2, k3⟩ := hkept h.size (by rw [hat]; exact hE.1)
          rw [hat] at k2 k3
          exact .inl ⟨hlt, k1, k2.trans hE.2.1, by rw [k3]; exact hE.2.2⟩
        · exact .inr ⟨j, by simpa [Heap.upd, Heap.put, hj] using hx⟩
      · exact .inr ⟨j, hold j m x hm hx⟩
  unfold Helium.dtdAddEntity
  split
  · keepT
  · split
    · rename_i h2
      refine KeepT.bind (KeepT.node _) (fun x => ?_)
      by_cases h1 : typ = 4 ∨ typ = 5
      · refine KeepT.bind (KeepT.newNode rfl) (fun e => ?_)
        simp only [h1, if_true]
        keepT
      · simp only [h1, if_false]
        intro h
        have hr : KeepT (fun m => m = n ∧ (typ = 1 ∨ typ = 2 ∨ typ = 3)) ((M.attempt (Helium.nodeAddChild t h.size)) >>= fun _ => (Pure.pure h.size : HM Nat)) := by keepT
        have hr := hr ((h.alloc { mkEntity n typ p s c [] with doc := x.doc }).upd t (fun x => { x with entities := mapSet x.entities n h.size }))
        exact ⟨fun a h' hp => (key h1 h2 x.doc h).trans (hr.1 a h' hp), fun a h' hp => (key h1 h2 x.doc h).trans (hr.2 a h' hp)⟩
    · keepT
end
end Helium
