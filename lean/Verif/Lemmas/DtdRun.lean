import Verif.Lemmas.HeapOps
import Verif.Lemmas.Tabs
import Verif.Spec.Dtd
/-! Effect of histories of declarations on the tables of a DTD. -/
namespace Helium
open Spec

/-- copying a content model changes nothing. -/
theorem copyEC_eq : ∀ e : EC, copyEC e = e ∧ copyEC.copyC2 e = e
  | .nil => ⟨rfl, rfl⟩
  | .mk t o n p c1 c2 => by
    obtain ⟨h1, h1'⟩ := copyEC_eq c1
    obtain ⟨h2, h2'⟩ := copyEC_eq c2
    constructor
    · rw [copyEC, h1, h2']
    · rw [copyEC.copyC2, h1, h2']

/-- data of a node apart from links and tables. -/
def core (x : Node) : Node :=
  { info x with entities := [], pentities := [], elements := [], attributes := [], declAttrs := none }

/-- an observation that depends on the data of a node only. -/
def CoreFn {β : Type} (F : Node → β) : Prop := ∀ x, F x = F (core x)

/-- observation through a table. -/
def look {β : Type} (F : Node → β) (h : Heap) (m : List (Bytes × Nat)) (k : Bytes) : Option β := (mapGet m k).map (fun i => F (h.at' i))

/-- all entries of a table are allocated. -/
def Below (h : Heap) (m : List (Bytes × Nat)) : Prop := ∀ k i, mapGet m k = some i → i < h.size

theorem look_keep {β : Type} {F : Node → β} (hF : CoreFn F) {h h' : Heap} {m : List (Bytes × Nat)} (hb : Below h m)
    (hc : ∀ x, x < h.size → core (h'.at' x) = core (h.at' x)) (k : Bytes) : look F h' m k = look F h m k := by
  unfold look
  cases hg : mapGet m k with
  | none => rfl
  | some i => simp only [Option.map_some]; rw [hF, hc i (hb k i hg), ← hF]

theorem look_set {β : Type} {F : Node → β} (hF : CoreFn F) {h h' : Heap} {m : List (Bytes × Nat)} (hb : Below h m)
    (hc : ∀ x, x < h.size → core (h'.at' x) = core (h.at' x)) (n k : Bytes) :
    look F h' (mapSet m n h.size) k = if n = k then some (F (h'.at' h.size)) else look F h m k := by
  have h1 := look_keep hF hb hc k
  unfold look at *
  rw [mapGet_mapSet]
  split
  · rfl
  · exact h1

theorem Below.mono {h h' : Heap} {m : List (Bytes × Nat)} (hb : Below h m) (hs : h.size ≤ h'.size) : Below h' m :=
  fun k i hg => Nat.lt_of_lt_of_le (hb k i hg) hs

theorem Below.set {h h' : Heap} {m : List (Bytes × Nat)} (hb : Below h m) (hs : h.size < h'.size) (n : Bytes) : Below h' (mapSet m n h.size) := by
  intro k i hg
  rw [mapGet_mapSet] at hg
  split at hg
  · cases hg; exact hs
  · exact Nat.lt_trans (hb k i hg) hs

/-- appending a new declaration node to the children of a DTD. -/
theorem addDecl_run {h h1 : Heap} {t : Nat} {l : List Nat} (C : ChildList h t l) (ht : t < h.size) (S : h1.size = h.size + 1)
    (K : ∀ x, x < h.size → (h1.at' x).first = (h.at' x).first ∧ (h1.at' x).last = (h.at' x).last ∧ (h1.at' x).next = (h.at' x).next ∧
      (h1.at' x).prev = (h.at' x).prev ∧ (h1.at' x).parent = (h.at' x).parent ∧ (h1.at' x).kind = (h.at' x).kind)
    (N1 : (h1.at' h.size).next = none) (N2 : (h1.at' h.size).prev = none) (N3 : (h1.at' h.size).kind ≠ .text)
    (kt : (h.at' t).kind = .dtd) (kd : ∀ y ∈ l, (h.at' y).kind ≠ .doc) :
    ∃ h', nodeAddChild t h.size h1 = .ok () h' ∧ h'.size = h.size + 1 ∧ (∀ x, info (h'.at' x) = info (h1.at' x)) ∧ ChildList h' t (l ++ [h.size]) := by
  have C1 : ChildList h1 t l := by
    refine ⟨?_, ?_, ?_, ?_, ?_, C.nodup, ?_⟩
    · rw [(K t ht).1, C.first]
    · rw [(K t ht).2.1, C.last]
    · intro a c b hl
      rw [(K c (C.alloc c (by rw [hl]; simp))).2.2.1]; exact C.next a c b hl
    · intro a c b hl
      rw [(K c (C.alloc c (by rw [hl]; simp))).2.2.2.1]; exact C.prev a c b hl
    · intro c hc
      rw [(K c (C.alloc c hc)).2.2.2.2.1]; exact C.parent c hc
    · intro c hc; rw [S]; exact Nat.lt_succ_of_lt (C.alloc c hc)
  have hcm : h.size ∉ l := fun hx => Nat.lt_irrefl _ (C.alloc _ hx)
  obtain ⟨h', e1, X⟩ := nodeAddChild_links C1 hcm N1 (fun _ => N2) (by rw [(K t ht).2.2.2.2.2, kt]; decide)
    (fun y hy => by rw [(K y (C.alloc y hy)).2.2.2.2.2]; exact kd y hy) N3
  exact ⟨h', e1, by rw [X.size, S], X.info, C1.appended hcm (by omega) X⟩

/-- key-level selection of element declarations. -/
def elSel (k : Bytes) : DOp → Option (Nat × EC)
  | .element m typ ec => if elemKey (splitColon m).2 (splitColon m).1 = k ∧ Consistent typ ec then some (typ, ec) else none
  | _ => none

/-- key-level selection of attribute declarations. -/
def atSel (k : Bytes) : DOp → Option AttData
  | .attr e n p ty d v tr => if attrKey n p e = k ∧ 1 ≤ ty ∧ ty ≤ 10 then some ⟨e, n, p, ty, d, v, tr⟩ else none
  | _ => none

def entView (x : Node) : EntData := ⟨x.name, x.entType, x.externalID, x.systemID, x.content⟩
def elView (x : Node) : Nat × EC := (x.declType, x.ec)
def atView (x : Node) : AttData := ⟨x.elem, x.name, x.pfx, x.atype, x.defType, x.defValue, x.tree⟩

theorem entView_core : CoreFn entView := fun _ => rfl
theorem elView_core : CoreFn elView := fun _ => rfl
theorem atView_core : CoreFn atView := fun _ => rfl

/-- invariant of a history of declarations. -/
structure DInv (h : Heap) (t : Nat) (ops : List DOp) : Prop where
  alloc : t < h.size
  kind : (h.at' t).kind = .dtd
  ext : ∀ d, (h.at' d).extSubset ≠ some t
  kids : ∃ l, ChildList h t l ∧ ∀ y ∈ l, (h.at' y).kind ≠ .doc
  b1 : Below h (h.at' t).entities
  b2 : Below h (h.at' t).pentities
  b3 : Below h (h.at' t).elements
  b4 : Below h (h.at' t).attributes
  gen : ∀ n, look entView h (h.at' t).entities n = lastSome (DOp.general n) ops
  par : ∀ n, look entView h (h.at' t).pentities n = lastSome (DOp.parameter n) ops
  el : ∀ k, look elView h (h.at' t).elements k = ops.findSome? (elSel k)
  att : ∀ k, look atView h (h.at' t).attributes k = ops.findSome? (atSel k)

theorem lastSome_snoc {α β : Type} (f : α → Option β) (l : List α) (x : α) : lastSome f (l ++ [x]) = (f x).or (lastSome f l) := by
  unfold lastSome
  rw [List.reverse_append]
  simp only [List.reverse_cons, List.reverse_nil, List.nil_append, List.cons_append, List.findSome?_cons]
  cases f x <;> rfl

theorem findSome_snoc {α β : Type} (f : α → Option β) (l : List α) (x : α) : (l ++ [x]).findSome? f = (l.findSome? f).or (f x) := by
  rw [List.findSome?_append]
  simp [List.findSome?_cons]
  cases f x <;> rfl

theorem DInv.fresh {h : Heap} {t : Nat} (F : FreshDtd h t) : DInv h t [] := by
  refine ⟨F.alloc, F.kind, F.ext, ⟨[], ?_, by simp⟩, ?_, ?_, ?_, ?_, ?_, ?_, ?_, ?_⟩
  · exact ⟨by simp [F.first], by simp [F.last], by simp, by simp, by simp, by simp, by simp⟩
  all_goals first
    | (intro k i hg; simp [F.entities, F.pentities, F.elements, F.attributes, mapGet_nil] at hg)
    | (intro k; simp [F.entities, F.pentities, F.elements, F.attributes, look, mapGet_nil, lastSome])

/-- a rejected declaration that selects nothing. -/
theorem DInv.skip {h : Heap} {t : Nat} {ops : List DOp} (I : DInv h t ops) (op : DOp) (g : ∀ n, op.general n = none) (p : ∀ n, op.parameter n = none)
    (e : ∀ k, elSel k op = none ∨ (ops.findSome? (elSel k)).isSome) (a : ∀ k, atSel k op = none ∨ (ops.findSome? (atSel k)).isSome) :
    DInv h t (ops ++ [op]) := by
  refine ⟨I.alloc, I.kind, I.ext, I.kids, I.b1, I.b2, I.b3, I.b4, ?_, ?_, ?_, ?_⟩
  · intro n; rw [I.gen, lastSome_snoc, g]; rfl
  · intro n; rw [I.par, lastSome_snoc, p]; rfl
  · intro k; rw [I.el, findSome_snoc]
    rcases e k with e | e
    · rw [e]; simp
    · rw [Option.or_of_isSome e]
  · intro k; rw [I.att, findSome_snoc]
    rcases a k with e | e
    · rw [e]; simp
    · rw [Option.or_of_isSome e]

/-- an accepted declaration: a new node, one table entry. -/
theorem DInv.step {h h' : Heap} {t : Nat} {ops : List DOp} {l : List Nat} (I : DInv h t ops) (op : DOp) (S : h'.size = h.size + 1)
    (C : ChildList h' t l) (kd : ∀ y ∈ l, (h'.at' y).kind ≠ .doc) (hc : ∀ x, x < h.size → core (h'.at' x) = core (h.at' x))
    (hext : ∀ d, h.size ≤ d → (h'.at' d).extSubset ≠ some t)
    (t1 : ((h'.at' t).entities = (h.at' t).entities ∧ ∀ n, op.general n = none) ∨
      ∃ m, (h'.at' t).entities = mapSet (h.at' t).entities m h.size ∧ ∀ n, op.general n = if m = n then some (entView (h'.at' h.size)) else none)
    (t2 : ((h'.at' t).pentities = (h.at' t).pentities ∧ ∀ n, op.parameter n = none) ∨
      ∃ m, (h'.at' t).pentities = mapSet (h.at' t).pentities m h.size ∧ ∀ n, op.parameter n = if m = n then some (entView (h'.at' h.size)) else none)
    (t3 : ((h'.at' t).elements = (h.at' t).elements ∧ ∀ n, elSel n op = none) ∨
      ∃ m, (h'.at' t).elements = mapSet (h.at' t).elements m h.size ∧ mapGet (h.at' t).elements m = none ∧
        ∀ n, elSel n op = if m = n then some (elView (h'.at' h.size)) else none)
    (t4 : ((h'.at' t).attributes = (h.at' t).attributes ∧ ∀ n, atSel n op = none) ∨
      ∃ m, (h'.at' t).attributes = mapSet (h.at' t).attributes m h.size ∧ mapGet (h.at' t).attributes m = none ∧
        ∀ n, atSel n op = if m = n then some (atView (h'.at' h.size)) else none) :
    DInv h' t (ops ++ [op]) := by
  have hlt : h.size < h'.size := by omega
  have hf : ∀ {β : Type} (F : Node → β), CoreFn F → F (h'.at' t) = F (h.at' t) := fun F hF => by rw [hF, hc t I.alloc, ← hF]
  refine ⟨by have := I.alloc; omega, ?_, ?_, ⟨l, C, kd⟩, ?_, ?_, ?_, ?_, ?_, ?_, ?_, ?_⟩
  · rw [hf (fun x => x.kind) (fun _ => rfl)]; exact I.kind
  · intro d
    by_cases hd : d < h.size
    · have : (h'.at' d).extSubset = (h.at' d).extSubset := by
        have := congrArg (fun x => x.extSubset) (hc d hd); exact this
      rw [this]; exact I.ext d
    · exact hext d (by omega)
  · rcases t1 with ⟨e, _⟩ | ⟨m, e, _⟩
    · rw [e]; exact I.b1.mono (by omega)
    · rw [e]; exact I.b1.set hlt m
  · rcases t2 with ⟨e, _⟩ | ⟨m, e, _⟩
    · rw [e]; exact I.b2.mono (by omega)
    · rw [e]; exact I.b2.set hlt m
  · rcases t3 with ⟨e, _⟩ | ⟨m, e, _⟩
    · rw [e]; exact I.b3.mono (by omega)
    · rw [e]; exact I.b3.set hlt m
  · rcases t4 with ⟨e, _⟩ | ⟨m, e, _⟩
    · rw [e]; exact I.b4.mono (by omega)
    · rw [e]; exact I.b4.set hlt m
  · intro n
    rw [lastSome_snoc]
    rcases t1 with ⟨e, g⟩ | ⟨m, e, g⟩
    · rw [e, look_keep entView_core I.b1 hc, I.gen, g]; rfl
    · rw [e, look_set entView_core I.b1 hc, I.gen, g]; split <;> rfl
  · intro n
    rw [lastSome_snoc]
    rcases t2 with ⟨e, g⟩ | ⟨m, e, g⟩
    · rw [e, look_keep entView_core I.b2 hc, I.par, g]; rfl
    · rw [e, look_set entView_core I.b2 hc, I.par, g]; split <;> rfl
  · intro n
    rw [findSome_snoc, ← I.el]
    rcases t3 with ⟨e, g⟩ | ⟨m, e, hn, g⟩
    · rw [e, look_keep elView_core I.b3 hc, g]; simp
    · rw [e, look_set elView_core I.b3 hc, g]
      split
      · rename_i hm; subst hm; simp [look, hn]
      · simp
  · intro n
    rw [findSome_snoc, ← I.att]
    rcases t4 with ⟨e, g⟩ | ⟨m, e, hn, g⟩
    · rw [e, look_keep atView_core I.b4 hc, g]; simp
    · rw [e, look_set atView_core I.b4 hc, g]
      split
      · rename_i hm; subst hm; simp [look, hn]
      · simp

/-- when a declaration is accepted after the history `ops`. -/
def OpAccepted (ops : List DOp) : DOp → Prop
  | .entity _ ty _ _ _ => 1 ≤ ty ∧ ty ≤ 5
  | .element n ty ec => Consistent ty ec ∧ ops.findSome? (elSel (elemKey (splitColon n).2 (splitColon n).1)) = none
  | .attr e n p ty _ _ _ => (1 ≤ ty ∧ ty ≤ 10) ∧ ops.findSome? (atSel (attrKey n p e)) = none

theorem alloc_lt {h : Heap} {x : Nat} (hx : x < h.size) (n : Node) : (h.alloc n).at' x = h.at' x := by
  show (if x = h.size then n else h.at' x) = _
  rw [if_neg (by omega)]
theorem alloc_gt {h : Heap} {x : Nat} (hx : h.size < x) (n : Node) : (h.alloc n).at' x = h.at' x := by
  show (if x = h.size then n else h.at' x) = _
  rw [if_neg (by omega)]
theorem alloc_new {h : Heap} (n : Node) : (h.alloc n).at' h.size = n := by
  show (if h.size = h.size then n else h.at' h.size) = _
  rw [if_pos rfl]

theorem core_of_info {x y : Node} (h : info x = info y) : core x = core y := by unfold core; rw [h]

/-- allocating a declaration node, changing the tables of the DTD and appending the node. -/
theorem commit {h : Heap} {t : Nat} {ops : List DOp} (I : DInv h t ops) (N : Node) (n1 : N.next = none) (n2 : N.prev = none)
    (n3 : N.kind ≠ .text) (n4 : N.kind ≠ .doc) (n5 : N.extSubset = none) (f : Node → Node) (hf : ∀ x, core (f x) = core x)
    (hl : ∀ x, (f x).first = x.first ∧ (f x).last = x.last ∧ (f x).next = x.next ∧ (f x).prev = x.prev ∧ (f x).parent = x.parent ∧ (f x).kind = x.kind) :
    ∃ h' l, nodeAddChild t h.size ((h.alloc N).upd t f) = .ok () h' ∧ h'.size = h.size + 1 ∧
      ChildList h' t l ∧ (∀ y ∈ l, (h'.at' y).kind ≠ .doc) ∧ (∀ x, x < h.size → core (h'.at' x) = core (h.at' x)) ∧
      (∀ d, h.size ≤ d → (h'.at' d).extSubset ≠ some t) ∧ info (h'.at' t) = info (f (h.at' t)) ∧ core (h'.at' h.size) = core N := by
  obtain ⟨l, C, kd⟩ := I.kids
  have ht : t ≠ h.size := by have := I.alloc; omega
  have K : ∀ x, x < h.size → ((h.alloc N).upd t f).at' x = if x = t then f (h.at' t) else h.at' x := by
    intro x hx
    rw [at'_upd, alloc_lt I.alloc, alloc_lt hx]
  have K2 : ((h.alloc N).upd t f).at' h.size = N := by
    rw [at'_upd, if_neg ht.symm, alloc_new]
  obtain ⟨h', e1, e2, e3, e4⟩ := addDecl_run (h1 := (h.alloc N).upd t f) C I.alloc rfl
    (by intro x hx; rw [K x hx]; split
        · rename_i hxt; subst hxt; exact hl _
        · exact ⟨rfl, rfl, rfl, rfl, rfl, rfl⟩) (by rw [K2, n1]) (by rw [K2, n2]) (by rw [K2]; exact n3) I.kind kd
  have hcore : ∀ x, x < h.size → core (h'.at' x) = core (h.at' x) := by
    intro x hx
    rw [core_of_info (e3 x), K x hx]
    split
    · rename_i hxt; subst hxt; exact hf _
    · rfl
  refine ⟨h', _, e1, e2, e4, ?_, hcore, ?_, ?_, ?_⟩
  · intro y hy
    simp only [List.mem_append, List.mem_singleton] at hy
    rcases hy with hy | rfl
    · have : (h'.at' y).kind = (h.at' y).kind := congrArg (fun x => x.kind) (hcore y (C.alloc y hy))
      rw [this]; exact kd y hy
    · have : (h'.at' h.size).kind = _ := congrArg (fun x => x.kind) (e3 h.size)
      rw [this, K2]; exact n4
  · intro d hd
    have h1 : (h'.at' d).extSubset = _ := congrArg (fun x => x.extSubset) (e3 d)
    rw [h1]
    by_cases hds : d = h.size
    · subst hds; rw [K2]; show N.extSubset ≠ _; rw [n5]; simp
    · rw [at'_upd, if_neg (by have := I.alloc; omega), alloc_gt (by omega)]; exact I.ext d
  · rw [e3, K t I.alloc, if_pos rfl]
  · rw [core_of_info (e3 _), K2]

theorem ofInfo {x y : Node} (h : info x = info y) {β : Type} (G : Node → β) (hG : ∀ x, G x = G (info x)) : G x = G y := by
  rw [hG, h, ← hG]

theorem ofCore {x y : Node} (h : core x = core y) {β : Type} (G : Node → β) (hG : CoreFn G) : G x = G y := by
  rw [hG, h, ← hG]

theorem entity_step {h : Heap} {t : Nat} {ops : List DOp} (I : DInv h t ops) (n : Bytes) (ty : Nat) (p s c : Bytes) :
    ∃ r h', M.attempt (DOp.run t (.entity n ty p s c)) h = .ok r h' ∧ DInv h' t (ops ++ [.entity n ty p s c]) ∧
      ((∃ i, r = .ok i) ↔ OpAccepted ops (.entity n ty p s c)) := by
  by_cases hty : ty = 1 ∨ ty = 2 ∨ ty = 3 ∨ ty = 4 ∨ ty = 5
  · have h6 : ty ≠ 6 := by omega
    have hacc : ∀ i : Nat, (∃ j, (Except.ok i : Except Err Nat) = .ok j) ↔ OpAccepted ops (.entity n ty p s c) := by
      intro i
      simp only [OpAccepted]
      exact ⟨fun _ => by omega, fun _ => ⟨_, rfl⟩⟩
    by_cases h45 : ty = 4 ∨ ty = 5
    · obtain ⟨h', l, e1, e2, e3, e4, e5, e6, e7, e8⟩ := commit I { mkEntity n ty p s c [] with doc := (h.at' t).doc } rfl rfl nofun nofun rfl
        (fun x => { x with pentities := mapSet x.pentities n h.size }) (fun _ => rfl) (fun _ => ⟨rfl, rfl, rfl, rfl, rfl, rfl⟩)
      have hr : DOp.run t (.entity n ty p s c) h = .ok h.size h' := by
        show dtdAddEntity t n ty p s c h = _
        unfold dtdAddEntity
        simp only [if_neg h6, if_pos hty, node_bind, newNode_bind, if_pos h45, updNode_bind, attempt_bind]
        erw [e1]
        rfl
      refine ⟨.ok h.size, h', by unfold M.attempt; rw [hr], ?_, hacc _⟩
      refine I.step _ e2 e3 e4 e5 e6 (.inl ⟨ofInfo e7 (fun x => x.entities) (fun _ => rfl), ?_⟩)
        (.inr ⟨n, ofInfo e7 (fun x => x.pentities) (fun _ => rfl), ?_⟩)
        (.inl ⟨ofInfo e7 (fun x => x.elements) (fun _ => rfl), fun _ => rfl⟩) (.inl ⟨ofInfo e7 (fun x => x.attributes) (fun _ => rfl), fun _ => rfl⟩)
      · intro m; simp only [DOp.general]; rw [if_neg (by omega)]
      · intro m
        rw [ofCore e8 entView entView_core]
        simp only [DOp.parameter]
        simp [h45, entView, mkEntity]
    · obtain ⟨h', l, e1, e2, e3, e4, e5, e6, e7, e8⟩ := commit I { mkEntity n ty p s c [] with doc := (h.at' t).doc } rfl rfl nofun nofun rfl
        (fun x => { x with entities := mapSet x.entities n h.size }) (fun _ => rfl) (fun _ => ⟨rfl, rfl, rfl, rfl, rfl, rfl⟩)
      have hr : DOp.run t (.entity n ty p s c) h = .ok h.size h' := by
        show dtdAddEntity t n ty p s c h = _
        unfold dtdAddEntity
        simp only [if_neg h6, if_pos hty, node_bind, newNode_bind, if_neg h45, updNode_bind, attempt_bind]
        erw [e1]
        rfl
      refine ⟨.ok h.size, h', by unfold M.attempt; rw [hr], ?_, hacc _⟩
      refine I.step _ e2 e3 e4 e5 e6 (.inr ⟨n, ofInfo e7 (fun x => x.entities) (fun _ => rfl), ?_⟩)
        (.inl ⟨ofInfo e7 (fun x => x.pentities) (fun _ => rfl), ?_⟩)
        (.inl ⟨ofInfo e7 (fun x => x.elements) (fun _ => rfl), fun _ => rfl⟩) (.inl ⟨ofInfo e7 (fun x => x.attributes) (fun _ => rfl), fun _ => rfl⟩)
      · intro m
        rw [ofCore e8 entView entView_core]
        have : ty = 1 ∨ ty = 2 ∨ ty = 3 := by omega
        simp only [DOp.general]
        simp [this, entView, mkEntity]
      · intro m; simp only [DOp.parameter]; rw [if_neg (fun hh => h45 hh.2)]
  · have hbad : ∃ e, DOp.run t (.entity n ty p s c) h = .err e h := by
      show ∃ e, dtdAddEntity t n ty p s c h = .err e h
      unfold dtdAddEntity
      by_cases h6 : ty = 6
      · rw [if_pos h6]; exact ⟨_, rfl⟩
      · rw [if_neg h6, if_neg hty]; exact ⟨_, rfl⟩
    obtain ⟨e, he⟩ := hbad
    refine ⟨.error e, h, by unfold M.attempt; rw [he], ?_, ?_⟩
    · refine I.skip _ ?_ ?_ (fun _ => .inl rfl) (fun _ => .inl rfl)
      · intro m; simp only [DOp.general]; rw [if_neg (by omega)]
      · intro m; simp only [DOp.parameter]; rw [if_neg (by omega)]
    · simp only [OpAccepted]; constructor
      · rintro ⟨i, hi⟩; cases hi
      · intro hh; omega

/-- the node made by `addAttributeDecl`. -/
def atNode (o : Option Nat) (e n p : Bytes) (ty d : Nat) (v : Bytes) (tr : List Bytes) : Node :=
  { kind := .attrDecl, atype := ty, doc := o, name := n, pfx := p, elem := e, defType := d, tree := tr, defValue := v }

/-- changes that a history does not see. -/
theorem DInv.frame {h h' : Heap} {t : Nat} {ops : List DOp} (I : DInv h t ops) (S : h.size ≤ h'.size) (hc : ∀ x, x < h.size → core (h'.at' x) = core (h.at' x))
    (hl : ∀ x, x < h.size → (h'.at' x).first = (h.at' x).first ∧ (h'.at' x).last = (h.at' x).last ∧ (h'.at' x).next = (h.at' x).next ∧
      (h'.at' x).prev = (h.at' x).prev ∧ (h'.at' x).parent = (h.at' x).parent)
    (ht : (h'.at' t).entities = (h.at' t).entities ∧ (h'.at' t).pentities = (h.at' t).pentities ∧ (h'.at' t).elements = (h.at' t).elements ∧
      (h'.at' t).attributes = (h.at' t).attributes) (hext : ∀ d, h.size ≤ d → (h'.at' d).extSubset ≠ some t) : DInv h' t ops := by
  obtain ⟨l, C, kd⟩ := I.kids
  obtain ⟨t1, t2, t3, t4⟩ := ht
  refine ⟨by have := I.alloc; omega, ?_, ?_, ⟨l, ?_, ?_⟩, ?_, ?_, ?_, ?_, ?_, ?_, ?_, ?_⟩
  · rw [← I.kind]; exact congrArg (fun x => x.kind) (hc t I.alloc)
  · intro d
    by_cases hd : d < h.size
    · have : (h'.at' d).extSubset = (h.at' d).extSubset := congrArg (fun x => x.extSubset) (hc d hd)
      rw [this]; exact I.ext d
    · exact hext d (by omega)
  · refine ⟨?_, ?_, ?_, ?_, ?_, C.nodup, ?_⟩
    · rw [(hl t I.alloc).1, C.first]
    · rw [(hl t I.alloc).2.1, C.last]
    · intro a c b hk
      rw [(hl c (C.alloc c (by rw [hk]; simp))).2.2.1]; exact C.next a c b hk
    · intro a c b hk
      rw [(hl c (C.alloc c (by rw [hk]; simp))).2.2.2.1]; exact C.prev a c b hk
    · intro c hk
      rw [(hl c (C.alloc c hk)).2.2.2.2]; exact C.parent c hk
    · intro c hk; exact Nat.lt_of_lt_of_le (C.alloc c hk) S
  · intro y hy
    have : (h'.at' y).kind = (h.at' y).kind := congrArg (fun x => x.kind) (hc y (C.alloc y hy))
    rw [this]; exact kd y hy
  · rw [t1]; exact I.b1.mono S
  · rw [t2]; exact I.b2.mono S
  · rw [t3]; exact I.b3.mono S
  · rw [t4]; exact I.b4.mono S
  · intro n; rw [t1, look_keep entView_core I.b1 hc, I.gen]
  · intro n; rw [t2, look_keep entView_core I.b2 hc, I.par]
  · intro n; rw [t3, look_keep elView_core I.b3 hc, I.el]
  · intro n; rw [t4, look_keep atView_core I.b4 hc, I.att]

theorem DInv.att_none {h : Heap} {t : Nat} {ops : List DOp} (I : DInv h t ops) (k : Bytes) :
    ops.findSome? (atSel k) = none ↔ mapGet (h.at' t).attributes k = none := by
  rw [← I.att]; unfold look; simp

theorem attr_step {h : Heap} {t : Nat} {ops : List DOp} (I : DInv h t ops) (e n p : Bytes) (ty d : Nat) (v : Bytes) (tr : List Bytes) :
    ∃ r h', M.attempt (DOp.run t (.attr e n p ty d v tr)) h = .ok r h' ∧ DInv h' t (ops ++ [.attr e n p ty d v tr]) ∧
      ((∃ i, r = .ok i) ↔ OpAccepted ops (.attr e n p ty d v tr)) := by
  by_cases hty : 1 ≤ ty ∧ ty ≤ 10
  · have hstart : addAttributeDecl (some t) e n p ty d v tr h = (do
        dtdRegisterAttribute t h.size
        let _ ← M.attempt (nodeAddChild t h.size)
        pure h.size) (h.alloc (atNode (h.at' t).doc e n p ty d v tr)) := by
      unfold addAttributeDecl
      have hty' : ¬ ¬ (1 ≤ ty ∧ ty ≤ 10) := fun hh => hh hty
      simp only [if_neg hty', get_bind]
      cases hd : (h.at' t).doc with
      | none => rfl
      | some d' => simp only [if_neg (I.ext d'), Bool.false_eq_true, if_false]; rfl
    have ht : t ≠ h.size := by have := I.alloc; omega
    cases hg : mapGet (h.at' t).attributes (attrKey n p e) with
    | none =>
      obtain ⟨h', l, e1, e2, e3, e4, e5, e6, e7, e8⟩ := commit I (atNode (h.at' t).doc e n p ty d v tr) rfl rfl nofun nofun rfl
        (fun x => { x with attributes := mapSet x.attributes (attrKey n p e) h.size }) (fun _ => rfl) (fun _ => ⟨rfl, rfl, rfl, rfl, rfl, rfl⟩)
      have hr : DOp.run t (.attr e n p ty d v tr) h = .ok h.size h' := by
        show addAttributeDecl (some t) e n p ty d v tr h = _
        rw [hstart]
        have hreg : dtdRegisterAttribute t h.size (h.alloc (atNode (h.at' t).doc e n p ty d v tr)) =
            .ok () ((h.alloc (atNode (h.at' t).doc e n p ty d v tr)).upd t (fun x => { x with attributes := mapSet x.attributes (attrKey n p e) h.size })) := by
          unfold dtdRegisterAttribute
          simp only [get_bind, alloc_new, alloc_lt I.alloc]
          simp only [atNode, hg]
          rfl
        rw [bind_run hreg, attempt_bind, e1]
        rfl
      refine ⟨.ok h.size, h', by unfold M.attempt; rw [hr], ?_, ?_⟩
      · refine I.step _ e2 e3 e4 e5 e6 (.inl ⟨ofInfo e7 (fun x => x.entities) (fun _ => rfl), fun _ => rfl⟩)
          (.inl ⟨ofInfo e7 (fun x => x.pentities) (fun _ => rfl), fun _ => rfl⟩)
          (.inl ⟨ofInfo e7 (fun x => x.elements) (fun _ => rfl), fun _ => rfl⟩)
          (.inr ⟨attrKey n p e, ofInfo e7 (fun x => x.attributes) (fun _ => rfl), hg, ?_⟩)
        intro m
        rw [ofCore e8 atView atView_core]
        simp only [atSel]
        simp [hty, atView, atNode]
      · simp only [OpAccepted]
        exact ⟨fun _ => ⟨hty, (I.att_none _).2 hg⟩, fun _ => ⟨_, rfl⟩⟩
    | some a =>
      have hr : ∃ h', DOp.run t (.attr e n p ty d v tr) h = .err (.k .mDupAttrDecl) h' ∧ h' = h.alloc (atNode (h.at' t).doc e n p ty d v tr) := by
        refine ⟨_, ?_, rfl⟩
        show addAttributeDecl (some t) e n p ty d v tr h = _
        rw [hstart]
        refine bind_run_err ?_
        unfold dtdRegisterAttribute
        simp only [get_bind, alloc_new, alloc_lt I.alloc]
        simp only [atNode, hg]
        rfl
      obtain ⟨h', hr, hh⟩ := hr
      refine ⟨.error _, h', by unfold M.attempt; rw [hr], ?_, ?_⟩
      · have I' : DInv h' t ops := by
          subst hh
          refine I.frame (Nat.le_succ _) (fun x hx => by rw [alloc_lt hx]) (fun x hx => by rw [alloc_lt hx]; exact ⟨rfl, rfl, rfl, rfl, rfl⟩)
            (by rw [alloc_lt I.alloc]; exact ⟨rfl, rfl, rfl, rfl⟩) ?_
          intro d hd
          by_cases hds : d = h.size
          · subst hds; rw [alloc_new]; exact nofun
          · rw [alloc_gt (by omega)]; exact I.ext d
        refine I'.skip _ (fun _ => rfl) (fun _ => rfl) (fun _ => .inl rfl) ?_
        intro k
        by_cases hk : attrKey n p e = k
        · subst hk
          right
          cases hf : ops.findSome? (atSel (attrKey n p e)) with
          | none => rw [I.att_none, hg] at hf; cases hf
          | some _ => rfl
        · left; simp only [atSel]; rw [if_neg (fun hh => hk hh.1)]
      · simp only [OpAccepted]
        constructor
        · rintro ⟨i, hi⟩; cases hi
        · rintro ⟨_, hn⟩; rw [I.att_none, hg] at hn; cases hn
  · have hr : DOp.run t (.attr e n p ty d v tr) h = .err (.k .mInvalidAttrType) h := by
      show addAttributeDecl (some t) e n p ty d v tr h = _
      unfold addAttributeDecl
      simp only [if_pos hty]
      rfl
    refine ⟨.error _, h, by unfold M.attempt; rw [hr], ?_, ?_⟩
    · refine I.skip _ (fun _ => rfl) (fun _ => rfl) (fun _ => .inl rfl) (fun k => .inl ?_)
      simp only [atSel]; rw [if_neg (fun hh => hty hh.2)]
    · simp only [OpAccepted]
      constructor
      · rintro ⟨i, hi⟩; cases hi
      · intro hh; exact absurd hh.1 hty

theorem DInv.el_none {h : Heap} {t : Nat} {ops : List DOp} (I : DInv h t ops) (k : Bytes) :
    ops.findSome? (elSel k) = none ↔ mapGet (h.at' t).elements k = none := by
  rw [← I.el]; unfold look; simp

/-- every declared element type has a type. -/
theorem DInv.el_typ {h : Heap} {t : Nat} {ops : List DOp} (I : DInv h t ops) {k : Bytes} {i : Nat} (hg : mapGet (h.at' t).elements k = some i) :
    (h.at' i).declType ≠ 0 := by
  have h1 := I.el k
  unfold look at h1
  rw [hg] at h1
  simp only [Option.map_some] at h1
  obtain ⟨op, _, h2⟩ := List.exists_of_findSome?_eq_some h1.symm
  cases op with
  | element m ty ec =>
    simp only [elSel] at h2
    split at h2
    · rename_i hh
      simp only [elView, Option.some.injEq, Prod.mk.injEq] at h2
      rcases hh.2 with h3 | h3 <;> omega
    · cases h2
  | entity => cases h2
  | attr => cases h2

theorem upd_alloc {h : Heap} {N : Node} {t : Nat} (ht : t ≠ h.size) (f g : Node → Node) :
    ((h.alloc N).upd t f).upd h.size g = (h.alloc (g N)).upd t f := by
  unfold Heap.upd Heap.put Heap.alloc
  simp only [Heap.mk.injEq, true_and]
  funext j
  by_cases h1 : j = h.size
  · subst h1; simp [Ne.symm ht]
  · by_cases h2 : j = t
    · subst h2; simp [h1]
    · simp [h1, h2]

/-- the declaration of an element after the leftover attributes `old` have been collected. -/
def addElemRest (t : Nat) (name : Bytes) (typ : Nat) (ec : EC) (old : Option Nat) : HM Nat := do
  let h ← M.get
  let decl ← (match mapGet (h.at' t).elements (elemKey (splitColon name).2 (splitColon name).1) with
    | some dc => if (h.at' dc).declType ≠ 0 then M.raw .mRedefinition else pure dc
    | none => do
      let dc ← newNode { kind := .elemDecl, name := (splitColon name).2, pfx := (splitColon name).1, declAttrs := old }
      updNode t (fun x => { x with elements := mapSet x.elements (elemKey (splitColon name).2 (splitColon name).1) dc })
      pure dc)
  let x ← node t
  updNode decl (fun d => { d with declType := typ, ec := copyEC ec, doc := x.doc })
  nodeAddChild t decl
  pure decl

theorem elem_rest {h : Heap} {t : Nat} {ops : List DOp} (I : DInv h t ops) (n : Bytes) (ty : Nat) (ec : EC) (old : Option Nat) (hcon : Consistent ty ec) :
    ∃ r h', M.attempt (addElemRest t n ty ec old) h = .ok r h' ∧ DInv h' t (ops ++ [.element n ty ec]) ∧
      ((∃ i, r = .ok i) ↔ OpAccepted ops (.element n ty ec)) := by
  have ht : t ≠ h.size := by have := I.alloc; omega
  cases hg : mapGet (h.at' t).elements (elemKey (splitColon n).2 (splitColon n).1) with
  | none =>
    obtain ⟨h', l, e1, e2, e3, e4, e5, e6, e7, e8⟩ := commit I
      { kind := .elemDecl, name := (splitColon n).2, pfx := (splitColon n).1, declAttrs := old, declType := ty, ec := copyEC ec, doc := (h.at' t).doc }
      rfl rfl nofun nofun rfl
      (fun x => { x with elements := mapSet x.elements (elemKey (splitColon n).2 (splitColon n).1) h.size }) (fun _ => rfl) (fun _ => ⟨rfl, rfl, rfl, rfl, rfl, rfl⟩)
    have hr : addElemRest t n ty ec old h = .ok h.size h' := by
      unfold addElemRest
      simp only [get_bind, hg]
      refine Eq.trans (bind_run (a := h.size) (t := (h.alloc { kind := .elemDecl, name := (splitColon n).2, pfx := (splitColon n).1, declAttrs := old }).upd t
        (fun x => { x with elements := mapSet x.elements (elemKey (splitColon n).2 (splitColon n).1) h.size })) rfl) ?_
      simp only [node_bind, updNode_bind]
      rw [upd_alloc ht, at'_upd, if_pos rfl, alloc_lt I.alloc]
      exact bind_run e1
    refine ⟨.ok h.size, h', by unfold M.attempt; rw [hr], ?_, ?_⟩
    · refine I.step _ e2 e3 e4 e5 e6 (.inl ⟨ofInfo e7 (fun x => x.entities) (fun _ => rfl), fun _ => rfl⟩)
        (.inl ⟨ofInfo e7 (fun x => x.pentities) (fun _ => rfl), fun _ => rfl⟩)
        (.inr ⟨elemKey (splitColon n).2 (splitColon n).1, ofInfo e7 (fun x => x.elements) (fun _ => rfl), hg, ?_⟩)
        (.inl ⟨ofInfo e7 (fun x => x.attributes) (fun _ => rfl), fun _ => rfl⟩)
      intro m
      rw [ofCore e8 elView elView_core]
      simp only [elSel]
      simp [hcon, elView, (copyEC_eq ec).1]
    · simp only [OpAccepted]
      exact ⟨fun _ => ⟨hcon, (I.el_none _).2 hg⟩, fun _ => ⟨_, rfl⟩⟩
  | some dc =>
    have hr : addElemRest t n ty ec old h = .err (.k .mRedefinition) h := by
      unfold addElemRest
      simp only [get_bind, hg, if_pos (I.el_typ hg)]
      rfl
    refine ⟨.error _, h, by unfold M.attempt; rw [hr], ?_, ?_⟩
    · refine I.skip _ (fun _ => rfl) (fun _ => rfl) (fun k => ?_) (fun _ => .inl rfl)
      by_cases hk : elemKey (splitColon n).2 (splitColon n).1 = k
      · subst hk
        right
        cases hf : ops.findSome? (elSel (elemKey (splitColon n).2 (splitColon n).1)) with
        | none => rw [I.el_none, hg] at hf; cases hf
        | some _ => rfl
      · left; simp only [elSel]; rw [if_neg (fun hh => hk hh.1)]
    · simp only [OpAccepted]
      constructor
      · rintro ⟨i, hi⟩; cases hi
      · rintro ⟨_, hn⟩; rw [I.el_none, hg] at hn; cases hn

theorem element_step {h : Heap} {t : Nat} {ops : List DOp} (I : DInv h t ops) (n : Bytes) (ty : Nat) (ec : EC) :
    ∃ r h', M.attempt (DOp.run t (.element n ty ec)) h = .ok r h' ∧ DInv h' t (ops ++ [.element n ty ec]) ∧
      ((∃ i, r = .ok i) ↔ OpAccepted ops (.element n ty ec)) := by
  by_cases hcon : Consistent ty ec
  · have hpre : ∃ old h0, DInv h0 t ops ∧ dtdAddElementDecl t n ty ec h = addElemRest t n ty ec old h0 := by
      have hchk : dtdAddElementDecl t n ty ec h = (do
          let oldattrs ← (match (h.at' t).doc with
            | none => pure none
            | some d =>
              match (h.at' d).intSubset with
              | none => pure none
              | some i =>
                match mapGet (h.at' i).elements (elemKey (splitColon n).2 (splitColon n).1) with
                | none => pure none
                | some dc =>
                  if (h.at' dc).declType = 0 then do
                    let old := (h.at' dc).declAttrs
                    updNode dc (fun x => { x with declAttrs := none })
                    updNode i (fun x => { x with elements := mapDel x.elements (elemKey (splitColon n).2 (splitColon n).1) })
                    pure old
                  else pure none : HM (Option Nat))
          addElemRest t n ty ec oldattrs) h := by
        unfold dtdAddElementDecl
        rcases hcon with ⟨h1, h2⟩ | ⟨h1, h2⟩
        · simp only [if_pos h1, h2, ne_eq, not_true_eq_false, if_false, get_bind]; rfl
        · have : ¬ (ty = 1 ∨ ty = 2) := by omega
          simp only [if_neg this, if_pos h1, if_neg h2, get_bind]; rfl
      rw [hchk]
      cases hd : (h.at' t).doc with
      | none => exact ⟨none, h, I, rfl⟩
      | some d =>
        simp only
        cases hi : (h.at' d).intSubset with
        | none => exact ⟨none, h, I, rfl⟩
        | some i =>
          simp only
          cases hm : mapGet (h.at' i).elements (elemKey (splitColon n).2 (splitColon n).1) with
          | none => exact ⟨none, h, I, rfl⟩
          | some dc =>
            simp only
            by_cases h0 : (h.at' dc).declType = 0
            · rw [if_pos h0]
              have hit : t ≠ i := by rintro rfl; exact I.el_typ hm h0
              refine ⟨(h.at' dc).declAttrs, (h.upd dc (fun x => { x with declAttrs := none })).upd i (fun x => { x with elements := mapDel x.elements (elemKey (splitColon n).2 (splitColon n).1) }), ?_, rfl⟩
              have hat : ∀ x, core (((h.upd dc (fun x => { x with declAttrs := none })).upd i (fun x => { x with elements := mapDel x.elements (elemKey (splitColon n).2 (splitColon n).1) })).at' x) = core (h.at' x) := by
                intro x
                rw [at'_upd]
                split
                · rename_i hx; subst hx
                  rw [at'_upd]
                  split
                  · rename_i hx; subst hx; rfl
                  · rfl
                · rw [at'_upd]
                  split
                  · rename_i hx; subst hx; rfl
                  · rfl
              refine I.frame (Nat.le_refl _) (fun x _ => hat x) ?_ ?_ ?_
              · intro x _
                rw [at'_upd]
                split
                · rename_i hx; subst hx
                  rw [at'_upd]
                  split
                  · rename_i hx; subst hx; exact ⟨rfl, rfl, rfl, rfl, rfl⟩
                  · exact ⟨rfl, rfl, rfl, rfl, rfl⟩
                · rw [at'_upd]
                  split
                  · rename_i hx; subst hx; exact ⟨rfl, rfl, rfl, rfl, rfl⟩
                  · exact ⟨rfl, rfl, rfl, rfl, rfl⟩
              · rw [at'_upd, if_neg hit, at'_upd]
                split
                · rename_i hx; subst hx; exact ⟨rfl, rfl, rfl, rfl⟩
                · exact ⟨rfl, rfl, rfl, rfl⟩
              · intro d' _
                rw [ofCore (hat d') (fun x => x.extSubset) (fun _ => rfl)]
                exact I.ext d'
            · rw [if_neg h0]; exact ⟨none, h, I, rfl⟩
    obtain ⟨old, h0, I0, hr⟩ := hpre
    obtain ⟨r, h', e1, e2, e3⟩ := elem_rest I0 n ty ec old hcon
    refine ⟨r, h', ?_, e2, e3⟩
    rw [← e1]
    unfold M.attempt
    rw [show DOp.run t (.element n ty ec) h = addElemRest t n ty ec old h0 from hr]
  · have hr : ∃ e, DOp.run t (.element n ty ec) h = .err e h := by
      show ∃ e, dtdAddElementDecl t n ty ec h = .err e h
      unfold dtdAddElementDecl
      unfold Consistent at hcon
      by_cases h1 : ty = 1 ∨ ty = 2
      · have h2 : ec ≠ .nil := fun hh => hcon (.inl ⟨h1, hh⟩)
        simp only [if_pos h1, if_pos h2]; exact ⟨_, rfl⟩
      · by_cases h3 : ty = 3 ∨ ty = 4
        · have h2 : ec = .nil := by
            cases ec with
            | nil => rfl
            | mk => exact absurd (.inr ⟨h3, nofun⟩) hcon
          simp only [if_neg h1, if_pos h3, if_pos h2]; exact ⟨_, rfl⟩
        · simp only [if_neg h1, if_neg h3]; exact ⟨_, rfl⟩
    obtain ⟨e, hr⟩ := hr
    refine ⟨.error e, h, by unfold M.attempt; rw [hr], ?_, ?_⟩
    · refine I.skip _ (fun _ => rfl) (fun _ => rfl) (fun k => .inl ?_) (fun _ => .inl rfl)
      simp only [elSel]; rw [if_neg (fun hh => hcon hh.2)]
    · simp only [OpAccepted]
      constructor
      · rintro ⟨i, hi⟩; cases hi
      · intro hh; exact absurd hh.1 hcon

theorem dop_step {h : Heap} {t : Nat} {ops : List DOp} (I : DInv h t ops) (op : DOp) :
    ∃ r h', M.attempt (op.run t) h = .ok r h' ∧ DInv h' t (ops ++ [op]) ∧ ((∃ i, r = .ok i) ↔ OpAccepted ops op) := by
  cases op with
  | entity => exact entity_step I _ _ _ _ _
  | element => exact element_step I _ _ _
  | attr => exact attr_step I _ _ _ _ _ _ _

/-- results of a history: the call number `i` succeeds when it is acceptable after the calls before it. -/
def ResultsOf (ops : List DOp) (rs : List (Except Err Nat)) : Prop :=
  rs.length = ops.length ∧ ∀ pre op post r, ops = pre ++ op :: post → rs[pre.length]? = some r → ((∃ i, r = .ok i) ↔ OpAccepted pre op)

theorem history_run {t : Nat} : ∀ (ops : List DOp) {h : Heap} {pre : List DOp} (_ : DInv h t pre), ∃ rs h', history t ops h = .ok rs h' ∧
    DInv h' t (pre ++ ops) ∧ rs.length = ops.length ∧
    ∀ a op b r, ops = a ++ op :: b → rs[a.length]? = some r → ((∃ i, r = .ok i) ↔ OpAccepted (pre ++ a) op)
  | [], h, pre, I => ⟨[], h, rfl, by simpa using I, rfl, by intro a op b r hh; simp at hh⟩
  | op :: ops, h, pre, I => by
    obtain ⟨r, h1, e1, e2, e3⟩ := dop_step I op
    obtain ⟨rs, h2, f1, f2, f3, f4⟩ := history_run ops e2
    refine ⟨r :: rs, h2, ?_, by simpa using f2, by simp [f3], ?_⟩
    · unfold history
      rw [bind_run e1, bind_run f1]; rfl
    · intro a op' b r' hk hr
      cases a with
      | nil =>
        simp only [List.nil_append, List.cons.injEq] at hk
        obtain ⟨rfl, rfl⟩ := hk
        simp only [List.length_nil, List.getElem?_cons_zero, Option.some.injEq] at hr
        subst hr
        simpa using e3
      | cons x a =>
        simp only [List.cons_append, List.cons.injEq] at hk
        obtain ⟨rfl, hk⟩ := hk
        simp only [List.length_cons, List.getElem?_cons_succ] at hr
        have := f4 a op' b r' hk hr
        simpa using this

end Helium
