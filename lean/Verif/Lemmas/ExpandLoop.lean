import Verif.Lemmas.KernelRfl
import Verif.Lemmas.Forward
import Verif.Model.TreeBuilder
import Verif.Model.StdEnv
/-! An entity referring to itself makes `stringToNodeList` run for ever. -/
namespace Helium
section

/-- no result within the budget. -/
def ParseRes.hangs : ParseRes → Bool
  | .diverge => true
  | _ => false

/-- a Go panic. -/
def ParseRes.crashes : ParseRes → Bool
  | .panic => true
  | _ => false

theorem ParseRes.hangs_iff {r : ParseRes} : r.hangs = true ↔ r = .diverge := by
  cases r <;> simp [ParseRes.hangs]

theorem ParseRes.crashes_iff {r : ParseRes} : r.crashes = true ↔ r = .panic := by
  cases r <;> simp [ParseRes.crashes]

/-- the entity `e` of document `d` is node `i`, its text is a reference to itself, and it has not been expanded yet. -/
structure Loops (h : Heap) (d t i : Nat) : Prop where
  sub : (h.at' d).intSubset = some t
  ent : mapGet (h.at' t).entities b!"e" = some i
  kind : (h.at' i).kind = .entity
  content : (h.at' i).content = b!"&e;"
  first : (h.at' i).first = none
  next : (h.at' i).next = none
  typ : (h.at' i).entType = 1
  ld : d < h.size
  lt : t < h.size
  li : i < h.size

instance (h : Heap) (d t i : Nat) : Decidable (Loops h d t i) :=
  decidable_of_iff ((h.at' d).intSubset = some t ∧ mapGet (h.at' t).entities b!"e" = some i ∧ (h.at' i).kind = .entity ∧
    (h.at' i).content = b!"&e;" ∧ (h.at' i).first = none ∧ (h.at' i).next = none ∧ (h.at' i).entType = 1 ∧ d < h.size ∧ t < h.size ∧ i < h.size)
    ⟨fun ⟨a, b, c, d, e, f, g, h, i, j⟩ => ⟨a, b, c, d, e, f, g, h, i, j⟩, fun ⟨a, b, c, d, e, f, g, h, i, j⟩ => ⟨a, b, c, d, e, f, g, h, i, j⟩⟩

variable {h : Heap} {d t i : Nat}

theorem Loops.at {h h' : Heap} (L : Loops h d t i) (hs : h.size ≤ h'.size) (ha : ∀ j, j < h.size → h'.at' j = h.at' j) : Loops h' d t i := by
  have h1 := ha d L.ld
  have h2 := ha t L.lt
  have h3 := ha i L.li
  exact ⟨by rw [h1]; exact L.sub, by rw [h2]; exact L.ent, by rw [h3]; exact L.kind, by rw [h3]; exact L.content, by rw [h3]; exact L.first,
    by rw [h3]; exact L.next, by rw [h3]; exact L.typ, Nat.lt_of_lt_of_le L.ld hs, Nat.lt_of_lt_of_le L.lt hs, Nat.lt_of_lt_of_le L.li hs⟩

theorem Loops.get (L : Loops h d t i) : docGetEntity h d b!"e" = some i := by
  unfold docGetEntity
  rw [L.sub]
  exact L.ent

/-- the new reference node. -/
def refHeap (h : Heap) (d i : Nat) : Heap :=
  (h.alloc { kind := .entityRef, doc := some d, name := b!"e" }).upd h.size (fun x => { x with content := b!"&e;", first := some i, last := some i })

theorem refHeap_at {j : Nat} (hj : j < h.size) : (refHeap h d i).at' j = h.at' j := by
  have : j ≠ h.size := by omega
  simp [refHeap, Heap.upd, Heap.put, Heap.alloc, this]

theorem Loops.ref (L : Loops h d t i) : Loops (refHeap h d i) d t i :=
  L.at (Nat.le_succ _) (fun _ hj => refHeap_at hj)

theorem Loops.create (L : Loops h d t i) : createReference d b!"e" h = .ok h.size (refHeap h d i) := by
  have L1 : Loops (h.alloc { kind := .entityRef, doc := some d, name := b!"e" }) d t i :=
    L.at (Nat.le_succ _) (fun j hj => by have : j ≠ h.size := by omega
                                         simp [Heap.alloc, this])
  have hn : ((h.alloc { kind := .entityRef, doc := some d, name := b!"e" }).at' h.size).name = b!"e" := by simp [Heap.alloc]
  unfold createReference
  have h1 : createCharRef (some d) b!"e" h = .ok h.size (h.alloc { kind := .entityRef, doc := some d, name := b!"e" }) := rfl
  rw [bind_run h1, get_bind]
  rw [hn, L1.get]
  simp only []
  rw [L1.content]
  rfl

theorem Loops.contentRef (L : Loops h d t i) : Helium.content h.size (refHeap h d i) = .ok b!"&e;" (refHeap h d i) := by
  have L1 := L.ref
  have hn : (refHeap h d i).at' h.size = { kind := .entityRef, doc := some d, name := b!"e", content := b!"&e;", first := some i, last := some i } := by
    simp [refHeap, Heap.upd, Heap.put, Heap.alloc]
  have hs : (refHeap h d i).size = h.size + 1 := rfl
  have hc : chain (refHeap h d i) (h.size + 1 + 1) (some i) = some [i] := by
    unfold chain
    rw [L1.next]
    rfl
  unfold Helium.content
  have : contentF (refHeap h d i) ((refHeap h d i).size + 1) h.size = some b!"&e;" := by
    rw [hs]
    unfold contentF
    rw [hn]
    simp only [hs]
    rw [hc]
    simp only [List.mapM_cons, List.mapM_nil]
    unfold contentF
    rw [L1.kind, L1.content]
    rfl
  rw [this]

theorem snl_loops : ∀ (fuel : Nat) (h : Heap), Loops h d t i → stringToNodeList (some d) fuel b!"&e;" h = .diverge := by
  intro fuel
  induction fuel using Nat.strongRecOn with
  | ind fuel ih =>
    intro h L
    cases fuel with
    | zero => rfl
    | succ f =>
      unfold stringToNodeList
      rw [show decodeRunes b!"&e;" = b!"&e;" by decide]
      cases f with
      | zero => rfl
      | succ f =>
        rw [stringToNodeList.loop]
        · rw [if_neg (by decide), show snlName b!"e;" = some (b!"e", []) by decide]
          simp only
          rw [show encodeRunes b!"e" = b!"e" by decide]
          rw [bind_run (show M.deref (some d) h = .ok d h from rfl), get_bind, L.get]
          simp only [L.typ]
          rw [if_neg (by decide)]
          rw [bind_run (show snlFlush (some d) {} h = .ok {} h from rfl), bind_run L.create, get_bind]
          rw [L.ref.first]
          rw [if_pos rfl]
          rw [bind_run L.contentRef]
          rw [bind_run_diverge]
          exact ih f (by omega) _ L.ref
        · intro h2; cases h2
        · intro t2 h2; cases h2

variable {σ : Type}

/-- the callback for the start tag of an element with one attribute whose value refers to that entity never returns. -/
theorem tb_loops {c : HC σ} (hd : c.doc = some d) (L : Loops c.heap d t i) (fuel : Nat) (v : HV) (l p : Bytes) (q a : Bytes) :
    treeBuilder fuel v (.startElement l p [] [] [.parsed q a b!"&e;"]) c = (.diverge, c) := by
  have L1 : Loops (c.heap.alloc (mkElement (some d) l)) d t i :=
    L.at (Nat.le_succ _) (fun j hj => by have : j ≠ c.heap.size := by omega
                                         simp [Heap.alloc, this])
  have L2 : ∀ n, Loops ((c.heap.alloc (mkElement (some d) l)).alloc n) d t i := fun n =>
    L1.at (Nat.le_succ _) (fun j hj => by have : j ≠ (c.heap.alloc (mkElement (some d) l)).size := by omega
                                          exact if_neg this)
  have hdoc : ((c.heap.alloc (mkElement (some d) l)).at' c.heap.size).doc = some d := by simp [Heap.alloc, mkElement]
  have hset : ∀ nm, setAttribute fuel c.heap.size nm b!"&e;" (c.heap.alloc (mkElement (some d) l)) = .diverge := by
    intro nm
    unfold setAttribute
    rw [bind_run (show node c.heap.size (c.heap.alloc (mkElement (some d) l)) = .ok _ _ from rfl)]
    rw [bind_run_diverge]
    rw [hdoc]
    unfold createAttribute
    rw [bind_run (show newNode (mkAttr nm none) (c.heap.alloc (mkElement (some d) l)) = .ok _ _ from rfl)]
    rw [if_neg (by decide)]
    rw [bind_run_diverge]
    exact snl_loops fuel _ (L2 _)
  show tbUnit (tbStartElement fuel l p [] [] [.parsed q a b!"&e;"]) c = _
  have : tbStartElement fuel l p [] [] [.parsed q a b!"&e;"] c = .diverge := by
    unfold tbStartElement
    rw [bind_run (show tbDoc c = .ok d c by unfold tbDoc; rw [get_bind, hd]; rfl)]
    rw [bind_run (show tbH (newNode (mkElement (some d) l)) c = .ok c.heap.size { c with heap := c.heap.alloc (mkElement (some d) l) } from rfl)]
    rw [if_neg (by simp)]
    show ((([] : List (Option (Bytes × Bytes))).forM (fun n => (do
      let n ← M.deref n
      tbH (setNamespace c.heap.size n.1 n.2 false) : TB σ Unit))) >>= _) { c with heap := c.heap.alloc (mkElement (some d) l) } = _
    rw [bind_run (show (([] : List (Option (Bytes × Bytes))).forM (fun n => (do
      let n ← M.deref n
      tbH (setNamespace c.heap.size n.1 n.2 false) : TB σ Unit))) _ = .ok _ _ from rfl)]
    rw [bind_run_diverge]
    show ((tbAttr fuel c.heap.size (.parsed q a b!"&e;") : TB σ Unit) >>= fun _ => pure ()) _ = _
    rw [bind_run_diverge]
    unfold tbAttr
    rw [get_bind]
    rw [if_neg (by simp [AttrD.isDefault])]
    simp only
    unfold tbH
    simp only [hset]
  unfold tbUnit tbOut
  rw [bind_run_diverge this]

/-- the tree builder, with what has just been shown written into it. -/
def loopBuilder (fuel : Nat) : Handler σ := fun v ev c =>
  match ev with
  | .startElement _ _ [] [] [.parsed _ _ b] =>
    match c.doc with
    | some d =>
      match (c.heap.at' d).intSubset with
      | some t =>
        match mapGet (c.heap.at' t).entities b!"e" with
        | some i => if b = b!"&e;" ∧ Loops c.heap d t i then (.diverge, c) else treeBuilder fuel v ev c
        | none => treeBuilder fuel v ev c
      | none => treeBuilder fuel v ev c
    | none => treeBuilder fuel v ev c
  | _ => treeBuilder fuel v ev c

theorem loopBuilder_eq (fuel : Nat) : (treeBuilder fuel : Handler σ) = loopBuilder fuel := by
  funext v ev c
  unfold loopBuilder
  split
  · rename_i l p q a b
    split
    · rename_i d hd
      split
      · split
        · split
          · rename_i h
            obtain ⟨rfl, h⟩ := h
            exact tb_loops hd h fuel v l p q a
          · rfl
        · rfl
      · rfl
    · rfl
  · rfl

set_option maxRecDepth 100000 in
theorem selfRef_hangs (fuel : Nat) : parse env0 fuel b!"<!DOCTYPE a [<!ENTITY e \"&e;\">]><a b=\"&e;\"/>" = .diverge := by
  apply ParseRes.hangs_iff.1
  unfold parse
  rw [loopBuilder_eq]
  kernel_rfl

end
end Helium
