import Verif.Lemmas.ChunkFrame
import Verif.Lemmas.TbRun
/-! The tree builder while the replacement text of an entity is parsed. -/
namespace Helium
open Spec

section
variable {σ : Type} {O : Heap} {dn r : Nat}

/-- the current element belongs to the region. -/
structure Reg (O : Heap) (dn r : Nat) (c : HC σ) : Prop where
  doc : c.doc = some dn
  heap : RegH O dn r c.heap
  elem : ∀ e, c.elem = some e → O.size ≤ e ∧ e < c.heap.size ∧ (c.heap.at' e).kind = .element ∧ e ≠ r

/-- what a computation of the tree builder keeps. -/
structure RKeep (O : Heap) (dn r : Nat) (c c' : HC σ) : Prop where
  reg : Reg O dn r c'
  size : c.heap.size ≤ c'.heap.size
  kind : ∀ i, i < c.heap.size → (c'.heap.at' i).kind = (c.heap.at' i).kind
  elem : c'.elem = c.elem

theorem RKeep.refl {c : HC σ} (G : Reg O dn r c) : RKeep O dn r c c := ⟨G, Nat.le_refl _, fun _ _ => rfl, rfl⟩

theorem RKeep.trans {a b c : HC σ} (h : RKeep O dn r a b) (k : RKeep O dn r b c) : RKeep O dn r a c :=
  ⟨k.reg, Nat.le_trans h.size k.size, fun i hi => (k.kind i (Nat.lt_of_lt_of_le hi h.size)).trans (h.kind i hi), k.elem.trans h.elem⟩

theorem RKeep.of_heap {c : HC σ} (G : Reg O dn r c) {h' : Heap} (g : RegH O dn r h') (hs : c.heap.size ≤ h'.size)
    (hk : ∀ i, i < c.heap.size → (h'.at' i).kind = (c.heap.at' i).kind) : RKeep O dn r c { c with heap := h' } := by
  refine ⟨⟨G.doc, g, fun e he => ?_⟩, hs, hk, rfl⟩
  obtain ⟨h1, h2, h3, h4⟩ := G.elem e he
  exact ⟨h1, Nat.lt_of_lt_of_le h2 hs, (hk e h2).trans h3, h4⟩

theorem tbH_reg {α : Type} {p : HM α} {Q : α → Heap → Prop} {c c' : HC σ} {a : α} (G : Reg O dn r c) (hp : rpost O dn r c.heap (p c.heap) Q)
    (h : (tbH p : TB σ α) c = .ok a c') : RKeep O dn r c c' ∧ Q a c'.heap := by
  obtain ⟨g, h1, rfl⟩ := tbH_inv h
  rw [h1] at hp
  exact ⟨RKeep.of_heap G hp.1 hp.2.1 hp.2.2.1, hp.2.2.2⟩

theorem attempt_reg {α : Type} {p : HM α} {Q : α → Heap → Prop} {c c' : HC σ} {a : Except Err α} (G : Reg O dn r c) (hp : rpost O dn r c.heap (p c.heap) Q)
    (h : M.attempt (tbH p : TB σ α) c = .ok a c') : RKeep O dn r c c' := by
  rcases attempt_ok.1 h with ⟨x, _, h⟩ | ⟨x, _, h⟩
  · exact (tbH_reg G hp h).1
  · unfold tbH at h
    cases hx : p c.heap with
    | ok b g => rw [hx] at h; cases h
    | err e g =>
      rw [hx] at h hp
      cases h
      exact RKeep.of_heap G hp.1 hp.2.1 hp.2.2
    | panic => rw [hx] at h; cases h
    | diverge => rw [hx] at h; cases h

theorem tbDoc_reg {c c' : HC σ} {d : Nat} (G : Reg O dn r c) (h : (tbDoc : TB σ Nat) c = .ok d c') : d = dn ∧ c' = c := by
  unfold tbDoc at h
  rw [get_bind, G.doc] at h
  cases h
  exact ⟨rfl, rfl⟩

theorem tbAttach_reg {c c' : HC σ} {n : Nat} (G : Reg O dn r c) (hn : O.size ≤ n ∧ n < c.heap.size) (h : (tbAttach dn n : TB σ Unit) c = .ok () c') :
    RKeep O dn r c c' := by
  unfold tbAttach at h
  rw [get_bind, bind_ok] at h
  obtain ⟨x, c1, h1, h⟩ := h
  cases h
  cases he : c.elem with
  | none =>
    rw [he] at h1
    exact attempt_reg G (nodeAddChild_reg G.heap (Or.inl rfl) hn) h1
  | some e =>
    rw [he] at h1
    exact attempt_reg G (nodeAddChild_reg G.heap (Or.inr (G.elem e he)) hn) h1

theorem forM_reg {α : Type} {f : α → TB σ Unit} {e : Nat} (hf : ∀ x c c', Reg O dn r c → (O.size ≤ e ∧ e < c.heap.size ∧ (c.heap.at' e).kind = .element) →
    f x c = .ok () c' → RKeep O dn r c c') : ∀ (l : List α) (c c' : HC σ), Reg O dn r c → (O.size ≤ e ∧ e < c.heap.size ∧ (c.heap.at' e).kind = .element) →
    l.forM f c = .ok () c' → RKeep O dn r c c'
  | [], c, c', G, he, h => by cases h; exact RKeep.refl G
  | x :: l, c, c', G, he, h => by
    have h : (f x >>= fun _ => l.forM f) c = .ok () c' := h
    rw [bind_ok] at h
    obtain ⟨_, c1, h1, h⟩ := h
    have k := hf x c c1 G he h1
    exact k.trans (forM_reg hf l c1 c' k.reg ⟨he.1, Nat.lt_of_lt_of_le he.2.1 k.size, (k.kind e he.2.1).trans he.2.2⟩ h)

theorem content_reg (h : Heap) (G : RegH O dn r h) (i : Nat) : rpost O dn r h (content i h) (fun _ _ => True) := by
  unfold content
  split <;> first | exact rpost.self G trivial | trivial

theorem tbAttr_reg {fuel e : Nat} {a : AttrD} {c c' : HC σ} (G : Reg O dn r c) (he : O.size ≤ e ∧ e < c.heap.size ∧ (c.heap.at' e).kind = .element)
    (h : (tbAttr fuel e a : TB σ Unit) c = .ok () c') : RKeep O dn r c c' := by
  unfold tbAttr at h
  rw [get_bind] at h
  split at h
  · cases h; exact RKeep.refl G
  · cases a with
    | parsed p l v => exact (tbH_reg G (setAttribute_reg G.heap he _ _ _) h).1
    | dflt i =>
      simp only at h
      rw [bind_ok] at h
      obtain ⟨v, c1, h1, h⟩ := h
      have k := (tbH_reg G (content_reg _ G.heap i) h1).1
      exact k.trans (tbH_reg k.reg (setAttribute_reg k.reg.heap ⟨he.1, Nat.lt_of_lt_of_le he.2.1 k.size, (k.kind e he.2.1).trans he.2.2⟩ _ _ _) h).1

theorem tbStartElement_reg {fuel : Nat} {loc pfx uri : Bytes} {ns : List (Option (Bytes × Bytes))} {attrs : List AttrD} {c c' : HC σ} (G : Reg O dn r c)
    (h : (tbStartElement fuel loc pfx uri ns attrs : TB σ Unit) c = .ok () c') : Reg O dn r c' := by
  unfold tbStartElement at h
  rw [bind_ok] at h
  obtain ⟨d, c0, h0, h⟩ := h
  rw [bind_ok] at h
  obtain ⟨e, c1, h1, h⟩ := h
  have h : ((if uri ≠ [] then tbH (setNamespace e pfx uri true) else pure () : TB σ Unit) >>= fun _ => (do
      ns.forM (fun n => do
        let n ← M.deref n
        tbH (setNamespace e n.1 n.2 false))
      attrs.forM (tbAttr fuel e)
      tbAttach d e
      M.modify (fun c => { c with elem := some e }))) c1 = .ok () c' := by
    split at h
    · rename_i hu; rw [if_pos hu]; exact h
    · rename_i hu; rw [if_neg hu]; exact h
  simp only [bind_ok] at h
  obtain ⟨_, c2, h2, _, c3, h3, _, c4, h4, _, c5, h5, h6⟩ := h
  obtain ⟨rfl, rfl⟩ := tbDoc_reg G h0
  obtain ⟨k1, rfl, hh⟩ := tbH_reg G (newNode_reg G.heap rfl rfl (fun _ => ⟨rfl, rfl⟩) ⟨rfl, rfl⟩) h1
  have hb : O.size ≤ c0.heap.size := G.heap.size
  have hr := G.heap.rnew
  have he1 : O.size ≤ c0.heap.size ∧ c0.heap.size < c1.heap.size ∧ (c1.heap.at' c0.heap.size).kind = .element := by
    refine ⟨hb, ?_, ?_⟩
    · rw [hh]; exact Nat.lt_succ_self _
    · rw [hh]; show (if _ then _ else _ : Node).kind = _
      rw [if_pos rfl]; rfl
  have up : ∀ {a b : HC σ}, (O.size ≤ c0.heap.size ∧ c0.heap.size < a.heap.size ∧ (a.heap.at' c0.heap.size).kind = .element) → RKeep O d r a b →
      (O.size ≤ c0.heap.size ∧ c0.heap.size < b.heap.size ∧ (b.heap.at' c0.heap.size).kind = .element) := fun he k =>
    ⟨he.1, Nat.lt_of_lt_of_le he.2.1 k.size, (k.kind _ he.2.1).trans he.2.2⟩
  have k2 : RKeep O d r c1 c2 := by
    split at h2
    · exact (tbH_reg k1.reg (setNamespace_reg k1.reg.heap hb _ _ _) h2).1
    · cases h2; exact RKeep.refl k1.reg
  have he2 := up he1 k2
  have k3 : RKeep O d r c2 c3 := forM_reg (fun x a b ga he h => by
    rw [bind_ok] at h
    obtain ⟨n, a1, y1, y2⟩ := h
    have : a1 = a := by
      cases x with
      | none => cases y1
      | some x => cases y1; rfl
    subst this
    exact (tbH_reg ga (setNamespace_reg ga.heap hb _ _ _) y2).1) ns c2 c3 k2.reg he2 h3
  have he3 := up he2 k3
  have k4 : RKeep O d r c3 c4 := forM_reg (fun x a b ga he h => tbAttr_reg ga he h) attrs c3 c4 k3.reg he3 h4
  have he4 := up he3 k4
  have k5 := tbAttach_reg k4.reg ⟨he4.1, he4.2.1⟩ h5
  have he5 := up he4 k5
  cases h6
  refine ⟨k5.reg.doc, k5.reg.heap, fun x hx => ?_⟩
  cases hx
  exact ⟨he5.1, he5.2.1, he5.2.2, by omega⟩

theorem tbEndElement_reg {c c' : HC σ} (G : Reg O dn r c) (h : (tbEndElement : TB σ Unit) c = .ok () c') : Reg O dn r c' := by
  unfold tbEndElement at h
  rw [get_bind] at h
  cases he : c.elem with
  | none => rw [he] at h; cases h
  | some e =>
    rw [he] at h
    cases h
    refine ⟨G.doc, G.heap, fun x hx => ?_⟩
    obtain ⟨h1, h2, h3, h4⟩ := G.elem e he
    simp only at hx
    cases hp : (c.heap.at' e).parent with
    | none => rw [hp] at hx; cases hx
    | some p =>
      rw [hp] at hx
      simp only at hx
      split at hx
      · cases hx
        rename_i hk
        obtain ⟨q1, q2, q3⟩ := G.heap.parent e x h1 h2 hp
        rcases q3 with q3 | q3 | q3
        · exact ⟨q3, q2, hk, q1⟩
        · rw [q3, G.heap.dnk] at hk; cases hk
        · rw [q3] at hk; cases hk
      · cases hx

theorem tbCharacters_reg {b : Bytes} {c c' : HC σ} (G : Reg O dn r c) (h : (tbCharacters b : TB σ Unit) c = .ok () c') : Reg O dn r c' := by
  unfold tbCharacters at h
  rw [get_bind] at h
  cases he : c.elem with
  | none => rw [he] at h; cases h
  | some e =>
    rw [he] at h
    exact (tbH_reg G (nodeAddContent_reg G.heap (G.elem e he) b) h).1.reg

theorem tbPI_reg {v : HV} (hv : v.inSubset = 0) {t d : Bytes} {c c' : HC σ} (G : Reg O dn r c) (h : (tbPI v t d : TB σ Unit) c = .ok () c') : Reg O dn r c' := by
  unfold tbPI at h
  simp only [bind_ok] at h
  obtain ⟨d, c0, h0, n, c1, h1, h3⟩ := h
  obtain ⟨rfl, rfl⟩ := tbDoc_reg G h0
  obtain ⟨k1, rfl, hh⟩ := tbH_reg G (newNode_reg G.heap rfl rfl (by simp [mkPI]) ⟨rfl, rfl⟩) h1
  rw [if_neg (by omega)] at h3
  exact (tbAttach_reg k1.reg ⟨G.heap.size, by rw [hh]; exact Nat.lt_succ_self _⟩ h3).reg

theorem tbComment_reg {b : Bytes} {c c' : HC σ} (G : Reg O dn r c) (h : (tbComment b : TB σ Unit) c = .ok () c') : Reg O dn r c' := by
  unfold tbComment at h
  rw [get_bind, G.doc] at h
  simp only [bind_ok] at h
  obtain ⟨n, c1, h1, h3⟩ := h
  obtain ⟨k1, rfl, hh⟩ := tbH_reg G (newNode_reg G.heap rfl rfl (by simp [mkComment]) ⟨rfl, rfl⟩) h1
  exact (tbAttach_reg k1.reg ⟨G.heap.size, by rw [hh]; exact Nat.lt_succ_self _⟩ h3).reg

theorem tbReference_reg {name : Bytes} {c c' : HC σ} (G : Reg O dn r c) (h : (tbReference name : TB σ Unit) c = .ok () c') : Reg O dn r c' := by
  unfold tbReference at h
  rw [bind_ok] at h
  obtain ⟨d, c0, h0, h⟩ := h
  obtain ⟨rfl, rfl⟩ := tbDoc_reg G h0
  cases name with
  | nil => cases h
  | cons b t =>
    simp only [bind_ok] at h
    obtain ⟨n, c1, h1, s, c2, h2, p, c3, h3, h4⟩ := h
    cases h2
    have hp : rpost O d r c0.heap ((if b = 35 then createCharRef (some d) (b :: t) else createReference d (b :: t)) c0.heap)
        (fun n h' => c0.heap.size ≤ n ∧ n < h'.size) := by
      split
      · exact createCharRef_reg G.heap _ _
      · exact createReference_reg G.heap _ _
    obtain ⟨k1, q1, q2⟩ := tbH_reg G hp h1
    cases he : c1.elem with
    | none => rw [he] at h3; cases h3
    | some e =>
      rw [he] at h3
      cases h3
      exact (tbH_reg k1.reg (nodeAddChild_reg k1.reg.heap (Or.inr (k1.reg.elem _ he)) ⟨Nat.le_trans G.heap.size q1, q2⟩) h4).1.reg

theorem tbSubset_out {v : HV} (hv : v.inSubset = 0) {d : Nat} {c c' : HC σ} {o : Option Nat} : (tbSubset v d : TB σ (Option Nat)) c ≠ .ok o c' := by
  intro h
  unfold tbSubset at h
  rw [get_bind, if_neg (by omega), if_neg (by omega)] at h
  cases h

theorem tbDecl_out {v : HV} (hv : v.inSubset = 0) {c c' : HC σ} :
    (∀ e a t df b en, (tbAttributeDecl v e a t df b en : TB σ Unit) c ≠ .ok () c') ∧ (∀ n t ec, (tbElementDecl v n t ec : TB σ Unit) c ≠ .ok () c') ∧
      ∀ n t p u b, (tbEntityDecl v n t p u b : TB σ Unit) c ≠ .ok () c' := by
  refine ⟨fun e a t df b en h => ?_, fun n t ec h => ?_, fun n t p u b h => ?_⟩
  · unfold tbAttributeDecl at h
    split at h
    · cases h
    · simp only [bind_ok] at h
      obtain ⟨_, _, _, _, _, h, _⟩ := h
      exact tbSubset_out hv h
  · unfold tbElementDecl at h
    simp only [bind_ok] at h
    obtain ⟨_, _, _, _, _, h, _⟩ := h
    exact tbSubset_out hv h
  · unfold tbEntityDecl at h
    simp only [bind_ok] at h
    obtain ⟨_, _, _, _, _, h, _⟩ := h
    exact tbSubset_out hv h

/-! ### into an entity and back -/

/-- the pseudo root. -/
theorem chunk_start {h0 h' : Heap} (T : TabOK h0) (hd : dn < h0.size) (hk : (h0.at' dn).kind = .doc) {u : Unit}
    (h : (do
        let root ← newNode (mkElement (some dn) b!"pseudoroot")
        let _ ← M.attempt (nodeAddChild dn root)
        pure () : HM Unit) (h0.upd dn (fun x => { x with first := none, last := none })) = .ok u h') : RegH h0 dn h0.size h' := by
  rw [bind_ok] at h
  obtain ⟨root, g, h1, h⟩ := h
  cases h1
  rw [bind_ok] at h
  obtain ⟨x, g1, h1, h⟩ := h
  cases h
  have hne : dn ≠ h0.size := by omega
  have hrun : nodeAddChild dn h0.size ((h0.upd dn (fun x => { x with first := none, last := none })).alloc (mkElement (some dn) b!"pseudoroot")) =
      .ok () (((((h0.upd dn (fun x => { x with first := none, last := none })).alloc (mkElement (some dn) b!"pseudoroot")).upd dn
        (fun x => { x with first := some h0.size })).upd dn (fun x => { x with last := some h0.size })).upd h0.size (fun x => { x with parent := some dn })) := by
    have hat : ((h0.upd dn (fun x => { x with first := none, last := none })).alloc (mkElement (some dn) b!"pseudoroot")).at' dn =
        { h0.at' dn with first := none, last := none } := by
      show (if dn = h0.size then _ else (if dn = dn then _ else _ : Node)) = _
      rw [if_neg hne, if_pos rfl]
    unfold nodeAddChild
    rw [node_bind, hat]
    simp only [hk]
    unfold addChild
    rw [node_bind, hat]
    rfl
  have hx : h' = (((((h0.upd dn (fun x => { x with first := none, last := none })).alloc (mkElement (some dn) b!"pseudoroot")).upd dn
        (fun x => { x with first := some h0.size })).upd dn (fun x => { x with last := some h0.size })).upd h0.size (fun x => { x with parent := some dn })) := by
    rcases attempt_ok.1 h1 with ⟨a, _, h1⟩ | ⟨a, _, h1⟩
    · have h1 := hrun.symm.trans h1
      injection h1 with _ h1
      exact h1.symm
    · have h1 := hrun.symm.trans h1
      cases h1
  subst hx
  generalize hG : (((((h0.upd dn (fun x => { x with first := none, last := none })).alloc (mkElement (some dn) b!"pseudoroot")).upd dn
        (fun x => { x with first := some h0.size })).upd dn (fun x => { x with last := some h0.size })).upd h0.size (fun x => { x with parent := some dn })) = G
  have hs : G.size = h0.size + 1 := by rw [← hG]; rfl
  have hat : ∀ i, ((h0.upd dn (fun x => { x with first := none, last := none })).alloc (mkElement (some dn) b!"pseudoroot")).at' i =
      if i = h0.size then mkElement (some dn) b!"pseudoroot" else (h0.upd dn (fun x => { x with first := none, last := none })).at' i := fun i => rfl
  have hold : ∀ i, i < h0.size → i ≠ dn → G.at' i = h0.at' i := by
    intro i hi hid
    rw [← hG]
    simp only [upd_at, hat, if_neg hid, if_neg (Nat.ne_of_lt hi)]
  have hdat : G.at' dn = { h0.at' dn with first := some h0.size, last := some h0.size } := by
    rw [← hG]
    simp only [upd_at, hat, if_neg hne, if_true]
  have hroot : G.at' h0.size = { mkElement (some dn) b!"pseudoroot" with parent := some dn } := by
    rw [← hG]
    simp only [upd_at, hat, if_neg (Ne.symm hne), if_true]
  have only : ∀ i, h0.size ≤ i → i < G.size → i = h0.size := fun i a b => by omega
  refine { dlt := hd, dk := hk, size := by omega, tab := ?_, same := fun i hi hid _ => hold i hi hid, ent := fun i hi hid => by rw [hold i hi hid],
           dat := by rw [hdat], root := by rw [hdat], rnew := ⟨Nat.le_refl _, by omega⟩, rfirst := by rw [hroot]; rfl, rk := by rw [hroot]; rfl,
           last := ⟨h0.size, by rw [hdat], Nat.le_refl _, by omega⟩, next := ?_, parent := ?_, ends := ?_, props := ?_ }
  · rw [← hG]
    refine TabOK.upd (TabOK.upd (TabOK.upd (TabOK.alloc (TabOK.upd T ?_ ?_) ⟨rfl, rfl⟩) ?_ ?_) ?_ ?_) ?_ ?_ <;> first | rfl | exact ⟨rfl, rfl⟩
  · intro i j a b hj
    rw [only i a b, hroot] at hj
    cases hj
  · intro i j a b hj
    rw [only i a b, hroot] at hj
    cases hj
    exact ⟨hne, by omega, Or.inr (Or.inl rfl)⟩
  · intro i j a b _ hj
    rw [only i a b, hroot] at hj
    cases hj
  · intro i j a b _ hj
    rw [only i a b, hroot] at hj
    cases hj

/-- after the entity, for the tree outside. -/
theorem chunk_soft {h : Heap} (G : RegH O dn r h) :
    Soft dn O (h.upd dn (fun x => { x with first := (O.at' dn).first, last := (O.at' dn).last })) := by
  have hat : ∀ i, i ≠ dn → (h.upd dn (fun x => { x with first := (O.at' dn).first, last := (O.at' dn).last })).at' i = h.at' i := fun i hi => by
    rw [upd_at, if_neg hi]
  have hdn : (h.upd dn (fun x => { x with first := (O.at' dn).first, last := (O.at' dn).last })).at' dn = { O.at' dn with standalone := (h.at' dn).standalone } := by
    rw [upd_at, if_pos rfl, G.dat]
  refine ⟨G.size, fun _ => TabOK.upd G.tab rfl ⟨rfl, rfl⟩, fun i hi => ?_, fun i hi => ?_, fun i hi hk hd => ?_⟩
  · by_cases hd : i = dn
    · subst hd
      rw [hdn]
      exact ⟨rfl, rfl, rfl, rfl, fun _ => ⟨rfl, rfl⟩⟩
    · rw [hat i hd]
      by_cases hk : (O.at' i).kind = .entity
      · rw [G.ent i hi hd]
        exact ⟨rfl, rfl, rfl, rfl, fun ht => by rw [hk] at ht; cases ht⟩
      · exact Linked.of_eq (G.same i hi hd hk)
  · by_cases hd : i = dn
    · subst hd
      rw [hdn]
      rfl
    · rw [hat i hd, G.ent i hi hd]
      rfl
  · rw [hat i hd]
    exact G.same i hi hd hk

/-- after an entity inside of an entity. -/
theorem chunk_nest {P : Heap} {q : Nat} {h : Heap} (H : RegH P dn q O) (G : RegH O dn r h) :
    RegH P dn q (h.upd dn (fun x => { x with first := (O.at' dn).first, last := (O.at' dn).last })) := by
  have hat : ∀ i, i ≠ dn → (h.upd dn (fun x => { x with first := (O.at' dn).first, last := (O.at' dn).last })).at' i = h.at' i := fun i hi => by
    rw [upd_at, if_neg hi]
  have hdn : (h.upd dn (fun x => { x with first := (O.at' dn).first, last := (O.at' dn).last })).at' dn = { O.at' dn with standalone := (h.at' dn).standalone } := by
    rw [upd_at, if_pos rfl, G.dat]
  have hk : ∀ i, i < O.size → ((h.upd dn (fun x => { x with first := (O.at' dn).first, last := (O.at' dn).last })).at' i).kind = (O.at' i).kind := by
    intro i hi
    by_cases hd : i = dn
    · subst hd; rw [hdn]
    · rw [hat i hd]; exact G.kindO hi
  have hps := H.size
  have hos := G.size
  have hdl := H.dlt
  have hq := H.rnew
  have hqd : q ≠ dn := by omega
  have hqO : h.at' q = O.at' q := G.same q hq.2 hqd (by rw [H.rk]; nofun)
  refine { dlt := H.dlt, dk := H.dk, size := Nat.le_trans hps hos, tab := TabOK.upd G.tab rfl ⟨rfl, rfl⟩, same := ?_, ent := ?_, dat := ?_, root := ?_,
           rnew := ⟨hq.1, Nat.lt_of_lt_of_le hq.2 hos⟩, rfirst := ?_, rk := ?_, last := ?_, next := ?_, parent := ?_, ends := ?_, props := ?_ }
  · intro i hi hd hke
    rw [hat i hd, G.same i (by omega) hd (by rw [H.kindO hi]; exact hke)]
    exact H.same i hi hd hke
  · intro i hi hd
    rw [hat i hd]
    have h1 := G.ent i (by omega) hd
    have h2 := H.ent i hi hd
    generalize h.at' i = x at h1 ⊢
    rw [h2] at h1
    exact h1
  · rw [hdn]
    have h2 := H.dat
    generalize O.at' dn = x at h2 ⊢
    rw [h2]
  · rw [hdn]; exact H.root
  · rw [hat q hqd, hqO]; exact H.rfirst
  · rw [hat q hqd, hqO]; exact H.rk
  · obtain ⟨l, h1, h2, h3⟩ := H.last
    exact ⟨l, by rw [hdn]; exact h1, h2, Nat.lt_of_lt_of_le h3 hos⟩
  · intro i j hb hs hj
    rw [hat i (by omega)] at hj
    show P.size ≤ j ∧ j < h.size
    by_cases hi : i < O.size
    · rw [G.ent i hi (by omega)] at hj
      have := H.next i j hb hi hj
      omega
    · have := G.next i j (by omega) hs hj
      omega
  · intro i j hb hs hj
    rw [hat i (by omega)] at hj
    show j ≠ q ∧ j < h.size ∧ _
    by_cases hi : i < O.size
    · rw [G.ent i hi (by omega)] at hj
      obtain ⟨p1, p2, p3⟩ := H.parent i j hb hi hj
      exact ⟨p1, by omega, by rw [hk j p2]; exact p3⟩
    · obtain ⟨p1, p2, p3⟩ := G.parent i j (by omega) hs hj
      rcases p3 with p3 | p3 | p3
      · exact ⟨by omega, p2, Or.inl (by omega)⟩
      · exact ⟨by omega, p2, Or.inr (Or.inl p3)⟩
      · refine ⟨?_, p2, Or.inr (Or.inr ?_)⟩
        · rintro rfl
          rw [hqO, H.rk] at p3
          cases p3
        · rw [hat j (by rintro rfl; rw [G.dnk] at p3; cases p3)]
          exact p3
  · intro i j hb hs hke hj
    rw [hat i (by omega)] at hj hke
    show P.size ≤ j ∧ j < h.size
    by_cases hi : i < O.size
    · rw [G.kindO hi] at hke
      rw [G.same i hi (by omega) (by rw [hke]; nofun)] at hj
      have := H.ends i j hb hi hke hj
      omega
    · have := G.ends i j (by omega) hs hke hj
      omega
  · intro i j hb hs hke hj
    rw [hat i (by omega)] at hj hke
    show P.size ≤ j ∧ j < h.size
    by_cases hi : i < O.size
    · rw [G.kindO hi] at hke
      rw [G.same i hi (by omega) (by rw [hke]; nofun)] at hj
      have := H.props i j hb hi hke hj
      omega
    · have := G.props i j (by omega) hs hke hj
      omega

end
end Helium
