import Verif.Spec.DomOp
import Verif.Lemmas.DomOps
/-! Histories of DOM operations. -/
namespace Helium
open Spec

/-- no document is anybody's child. -/
def NoDocKid (a : Forest) : Prop := ∀ p, ∀ c ∈ a.kids p, (a.data c).kind ≠ .doc

theorem rel_empty : Rel Heap.empty Forest.empty := by
  refine { size := rfl, data := ?_, first := ?_, last := ?_, link := ?_, nodup := ?_, kid := ?_, loose := ?_, bound := ?_ }
  · intro n hn; cases hn
  · intro n hn; cases hn
  · intro n hn; cases hn
  · intro p l c r hk; simp [Forest.empty] at hk
  · intro p; simp [Forest.empty]
  · intro p c hc; simp [Forest.empty] at hc
  · intro c hc; cases hc
  · intro n hn; cases hn

theorem parentOf_mem {a : Forest} {n p : Nat} (h : a.parentOf n = some p) : n ∈ a.kids p := by
  have := List.find?_some h
  simpa using this

theorem newNode_links (x : NewNode) : x.node.first = none ∧ x.node.last = none ∧ x.node.next = none ∧ x.node.prev = none := by
  cases x <;> exact ⟨rfl, rfl, rfl, rfl⟩

theorem kids_size {h : Heap} {a : Forest} (R : Rel h a) {p c : Nat} (hc : c ∈ a.kids p) : c ≠ a.size ∧ p ≠ a.size := by
  have h1 := R.bound c (R.kid p c hc).1
  have h2 := R.bound p (R.kid p c hc).2.1
  omega

theorem alloc_kids {h : Heap} {a : Forest} (R : Rel h a) (x : Node) (p : Nat) : (a.alloc x).kids p = a.kids p := by
  simp only [Forest.alloc]
  split
  · rename_i hp
    cases hk : a.kids p with
    | nil => rfl
    | cons c r => exact absurd hp (kids_size R (p := p) (c := c) (by rw [hk]; simp)).2
  · rfl

theorem NoDocKid.alloc {h : Heap} {a : Forest} (R : Rel h a) (N : NoDocKid a) (x : Node) : NoDocKid (a.alloc x) := by
  intro p c hc
  rw [alloc_kids R] at hc
  have := (kids_size R hc).1
  simp only [Forest.alloc, this, if_false]
  exact N p c hc

theorem NoDocKid.addText {a : Forest} (N : NoDocKid a) (n : Nat) (b : Bytes) : NoDocKid (a.addText n b) := by
  intro p c hc
  have := N p c hc
  simp only [Forest.addText]
  split
  · rename_i h; subst h; exact this
  · exact this

theorem NoDocKid.append {a : Forest} (N : NoDocKid a) (p c : Nat) (hc : (a.data c).kind ≠ .doc) : NoDocKid (a.append p c) := by
  intro q x hx
  simp only [Forest.append] at hx ⊢
  split at hx
  · rcases List.mem_append.1 hx with hx | hx
    · exact N p x hx
    · simp at hx; rw [hx]; exact hc
  · exact N q x hx

theorem NoDocKid.replace {a : Forest} (N : NoDocKid a) (p n c : Nat) (hc : (a.data c).kind ≠ .doc) : NoDocKid (a.replace p n c) := by
  intro q x hx
  simp only [Forest.replace] at hx ⊢
  split at hx
  · simp only [List.mem_map] at hx
    obtain ⟨y, hy, rfl⟩ := hx
    split
    · exact hc
    · exact N p y hy
  · exact N q x hx

theorem NoDocKid.addChild {a : Forest} (N : NoDocKid a) (p c : Nat) (hc : (a.data c).kind ≠ .doc) : NoDocKid (a.addChild p c) := by
  unfold Forest.addChild
  split
  · split
    · exact N.addText _ _
    · exact N
  · split
    · exact N.append _ _ hc
    · split
      · exact N.addText _ _
      · exact N.append _ _ hc

/-- one call does what it should. -/
theorem step_refines {h : Heap} {a : Forest} (R : Rel h a) (N : NoDocKid a) (op : DomOp) (hv : a.valid op = true) :
    ∃ h', M.attempt op.exec h = .ok (match a.outcome op with | none => .ok () | some e => .error e) h' ∧ Rel h' (a.step op) ∧ NoDocKid (a.step op) := by
  have att : ∀ {p : HM Unit} {h' : Heap}, p h = .ok () h' → M.attempt p h = .ok (.ok ()) h' := by
    intro p h' e
    unfold M.attempt
    rw [e]
  cases op with
  | new x => exact ⟨h.alloc x.node, rfl, R.alloc _ (newNode_links x), N.alloc R _⟩
  | addChild p c =>
    simp only [Forest.valid, Bool.and_eq_true, bne_iff_ne] at hv
    obtain ⟨⟨⟨h1, h2⟩, h3⟩, h4⟩ := hv
    obtain ⟨h', e, R', _⟩ := R.nodeAddChild_run h1 h2 h3 (fun l hl => N p l (Rel.last_mem hl))
    refine ⟨h', ?_, R', N.addChild p c h4⟩
    simp only [DomOp.exec, Forest.outcome]
    by_cases hb : ((a.data p).kind = .text ∨ (a.data p).kind = .comment) ∧ (a.data c).kind ≠ (a.data p).kind
    · rw [if_pos hb]
      have k1 := R.kind h1
      have k2 := R.kind (R.loose c h3).2.2.1
      have e2 : nodeAddChild p c h = .err (.k .invalidOperation) h := by
        unfold nodeAddChild
        rcases hb with ⟨hb | hb, hne⟩ <;> simp only [node_bind, k1, hb, k2] <;> rw [hb] at hne <;> rw [if_neg hne] <;> rfl
      rcases e with e | ⟨_, rfl, e⟩
      · rw [e2] at e; cases e
      · unfold M.attempt
        rw [e]
    · rw [if_neg hb]
      rcases e with e | ⟨hm, rfl, e⟩
      · exact att e
      · have hk : (a.data c).kind = (a.data p).kind := by
          cases Classical.em ((a.data c).kind = (a.data p).kind) with
          | inl h => exact h
          | inr h => exact absurd ⟨by simpa using hm, h⟩ hb
        have k1 := R.kind h1
        have k2 := R.kind (R.loose c h3).2.2.1
        simp only [List.mem_cons, List.not_mem_nil, or_false] at hm
        unfold nodeAddChild at e
        rcases hm with hm | hm <;> simp only [node_bind, k1, hm, k2] at e <;> rw [hm] at hk <;> rw [if_pos hk] at e <;> cases e
  | addSibling n c =>
    simp only [Forest.valid, Bool.and_eq_true, bne_iff_ne, Option.isSome_iff_exists] at hv
    obtain ⟨⟨⟨p, hp⟩, h3⟩, h4⟩ := hv
    have hm := parentOf_mem hp
    obtain ⟨h', e, R', _⟩ := R.nodeAddSibling_run hm h3 (N p n hm)
    refine ⟨h', att e, ?_⟩
    simp only [Forest.step, hp]
    refine ⟨R', ?_⟩
    unfold Forest.addSibling
    split
    · exact N.addText _ _
    · exact N.append _ _ h4
  | addContent p b =>
    simp only [Forest.valid, Bool.and_eq_true] at hv
    obtain ⟨h', e, R', _⟩ := R.nodeAddContent_run hv.1 hv.2 (fun l hl => N p l (Rel.last_mem hl)) b
    refine ⟨h', att e, R', ?_⟩
    simp only [Forest.step]
    unfold Forest.addContent
    split
    · exact N.addText _ _
    · refine (N.alloc R _).addChild _ _ ?_
      simp [Forest.alloc, mkText, info]
  | replace n c =>
    simp only [Forest.valid, Bool.and_eq_true, bne_iff_ne, Option.isSome_iff_exists] at hv
    obtain ⟨⟨⟨p, hp⟩, h3⟩, h4⟩ := hv
    have hm := parentOf_mem hp
    obtain ⟨h', e, R', _⟩ := R.replaceNode_run hm h3
    refine ⟨h', att ?_, ?_⟩
    · simp only [DomOp.exec]
      unfold nodeReplace
      simp only [node_bind, R.kind (R.kid p n hm).1]
      rw [if_neg (N p n hm)]
      exact e
    · simp only [Forest.step, hp]
      exact ⟨R', N.replace _ _ _ h4⟩
  | setDocumentElement d r =>
    simp only [Forest.valid, Bool.and_eq_true, beq_iff_eq] at hv
    obtain ⟨⟨⟨h1, h2⟩, h3⟩, h4⟩ := hv
    obtain ⟨h', e, R', _⟩ := R.setDocumentElement_run h1 h2 h3 h4 (N d)
    refine ⟨h', att e, R', ?_⟩
    simp only [Forest.step]
    unfold Forest.setDocumentElement
    split
    · exact N.append _ _ (by rw [h4]; decide)
    · exact N.replace _ _ _ (by rw [h4]; decide)

/-- a whole history does what it should. -/
theorem steps_refine : ∀ (ops : List DomOp) {h : Heap} {a : Forest}, Rel h a → NoDocKid a → a.validAll ops = true →
    ∃ h', execAll ops h = .ok (a.outcomes ops) h' ∧ Rel h' (a.steps ops) ∧ NoDocKid (a.steps ops)
  | [], h, a, R, N, _ => ⟨h, rfl, R, N⟩
  | op :: ops, h, a, R, N, hv => by
    simp only [Forest.validAll, Bool.and_eq_true] at hv
    obtain ⟨h1, e1, R1, N1⟩ := step_refines R N op hv.1
    obtain ⟨h2, e2, R2, N2⟩ := steps_refine ops R1 N1 hv.2
    refine ⟨h2, ?_, R2, N2⟩
    unfold execAll
    rw [bind_run e1, bind_run e2]
    simp only [Forest.outcomes]
    cases a.outcome op <;> rfl

/-! ### no adjacent text -/

def isText (a : Forest) (n : Nat) : Bool := (a.data n).kind == .text

theorem noAdjacent_append {p : Nat → Bool} {c : Nat} : ∀ {l : List Nat}, noAdjacent p l = true →
    (∀ y, l.getLast? = some y → (p y && p c) = false) → noAdjacent p (l ++ [c]) = true
  | [], _, _ => rfl
  | [x], _, h => by simp [noAdjacent, h x (by simp)]
  | x :: y :: l, h1, h2 => by
    simp only [noAdjacent, Bool.and_eq_true] at h1
    simp only [List.cons_append, noAdjacent, Bool.and_eq_true]
    exact ⟨h1.1, noAdjacent_append (l := y :: l) h1.2 (fun z hz => h2 z (by simpa [List.getLast?_cons] using hz))⟩

theorem noAdjacent_congr {p q : Nat → Bool} : ∀ {l : List Nat}, (∀ x ∈ l, p x = q x) → noAdjacent p l = noAdjacent q l
  | [], _ => rfl
  | [x], _ => rfl
  | x :: y :: l, h => by
    simp only [noAdjacent]
    rw [h x (by simp), h y (by simp), noAdjacent_congr (l := y :: l) (fun z hz => h z (by simp [hz]))]

/-- texts are never neighbours. -/
def Merged (a : Forest) : Prop := ∀ p, noAdjacent (isText a) (a.kids p) = true

theorem Merged.addText {a : Forest} (H : Merged a) (n : Nat) (b : Bytes) : Merged (a.addText n b) := by
  intro p
  rw [show noAdjacent (isText (a.addText n b)) ((a.addText n b).kids p) = noAdjacent (isText a) (a.kids p) from
    noAdjacent_congr (fun x _ => by
      simp only [isText, Forest.addText]
      split
      · rename_i h; rw [h]
      · rfl)]
  exact H p

theorem Merged.alloc {h : Heap} {a : Forest} (R : Rel h a) (H : Merged a) (x : Node) : Merged (a.alloc x) := by
  intro p
  rw [alloc_kids R]
  rw [show noAdjacent (isText (a.alloc x)) (a.kids p) = noAdjacent (isText a) (a.kids p) from
    noAdjacent_congr (fun y hy => by
      have := (kids_size R hy).1
      simp [isText, Forest.alloc, this])]
  exact H p

theorem Merged.addChild {a : Forest} (H : Merged a) (p c : Nat) : Merged (a.addChild p c) := by
  have app : (∀ l, (a.kids p).getLast? = some l → (isText a l && isText a c) = false) → Merged (a.append p c) := by
    intro hl q
    show noAdjacent (isText a) (if q = p then a.kids p ++ [c] else a.kids q) = true
    split
    · exact noAdjacent_append (H p) hl
    · exact H q
  unfold Forest.addChild
  split
  · split
    · exact H.addText _ _
    · exact H
  · split
    · rename_i hn
      exact app (fun l hl => by rw [hn] at hl; cases hl)
    · rename_i l hn
      split
      · exact H.addText _ _
      · rename_i hb
        refine app (fun l' hl => ?_)
        rw [hn] at hl
        cases hl
        cases hx : (isText a l && isText a c)
        · rfl
        · simp only [isText, Bool.and_eq_true, beq_iff_eq] at hx
          exact absurd hx hb

theorem merged_steps : ∀ (ops : List DomOp) {h : Heap} {a : Forest}, Rel h a → NoDocKid a → Merged a → a.validAll ops = true →
    ops.all DomOp.appends = true → Merged (a.steps ops)
  | [], _, _, _, _, H, _, _ => H
  | op :: ops, h, a, R, N, H, hv, ho => by
    simp only [Forest.validAll, Bool.and_eq_true] at hv
    simp only [List.all_cons, Bool.and_eq_true] at ho
    obtain ⟨h1, e1, R1, N1⟩ := step_refines R N op hv.1
    refine merged_steps ops R1 N1 ?_ hv.2 ho.2
    cases op with
    | new x => exact H.alloc R _
    | addChild p c => exact H.addChild p c
    | addContent p b =>
      show Merged (a.addContent p b)
      unfold Forest.addContent
      split
      · exact H.addText _ _
      · exact (H.alloc R _).addChild _ _
    | addSibling n c => cases ho.1
    | replace n c => cases ho.1
    | setDocumentElement d r => cases ho.1

end Helium
