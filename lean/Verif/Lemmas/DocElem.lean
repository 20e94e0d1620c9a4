import Verif.Lemmas.HeapOps
/-! `SetDocumentElement` on well-linked children. -/
namespace Helium
open Spec

theorem kind_of_info {x y : Node} (h : info x = info y) : x.kind = y.kind := by
  have := congrArg Node.kind h
  simpa [info] using this

theorem childList_parent {h : Heap} {d r : Nat} {l : List Nat} (C : ChildList h d l) : ChildList (h.upd r (fun x => { x with parent := some d })) d l where
  first := by simp only [lnk]; exact C.first
  last := by simp only [lnk]; exact C.last
  next a c b hl := by simp only [lnk]; exact C.next a c b hl
  prev a c b hl := by simp only [lnk]; exact C.prev a c b hl
  parent c hc := by
    simp only [lnk]
    split
    · rfl
    · exact C.parent c hc
  nodup := C.nodup
  alloc := C.alloc

theorem childList_parent_other {h : Heap} {d r q : Nat} {l : List Nat} (C : ChildList h q l) (hr : r ∉ l) :
    ChildList (h.upd r (fun x => { x with parent := some d })) q l where
  first := by simp only [lnk]; exact C.first
  last := by simp only [lnk]; exact C.last
  next a c b hl := by simp only [lnk]; exact C.next a c b hl
  prev a c b hl := by simp only [lnk]; exact C.prev a c b hl
  parent c hc := by
    have : c ≠ r := by rintro rfl; exact hr hc
    simp only [lnk, this, if_false]
    exact C.parent c hc
  nodup := C.nodup
  alloc := C.alloc

theorem find_skip {α : Type} {p : α → Bool} {c : α} {b : List α} : ∀ {a : List α}, (∀ x ∈ a, p x = false) → p c = true → (a ++ c :: b).find? p = some c
  | [], _, hc => by simp [hc]
  | x :: a, ha, hc => by
    simp only [List.cons_append, List.find?_cons, ha x (by simp)]
    exact find_skip (fun y hy => ha y (by simp [hy])) hc

theorem find_none {α : Type} {p : α → Bool} : ∀ {a : List α}, (∀ x ∈ a, p x = false) → a.find? p = none
  | [], _ => rfl
  | x :: a, ha => by
    simp only [List.find?_cons, ha x (by simp)]
    exact find_none (fun y hy => ha y (by simp [hy]))

/-- replacing a node by itself changes nothing. -/
theorem upd_same {h : Heap} {i : Nat} {f : Node → Node} (hf : f (h.at' i) = h.at' i) : h.upd i f = h := by
  cases h with
  | mk size g =>
    simp only [Heap.upd, Heap.put] at hf ⊢
    congr 1
    funext j
    split
    · rename_i hj; rw [hj]; exact hf
    · rfl

theorem replaceNode_self {h : Heap} {p n : Nat} {l r : List Nat} (C : ChildList h p (l ++ n :: r)) : replaceNode n n h = .ok () h := by
  have k1 := C.next l n r rfl
  have k2 := C.prev l n r rfl
  have k3 := C.parent n (by simp)
  have u1 : ∀ z, r.head? = some z → h.upd n (fun c => { c with next := some z }) = h ∧ h.upd z (fun c => { c with prev := some n }) = h := by
    intro z hz
    obtain ⟨r', rfl⟩ : ∃ r', r = z :: r' := by cases r with
      | nil => cases hz
      | cons y r' => simp at hz; exact ⟨r', by rw [hz]⟩
    refine ⟨upd_same ?_, upd_same ?_⟩
    · have : (h.at' n).next = some z := k1
      rw [← this]
    · have : (h.at' z).prev = some n := by
        have := C.prev (l ++ [n]) z r' (by simp)
        simpa using this
      rw [← this]
  have u2 : ∀ z, l.getLast? = some z → h.upd n (fun c => { c with prev := some z }) = h ∧ h.upd z (fun c => { c with next := some n }) = h := by
    intro z hz
    obtain ⟨l', rfl⟩ : ∃ l', l = l' ++ [z] := by
      rcases List.eq_nil_or_concat l with rfl | ⟨l', y, rfl⟩
      · cases hz
      · simp at hz; exact ⟨l', by rw [hz]; simp⟩
    refine ⟨upd_same ?_, upd_same ?_⟩
    · have : (h.at' n).prev = some z := by rw [k2]; exact hz
      rw [← this]
    · have : (h.at' z).next = some n := by
        have := C.next l' z (n :: r) (by simp)
        simpa using this
      rw [← this]
  have u3 : h.upd n (fun c => { c with parent := some p }) = h := upd_same (by rw [← k3])
  unfold replaceNode
  simp only [node_bind, k1]
  have tail : (do
      let x ← node n
      match x.parent with
      | some p =>
        let px ← node p
        if px.first = some n then updNode p (fun c => { c with first := some n }) else pure ()
        let px ← node p
        if px.last = some n then updNode p (fun c => { c with last := some n }) else pure ()
        updNode n (fun c => { c with parent := some p })
      | none => pure () : HM Unit) h = .ok () h := by
    simp only [node_bind, k3]
    by_cases h1 : (h.at' p).first = some n
    · have v1 : h.upd p (fun c => { c with first := some n }) = h := upd_same (by rw [← h1])
      simp only [if_pos h1, updNode_bind, v1, node_bind]
      by_cases h2 : (h.at' p).last = some n
      · have v2 : h.upd p (fun c => { c with last := some n }) = h := upd_same (by rw [← h2])
        simp only [if_pos h2, updNode_bind, v2, updNode_run, u3]
      · simp only [if_neg h2, updNode_run, u3]
    · simp only [if_neg h1, node_bind]
      by_cases h2 : (h.at' p).last = some n
      · have v2 : h.upd p (fun c => { c with last := some n }) = h := upd_same (by rw [← h2])
        simp only [if_pos h2, updNode_bind, v2, updNode_run, u3]
      · simp only [if_neg h2, updNode_run, u3]
  cases hr : r.head? with
  | none =>
    simp only [node_bind, k2]
    cases hl : l.getLast? with
    | none => exact tail
    | some y =>
      simp only [updNode_bind, (u2 y hl).1, (u2 y hl).2]
      exact tail
  | some z =>
    simp only [updNode_bind, (u1 z hr).1, (u1 z hr).2, node_bind, k2]
    cases hl : l.getLast? with
    | none => exact tail
    | some y =>
      simp only [updNode_bind, (u2 y hl).1, (u2 y hl).2]
      exact tail

/-- the document with its one element `cur` between `pre` and `post`, and further candidates `rs` for the document element. -/
structure DocInv (h0 h : Heap) (d : Nat) (pre : List Nat) (cur : Nat) (post rs : List Nat) : Prop where
  kids : ChildList h d (pre ++ cur :: post)
  info : ∀ x, Spec.info (h.at' x) = Spec.info (h0.at' x)
  size : h.size = h0.size
  elem : (h0.at' cur).kind = .element
  rest : ∀ x ∈ pre ++ post, (h0.at' x).kind ≠ .element ∧ (h0.at' x).kind ≠ .doc
  cand : ∀ q ∈ rs, q < h0.size ∧ (h0.at' q).kind = .element ∧
    (q = cur ∨ (q ∉ pre ++ cur :: post ∧ (post = [] → (h.at' q).next = none) ∧ (pre = [] → (h.at' q).prev = none)))
  other : ∀ p m, p ≠ d → ChildList h0 p m → (∀ q ∈ rs, q ∉ m) → ChildList h p m

theorem DocInv.step {h0 h : Heap} {d cur q : Nat} {pre post rs : List Nat} (I : DocInv h0 h d pre cur post rs) (hq : q ∈ rs) :
    ∃ h', setDocumentElement d (some q) h = .ok () h' ∧ DocInv h0 h' d pre q post rs := by
  obtain ⟨q1, q2, q3⟩ := I.cand q hq
  have kk : ∀ x, (h.at' x).kind = (h0.at' x).kind := fun x => kind_of_info (I.info x)
  have C1 := childList_parent (r := q) I.kids
  have hfind : (pre ++ cur :: post).find? (fun i => ((h.upd q (fun x => { x with parent := some d })).at' i).kind = .element) = some cur := by
    apply find_skip
    · intro x hx
      simp only [lnk, kk, (I.rest x (by simp [hx])).1, decide_false]
    · simp only [lnk, kk, I.elem, decide_true]
  have hrun : setDocumentElement d (some q) h = replaceNode cur q (h.upd q (fun x => { x with parent := some d })) := by
    unfold setDocumentElement
    simp only [updNode_bind, get_bind, C1.chain_eq, hfind]
    unfold nodeReplace
    simp only [node_bind, lnk, kk, I.elem, reduceCtorEq, if_false]
  rw [hrun]
  by_cases hqc : q = cur
  · subst hqc
    have hsame : h.upd q (fun x => { x with parent := some d }) = h := upd_same (by
      have := I.kids.parent q (by simp)
      rw [← this])
    rw [hsame] at C1 ⊢
    exact ⟨h, replaceNode_self C1, I⟩
  · have q4 := q3.resolve_left hqc
    obtain ⟨h', e, X⟩ := replaceNode_links C1 q4.1 (by simpa only [lnk] using q4.2.1) (by simpa only [lnk] using q4.2.2)
    have hnd := I.kids.nodup
    rw [List.nodup_append] at hnd
    obtain ⟨ndl, ndnr, dis⟩ := hnd
    obtain ⟨nnr, ndr⟩ := List.nodup_cons.1 ndnr
    have nnl : cur ∉ pre := fun hm => dis cur hm cur (by simp) rfl
    refine ⟨h', e, ?_⟩
    refine { kids := C1.replaced q4.1 (by simp only [lnk]; rw [I.size]; exact q1) X
             info := ?_, size := ?_, elem := q2, rest := I.rest, cand := ?_, other := ?_ }
    · intro x
      rw [X.info x]
      simp only [lnk]
      exact I.info x
    · rw [X.size]
      exact I.size
    · intro q' hq'
      obtain ⟨r1, r2, r3⟩ := I.cand q' hq'
      refine ⟨r1, r2, ?_⟩
      by_cases hqq : q' = q
      · exact Or.inl hqq
      · right
        have hpre : q' ∉ pre := fun hm => (I.rest q' (by simp [hm])).1 r2
        have hpost : q' ∉ post := fun hm => (I.rest q' (by simp [hm])).1 r2
        have hn : (h'.at' q').next = (h.at' q').next := by
          rw [X.next q' hqq, if_neg]
          · simp only [lnk]
          · exact fun hl => hpre (List.mem_of_getLast? hl)
        have hp : (h'.at' q').prev = (h.at' q').prev := by
          rw [X.prev q' hqq, if_neg]
          · simp only [lnk]
          · exact fun hl => hpost (List.mem_of_head? hl)
        refine ⟨by simp [hpre, hpost, hqq], ?_, ?_⟩
        · intro hpo
          rw [hn]
          rcases r3 with rfl | r3
          · have := I.kids.next pre q' post rfl
            rw [this, hpo]
            rfl
          · exact r3.2.1 hpo
        · intro hpr
          rw [hp]
          rcases r3 with rfl | r3
          · have := I.kids.prev pre q' post rfl
            rw [this, hpr]
            rfl
          · exact r3.2.2 hpr
    · intro p m hpd hC hm
      have hq' : q ∉ m := hm q hq
      refine ChildList.untouched X ?_ hpd (childList_parent_other (I.other p m hpd hC hm) hq') hq'
      intro x hx
      apply C1.parent
      simp only [List.mem_append, List.mem_cons] at hx ⊢
      rcases hx with hx | hx
      · exact Or.inl hx
      · exact Or.inr (Or.inr hx)

/-- a sequence of calls. -/
def setDocElems (d : Nat) (rs : List Nat) : HM Unit := rs.forM (fun r => setDocumentElement d (some r))

theorem setDocElems_cons {d q : Nat} {rs : List Nat} {h h' : Heap} (e : setDocumentElement d (some q) h = .ok () h') :
    setDocElems d (q :: rs) h = setDocElems d rs h' := by
  show ((setDocumentElement d (some q)) >>= fun _ => setDocElems d rs) h = _
  rw [bind_run e]

theorem DocInv.run {h0 : Heap} {d : Nat} {pre post rs : List Nat} : ∀ (qs : List Nat) {h : Heap} {cur : Nat}, DocInv h0 h d pre cur post rs →
    (∀ q ∈ qs, q ∈ rs) → ∃ h', setDocElems d qs h = .ok () h' ∧ DocInv h0 h' d pre (qs.getLast?.getD cur) post rs
  | [], h, cur, I, _ => ⟨h, rfl, I⟩
  | q :: qs, h, cur, I, hq => by
    obtain ⟨h1, e1, I1⟩ := I.step (hq q (by simp))
    obtain ⟨h2, e2, I2⟩ := DocInv.run qs I1 (fun x hx => hq x (by simp [hx]))
    refine ⟨h2, by rw [setDocElems_cons e1, e2], ?_⟩
    have : (q :: qs).getLast?.getD cur = qs.getLast?.getD q := by
      rw [List.getLast?_cons]
      rfl
    rw [this]
    exact I2

/-- the first document element. -/
theorem DocInv.start {h0 : Heap} {d q : Nat} {l rs : List Nat} (C : ChildList h0 d l) (hd : (h0.at' d).kind = .doc)
    (hl : ∀ x ∈ l, (h0.at' x).kind ≠ .element ∧ (h0.at' x).kind ≠ .doc) (hq : q ∈ rs)
    (hr : ∀ q ∈ rs, q < h0.size ∧ (h0.at' q).kind = .element ∧ (h0.at' q).next = none ∧ (h0.at' q).prev = none) :
    ∃ h', setDocumentElement d (some q) h0 = .ok () h' ∧ DocInv h0 h' d l q [] rs := by
  obtain ⟨q1, q2, q3, q4⟩ := hr q hq
  have hql : ∀ x ∈ rs, x ∉ l := fun x hx hm => (hl x hm).1 (hr x hx).2.1
  have C1 := childList_parent (r := q) C
  have hfind : l.find? (fun i => ((h0.upd q (fun x => { x with parent := some d })).at' i).kind = .element) = none := by
    apply find_none
    intro x hx
    simp only [lnk, (hl x hx).1, decide_false]
  have hrun : setDocumentElement d (some q) h0 =
      (M.attempt (nodeAddChild d q) >>= fun _ => pure ()) (h0.upd q (fun x => { x with parent := some d })) := by
    unfold setDocumentElement
    simp only [updNode_bind, get_bind, C1.chain_eq, hfind]
  obtain ⟨h', e, X⟩ := nodeAddChild_links (c := q) C1 (hql q hq) (by simp only [lnk]; exact q3) (fun _ => by simp only [lnk]; exact q4)
    (by simp only [lnk, hd]; decide) (fun y hy => by simp only [lnk]; exact (hl y hy).2) (by simp only [lnk, q2]; decide)
  rw [hrun, attempt_bind, e]
  refine ⟨h', rfl, ?_⟩
  refine { kids := C1.appended (hql q hq) q1 X, info := ?_, size := X.size, elem := q2, rest := ?_, cand := ?_, other := ?_ }
  · intro x
    rw [X.info x]
    simp only [lnk]
  · intro x hx
    exact hl x (by simpa using hx)
  · intro x hx
    obtain ⟨r1, r2, r3, r4⟩ := hr x hx
    refine ⟨r1, r2, ?_⟩
    by_cases hxq : x = q
    · exact Or.inl hxq
    · right
      refine ⟨by simp [hxq, hql x hx], fun _ => ?_, fun _ => ?_⟩
      · rw [X.next x hxq, if_neg]
        · simp only [lnk]; exact r3
        · exact fun h => hql x hx (List.mem_of_getLast? h)
      · rw [X.prev x hxq, if_neg (by simp)]
        simp only [lnk]; exact r4
  · intro p m hpd hC hm
    have hq' : q ∉ m := hm q hq
    refine ChildList.untouched X ?_ hpd (childList_parent_other hC hq') hq'
    intro x hx
    apply C1.parent
    simpa using hx

end Helium
