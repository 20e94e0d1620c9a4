import Verif.Lemmas.ValueFrame
import Verif.Lemmas.Utf8
import Verif.Lemmas.Shows
/-! `stringToNodeList`, `CreateAttribute` and what they leave alone; values without references. -/
namespace Helium
open Spec
section
variable {base : Nat}

theorem content_val {h : Heap} (hi : VInv base h) (n : Nat) : vpost base h (content n h) (fun _ h' => h' = h) := by
  unfold content
  cases contentF h (h.size + 1) n with
  | some b => exact ⟨VStep.refl _ _, hi, rfl⟩
  | none => trivial

theorem snlFlush_val {h : Heap} (hi : VInv base h) {st : SNL} (hs : SOK base h st) (d : Option Nat) :
    vpost base h (snlFlush d st h) (fun st' h' => SOK base h' st') := by
  unfold snlFlush
  by_cases hb : st.buf = []
  · simp only [hb, if_true]; exact vpost.ok hi hs
  · simp only [hb, if_false]
    refine vpost.bind (newNode_val rfl rfl ⟨rfl, rfl⟩ (by simp [mkText]) hi) (fun t h1 s1 i1 q1 => ?_)
    refine vpost.bind (snlPush_val i1 (hs.step s1) q1.2.2) (fun st' h2 s2 i2 q2 => ?_)
    exact vpost.ok i2 ⟨q2.1, q2.2⟩

theorem createReference_val {h : Heap} (hi : VInv base h) (d : Nat) (name : Bytes) :
    vpost base h (createReference d name h) (fun n h' => base ≤ n ∧ n < h'.size) := by
  unfold createReference
  have h1 : vpost base h (createCharRef (some d) name h) (fun n h' => base ≤ n ∧ n < h'.size) := by
    unfold createCharRef
    cases name with
    | nil => exact vpost.err hi
    | cons c t =>
      have := newNode_val (base := base) (h := h) (x := { kind := .entityRef, doc := some d, name := if c ≠ 38 then c :: t else if (c :: t).getLast? = some 59 then t.dropLast else t })
        rfl rfl ⟨rfl, rfl⟩ (by simp) hi
      exact ⟨this.1, this.2.1, this.2.2.2.2⟩
  refine vpost.bind h1 (fun n h' s1 i1 q1 => ?_)
  simp only [get_bind]
  cases hg : docGetEntity h' d (h'.at' n).name with
  | none => exact vpost.ok i1 q1
  | some ent =>
    simp only [updNode_bind]
    obtain ⟨s2, i2⟩ := updNew i1 (i := n) (f := fun x => { x with content := (h'.at' ent).content, first := some ent, last := some ent }) q1.1
      rfl ⟨rfl, rfl⟩ (fun j hj => Or.inl hj) (fun j hj => Or.inl hj)
    exact ⟨s2, i2, q1⟩

theorem docGetEntity_okp {h : Heap} (hi : VInv base h) {d : Nat} {name : Bytes} {e : Nat} (he : docGetEntity h d name = some e) : Okp base h e :=
  Or.inr (docGetEntity_ent hi.tab he)

theorem Okp.step {h h' : Heap} {j : Nat} (ho : Okp base h j) (s : VStep base h h') : Okp base h' j ∨ base ≤ j := by
  rcases ho with h1 | h1
  · exact Or.inr h1.1
  · by_cases hb : base ≤ j
    · exact Or.inr hb
    · exact Or.inl (Or.inr ⟨Nat.lt_of_lt_of_le h1.1 s.size, by rw [s.kind (by omega)]; exact h1.2⟩)

theorem Okp.step' {h h' : Heap} {j : Nat} (ho : Okp base h j) (s : VStep base h h') : Okp base h' j := by
  rcases ho with h1 | h1
  · exact Or.inl ⟨h1.1, Nat.lt_of_lt_of_le h1.2 s.size⟩
  · by_cases hb : base ≤ j
    · exact Or.inl ⟨hb, Nat.lt_of_lt_of_le h1.1 s.size⟩
    · exact Or.inr ⟨Nat.lt_of_lt_of_le h1.1 s.size, by rw [s.kind (by omega)]; exact h1.2⟩

/-- a returned list of nodes is new. -/
def ROK (base : Nat) (r : Option Nat) (h : Heap) : Prop := ∀ i, r = some i → base ≤ i ∧ i < h.size

theorem snl_both (fuel : Nat) : (∀ d v h, VInv base h → vpost base h (stringToNodeList d fuel v h) (ROK base)) ∧
    (∀ d rs st h, VInv base h → SOK base h st → vpost base h (stringToNodeList.loop d fuel rs st h) (ROK base)) := by
  induction fuel with
  | zero =>
    constructor
    · intro d v h hi
      unfold stringToNodeList
      trivial
    · intro d rs st h hi hs
      unfold stringToNodeList.loop
      trivial
  | succ fuel ih =>
    constructor
    · intro d v h hi
      unfold stringToNodeList
      exact ih.2 d _ {} h hi ⟨fun i hi => (by cases hi), fun i hi => (by cases hi)⟩
    · intro d rs st h hi hs
      unfold stringToNodeList.loop
      cases rs with
      | nil =>
        simp only
        by_cases hb : st.buf = []
        · simp only [hb, if_true]; exact vpost.ok hi hs.1
        · simp only [hb, if_false]
          refine vpost.bind (newNode_val rfl rfl ⟨rfl, rfl⟩ (by simp [mkText]) hi) (fun t h1 s1 i1 q1 => ?_)
          cases hl : st.last with
          | none =>
            simp only
            exact vpost.ok i1 (fun i hi => by cases hi; exact q1.2.2)
          | some l =>
            simp only
            have hs1 := hs.step s1
            refine vpost.bind (attemptAddSibling_val i1 (hs1.2 l hl) q1.2.2) (fun _ h2 s2 i2 _ => ?_)
            exact vpost.ok i2 (hs1.step s2).1
      | cons c t =>
        simp only
        by_cases hc : c = 38
        · subst hc
          simp only [ne_eq, not_true_eq_false, if_false]
          split
          · exact vpost.err hi
          · split
            · exact vpost.err hi
            · have fin : ∀ v rst, vpost base h (stringToNodeList.loop d fuel rst (if v ≠ 0 then { st with buf := st.buf ++ writeRune32 v } else st) h) (ROK base) := by
                intro v rst
                refine ih.2 d _ _ h hi ?_
                split
                · exact ⟨hs.1, hs.2⟩
                · exact hs
              rename_i x t3
              cases hsd : (if x = 120 then snlDigits true 0 t3 else snlDigits false 0 (x :: t3)) with
              | error e => exact vpost.err hi
              | ok y => exact fin _ _
          · cases hsn : snlName t with
            | none => exact vpost.err hi
            | some y =>
              obtain ⟨nm, rst⟩ := y
              dsimp only
              cases d with
              | none => exact trivial
              | some dd =>
                have hder : (M.deref (some dd) : HM Nat) h = .ok dd h := rfl
                rw [bind_run hder]
                simp only [get_bind]
                have key : ∀ (h : Heap) (hi : VInv base h) (ent : Option Nat) (st : SNL), SOK base h st → (∀ e, ent = some e → Okp base h e) →
                    vpost base h ((do
                      let st ← snlFlush (some dd) st
                      let n ← createReference dd (encodeRunes nm)
                      match ent with
                      | some e =>
                        let h ← M.get
                        if (h.at' e).first = none then
                          let txt ← content n
                          let kids ← stringToNodeList (some dd) fuel txt
                          updNode e (fun x => { x with first := kids })
                          let h ← M.get
                          match chain h (h.size + 1) kids with
                          | none => M.diverge
                          | some l => l.forM (fun k => updNode k (fun x => { x with parent := some e }))
                        else pure ()
                      | none => pure ()
                      let st ← snlPush st n
                      stringToNodeList.loop (some dd) fuel rst st : HM (Option Nat)) h) (ROK base) := by
                  intro h hi ent st hs hent
                  refine vpost.bind (snlFlush_val hi hs _) (fun st1 h1 s1 i1 q1 => ?_)
                  refine vpost.bind (createReference_val i1 dd _) (fun n h2 s2 i2 q2 => ?_)
                  have fin : ∀ h3, VStep base h2 h3 → VInv base h3 → vpost base h3 ((do
                      let st ← snlPush st1 n
                      stringToNodeList.loop (some dd) fuel rst st : HM (Option Nat)) h3) (ROK base) := by
                    intro h3 s3 i3
                    refine vpost.bind (snlPush_val i3 ((q1.step s2).step s3) ⟨q2.1, Nat.lt_of_lt_of_le q2.2 s3.size⟩) (fun st4 h4 s4 i4 q4 => ?_)
                    exact ih.2 _ _ _ h4 i4 q4
                  have glue : ∀ h3 h4, VStep base h2 h3 → VStep base h3 h4 → VInv base h4 → ∀ o : Out Heap (Option Nat),
                      vpost base h4 o (ROK base) → vpost base h3 o (ROK base) := by
                    intro h3 h4 _ s4 _ o ho
                    cases o with
                    | ok a h' => exact ⟨s4.trans ho.1, ho.2⟩
                    | err e h' => exact ⟨s4.trans ho.1, ho.2⟩
                    | panic => trivial
                    | diverge => trivial
                  cases ent with
                  | none => simp only [pure_bind']; exact fin h2 (VStep.refl _ _) i2
                  | some e =>
                    simp only [get_bind]
                    by_cases hf : (h2.at' e).first = none
                    · simp only [hf, if_true]
                      refine vpost.bind (content_val i2 n) (fun txt h3 s3 i3 q3 => ?_)
                      subst q3
                      refine vpost.bind (ih.1 _ _ _ i2) (fun kids h3 s3 i3 q3 => ?_)
                      have ho : Okp base h3 e := (((hent e rfl).step' s1).step' s2).step' s3
                      obtain ⟨s4, i4⟩ := updPtr i3 ho (fs := fun _ => kids) (ls := fun x => x.last)
                      simp only [updNode_bind, get_bind]
                      cases hch : chain (h3.upd e (fun x => { x with first := kids })) ((h3.upd e (fun x => { x with first := kids })).size + 1) kids with
                      | none => trivial
                      | some l =>
                        simp only
                        have hl := chain_new i4 _ kids l (fun i hi => q3 i hi) hch
                        obtain ⟨h5, e5, s5, i5⟩ := setParents_val l i4 (p := e) (ho.upd rfl) hl
                        rw [bind_run e5]
                        exact glue _ _ s3 (s4.trans s5) i5 _ (fin h5 ((s3.trans s4).trans s5) i5)
                    · simp only [hf, if_false, pure_bind']
                      exact fin h2 (VStep.refl _ _) i2
                cases hent : docGetEntity h dd (encodeRunes nm) with
                | none => exact key h hi none st hs (fun e he => by cases he)
                | some e =>
                  by_cases ht : (h.at' e).entType = 6
                  · simp only [ht, beq_self_eq_true, if_true]
                    exact ih.2 _ _ _ h hi ⟨hs.1, hs.2⟩
                  · have ht' : ((h.at' e).entType == 6) = false := by simp [ht]
                    simp only [ht', Bool.false_eq_true, if_false]
                    exact key h hi (some e) st hs (fun e' he => by cases he; exact docGetEntity_okp hi hent)
        · simp only [ne_eq, hc, not_false_eq_true, if_true]
          exact ih.2 d _ _ h hi ⟨hs.1, hs.2⟩

/-- `CreateAttribute` adds an attribute node with the given name and touches nothing else (but entity children). -/
theorem createAttribute_val {h : Heap} (ht : TabOK h) (d : Option Nat) (fuel : Nat) (name value : Bytes) (ns : Option (Bytes × Bytes)) :
    match createAttribute d fuel name value ns h with
    | .ok a h' => a = h.size ∧ VStep h.size h h' ∧ TabOK h' ∧ h.size < h'.size ∧
        ∃ f, h'.at' h.size = { mkAttr name ns with first := f }
    | .err _ h' => VStep h.size h h' ∧ TabOK h'
    | _ => True := by
  -- the attribute itself counts as an old node
  have hvi : VInv (h.size + 1) (h.alloc (mkAttr name ns)) := by
    refine { le := Nat.le_refl _, tab := ?_, next := ?_, parent := ?_, kind := ?_ }
    · exact ht.alloc ⟨rfl, rfl⟩
    · intro i j hb hs; simp only [Heap.alloc] at hs; omega
    · intro i j hb hs; simp only [Heap.alloc] at hs; omega
    · intro i hb hs; simp only [Heap.alloc] at hs; omega
  have halloc : (h.alloc (mkAttr name ns)).at' h.size = mkAttr name ns := by simp [Heap.alloc]
  have low : ∀ {h'}, VStep (h.size + 1) (h.alloc (mkAttr name ns)) h' → VStep h.size h h' := by
    intro h' s
    have s0 := VStep.alloc (base := h.size) (Nat.le_refl _) (mkAttr name ns)
    refine s0.trans ⟨s.size, fun i hi hk => s.same i (by omega) hk, fun i hi => s.ent i (by omega)⟩
  unfold createAttribute
  rw [newNode_bind]
  by_cases hv : value = []
  · simp only [hv, if_true]
    exact ⟨rfl, VStep.alloc (Nat.le_refl _) _, ht.alloc ⟨rfl, rfl⟩, Nat.lt_succ_self _, none, halloc⟩
  · simp only [hv, if_false]
    have h1 := (snl_both (base := h.size + 1) fuel).1 d value _ hvi
    cases hx : stringToNodeList d fuel value (h.alloc (mkAttr name ns)) with
    | panic => rw [bind_run_panic hx]; trivial
    | diverge => rw [bind_run_diverge hx]; trivial
    | err e h' => rw [hx] at h1; rw [bind_run_err hx]; exact ⟨low h1.1, h1.2.tab⟩
    | ok kids h' =>
      rw [hx] at h1
      obtain ⟨s1, i1, q1⟩ := h1
      rw [bind_run hx]
      simp only [updNode_bind, get_bind]
      have hat : h'.at' h.size = mkAttr name ns := by
        rw [s1.same h.size (by omega) (by rw [halloc]; simp [mkAttr]), halloc]
      -- the value pointer of the attribute
      have i2 : VInv (h.size + 1) (h'.upd h.size (fun x => { x with first := kids })) :=
        i1.upd rfl ⟨rfl, rfl⟩ (fun hb hs j hj => i1.next _ j hb hs hj) (fun hb hs j hj => i1.parent _ j hb hs hj)
      have hat2 : (h'.upd h.size (fun x => { x with first := kids })).at' h.size = { mkAttr name ns with first := kids } := by
        simp [Heap.upd, Heap.put, hat]
      have s2 : VStep h.size h (h'.upd h.size (fun x => { x with first := kids })) :=
        (low s1).trans (VStep.updNew (Nat.le_refl _))
      have hsz : h.size < (h'.upd h.size (fun x => { x with first := kids })).size := by
        have := s1.size
        simp only [Heap.alloc, Heap.upd, Heap.put] at this ⊢
        omega
      have hsz1 : h'.size ≤ (h'.upd h.size (fun x => { x with first := kids })).size := Nat.le_refl _
      generalize h'.upd h.size (fun x => { x with first := kids }) = h2 at *
      cases hch : chain h2 (h2.size + 1) kids with
      | none => trivial
      | some l =>
        simp only
        have hl := chain_new i2 _ kids l (fun i hi => ⟨(q1 i hi).1, Nat.lt_of_lt_of_le (q1 i hi).2 hsz1⟩) hch
        -- the loop over the value nodes
        have loop : ∀ (l : List Nat) (g : Heap), VStep h.size h g → TabOK g → h.size < g.size → (∃ f, g.at' h.size = { mkAttr name ns with first := f }) →
            (∀ x ∈ l, h.size < x) → ∃ g', (l.forM (fun k => do
              updNode k (fun x => { x with parent := some h.size })
              let x ← node k
              if x.next = none then updNode k (fun x => { x with last := none }) else pure () : Nat → HM Unit)) g = .ok () g' ∧
              VStep h.size h g' ∧ TabOK g' ∧ h.size < g'.size ∧ ∃ f, g'.at' h.size = { mkAttr name ns with first := f } := by
          intro l
          induction l with
          | nil => intro g a b c d _; exact ⟨g, rfl, a, b, c, d⟩
          | cons k l ih =>
            intro g a b c d hm
            have hk := hm k (by simp)
            have upd1 : ∀ (g : Heap) (f : Node → Node), (∀ x, (f x).kind = x.kind ∧ (f x).entities = x.entities ∧ (f x).pentities = x.pentities) →
                VStep h.size h g → TabOK g → h.size < g.size → (∃ f, g.at' h.size = { mkAttr name ns with first := f }) →
                VStep h.size h (g.upd k f) ∧ TabOK (g.upd k f) ∧ h.size < (g.upd k f).size ∧ ∃ f', (g.upd k f).at' h.size = { mkAttr name ns with first := f' } := by
              intro g f hf a b c d
              refine ⟨a.trans (VStep.updNew (by omega)), ?_, c, ?_⟩
              · intro i y hy
                simp only [Heap.upd, Heap.put] at hy ⊢
                have hy' : y ∈ (g.at' i).entities ∨ y ∈ (g.at' i).pentities := by
                  by_cases hc : i = k
                  · subst hc; simpa [(hf _).2.1, (hf _).2.2] using hy
                  · simpa [hc] using hy
                obtain ⟨z1, z2⟩ := b i y hy'
                refine ⟨z1, ?_⟩
                by_cases hc : y.2 = k
                · rw [if_pos hc, (hf _).1, ← hc]; exact z2
                · rw [if_neg hc]; exact z2
              · obtain ⟨f', d⟩ := d
                refine ⟨f', ?_⟩
                have : h.size ≠ k := by omega
                simp [Heap.upd, Heap.put, this, d]
            obtain ⟨a1, b1, c1, d1⟩ := upd1 g (fun x => { x with parent := some h.size }) (fun _ => ⟨rfl, rfl, rfl⟩) a b c d
            rw [forM_cons_run, updNode_bind, node_bind]
            by_cases hn : ((g.upd k (fun x => { x with parent := some h.size })).at' k).next = none
            · obtain ⟨a2, b2, c2, d2⟩ := upd1 _ (fun x => { x with last := none }) (fun _ => ⟨rfl, rfl, rfl⟩) a1 b1 c1 d1
              obtain ⟨g', e, r⟩ := ih _ a2 b2 c2 d2 (fun x hx => hm x (by simp [hx]))
              refine ⟨g', ?_, r⟩
              simp only [hn, if_true]
              exact e
            · obtain ⟨g', e, r⟩ := ih _ a1 b1 c1 d1 (fun x hx => hm x (by simp [hx]))
              refine ⟨g', ?_, r⟩
              simp only [hn, if_false]
              exact e
        obtain ⟨g', e, r1, r2, r3, r4⟩ := loop l h2 s2 i2.tab hsz ⟨kids, hat2⟩ (fun x hx => by have := (hl x hx).1; omega)
        rw [bind_run e]
        exact ⟨rfl, r1, r2, r3, r4⟩

/-- the loop over the value nodes of a new attribute. -/
theorem adoptValues_val {a : Nat} : ∀ (l : List Nat) {h : Heap}, VInv base h → base ≤ a ∧ a < h.size → (∀ x ∈ l, base ≤ x ∧ x < h.size) →
    ∃ h', (l.forM (fun k => do
      updNode k (fun x => { x with parent := some a })
      let x ← node k
      if x.next = none then updNode k (fun x => { x with last := none }) else pure () : Nat → HM Unit)) h = .ok () h' ∧ VStep base h h' ∧ VInv base h'
  | [], h, hi, _, _ => ⟨h, rfl, VStep.refl _ _, hi⟩
  | k :: l, h, hi, ho, hl => by
    have hk := hl k (by simp)
    obtain ⟨s1, i1⟩ := updNew hi (i := k) (f := fun x => { x with parent := some a }) hk.1 rfl ⟨rfl, rfl⟩ (fun j hj => Or.inl hj)
      (fun j hj => by cases hj; exact Or.inr (Or.inl ho))
    rw [forM_cons_run, updNode_bind, node_bind]
    by_cases hn : ((h.upd k (fun x => { x with parent := some a })).at' k).next = none
    · obtain ⟨s2, i2⟩ := updNew i1 (i := k) (f := fun x => { x with last := none }) hk.1 rfl ⟨rfl, rfl⟩ (fun j hj => Or.inl hj) (fun j hj => Or.inl hj)
      obtain ⟨h', e, s3, i3⟩ := adoptValues_val l i2 ho (fun x hx => hl x (by simp [hx]))
      refine ⟨h', ?_, (s1.trans s2).trans s3, i3⟩
      simp only [hn, if_true]
      exact e
    · obtain ⟨h', e, s3, i3⟩ := adoptValues_val l i1 ho (fun x hx => hl x (by simp [hx]))
      refine ⟨h', ?_, s1.trans s3, i3⟩
      simp only [hn, if_false]
      exact e

/-- `CreateAttribute`: the nodes it adds lead to one another, and to entities. -/
theorem createAttribute_new {h : Heap} (hi : VInv base h) (d : Option Nat) (fuel : Nat) (name value : Bytes) (ns : Option (Bytes × Bytes)) :
    vpost base h (createAttribute d fuel name value ns h) (fun a h' => base ≤ a ∧ a < h'.size) := by
  unfold createAttribute
  refine vpost.bind (newNode_val rfl rfl ⟨rfl, rfl⟩ (by simp [mkAttr]) hi) (fun a h1 s1 i1 q1 => ?_)
  by_cases hv : value = []
  · simp only [hv, if_true]
    exact ⟨VStep.refl _ _, i1, q1.2.2⟩
  · simp only [hv, if_false]
    refine vpost.bind ((snl_both (base := base) fuel).1 d value _ i1) (fun kids h2 s2 i2 q2 => ?_)
    have ha : base ≤ a ∧ a < h2.size := ⟨q1.2.2.1, Nat.lt_of_lt_of_le q1.2.2.2 s2.size⟩
    obtain ⟨s3, i3⟩ := updNew i2 (i := a) (f := fun x => { x with first := kids }) ha.1 rfl ⟨rfl, rfl⟩ (fun j hj => Or.inl hj) (fun j hj => Or.inl hj)
    simp only [updNode_bind, get_bind]
    have ha3 : base ≤ a ∧ a < (h2.upd a (fun x => { x with first := kids })).size := ha
    have hk3 : ∀ i, kids = some i → base ≤ i ∧ i < (h2.upd a (fun x => { x with first := kids })).size := q2
    generalize h2.upd a (fun x => { x with first := kids }) = h3 at *
    cases hch : chain h3 (h3.size + 1) kids with
    | none => trivial
    | some l =>
      simp only
      obtain ⟨h4, e, s4, i4⟩ := adoptValues_val (a := a) l i3 ha3 (chain_new i3 _ kids l hk3 hch)
      rw [bind_run e]
      exact ⟨s3.trans s4, i4, ha3.1, Nat.lt_of_lt_of_le ha3.2 s4.size⟩

end
end Helium
