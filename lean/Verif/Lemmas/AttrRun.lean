import Verif.Lemmas.ValueRun
import Verif.Spec.Attr
/-! `SetAttribute`. -/
namespace Helium
open Spec

theorem AmpText.ne_nil {rs ts : List Nat} (h : AmpText rs ts) : rs = [] ↔ ts = [] := by
  cases h <;> simp

theorem AmpText.length_le {rs ts : List Nat} (h : AmpText rs ts) : ts.length ≤ rs.length := by
  induction h <;> simp_all <;> omega

/-- a value in which only ampersands are written as references becomes one text node. -/
theorem snl_plain (d : Option Nat) {rs ts : List Nat} (ha : AmpText rs ts) : ∀ (fuel : Nat) (buf : Bytes) (h : Heap), ts.length < fuel →
    stringToNodeList.loop d fuel rs ⟨none, none, buf⟩ h =
      if buf ++ encodeRunes ts = [] then .ok none h else .ok (some h.size) (h.alloc { mkText (buf ++ encodeRunes ts) with doc := d }) := by
  induction ha with
  | nil =>
    intro fuel buf h hf
    cases fuel with
    | zero => cases hf
    | succ fuel =>
      unfold stringToNodeList.loop
      simp only [encodeRunes, List.flatMap_nil, List.append_nil]
      by_cases hb : buf = []
      · simp only [hb, if_true]; rfl
      · simp only [hb, if_false]
        rw [newNode_bind]
        rfl
  | char c rs ts hc ha ih =>
    intro fuel buf h hf
    cases fuel with
    | zero => cases hf
    | succ fuel =>
      unfold stringToNodeList.loop
      simp only [ne_eq, hc, not_false_eq_true, if_true]
      rw [ih fuel _ h (by simp at hf; omega)]
      rw [encodeRunes_cons, List.append_assoc]
  | amp rs ts ha ih =>
    intro fuel buf h hf
    cases fuel with
    | zero => cases hf
    | succ fuel =>
      unfold stringToNodeList.loop
      have hd : snlDigits false 0 (51 :: 56 :: 59 :: rs) = .ok (38, rs) := by simp [snlDigits, accDec]
      simp only [ne_eq, not_true_eq_false, if_false, show ¬ ((51 : Nat) = 120) by omega, hd]
      have : (38 : Nat) ≠ 0 := by omega
      simp only [not_false_eq_true, if_true, show ¬ ((38 : Nat) = 0) by omega]
      rw [ih fuel _ h (by simp at hf; omega)]
      rw [encodeRunes_cons]
      simp only [writeRune32, List.append_assoc]

/-- heap after building an attribute with a value. -/
def attrHeap (h : Heap) (d : Option Nat) (name : Bytes) (ns : Option (Bytes × Bytes)) (ts : List Nat) : Heap :=
  if ts = [] then h.alloc (mkAttr name ns)
  else (h.alloc { mkAttr name ns with first := some (h.size + 1) }).alloc { mkText (encodeRunes ts) with doc := d, parent := some h.size }

theorem encodeRunes_eq_nil {ts : List Nat} : encodeRunes ts = [] ↔ ts = [] := by
  cases ts with
  | nil => simp [encodeRunes]
  | cons c t =>
    rw [encodeRunes_cons]
    have : encodeRune c ≠ [] := by unfold encodeRune; (repeat' split) <;> simp
    simp [this]

theorem createAttribute_plain (d : Option Nat) {rs ts : List Nat} (hs : ∀ r ∈ rs, isScalar r) (ha : AmpText rs ts) (fuel : Nat)
    (hf : ts.length + 1 < fuel) (name : Bytes) (ns : Option (Bytes × Bytes)) (h : Heap) :
    createAttribute d fuel name (encodeRunes rs) ns h = .ok h.size (attrHeap h d name ns ts) := by
  unfold createAttribute attrHeap
  rw [newNode_bind]
  by_cases hr : rs = []
  · subst hr
    have : ts = [] := (AmpText.ne_nil ha).1 rfl
    subst this
    simp only [encodeRunes, List.flatMap_nil, if_true]
    rfl
  · have ht : ts ≠ [] := fun h => hr ((AmpText.ne_nil ha).2 h)
    have he : encodeRunes rs ≠ [] := fun h => hr (encodeRunes_eq_nil.1 h)
    have hte : encodeRunes ts ≠ [] := fun h => ht (encodeRunes_eq_nil.1 h)
    simp only [he, ht, if_false]
    cases fuel with
    | zero => cases hf
    | succ fuel =>
      have e1 : stringToNodeList d (fuel + 1) (encodeRunes rs) (h.alloc (mkAttr name ns)) =
          .ok (some (h.size + 1)) ((h.alloc (mkAttr name ns)).alloc { mkText (encodeRunes ts) with doc := d }) := by
        unfold stringToNodeList
        rw [decodeRunes_encodeRunes _ hs, snl_plain d ha fuel [] _ (by omega)]
        simp only [List.nil_append, hte, if_false]
        rfl
      rw [bind_run e1]
      simp only [updNode_bind, get_bind]
      have hch : ∀ (g : Heap) (k : Nat), (g.at' k).next = none → chain g (g.size + 1) (some k) = some [k] := by
        intro g k hk
        unfold chain
        rw [hk]
        cases g.size <;> rfl
      rw [hch _ _ (by simp [Heap.upd, Heap.put, Heap.alloc, mkText])]
      simp only
      have ext : ∀ g g' : Heap, g.size = g'.size → (∀ i, g.at' i = g'.at' i) → g = g' := by
        intro g g' h1 h2
        cases g; cases g'
        simp only [Heap.mk.injEq] at h1 h2 ⊢
        exact ⟨h1, funext h2⟩
      have hlast : ((((h.alloc (mkAttr name ns)).alloc { mkText (encodeRunes ts) with doc := d }).upd h.size
          (fun x => { x with first := some (h.size + 1) })).upd (h.size + 1) (fun x => { x with parent := some h.size })).upd (h.size + 1)
            (fun x => { x with last := none }) =
          (h.alloc { mkAttr name ns with first := some (h.size + 1) }).alloc { mkText (encodeRunes ts) with doc := d, parent := some h.size } := by
        apply ext
        · rfl
        · intro i
          simp only [Heap.upd, Heap.put, Heap.alloc]
          by_cases h1 : i = h.size + 1
          · subst h1; simp [mkText]
          · by_cases h2 : i = h.size
            · subst h2; simp
            · simp [h1, h2]
      rw [← hlast]
      have e2 : ∀ g : Heap, (g.at' (h.size + 1)).next = none → ([h.size + 1].forM (fun k => do
          updNode k (fun x => { x with parent := some h.size })
          let x ← node k
          if x.next = none then updNode k (fun x => { x with last := none }) else pure () : Nat → HM Unit)) g =
          .ok () ((g.upd (h.size + 1) (fun x => { x with parent := some h.size })).upd (h.size + 1) (fun x => { x with last := none })) := by
        intro g hg
        rw [forM_cons_run, updNode_bind, node_bind]
        have : ((g.upd (h.size + 1) (fun x => { x with parent := some h.size })).at' (h.size + 1)).next = none := by simp [Heap.upd, Heap.put, hg]
        rw [if_pos this]
        rfl
      rw [bind_run (e2 _ (by simp [Heap.upd, Heap.put, Heap.alloc, mkText]))]
      rfl

/-- a budget that is too small. -/
theorem snl_short (d : Option Nat) {rs ts : List Nat} (ha : AmpText rs ts) : ∀ (fuel : Nat) (buf : Bytes) (h : Heap), fuel ≤ ts.length →
    stringToNodeList.loop d fuel rs ⟨none, none, buf⟩ h = .diverge := by
  induction ha with
  | nil =>
    intro fuel buf h hf
    have : fuel = 0 := by simpa using hf
    subst this
    rfl
  | char c rs ts hc ha ih =>
    intro fuel buf h hf
    cases fuel with
    | zero => rfl
    | succ fuel =>
      unfold stringToNodeList.loop
      simp only [ne_eq, hc, not_false_eq_true, if_true]
      rw [ih fuel _ h (by simp at hf; omega)]
  | amp rs ts ha ih =>
    intro fuel buf h hf
    cases fuel with
    | zero => rfl
    | succ fuel =>
      unfold stringToNodeList.loop
      have hd : snlDigits false 0 (51 :: 56 :: 59 :: rs) = .ok (38, rs) := by simp [snlDigits, accDec]
      simp only [ne_eq, not_true_eq_false, if_false, show ¬ ((51 : Nat) = 120) by omega, hd]
      simp only [not_false_eq_true, if_true, show ¬ ((38 : Nat) = 0) by omega]
      rw [ih fuel _ h (by simp at hf; omega)]

theorem createAttribute_stands (d : Option Nat) {rs ts : List Nat} (hs : ∀ r ∈ rs, isScalar r) (ha : AmpText rs ts) (fuel : Nat)
    (name : Bytes) (ns : Option (Bytes × Bytes)) (h : Heap) :
    createAttribute d fuel name (encodeRunes rs) ns h = .ok h.size (attrHeap h d name ns ts) ∨
      createAttribute d fuel name (encodeRunes rs) ns h = .diverge := by
  by_cases hf : ts.length + 1 < fuel
  · exact Or.inl (createAttribute_plain d hs ha fuel hf name ns h)
  · by_cases hr : rs = []
    · left
      subst hr
      have : ts = [] := (AmpText.ne_nil ha).1 rfl
      subst this
      unfold createAttribute attrHeap
      rw [newNode_bind]
      simp only [encodeRunes, List.flatMap_nil, if_true]
      rfl
    · right
      have he : encodeRunes rs ≠ [] := fun h => hr (encodeRunes_eq_nil.1 h)
      unfold createAttribute
      rw [newNode_bind]
      simp only [he, if_false]
      cases fuel with
      | zero => exact bind_run_diverge rfl
      | succ fuel =>
        refine bind_run_diverge ?_
        unfold stringToNodeList
        rw [decodeRunes_encodeRunes _ hs, snl_short d ha fuel [] _ (by omega)]

/-! ### lists of attributes -/

namespace Spec.PropList
variable {h : Heap} {e : Nat} {l : List Nat}

theorem length_le (C : PropList h e l) : l.length ≤ h.size := by
  have h1 : l.Subperm (List.range h.size) := by
    apply List.subperm_of_subset C.nodup
    intro c hc
    exact List.mem_range.2 (C.alloc c hc)
  simpa using h1.length_le

theorem chain_from (C : PropList h e l) : ∀ (r a : List Nat) (c : Nat) (f : Nat), l = a ++ c :: r → r.length < f →
    chain h f (some c) = some (c :: r)
  | [], a, c, f + 1, hk, _ => by
    have := C.next a c [] hk
    simp [chain, this]
  | d :: r, a, c, f + 1, hk, hf => by
    have h1 := C.next a c (d :: r) hk
    have h2 := chain_from C r (a ++ [c]) d f (by rw [hk]; simp) (by simp at hf; omega)
    unfold chain
    rw [h1]
    simp [h2]

theorem chain_eq (C : PropList h e l) {n : Nat} (hn : h.size ≤ n) : chain h (n + 1) (h.at' e).props = some l := by
  rw [C.first]
  cases hk : l with
  | nil => simp [chain]
  | cons c r =>
    have := C.length_le
    rw [hk] at this
    exact C.chain_from r [] c (n + 1) hk (by simp at this; omega)

/-- a heap that agrees on the links and kinds of the members and on `props`. -/
theorem congr (C : PropList h e l) {h' : Heap} (hs : h.size ≤ h'.size) (he : (h'.at' e).props = (h.at' e).props)
    (hm : ∀ c ∈ l, (h'.at' c).next = (h.at' c).next ∧ (h'.at' c).prev = (h.at' c).prev ∧ (h'.at' c).kind = (h.at' c).kind) : PropList h' e l where
  first := by rw [he]; exact C.first
  next a c b hl := by rw [(hm c (by rw [hl]; simp)).1]; exact C.next a c b hl
  prev a c b hl := by rw [(hm c (by rw [hl]; simp)).2.1]; exact C.prev a c b hl
  kind c hc := by rw [(hm c hc).2.2]; exact C.kind c hc
  alloc c hc := Nat.lt_of_lt_of_le (C.alloc c hc) hs
  nodup := C.nodup

end Spec.PropList

theorem setAttrScan_eq (h : Heap) (name : Bytes) : ∀ (l : List Nat) (o : Option Nat), setAttrScan h name l o =
    if name ∈ l.map (fun p => (h.at' p).name) then .error (.k .duplicateAttribute) else .ok (l.getLast?.or o)
  | [], o => by simp [setAttrScan]
  | p :: t, o => by
    unfold setAttrScan
    by_cases hp : (h.at' p).name = name
    · simp [hp]
    · simp only [hp, if_false, setAttrScan_eq h name t]
      have : name ∈ (p :: t).map (fun p => (h.at' p).name) ↔ name ∈ t.map (fun p => (h.at' p).name) := by
        simp [Ne.symm hp]
      simp only [this]
      split
      · rfl
      · congr 1
        cases t with
        | nil => simp
        | cons x t => simp [List.getLast?_cons]

/-- what a `SetAttribute` call may change: the list head of `e`, the link of the last attribute, entity children, new nodes. -/
structure AStep (h h' : Heap) (e : Nat) (l : List Nat) : Prop where
  size : h.size ≤ h'.size
  elem : ∃ p, h'.at' e = { h.at' e with props := p }
  tail : ∀ i, i < h.size → l.getLast? = some i → ∃ n, h'.at' i = { h.at' i with next := n }
  ent : ∀ i, i < h.size → (h.at' i).kind = .entity → ∃ f g, h'.at' i = { h.at' i with first := f, last := g }
  same : ∀ i, i < h.size → i ≠ e → l.getLast? ≠ some i → (h.at' i).kind ≠ .entity → h'.at' i = h.at' i
  tab : TabOK h'

theorem AStep.of_vstep {h h' : Heap} {e : Nat} {l : List Nat} (he : e < h.size) (hk : (h.at' e).kind = .element)
    (hl : ∀ c ∈ l, c < h.size ∧ (h.at' c).kind = .attr) (s : VStep h.size h h') (t : TabOK h') : AStep h h' e l where
  size := s.size
  elem := ⟨(h.at' e).props, by rw [s.same e he (by rw [hk]; simp)]⟩
  tail i hi hg := ⟨(h.at' i).next, by rw [s.same i hi (by rw [(hl i (List.mem_of_getLast? hg)).2]; simp)]⟩
  ent i hi _ := ⟨_, _, s.ent i hi⟩
  same i hi _ _ hn := s.same i hi hn
  tab := t

theorem TabOK.upd {h : Heap} (ht : TabOK h) {i : Nat} {f : Node → Node} (hk : (f (h.at' i)).kind = (h.at' i).kind)
    (he : (f (h.at' i)).entities = (h.at' i).entities ∧ (f (h.at' i)).pentities = (h.at' i).pentities) : TabOK (h.upd i f) :=
  (VInv.upd (base := h.size) (h := h) ⟨Nat.le_refl _, ht, fun i j hb hs => by omega, fun i j hb hs => by omega, fun i hb hs => by omega⟩ hk he
    (fun hb hs => by omega) (fun hb hs => by omega)).tab

/-- what a call of `SetAttribute` on `e` with attributes `l` achieves. -/
def SetPost (h : Heap) (e : Nat) (l : List Nat) (fuel : Nat) (name value : Bytes) : Out Heap Unit → Prop
  | .ok _ h' => AStep h h' e l ∧ name ∉ l.map (fun p => (h.at' p).name) ∧ PropList h' e (l ++ [h.size]) ∧ (h'.at' h.size).name = name ∧
      ∃ h1, createAttribute (h.at' e).doc fuel name value none h = .ok h.size h1 ∧
        (∀ i, h.size ≤ i → h'.at' i = { h1.at' i with prev := if i = h.size then l.getLast? else (h1.at' i).prev }) ∧ h'.size = h1.size
  | .err er h' => AStep h h' e l ∧ PropList h' e l ∧
      (er = .k .duplicateAttribute ∧ name ∈ l.map (fun p => (h.at' p).name) ∨ ∃ h1, createAttribute (h.at' e).doc fuel name value none h = .err er h1)
  | .panic => createAttribute (h.at' e).doc fuel name value none h = .panic
  | .diverge => createAttribute (h.at' e).doc fuel name value none h = .diverge

/-- a call of `SetAttribute`, whatever the value. -/
theorem setAttribute_step {h : Heap} {e : Nat} {l : List Nat} (ht : TabOK h) (he : e < h.size) (hk : (h.at' e).kind = .element)
    (C : PropList h e l) (fuel : Nat) (name value : Bytes) : SetPost h e l fuel name value (setAttribute fuel e name value h) := by
  have hl : ∀ c ∈ l, c < h.size ∧ (h.at' c).kind = .attr := fun c hc => ⟨C.alloc c hc, C.kind c hc⟩
  have h1 := createAttribute_val ht (h.at' e).doc fuel name value none
  unfold setAttribute
  simp only [node_bind]
  cases hx : createAttribute (h.at' e).doc fuel name value none h with
  | panic => rw [bind_run_panic hx]; exact hx
  | diverge => rw [bind_run_diverge hx]; exact hx
  | err er h' =>
    rw [hx] at h1
    rw [bind_run_err hx]
    simp only at h1
    have hm : ∀ c ∈ l, h'.at' c = h.at' c := fun c hc => h1.1.same c (hl c hc).1 (by rw [(hl c hc).2]; simp)
    refine ⟨AStep.of_vstep he hk hl h1.1 h1.2, C.congr h1.1.size ?_ (fun c hc => by rw [hm c hc]; exact ⟨rfl, rfl, rfl⟩), Or.inr ⟨h', hx⟩⟩
    rw [h1.1.same e he (by rw [hk]; simp)]
  | ok a h' =>
    rw [hx] at h1
    simp only at h1
    obtain ⟨ha, s1, t1, z1, f, hat⟩ := h1
    subst ha
    rw [bind_run hx]
    simp only [get_bind]
    have hm : ∀ c ∈ l, h'.at' c = h.at' c := fun c hc => s1.same c (hl c hc).1 (by rw [(hl c hc).2]; simp)
    have hee : h'.at' e = h.at' e := s1.same e he (by rw [hk]; simp)
    have C' : PropList h' e l := C.congr s1.size (by rw [hee]) (fun c hc => by rw [hm c hc]; exact ⟨rfl, rfl, rfl⟩)
    have hne : e ≠ h.size := by omega
    have hns : h.size ∉ l := fun hc => by have := C.alloc _ hc; omega
    rw [C'.chain_eq (Nat.le_refl _)]
    cases hlist : l with
    | nil =>
      subst hlist
      simp only [updNode_run]
      refine ⟨?_, by simp, ?_, ?_, h', hx, ?_, rfl⟩
      · refine { size := s1.size, elem := ⟨some h.size, ?_⟩, tail := ?_, ent := ?_, same := ?_, tab := t1.upd rfl ⟨rfl, rfl⟩ }
        · simp [Heap.upd, Heap.put, hee]
        · intro i hi hg; cases hg
        · intro i hi hi2
          have : i ≠ e := by rintro rfl; rw [hk] at hi2; cases hi2
          refine ⟨(h'.at' i).first, (h'.at' i).last, ?_⟩
          simp only [Heap.upd, Heap.put, this, if_false]
          exact s1.ent i hi
        · intro i hi hie _ hn
          simp only [Heap.upd, Heap.put, hie, if_false]
          exact s1.same i hi hn
      · refine { first := ?_, next := ?_, prev := ?_, kind := ?_, alloc := ?_, nodup := ?_ }
        · simp [Heap.upd, Heap.put]
        · intro a c b hab
          have : a = [] ∧ c = h.size ∧ b = [] := by
            cases a with
            | nil => simpa [eq_comm] using hab
            | cons x a => cases a <;> simp at hab
          obtain ⟨rfl, rfl, rfl⟩ := this
          simp [Heap.upd, Heap.put, Ne.symm hne, hat, mkAttr]
        · intro a c b hab
          have : a = [] ∧ c = h.size ∧ b = [] := by
            cases a with
            | nil => simpa [eq_comm] using hab
            | cons x a => cases a <;> simp at hab
          obtain ⟨rfl, rfl, rfl⟩ := this
          simp [Heap.upd, Heap.put, Ne.symm hne, hat, mkAttr]
        · intro c hc
          have : c = h.size := by simpa using hc
          subst this
          simp [Heap.upd, Heap.put, Ne.symm hne, hat, mkAttr]
        · intro c hc
          have : c = h.size := by simpa using hc
          subst this
          exact z1
        · simp
      · simp [Heap.upd, Heap.put, Ne.symm hne, hat, mkAttr]
      · intro i hi
        have : i ≠ e := by omega
        simp only [Heap.upd, Heap.put, this, if_false]
        by_cases hc : i = h.size
        · subst hc
          simp [hat, mkAttr]
        · simp [hc]
    | cons c0 r0 =>
      simp only [setAttrScan_eq]
      rw [← hlist]
      have hnames : l.map (fun p => (h'.at' p).name) = l.map (fun p => (h.at' p).name) := List.map_congr_left (fun c hc => by rw [hm c hc])
      rw [hnames]
      by_cases hdup : name ∈ l.map (fun p => (h.at' p).name)
      · simp only [hdup, if_true]
        exact ⟨AStep.of_vstep he hk hl s1 t1, C', Or.inl ⟨rfl, hdup⟩⟩
      · obtain ⟨i0, last, hil⟩ : ∃ i0 last, l = i0 ++ [last] := by
          have hlne : l ≠ [] := by rw [hlist]; simp
          simpa using (List.eq_nil_or_concat l).resolve_left hlne
        have hgl : l.getLast? = some last := by rw [hil]; simp
        have hlm : last ∈ l := by rw [hil]; simp
        obtain ⟨hl1, hl2⟩ := hl last hlm
        have hls : last ≠ h.size := by omega
        have hle : last ≠ e := by rintro rfl; rw [hk] at hl2; cases hl2
        have hli : last ∉ i0 := by
          have := C.nodup
          rw [hil] at this
          simp [List.nodup_append] at this
          intro hc
          exact this.2 _ hc rfl
        simp only [hdup, if_false, hgl]
        have hrun : (do
            updNode last (fun x => { x with next := some h.size })
            updNode h.size (fun x => { x with prev := some last }) : HM Unit) h' =
            .ok () ((h'.upd last (fun x => { x with next := some h.size })).upd h.size (fun x => { x with prev := some last })) := rfl
        change SetPost h e l fuel name value ((do
            updNode last (fun x => { x with next := some h.size })
            updNode h.size (fun x => { x with prev := some last }) : HM Unit) h')
        rw [hrun]
        generalize hh2 : (h'.upd last (fun x => { x with next := some h.size })).upd h.size (fun x => { x with prev := some last }) = h2
        have e1 : h2.at' last = { h.at' last with next := some h.size } := by
          rw [← hh2]
          simp [Heap.upd, Heap.put, hls, hm last hlm]
        have e2 : h2.at' h.size = { h'.at' h.size with prev := some last } := by
          rw [← hh2]
          simp [Heap.upd, Heap.put, Ne.symm hls]
        have e3 : ∀ i, i ≠ last → i ≠ h.size → h2.at' i = h'.at' i := by
          intro i ha hb
          rw [← hh2]
          simp [Heap.upd, Heap.put, ha, hb]
        have e4 : h2.size = h'.size := by rw [← hh2]; rfl
        have tt : TabOK h2 := by
          rw [← hh2]
          exact TabOK.upd (TabOK.upd t1 rfl ⟨rfl, rfl⟩) rfl ⟨rfl, rfl⟩
        have e5 : ∀ c ∈ i0, h2.at' c = h.at' c := by
          intro c hc
          have hcl : c ∈ l := by rw [hil]; simp [hc]
          rw [e3 c (by rintro rfl; exact hli hc) (by rintro rfl; exact hns hcl), hm c hcl]
        have e6 : h2.at' e = h.at' e := by rw [e3 e (Ne.symm hle) hne, hee]
        refine ⟨?_, hdup, ?_, ?_, h', hx, ?_, e4⟩
        · refine { size := by rw [e4]; exact s1.size, elem := ⟨(h.at' e).props, by rw [e6]⟩, tail := ?_, ent := ?_, same := ?_, tab := tt }
          · intro i hi hg
            rw [hgl] at hg
            cases hg
            exact ⟨_, e1⟩
          · intro i hi hi2
            have hn1 : i ≠ last := by rintro rfl; rw [hl2] at hi2; cases hi2
            refine ⟨(h'.at' i).first, (h'.at' i).last, ?_⟩
            rw [e3 i hn1 (by omega)]
            exact s1.ent i hi
          · intro i hi hie hgn hn
            rw [e3 i (by rintro rfl; exact hgn hgl) (by omega)]
            exact s1.same i hi hn
        · have hcase : ∀ a c b, l ++ [h.size] = a ++ c :: b → (b = [] ∧ c = h.size ∧ a = l) ∨ (b = [h.size] ∧ c = last ∧ a = i0) ∨
              ∃ b0, b = b0 ++ [last] ++ [h.size] ∧ i0 = a ++ c :: b0 := by
            intro a c b hab
            rcases List.eq_nil_or_concat b with rfl | ⟨b1, x, rfl⟩
            · left
              have := List.append_inj' hab rfl
              simp at this
              exact ⟨rfl, this.2.symm, this.1.symm⟩
            · right
              have hab' : l ++ [h.size] = (a ++ c :: b1) ++ [x] := by rw [hab]; simp
              have := List.append_inj' hab' rfl
              simp at this
              obtain ⟨hla, rfl⟩ := this
              rcases List.eq_nil_or_concat b1 with rfl | ⟨b2, y, rfl⟩
              · left
                rw [hil] at hla
                have := List.append_inj' hla rfl
                simp at this
                exact ⟨rfl, this.2.symm, this.1.symm⟩
              · right
                rw [hil] at hla
                have hla' : i0 ++ [last] = (a ++ c :: b2) ++ [y] := by rw [hla]; simp
                have := List.append_inj' hla' rfl
                simp at this
                obtain ⟨hi0, rfl⟩ := this
                exact ⟨b2, by simp, hi0⟩
          refine { first := ?_, next := ?_, prev := ?_, kind := ?_, alloc := ?_, nodup := ?_ }
          · rw [e6, C.first, hlist]; rfl
          · intro a c b hab
            rcases hcase a c b hab with ⟨rfl, rfl, rfl⟩ | ⟨rfl, rfl, rfl⟩ | ⟨b0, rfl, hi0⟩
            · rw [e2, hat]; rfl
            · rw [e1]; rfl
            · rw [e5 c (by rw [hi0]; simp), C.next a c (b0 ++ [last]) (by rw [hil, hi0]; simp)]
              cases b0 <;> rfl
          · intro a c b hab
            rcases hcase a c b hab with ⟨rfl, rfl, rfl⟩ | ⟨rfl, rfl, rfl⟩ | ⟨b0, rfl, hi0⟩
            · rw [e2, hgl]
            · rw [e1]
              exact C.prev _ _ [] hil
            · rw [e5 c (by rw [hi0]; simp), C.prev a c (b0 ++ [last]) (by rw [hil, hi0]; simp)]
          · intro c hc
            rcases List.mem_append.1 hc with hc | hc
            · rw [hil] at hc
              rcases List.mem_append.1 hc with hc | hc
              · rw [e5 c hc]; exact (hl c (by rw [hil]; simp [hc])).2
              · rw [List.mem_singleton.1 hc, e1]; exact hl2
            · rw [List.mem_singleton.1 hc, e2, hat]; rfl
          · intro c hc
            rw [e4]
            rcases List.mem_append.1 hc with hc | hc
            · exact Nat.lt_of_lt_of_le (hl c hc).1 s1.size
            · rw [List.mem_singleton.1 hc]; exact z1
          · rw [List.nodup_append]
            refine ⟨C.nodup, by simp, ?_⟩
            intro x hx y hy
            rw [List.mem_singleton.1 hy]
            rintro rfl
            exact hns hx
        · rw [e2, hat]; rfl
        · intro i hi
          by_cases hc : i = h.size
          · subst hc
            rw [e2]
            simp [hgl]
          · rw [e3 i (by omega) hc]
            simp [hc]


/-! ### histories -/

theorem AStep.info {h h' : Heap} {e : Nat} {l : List Nat} (s : AStep h h' e l) {i : Nat} (hi : i < h.size) :
    (h'.at' i).name = (h.at' i).name ∧ (h'.at' i).kind = (h.at' i).kind ∧ (h'.at' i).prev = (h.at' i).prev := by
  by_cases h1 : i = e
  · subst h1
    obtain ⟨p, hp⟩ := s.elem
    rw [hp]; exact ⟨rfl, rfl, rfl⟩
  by_cases h2 : l.getLast? = some i
  · obtain ⟨n, hn⟩ := s.tail i hi h2
    rw [hn]; exact ⟨rfl, rfl, rfl⟩
  by_cases h3 : (h.at' i).kind = .entity
  · obtain ⟨f, g, hn⟩ := s.ent i hi h3
    rw [hn]; exact ⟨rfl, rfl, rfl⟩
  · rw [s.same i hi h1 h2 h3]; exact ⟨rfl, rfl, rfl⟩

theorem AStep.names {h h' : Heap} {e : Nat} {l : List Nat} (s : AStep h h' e l) {k : List Nat} (hk : ∀ i ∈ k, i < h.size) :
    attrNames h' k = attrNames h k := List.map_congr_left (fun i hi => (s.info (hk i hi)).1)

theorem AStep.others {h h' : Heap} {e : Nat} {es : List Nat} {m : Nat → List Nat} (I : AttrLists h es m) (he : e ∈ es)
    (s : AStep h h' e (m e)) : ∀ e' ∈ es, e' ≠ e → PropList h' e' (m e') := by
  intro e' h1 h2
  have C := I.list e' h1
  have k2 := I.elem e' h1
  have hnl : ∀ x, (m e).getLast? = some x → (h.at' x).kind = .attr := fun x hx => (I.list e he).kind x (List.mem_of_getLast? hx)
  refine C.congr s.size ?_ ?_
  · rw [s.same e' k2.1 h2 (fun hc => by have := hnl _ hc; rw [k2.2] at this; cases this) (by rw [k2.2]; simp)]
  · intro c hc
    have hck := C.kind c hc
    have hcl := C.alloc c hc
    rw [s.same c hcl (by rintro rfl; rw [(I.elem _ he).2] at hck; cases hck)
      (fun hx => I.disj e' h1 e he h2 c hc (List.mem_of_getLast? hx)) (by rw [hck]; simp)]
    exact ⟨rfl, rfl, rfl⟩

/-- one call within a history. -/
theorem setAttribute_lists {h : Heap} {es : List Nat} {m : Nat → List Nat} (I : AttrLists h es m) {e : Nat} (he : e ∈ es) (fuel : Nat)
    (name value : Bytes) :
    match setAttribute fuel e name value h with
    | .ok _ h' => AStep h h' e (m e) ∧ AttrLists h' es (fun x => if x = e then m e ++ [h.size] else m x) ∧ name ∉ attrNames h (m e) ∧
        (h'.at' h.size).name = name
    | .err _ h' => AStep h h' e (m e) ∧ AttrLists h' es m
    | _ => True := by
  have h0 := setAttribute_step I.tab (I.elem e he).1 (I.elem e he).2 (I.list e he) fuel name value
  cases hx : setAttribute fuel e name value h with
  | panic => trivial
  | diverge => trivial
  | err er h' =>
    rw [hx] at h0
    obtain ⟨s, C, _⟩ := h0
    refine ⟨s, ⟨s.tab, ?_, ?_, I.disj⟩⟩
    · intro e' h1
      exact ⟨Nat.lt_of_lt_of_le (I.elem e' h1).1 s.size, by rw [(s.info (I.elem e' h1).1).2.1]; exact (I.elem e' h1).2⟩
    · intro e' h1
      by_cases h2 : e' = e
      · subst h2; exact C
      · exact AStep.others I he s e' h1 h2
  | ok u h' =>
    rw [hx] at h0
    obtain ⟨s, hn, C, hname, _⟩ := h0
    refine ⟨s, ⟨s.tab, ?_, ?_, ?_⟩, hn, hname⟩
    · intro e' h1
      exact ⟨Nat.lt_of_lt_of_le (I.elem e' h1).1 s.size, by rw [(s.info (I.elem e' h1).1).2.1]; exact (I.elem e' h1).2⟩
    · intro e' h1
      by_cases h2 : e' = e
      · subst h2; simpa using C
      · simp only [h2, if_false]
        exact AStep.others I he s e' h1 h2
    · intro a ha b hb hab x hxa
      have hfresh : ∀ y ∈ es, h.size ∉ m y := fun y hy hc => by have := (I.list y hy).alloc _ hc; omega
      by_cases h2 : a = e
      · subst h2
        have h3 : b ≠ a := Ne.symm hab
        simp only [h3, if_false]
        simp only [if_true, List.mem_append, List.mem_singleton] at hxa
        rcases hxa with hxa | rfl
        · exact I.disj a ha b hb hab x hxa
        · exact hfresh b hb
      · simp only [h2, if_false] at hxa
        by_cases h3 : b = e
        · subst h3
          simp only [if_true, List.mem_append, List.mem_singleton, not_or]
          exact ⟨I.disj a ha b hb hab x hxa, by rintro rfl; exact hfresh a ha hxa⟩
        · simp only [h3, if_false]
          exact I.disj a ha b hb hab x hxa

/-- a history of calls. -/
theorem setAll_lists (fuel : Nat) : ∀ (cs : List AttrCall) {h : Heap} {es : List Nat} {m : Nat → List Nat}, AttrLists h es m →
    (∀ e ∈ es, (attrNames h (m e)).Nodup) → (∀ c ∈ cs, c.elem ∈ es) → ∀ {rs : List (Option Err)} {h' : Heap}, setAll fuel cs h = .ok rs h' →
    ∃ m', AttrLists h' es m' ∧ rs.length = cs.length ∧ ∀ e ∈ es, (∃ k, m' e = m e ++ k) ∧
      attrNames h' (m' e) = attrNames h (m e) ++ accepted e cs rs ∧ (attrNames h' (m' e)).Nodup
  | [], h, es, m, I, hn, _, rs, h', he => by
    cases he
    exact ⟨m, I, rfl, fun e h1 => ⟨⟨[], by simp⟩, by simp [accepted], hn e h1⟩⟩
  | c :: cs, h, es, m, I, hn, hc, rs, h', he => by
    have hce := hc c (by simp)
    have h0 := setAttribute_lists I hce fuel c.name c.value
    unfold setAll at he
    cases hx : setAttribute fuel c.elem c.name c.value h with
    | panic =>
      have : M.attempt (setAttribute fuel c.elem c.name c.value) h = .panic := by simp [M.attempt, hx]
      rw [bind_run_panic this] at he; cases he
    | diverge =>
      have : M.attempt (setAttribute fuel c.elem c.name c.value) h = .diverge := by simp [M.attempt, hx]
      rw [bind_run_diverge this] at he; cases he
    | err er h1 =>
      have : M.attempt (setAttribute fuel c.elem c.name c.value) h = .ok (.error er) h1 := by simp [M.attempt, hx]
      rw [bind_run this] at he
      rw [hx] at h0
      obtain ⟨s, I1⟩ := h0
      have hal : ∀ e ∈ es, attrNames h1 (m e) = attrNames h (m e) := fun e he => s.names (fun i hi => (I.list e he).alloc i hi)
      cases hr : setAll fuel cs h1 with
      | panic => rw [bind_run_panic hr] at he; cases he
      | diverge => rw [bind_run_diverge hr] at he; cases he
      | err er2 h2 => rw [bind_run_err hr] at he; cases he
      | ok rs2 h2 =>
        rw [bind_run hr] at he
        cases he
        obtain ⟨m', a, b, c'⟩ := setAll_lists fuel cs I1 (fun e he => by rw [hal e he]; exact hn e he) (fun c hc' => hc c (by simp [hc'])) hr
        refine ⟨m', a, by simp [b], fun e h3 => ?_⟩
        obtain ⟨d1, d2, d3⟩ := c' e h3
        refine ⟨d1, ?_, d3⟩
        rw [d2, hal e h3]
        simp [accepted]
    | ok u h1 =>
      have : M.attempt (setAttribute fuel c.elem c.name c.value) h = .ok (.ok u) h1 := by simp [M.attempt, hx]
      rw [bind_run this] at he
      rw [hx] at h0
      obtain ⟨s, I1, hnew, hname⟩ := h0
      have hal : ∀ e ∈ es, attrNames h1 (m e) = attrNames h (m e) := fun e he => s.names (fun i hi => (I.list e he).alloc i hi)
      have hm1 : ∀ e ∈ es, attrNames h1 (if e = c.elem then m c.elem ++ [h.size] else m e) =
          attrNames h (m e) ++ if c.elem = e then [c.name] else [] := by
        intro e h3
        by_cases h4 : e = c.elem
        · subst h4
          have := hal _ h3
          simp only [attrNames] at this ⊢
          simp [hname, this]
        · simp [h4, Ne.symm h4, hal e h3]
      cases hr : setAll fuel cs h1 with
      | panic => rw [bind_run_panic hr] at he; cases he
      | diverge => rw [bind_run_diverge hr] at he; cases he
      | err er2 h2 => rw [bind_run_err hr] at he; cases he
      | ok rs2 h2 =>
        rw [bind_run hr] at he
        cases he
        obtain ⟨m', a, b, c'⟩ := setAll_lists fuel cs I1 (fun e he => by
          rw [hm1 e he]
          by_cases h4 : c.elem = e
          · subst h4
            simp only [if_true]
            rw [List.nodup_append]
            refine ⟨hn _ he, by simp, ?_⟩
            intro x hx y hy
            rw [List.mem_singleton.1 hy]
            rintro rfl
            exact hnew hx
          · simpa [h4] using hn e he) (fun c hc' => hc c (by simp [hc'])) hr
        refine ⟨m', a, by simp [b], fun e h3 => ?_⟩
        obtain ⟨⟨k, d1⟩, d2, d3⟩ := c' e h3
        refine ⟨?_, ?_, d3⟩
        · by_cases h4 : e = c.elem
          · subst h4
            exact ⟨h.size :: k, by simpa using d1⟩
          · exact ⟨k, by simpa [h4] using d1⟩
        · rw [d2, hm1 e h3]
          by_cases h4 : c.elem = e <;> simp [accepted, h4]

/-! ### plain values -/

/-- the attribute `a` holds the text `v`. -/
def HasText (h : Heap) (a : Nat) (v : Bytes) : Prop :=
  (h.at' a).kind = .attr ∧ a < h.size ∧ (v = [] ∧ (h.at' a).first = none ∨
    ∃ t, t < h.size ∧ (h.at' a).first = some t ∧ (h.at' t).kind = .text ∧ (h.at' t).next = none ∧ (h.at' t).content = v)

theorem HasText.content {h : Heap} {a : Nat} {v : Bytes} (H : HasText h a v) : contentF h (h.size + 1) a = some v := by
  obtain ⟨hk, ha, hc⟩ := H
  unfold contentF
  rw [hk]
  rcases hc with ⟨rfl, hf⟩ | ⟨t, ht, hf, htk, hn, rfl⟩
  · simp [hf, chain]
  · have hch : chain h (h.size + 1) (some t) = some [t] := by
      unfold chain
      rw [hn]
      cases h.size <;> rfl
    have hsz : h.size = (h.size - 1) + 1 := by omega
    have : contentF h h.size t = some (h.at' t).content := by
      rw [hsz]; unfold contentF; rw [htk]
    simp [hf, hch, this]

theorem HasText.step {h h' : Heap} {e a : Nat} {l : List Nat} {v : Bytes} (H : HasText h a v) (s : AStep h h' e l)
    (he : (h.at' e).kind = .element) (hl : ∀ c ∈ l, (h.at' c).kind = .attr) : HasText h' a v := by
  obtain ⟨hk, ha, hc⟩ := H
  have hfirst : (h'.at' a).first = (h.at' a).first := by
    have h1 : a ≠ e := by rintro rfl; rw [he] at hk; cases hk
    by_cases h2 : l.getLast? = some a
    · obtain ⟨n, hn⟩ := s.tail a ha h2
      rw [hn]
    · rw [s.same a ha h1 h2 (by rw [hk]; simp)]
  refine ⟨by rw [(s.info ha).2.1]; exact hk, Nat.lt_of_lt_of_le ha s.size, ?_⟩
  rcases hc with ⟨hv, hf⟩ | ⟨t, ht, hf, htk, hn, hv⟩
  · exact Or.inl ⟨hv, by rw [hfirst]; exact hf⟩
  · right
    have : h'.at' t = h.at' t := s.same t ht (by rintro rfl; rw [he] at htk; cases htk)
      (fun hx => by have := hl t (List.mem_of_getLast? hx); rw [htk] at this; cases this) (by rw [htk]; simp)
    exact ⟨t, Nat.lt_of_lt_of_le ht s.size, by rw [hfirst]; exact hf, by rw [this]; exact htk, by rw [this]; exact hn, by rw [this]; exact hv⟩

/-- a call with a plain value. -/
theorem setAttribute_plain {h : Heap} {es : List Nat} {m : Nat → List Nat} (I : AttrLists h es m) {e : Nat} (he : e ∈ es) (fuel : Nat)
    (name value w : Bytes) (hv : StandsFor value w) (hf : value.length + 1 < fuel) :
    if name ∈ attrNames h (m e) then ∃ h', setAttribute fuel e name value h = .err (.k .duplicateAttribute) h' ∧ AStep h h' e (m e) ∧
      AttrLists h' es m
    else ∃ h', setAttribute fuel e name value h = .ok () h' ∧ AStep h h' e (m e) ∧
      AttrLists h' es (fun x => if x = e then m e ++ [h.size] else m x) ∧ (h'.at' h.size).name = name ∧ HasText h' h.size w := by
  obtain ⟨rs, ts, hs, ha, rfl, rfl⟩ := hv
  have hlen : rs.length ≤ (encodeRunes rs).length := by
    clear ha hf hs
    induction rs with
    | nil => simp
    | cons c rs ih =>
      rw [encodeRunes_cons, List.length_append, List.length_cons]
      have := List.length_pos_iff.2 (encodeRune_ne_nil c)
      omega
  have hcr := createAttribute_plain (h.at' e).doc hs ha fuel (by have := AmpText.length_le ha; omega) name none h
  have h1 := setAttribute_step I.tab (I.elem e he).1 (I.elem e he).2 (I.list e he) fuel name (encodeRunes rs)
  have h2 := setAttribute_lists I he fuel name (encodeRunes rs)
  cases hx : setAttribute fuel e name (encodeRunes rs) h with
  | panic => rw [hx] at h1; rw [show _ = _ from h1] at hcr; cases hcr
  | diverge => rw [hx] at h1; rw [show _ = _ from h1] at hcr; cases hcr
  | err er h' =>
    rw [hx] at h1 h2
    obtain ⟨s, C, hc⟩ := h1
    rcases hc with ⟨rfl, hm⟩ | ⟨h3, hc⟩
    · rw [if_pos (by exact hm)]
      exact ⟨h', rfl, h2.1, h2.2⟩
    · rw [hcr] at hc; cases hc
  | ok u h' =>
    rw [hx] at h1 h2
    obtain ⟨s, hn, C, hname, h3, hc, hat, hsz⟩ := h1
    rw [if_neg (by exact hn)]
    refine ⟨h', rfl, h2.1, h2.2.1, hname, ?_⟩
    rw [hcr] at hc
    cases hc
    refine ⟨?_, ?_, ?_⟩
    · exact C.kind _ (by simp)
    · exact C.alloc _ (by simp)
    · by_cases ht : ts = []
      · subst ht
        left
        refine ⟨rfl, ?_⟩
        rw [hat _ (Nat.le_refl _)]
        simp [attrHeap, Heap.alloc, mkAttr]
      · right
        have hsz' : h'.size = h.size + 2 := by rw [hsz]; simp [attrHeap, ht, Heap.alloc]
        refine ⟨h.size + 1, by omega, ?_, ?_, ?_, ?_⟩
        · rw [hat _ (Nat.le_refl _)]
          simp [attrHeap, ht, Heap.alloc, mkAttr]
        all_goals
          rw [hat _ (Nat.le_succ _)]
          simp [attrHeap, ht, Heap.alloc, mkText]

/-- names and texts of the attributes `l`. -/
def HasPairs (h : Heap) : List Nat → List (Bytes × Option Bytes) → Prop
  | [], [] => True
  | a :: l, p :: ps => (h.at' a).name = p.1 ∧ (∃ v, p.2 = some v ∧ HasText h a v) ∧ HasPairs h l ps
  | _, _ => False

theorem HasPairs.names {h : Heap} : ∀ {l : List Nat} {ps : List (Bytes × Option Bytes)}, HasPairs h l ps → attrNames h l = ps.map Prod.fst
  | [], [], _ => rfl
  | a :: l, p :: ps, H => by
    have := HasPairs.names (l := l) H.2.2
    simp only [attrNames, List.map_cons] at this ⊢
    rw [this, H.1]

theorem HasPairs.pairs {h : Heap} : ∀ {l : List Nat} {ps : List (Bytes × Option Bytes)}, HasPairs h l ps → attrPairs h l = ps
  | [], [], _ => rfl
  | a :: l, p :: ps, H => by
    have := HasPairs.pairs (l := l) H.2.2
    obtain ⟨h1, ⟨v, hv, ht⟩, _⟩ := H
    simp only [attrPairs, List.map_cons] at this ⊢
    rw [this, h1, ht.content, ← hv]

theorem HasPairs.step {h h' : Heap} {e : Nat} {k : List Nat} (s : AStep h h' e k) (he : (h.at' e).kind = .element)
    (hl : ∀ c ∈ k, (h.at' c).kind = .attr) : ∀ {l : List Nat} {ps : List (Bytes × Option Bytes)}, HasPairs h l ps → HasPairs h' l ps
  | [], [], _ => trivial
  | a :: l, p :: ps, H => by
    obtain ⟨h1, ⟨v, hv, ht⟩, h3⟩ := H
    exact ⟨by rw [(s.info ht.2.1).1]; exact h1, ⟨v, hv, ht.step s he hl⟩, HasPairs.step s he hl h3⟩

theorem HasPairs.append {h : Heap} {a : Nat} {n v : Bytes} (hn : (h.at' a).name = n) (hv : HasText h a v) :
    ∀ {l : List Nat} {ps : List (Bytes × Option Bytes)}, HasPairs h l ps → HasPairs h (l ++ [a]) (ps ++ [(n, some v)])
  | [], [], _ => ⟨hn, ⟨v, rfl, hv⟩, trivial⟩
  | _ :: l, p :: ps, H => ⟨H.1, H.2.1, HasPairs.append hn hv H.2.2⟩

/-- a history of calls with plain values. -/
theorem setAll_plain (fuel : Nat) (es : List Nat) : ∀ (cs : List (AttrCall × Bytes)) {h : Heap} {m : Nat → List Nat}
    {ps : Nat → List (Bytes × Option Bytes)}, AttrLists h es m → (∀ e ∈ es, HasPairs h (m e) (ps e)) →
    (∀ c ∈ cs, c.1.elem ∈ es ∧ StandsFor c.1.value c.2 ∧ c.1.value.length + 1 < fuel) →
    ∃ rs h' m', setAll fuel (cs.map Prod.fst) h = .ok rs h' ∧ AttrLists h' es m' ∧ (∀ e ∈ es, HasPairs h' (m' e) (wanted e cs (ps e))) ∧
      ∀ r ∈ rs, r = none ∨ r = some (.k .duplicateAttribute)
  | [], h, m, ps, I, H, _ => ⟨[], h, m, rfl, I, H, by simp⟩
  | (c, w) :: cs, h, m, ps, I, H, hc => by
    obtain ⟨hce, hcv, hcf⟩ := hc (c, w) (by simp)
    have hrest : ∀ c' ∈ cs, c'.1.elem ∈ es ∧ StandsFor c'.1.value c'.2 ∧ c'.1.value.length + 1 < fuel := fun c' h' => hc c' (by simp [h'])
    have h0 := setAttribute_plain I hce fuel c.name c.value w hcv hcf
    have hel := (I.elem _ hce).2
    have hkl := (I.list _ hce).kind
    have hnm := (H _ hce).names
    by_cases hd : c.name ∈ attrNames h (m c.elem)
    · rw [if_pos hd] at h0
      obtain ⟨h1, e1, s, I1⟩ := h0
      obtain ⟨rs, h2, m', e2, I2, H2, hr⟩ := setAll_plain fuel es cs I1 (fun e he => (H e he).step s hel hkl) hrest
      refine ⟨some (.k .duplicateAttribute) :: rs, h2, m', ?_, I2, ?_, ?_⟩
      · simp only [List.map_cons]
        unfold setAll
        have : M.attempt (setAttribute fuel c.elem c.name c.value) h = .ok (.error (.k .duplicateAttribute)) h1 := by simp [M.attempt, e1]
        rw [bind_run this, bind_run e2]
        rfl
      · intro e he
        have : wanted e ((c, w) :: cs) (ps e) = wanted e cs (ps e) := by
          have hneg : ¬ (c.elem = e ∧ c.name ∉ (ps e).map Prod.fst) := by
            rintro ⟨rfl, h3⟩
            rw [hnm] at hd
            exact h3 hd
          conv => lhs; unfold wanted
          rw [if_neg hneg]
        rw [this]
        exact H2 e he
      · intro r hr'
        rcases List.mem_cons.1 hr' with rfl | hr'
        · exact Or.inr rfl
        · exact hr r hr'
    · rw [if_neg hd] at h0
      obtain ⟨h1, e1, s, I1, hname, htext⟩ := h0
      obtain ⟨rs, h2, m', e2, I2, H2, hr⟩ := setAll_plain fuel es cs
        (ps := fun x => if x = c.elem then ps c.elem ++ [(c.name, some w)] else ps x) I1 (fun e he => by
          by_cases h3 : e = c.elem
          · subst h3
            simp only [if_true]
            exact HasPairs.append hname htext ((H _ he).step s hel hkl)
          · simp only [h3, if_false]
            exact (H e he).step s hel hkl) hrest
      refine ⟨none :: rs, h2, m', ?_, I2, ?_, ?_⟩
      · simp only [List.map_cons]
        unfold setAll
        have : M.attempt (setAttribute fuel c.elem c.name c.value) h = .ok (.ok ()) h1 := by simp [M.attempt, e1]
        rw [bind_run this, bind_run e2]
        rfl
      · intro e he
        have h4 := H2 e he
        unfold wanted
        by_cases h3 : e = c.elem
        · subst h3
          rw [hnm] at hd
          rw [if_pos ⟨rfl, hd⟩]
          simpa using h4
        · rw [if_neg (fun h5 => h3 h5.1.symm)]
          simpa [h3] using h4
      · intro r hr'
        rcases List.mem_cons.1 hr' with rfl | hr'
        · exact Or.inl rfl
        · exact hr r hr'

end Helium
