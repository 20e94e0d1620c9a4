import Verif.Lemmas.HeapOps
import Verif.Model.Dom
import Verif.Spec.Attr
/-!
What building an attribute value can touch: new nodes, and the child pointers of declared entities. `base` is the number of nodes before
the call.
-/
namespace Helium
open Spec

/-- invariant while a value is under construction. -/
structure VInv (base : Nat) (h : Heap) : Prop where
  le : base ≤ h.size
  tab : TabOK h
  next : ∀ i j, base ≤ i → i < h.size → (h.at' i).next = some j → base ≤ j ∧ j < h.size
  parent : ∀ i j, base ≤ i → i < h.size → (h.at' i).parent = some j → base ≤ j ∧ j < h.size ∨ j < h.size ∧ (h.at' j).kind = .entity
  kind : ∀ i, base ≤ i → i < h.size → (h.at' i).kind ≠ .element

/-- nodes below `base` are unchanged, but for the child pointers of entities. -/
structure VStep (base : Nat) (h h' : Heap) : Prop where
  size : h.size ≤ h'.size
  same : ∀ i, i < base → (h.at' i).kind ≠ .entity → h'.at' i = h.at' i
  ent : ∀ i, i < base → h'.at' i = { h.at' i with first := (h'.at' i).first, last := (h'.at' i).last }

theorem VStep.refl (base : Nat) (h : Heap) : VStep base h h := ⟨Nat.le_refl _, fun _ _ _ => rfl, fun _ _ => rfl⟩

theorem VStep.trans {base : Nat} {a b c : Heap} (x : VStep base a b) (y : VStep base b c) : VStep base a c := by
  have hk : ∀ i, i < base → (b.at' i).kind = (a.at' i).kind := fun i hi => by rw [x.ent i hi]
  refine ⟨Nat.le_trans x.size y.size, fun i hi hn => ?_, fun i hi => ?_⟩
  · rw [y.same i hi (by rw [hk i hi]; exact hn), x.same i hi hn]
  · have h1 := x.ent i hi
    have h2 := y.ent i hi
    rw [h1] at h2
    exact h2

theorem VStep.kind {base : Nat} {a b : Heap} (x : VStep base a b) {i : Nat} (hi : i < base) : (b.at' i).kind = (a.at' i).kind := by
  rw [x.ent i hi]

/-- what is guaranteed of an outcome. -/
def vpost (base : Nat) (h : Heap) {α : Type} (o : Out Heap α) (Q : α → Heap → Prop) : Prop :=
  match o with
  | .ok a h' => VStep base h h' ∧ VInv base h' ∧ Q a h'
  | .err _ h' => VStep base h h' ∧ VInv base h'
  | _ => True

section
variable {α β : Type} {base : Nat}

theorem vpost.bind {p : HM α} {f : α → HM β} {Q : α → Heap → Prop} {R : β → Heap → Prop} {h : Heap} (hp : vpost base h (p h) Q)
    (hf : ∀ a h', VStep base h h' → VInv base h' → Q a h' → vpost base h' (f a h') R) : vpost base h ((p >>= f) h) R := by
  show vpost base h (M.bind p f h) R
  unfold M.bind
  cases hps : p h with
  | ok a h' =>
    rw [hps] at hp
    simp only at ⊢
    obtain ⟨s1, i1, q1⟩ := hp
    have h2 := hf a h' s1 i1 q1
    cases hf' : f a h' with
    | ok b h'' => rw [hf'] at h2; exact ⟨s1.trans h2.1, h2.2⟩
    | err e h'' => rw [hf'] at h2; exact ⟨s1.trans h2.1, h2.2⟩
    | panic => trivial
    | diverge => trivial
  | err e h' => rw [hps] at hp; exact hp
  | panic => trivial
  | diverge => trivial

theorem vpost.ok {a : α} {h : Heap} {Q : α → Heap → Prop} (hi : VInv base h) (hq : Q a h) : vpost base h (.ok a h) Q := ⟨VStep.refl _ _, hi, hq⟩
theorem vpost.err {e : Err} {h : Heap} {Q : α → Heap → Prop} (hi : VInv base h) : vpost base h (.err e h) Q := ⟨VStep.refl _ _, hi⟩

/-- nodes that may be linked: new, or an entity. -/
def Okp (base : Nat) (h : Heap) (j : Nat) : Prop := base ≤ j ∧ j < h.size ∨ j < h.size ∧ (h.at' j).kind = .entity

theorem TabOK.alloc {h : Heap} (ht : TabOK h) {x : Node} (he : x.entities = [] ∧ x.pentities = []) : TabOK (h.alloc x) := by
  intro i y hy
  simp only [Heap.alloc] at hy ⊢
  by_cases hc : i = h.size
  · simp [hc, he.1, he.2] at hy
  · simp only [hc, if_false] at hy
    obtain ⟨h1, h2⟩ := ht i y hy
    have : y.2 ≠ h.size := by omega
    exact ⟨by omega, by simp [this, h2]⟩

theorem VInv.alloc {h : Heap} (hi : VInv base h) {x : Node} (hn : x.next = none) (hp : x.parent = none)
    (he : x.entities = [] ∧ x.pentities = []) (hk : x.kind ≠ .element) : VInv base (h.alloc x) where
  le := Nat.le_succ_of_le hi.le
  tab := hi.tab.alloc he
  next := by
    intro i j hb hs hj
    simp only [Heap.alloc] at hs hj ⊢
    by_cases hc : i = h.size
    · simp [hc, hn] at hj
    · simp only [hc, if_false] at hj
      have := hi.next i j hb (by omega) hj
      omega
  parent := by
    intro i j hb hs hj
    simp only [Heap.alloc] at hs hj ⊢
    by_cases hc : i = h.size
    · simp [hc, hp] at hj
    · simp only [hc, if_false] at hj
      rcases hi.parent i j hb (by omega) hj with h1 | h1
      · exact Or.inl (by omega)
      · have : j ≠ h.size := by omega
        exact Or.inr ⟨by omega, by simp [this, h1.2]⟩
  kind := by
    intro i hb hs
    simp only [Heap.alloc] at hs ⊢
    by_cases hc : i = h.size
    · simpa [hc] using hk
    · simpa [hc] using hi.kind i hb (by omega)

theorem VStep.alloc {h : Heap} (hi : base ≤ h.size) (x : Node) : VStep base h (h.alloc x) where
  size := Nat.le_succ _
  same i hb _ := by
    have : i ≠ h.size := by omega
    simp [Heap.alloc, this]
  ent i hb := by
    have : i ≠ h.size := by omega
    simp [Heap.alloc, this]

theorem newNode_val {x : Node} (hn : x.next = none) (hp : x.parent = none) (he : x.entities = [] ∧ x.pentities = []) (hk : x.kind ≠ .element)
    {h : Heap} (hi : VInv base h) : vpost base h (newNode x h) (fun i h' => i = h.size ∧ h' = h.alloc x ∧ base ≤ i ∧ i < h'.size) :=
  ⟨VStep.alloc hi.le x, hi.alloc hn hp he hk, rfl, rfl, hi.le, Nat.lt_succ_self _⟩

/-- an update that keeps `kind` and the tables, links only allowed nodes, and touches new nodes or entity child pointers. -/
theorem VInv.upd {h : Heap} (hi : VInv base h) {i : Nat} {f : Node → Node} (hk : (f (h.at' i)).kind = (h.at' i).kind)
    (ht : (f (h.at' i)).entities = (h.at' i).entities ∧ (f (h.at' i)).pentities = (h.at' i).pentities)
    (hn : base ≤ i → i < h.size → ∀ j, (f (h.at' i)).next = some j → base ≤ j ∧ j < h.size)
    (hp : base ≤ i → i < h.size → ∀ j, (f (h.at' i)).parent = some j → Okp base h j) : VInv base (h.upd i f) where
  le := hi.le
  tab := by
    intro m y hy
    simp only [Heap.upd, Heap.put] at hy ⊢
    have h1 : y ∈ (h.at' m).entities ∨ y ∈ (h.at' m).pentities := by
      by_cases hc : m = i
      · subst hc; simpa [ht.1, ht.2] using hy
      · simpa [hc] using hy
    obtain ⟨h2, h3⟩ := hi.tab m y h1
    refine ⟨h2, ?_⟩
    by_cases hc : y.2 = i
    · rw [if_pos hc, hk, ← hc]; exact h3
    · rw [if_neg hc]; exact h3
  next := by
    intro m j hb hs hj
    simp only [Heap.upd, Heap.put] at hs hj ⊢
    by_cases hc : m = i
    · subst hc
      rw [if_pos rfl] at hj
      exact hn hb hs j hj
    · rw [if_neg hc] at hj
      exact hi.next m j hb hs hj
  parent := by
    intro m j hb hs hj
    have key : Okp base h j → base ≤ j ∧ j < (h.upd i f).size ∨ j < (h.upd i f).size ∧ ((h.upd i f).at' j).kind = .entity := by
      rintro (hx | hx)
      · exact Or.inl hx
      · refine Or.inr ⟨hx.1, ?_⟩
        simp only [Heap.upd, Heap.put]
        by_cases hc : j = i
        · rw [if_pos hc, hk, ← hc]; exact hx.2
        · rw [if_neg hc]; exact hx.2
    apply key
    simp only [Heap.upd, Heap.put] at hs hj
    by_cases hc : m = i
    · subst hc
      rw [if_pos rfl] at hj
      exact hp hb hs j hj
    · rw [if_neg hc] at hj
      exact hi.parent m j hb hs hj
  kind := by
    intro m hb hs
    simp only [Heap.upd, Heap.put] at hs ⊢
    by_cases hc : m = i
    · subst hc
      rw [if_pos rfl, hk]
      exact hi.kind m hb hs
    · rw [if_neg hc]
      exact hi.kind m hb hs

/-- updating a new node. -/
theorem VStep.updNew {h : Heap} {i : Nat} {f : Node → Node} (hb : base ≤ i) : VStep base h (h.upd i f) where
  size := Nat.le_refl _
  same j hj _ := by
    have : j ≠ i := by omega
    simp [Heap.upd, Heap.put, this]
  ent j hj := by
    have : j ≠ i := by omega
    simp [Heap.upd, Heap.put, this]

/-- updating the child pointers of an allowed node. -/
theorem VStep.updPtr {h : Heap} {i : Nat} (ho : Okp base h i) {fs ls : Node → Option Nat} :
    VStep base h (h.upd i (fun x => { x with first := fs x, last := ls x })) where
  size := Nat.le_refl _
  same j hj hk := by
    have : j ≠ i := by
      rintro rfl
      rcases ho with h1 | h1
      · omega
      · exact hk h1.2
    simp [Heap.upd, Heap.put, this]
  ent j hj := by
    simp only [Heap.upd, Heap.put]
    by_cases hc : j = i
    · simp [hc]
    · simp [hc]

/-- like `VInv.upd` followed by `VStep`. -/
theorem updNew {h : Heap} (hi : VInv base h) {i : Nat} {f : Node → Node} (hb : base ≤ i) (hk : (f (h.at' i)).kind = (h.at' i).kind)
    (ht : (f (h.at' i)).entities = (h.at' i).entities ∧ (f (h.at' i)).pentities = (h.at' i).pentities)
    (hn : ∀ j, (f (h.at' i)).next = some j → (h.at' i).next = some j ∨ base ≤ j ∧ j < h.size)
    (hp : ∀ j, (f (h.at' i)).parent = some j → (h.at' i).parent = some j ∨ Okp base h j) :
    VStep base h (h.upd i f) ∧ VInv base (h.upd i f) := by
  refine ⟨VStep.updNew hb, hi.upd hk ht ?_ ?_⟩
  · intro _ hs j hj
    rcases hn j hj with h1 | h1
    · exact hi.next i j hb hs h1
    · exact h1
  · intro _ hs j hj
    rcases hp j hj with h1 | h1
    · exact hi.parent i j hb hs h1
    · exact h1

theorem updPtr {h : Heap} (hi : VInv base h) {i : Nat} (ho : Okp base h i) {fs ls : Node → Option Nat} :
    VStep base h (h.upd i (fun x => { x with first := fs x, last := ls x })) ∧
      VInv base (h.upd i (fun x => { x with first := fs x, last := ls x })) :=
  ⟨VStep.updPtr ho, hi.upd rfl ⟨rfl, rfl⟩ (fun hb hs j hj => hi.next i j hb hs hj) (fun hb hs j hj => hi.parent i j hb hs hj)⟩

theorem lastSibling_new {h : Heap} (hi : VInv base h) : ∀ f n l, base ≤ n → n < h.size → lastSibling h f n = some l → base ≤ l ∧ l < h.size
  | 0, _, _, _, _, hl => by cases hl
  | f + 1, n, l, hb, hs, hl => by
    unfold lastSibling at hl
    cases hx : (h.at' n).next with
    | none => rw [hx] at hl; cases hl; exact ⟨hb, hs⟩
    | some m =>
      rw [hx] at hl
      have := hi.next n m hb hs hx
      exact lastSibling_new hi f m l this.1 this.2 hl

theorem chain_new {h : Heap} (hi : VInv base h) : ∀ f s l, (∀ n, s = some n → base ≤ n ∧ n < h.size) → chain h f s = some l →
    ∀ x ∈ l, base ≤ x ∧ x < h.size
  | f, none, l, _, hl => by
    have : l = [] := by unfold chain at hl; simpa using hl.symm
    subst this; simp
  | 0, some n, l, _, hl => by cases hl
  | f + 1, some n, l, hn, hl => by
    unfold chain at hl
    cases hx : chain h f (h.at' n).next with
    | none => rw [hx] at hl; cases hl
    | some l' =>
      rw [hx] at hl
      simp only [Option.map_some, Option.some.injEq] at hl
      subst hl
      have hb := hn n rfl
      have := chain_new hi f (h.at' n).next l' (fun m hm => hi.next n m hb.1 hb.2 hm) hx
      intro x hx
      rcases List.mem_cons.1 hx with rfl | hx
      · exact hb
      · exact this x hx

/-- `Okp` survives steps. -/
theorem Okp.upd {h : Heap} {j i : Nat} {f : Node → Node} (ho : Okp base h j) (hk : (f (h.at' i)).kind = (h.at' i).kind) : Okp base (h.upd i f) j := by
  rcases ho with h1 | h1
  · exact Or.inl h1
  · refine Or.inr ⟨h1.1, ?_⟩
    simp only [Heap.upd, Heap.put]
    by_cases hc : j = i
    · rw [if_pos hc, hk, ← hc]; exact h1.2
    · rw [if_neg hc]; exact h1.2

theorem addSibling_val {h : Heap} (hi : VInv base h) {n c : Nat} (hn : base ≤ n ∧ n < h.size) (hc : base ≤ c ∧ c < h.size) :
    vpost base h (addSibling n c h) (fun _ _ => True) := by
  unfold addSibling
  cases hl : lastSibling h (h.size + 1) n with
  | none => trivial
  | some l =>
    have hlb := lastSibling_new hi _ _ _ hn.1 hn.2 hl
    simp only
    obtain ⟨s1, i1⟩ := updNew hi (i := l) (f := fun x => { x with next := some c }) hlb.1 rfl ⟨rfl, rfl⟩
      (fun j hj => Or.inr (by cases hj; exact hc)) (fun j hj => Or.inl hj)
    obtain ⟨s2, i2⟩ := updNew i1 (i := c) (f := fun x => { x with prev := some l }) hc.1 rfl ⟨rfl, rfl⟩ (fun j hj => Or.inl hj) (fun j hj => Or.inl hj)
    generalize h.upd l (fun x => { x with next := some c }) = h1 at *
    generalize hh2 : h1.upd c (fun x => { x with prev := some l }) = h2 at *
    have hs2 : l < h2.size := Nat.lt_of_lt_of_le hlb.2 (Nat.le_trans s1.size s2.size)
    cases hp : (h2.at' l).parent with
    | none =>
      simp only
      obtain ⟨s3, i3⟩ := updNew i2 (i := c) (f := fun x => { x with parent := none }) hc.1 rfl ⟨rfl, rfl⟩ (fun j hj => Or.inl hj) (fun j hj => by cases hj)
      exact ⟨(s1.trans s2).trans s3, i3, trivial⟩
    | some p =>
      simp only
      have ho : Okp base h2 p := i2.parent l p hlb.1 hs2 hp
      obtain ⟨s3, i3⟩ := updNew i2 (i := c) (f := fun x => { x with parent := some p }) hc.1 rfl ⟨rfl, rfl⟩ (fun j hj => Or.inl hj)
        (fun j hj => by cases hj; exact Or.inr ho)
      have ho3 : Okp base (h2.upd c (fun x => { x with parent := some p })) p := ho.upd rfl
      obtain ⟨s4, i4⟩ := updPtr i3 ho3 (fs := fun x => x.first) (ls := fun _ => some c)
      exact ⟨((s1.trans s2).trans s3).trans s4, i4, trivial⟩

theorem appendContent_val {h : Heap} (hi : VInv base h) {n : Nat} (hn : base ≤ n) (b : Bytes) :
    VStep base h (h.upd n (fun x => { x with content := x.content ++ b })) ∧ VInv base (h.upd n (fun x => { x with content := x.content ++ b })) :=
  updNew hi hn rfl ⟨rfl, rfl⟩ (fun j hj => Or.inl hj) (fun j hj => Or.inl hj)

theorem nodeAddSibling_val {h : Heap} (hi : VInv base h) {n c : Nat} (hn : base ≤ n ∧ n < h.size) (hc : base ≤ c ∧ c < h.size) :
    vpost base h (nodeAddSibling n c h) (fun _ _ => True) := by
  have h1 := addSibling_val hi hn hc
  unfold nodeAddSibling
  simp only [node_bind]
  cases hk : (h.at' n).kind <;> simp only [node_bind] <;> try exact h1
  · by_cases hc2 : (h.at' c).kind = .text
    · simp only [hc2, if_true]
      rw [bind_run (content_leaf (Or.inl hc2))]
      exact ⟨(appendContent_val hi hn.1 _).1, (appendContent_val hi hn.1 _).2, trivial⟩
    · simp only [hc2, if_false]
      exact h1
  · exact ⟨VStep.refl _ _, hi⟩

theorem attemptAddSibling_val {n c : Nat} {h : Heap} (hi : VInv base h) (hn : base ≤ n ∧ n < h.size) (hc : base ≤ c ∧ c < h.size) :
    vpost base h (M.attempt (nodeAddSibling n c) h) (fun _ _ => True) := by
  have h1 := nodeAddSibling_val hi hn hc
  unfold M.attempt
  cases hx : nodeAddSibling n c h with
  | ok a h' => rw [hx] at h1; exact h1
  | err e h' => rw [hx] at h1; exact ⟨h1.1, h1.2, trivial⟩
  | panic => trivial
  | diverge => trivial

/-- the pointers of the loop state are new nodes. -/
def SOK (base : Nat) (h : Heap) (st : SNL) : Prop :=
  (∀ i, st.ret = some i → base ≤ i ∧ i < h.size) ∧ (∀ i, st.last = some i → base ≤ i ∧ i < h.size)

theorem SOK.step {h h' : Heap} {st : SNL} (hs : SOK base h st) (x : VStep base h h') : SOK base h' st :=
  ⟨fun i hi => ⟨(hs.1 i hi).1, Nat.lt_of_lt_of_le (hs.1 i hi).2 x.size⟩, fun i hi => ⟨(hs.2 i hi).1, Nat.lt_of_lt_of_le (hs.2 i hi).2 x.size⟩⟩

theorem snlPush_val {h : Heap} (hi : VInv base h) {st : SNL} {n : Nat} (hs : SOK base h st) (hn : base ≤ n ∧ n < h.size) :
    vpost base h (snlPush st n h) (fun st' h' => SOK base h' st') := by
  unfold snlPush
  cases hl : st.last with
  | none =>
    simp only
    exact ⟨VStep.refl _ _, hi, ⟨fun i hi => by cases hi; exact hn, fun i hi => by cases hi; exact hn⟩⟩
  | some l =>
    simp only
    have h1 := attemptAddSibling_val hi (hs.2 l hl) hn
    cases hx : M.attempt (nodeAddSibling l n) h with
    | ok a h' =>
      rw [hx] at h1
      rw [bind_run hx]
      refine ⟨h1.1, h1.2.1, ?_⟩
      have := hs.step h1.1
      exact ⟨this.1, fun i hi => by cases hi; exact ⟨hn.1, Nat.lt_of_lt_of_le hn.2 h1.1.size⟩⟩
    | err e h' => rw [hx] at h1; rw [bind_run_err hx]; exact h1
    | panic => rw [bind_run_panic hx]; trivial
    | diverge => rw [bind_run_diverge hx]; trivial

/-- a list of updates of parents. -/
theorem setParents_val {p : Nat} : ∀ (l : List Nat) {h : Heap}, VInv base h → Okp base h p → (∀ x ∈ l, base ≤ x ∧ x < h.size) →
    ∃ h', (l.forM (fun k => updNode k (fun x => { x with parent := some p }))) h = .ok () h' ∧ VStep base h h' ∧ VInv base h'
  | [], h, hi, _, _ => ⟨h, rfl, VStep.refl _ _, hi⟩
  | k :: l, h, hi, ho, hl => by
    have hk := hl k (by simp)
    obtain ⟨s1, i1⟩ := updNew hi (i := k) (f := fun x => { x with parent := some p }) hk.1 rfl ⟨rfl, rfl⟩ (fun j hj => Or.inl hj)
      (fun j hj => by cases hj; exact Or.inr ho)
    obtain ⟨h', e, s2, i2⟩ := setParents_val l i1 (ho.upd rfl) (fun x hx => hl x (by simp [hx]))
    refine ⟨h', ?_, s1.trans s2, i2⟩
    exact e

theorem mapGet_mem {β : Type} {m : List (Bytes × β)} {k : Bytes} {v : β} (h : mapGet m k = some v) : (k, v) ∈ m := by
  unfold mapGet at h
  cases hf : m.find? (fun p => p.1 == k) with
  | none => simp [hf] at h
  | some y =>
    have h1 := List.mem_of_find?_eq_some hf
    have h2 := List.find?_some hf
    simp only [beq_iff_eq] at h2
    simp only [hf, Option.map_some, Option.some.injEq] at h
    rw [← h2, ← h]
    exact h1

theorem docGetEntity_ent {h : Heap} (ht : TabOK h) {d : Nat} {name : Bytes} {e : Nat} (he : docGetEntity h d name = some e) :
    e < h.size ∧ (h.at' e).kind = .entity := by
  unfold docGetEntity at he
  cases hx : (h.at' d).intSubset with
  | some i => rw [hx] at he; exact ht i _ (Or.inl (mapGet_mem he))
  | none =>
    rw [hx] at he
    simp only at he
    cases hy : (h.at' d).extSubset with
    | some i => rw [hy] at he; exact ht i _ (Or.inl (mapGet_mem he))
    | none => rw [hy] at he; cases he

end
end Helium
