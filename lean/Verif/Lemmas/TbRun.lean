import Verif.Lemmas.TreeInv
import Verif.Lemmas.DtdRun
import Verif.Lemmas.Typed
import Verif.Model.TreeBuilder
/-! What the tree builder does to a document under construction. -/
namespace Helium
open Spec

/-- node `y` has the kind and the links of `x`; children of entities do not matter. -/
structure Linked (x y : Node) : Prop where
  kind : y.kind = x.kind
  next : y.next = x.next
  prev : y.prev = x.prev
  parent : y.parent = x.parent
  ends : tracked x.kind = true → y.first = x.first ∧ y.last = x.last

theorem Linked.of_eq {x y : Node} (e : y = x) : Linked x y := by
  subst e; exact ⟨rfl, rfl, rfl, rfl, fun _ => ⟨rfl, rfl⟩⟩

/-- the same forest with the data of `h`. -/
def Spec.Forest.renew (a : Forest) (h : Heap) : Forest := { a with size := h.size, data := fun n => info (h.at' n) }

/-- take node `e` into the forest, as it is in `h`. -/
def Spec.Forest.adopt (a : Forest) (h : Heap) (e : Nat) : Forest :=
  { a with tree := fun n => if n = e then true else a.tree n, data := fun n => if n = e then info (h.at' e) else a.data n,
           loose := fun n => if n = e then true else a.loose n }

namespace Rel
variable {h h1 : Heap} {a : Forest}

theorem kids_out (R : Rel h a) {e : Nat} (he : a.tree e = false) : a.kids e = [] := by
  cases hk : a.kids e with
  | nil => rfl
  | cons c r =>
    have := (R.kid e c (by rw [hk]; simp)).2.1
    rw [this] at he
    cases he

theorem out_of_size (R : Rel h a) {e : Nat} (he : h.size ≤ e) : a.tree e = false := by
  cases ht : a.tree e
  · rfl
  · have := R.bound _ ht
    rw [← R.size] at this
    omega

theorem renew (R : Rel h a) (hs : h.size ≤ h1.size) (hl : ∀ n, a.tree n = true → Linked (h.at' n) (h1.at' n)) : Rel h1 (a.renew h1) := by
  have hk : ∀ n, a.tree n = true → ((a.renew h1).data n).kind = (a.data n).kind := fun n hn => by
    rw [← R.kind hn]; exact (hl n hn).kind
  have ht : ∀ n, a.tree n = true → tracked (a.data n).kind = true → tracked (h.at' n).kind = true := fun n hn h => by rw [R.kind hn]; exact h
  refine { size := rfl, data := fun _ _ => rfl, first := ?_, last := ?_, link := ?_, nodup := R.nodup, kid := ?_, loose := ?_, bound := ?_ }
  · intro n hn h
    rw [hk n hn] at h
    rw [((hl n hn).ends (ht n hn h)).1]
    exact R.first n hn h
  · intro n hn h
    rw [hk n hn] at h
    rw [((hl n hn).ends (ht n hn h)).2]
    exact R.last n hn h
  · intro p l c r hkd
    have l1 := hl c (R.kid p c (by rw [show a.kids p = _ from hkd]; simp)).1
    rw [l1.next, l1.prev, l1.parent]
    exact R.link p l c r hkd
  · intro p c hc
    obtain ⟨k1, k2, k3⟩ := R.kid p c hc
    exact ⟨k1, k2, by rw [hk p k2]; exact k3⟩
  · intro c hc
    have k := R.loose c hc
    have l1 := hl c k.2.2.1
    rw [l1.next, l1.prev]
    exact k
  · intro n hn
    have := R.bound n hn
    rw [← R.size] at this
    exact Nat.lt_of_lt_of_le this hs

theorem adopt (R : Rel h a) {e : Nat} (hnt : a.tree e = false) (he1 : e < h.size)
    (hx : (tracked (h.at' e).kind = true → (h.at' e).first = none ∧ (h.at' e).last = none) ∧ (h.at' e).next = none ∧ (h.at' e).prev = none) :
    Rel h (a.adopt h e) := by
  have hk0 := R.kids_out hnt
  have hne : ∀ {n}, a.tree n = true → n ≠ e := by rintro n hn rfl; rw [hn] at hnt; cases hnt
  refine { size := R.size, data := ?_, first := ?_, last := ?_, link := R.link, nodup := R.nodup, kid := ?_, loose := ?_, bound := ?_ }
  · intro n hn
    by_cases hp : n = e
    · subst hp; simp [Forest.adopt]
    · simp only [Forest.adopt, hp, if_false] at hn ⊢
      exact R.data n hn
  · intro n hn ht
    by_cases hp : n = e
    · subst hp
      have ht : tracked (h.at' n).kind = true := by simpa [Forest.adopt, info] using ht
      simp only [Forest.adopt]; rw [hk0]; exact (hx.1 ht).1
    · simp only [Forest.adopt, hp, if_false] at hn ht ⊢
      exact R.first n hn ht
  · intro n hn ht
    by_cases hp : n = e
    · subst hp
      have ht : tracked (h.at' n).kind = true := by simpa [Forest.adopt, info] using ht
      simp only [Forest.adopt]; rw [hk0]; exact (hx.1 ht).2
    · simp only [Forest.adopt, hp, if_false] at hn ht ⊢
      exact R.last n hn ht
  · intro p c hc
    simp only [Forest.adopt] at hc ⊢
    obtain ⟨k1, k2, k3⟩ := R.kid p c hc
    simp only [hne k1, hne k2, if_false]
    exact ⟨k1, k2, k3⟩
  · intro c hc
    by_cases hp : c = e
    · subst hp
      refine ⟨hx.2.1, hx.2.2, by simp [Forest.adopt], fun p hc => ?_⟩
      exact hne (R.kid p c hc).1 rfl
    · simp only [Forest.adopt, hp, if_false] at hc ⊢
      exact R.loose c hc
  · intro n hn
    by_cases hp : n = e
    · subst hp; exact Nat.lt_of_lt_of_eq he1 R.size
    · simp only [Forest.adopt, hp, if_false] at hn ⊢
      exact R.bound n hn

end Rel

theorem TabOK.of_same {h h' : Heap} (T : TabOK h) (hs : h'.size = h.size) (hat : ∀ i, (h'.at' i).kind = (h.at' i).kind ∧
    (h'.at' i).entities = (h.at' i).entities ∧ (h'.at' i).pentities = (h.at' i).pentities) : TabOK h' := by
  intro i x hx
  rw [(hat i).2.1, (hat i).2.2] at hx
  have := T i x hx
  exact ⟨by rw [hs]; exact this.1, by rw [(hat _).1]; exact this.2⟩

theorem info_tab {x y : Node} (e : info x = info y) : x.kind = y.kind ∧ x.entities = y.entities ∧ x.pentities = y.pentities := by
  have h1 := congrArg Node.kind e
  have h2 := congrArg Node.entities e
  have h3 := congrArg Node.pentities e
  exact ⟨h1, h2, h3⟩

/-- in `(a2, h2)` the node `e` of `h1` is the last child of `p`. -/
structure Attached (a : Forest) (h1 : Heap) (p e : Nat) (a2 : Forest) (h2 : Heap) : Prop where
  rel : Rel h2 a2
  tab : TabOK h2
  size : h2.size = h1.size
  tree : ∀ n, a2.tree n = if n = e then true else a.tree n
  kids : ∀ n, a2.kids n = if n = p then a.kids p ++ [e] else a.kids n
  info : ∀ n, a2.tree n = true → info (h2.at' n) = info (h1.at' n)
  out : ∀ x, a.tree x = false → x ≠ e → h2.at' x = h1.at' x

theorem Attached.keeps {a a2 : Forest} {h1 h2 : Heap} {p e n : Nat} (A : Attached a h1 p e a2 h2) (hn : a.tree n = true) : a2.tree n = true := by
  rw [A.tree, hn]; simp

/-- linking a new node below `p`. -/
theorem attach_at' {a : Forest} {h h1 : Heap} (R : Rel h a) (T : TabOK h1) (hs : h.size ≤ h1.size)
    (hl : ∀ n, a.tree n = true → Linked (h.at' n) (h1.at' n)) {p e : Nat} (c1 : a.tree p = true)
    (c2 : (h.at' p).kind = .doc ∨ (h.at' p).kind = .element ∨ (h.at' p).kind = .dtd)
    (c3 : ∀ l, (a.kids p).getLast? = some l → (h.at' l).kind ≠ .doc) (he : h.size ≤ e) (he1 : e < h1.size)
    (hx : (tracked (h1.at' e).kind = true → (h1.at' e).first = none ∧ (h1.at' e).last = none) ∧ (h1.at' e).next = none ∧ (h1.at' e).prev = none)
    (hk : (h1.at' e).kind ≠ .text) : ∃ h2 a2, nodeAddChild p e h1 = .ok () h2 ∧ Attached a h1 p e a2 h2 := by
  have hnt := R.out_of_size he
  have hpe : p ≠ e := by rintro rfl; rw [c1] at hnt; cases hnt
  have R1 : Rel h1 ((a.renew h1).adopt h1 e) := (R.renew hs hl).adopt hnt he1 hx
  have hdat : ∀ n, ((a.renew h1).adopt h1 e).data n = info (h1.at' n) := by
    intro n
    by_cases hn : n = e
    · subst hn; simp [Forest.adopt]
    · simp [Forest.adopt, Forest.renew, hn]
  have hpt : ((a.renew h1).adopt h1 e).tree p = true := by simp [Forest.adopt, Forest.renew, c1]
  have hkp : (((a.renew h1).adopt h1 e).data p).kind = .doc ∨ (((a.renew h1).adopt h1 e).data p).kind = .element ∨
      (((a.renew h1).adopt h1 e).data p).kind = .dtd := by
    rw [hdat]
    show (h1.at' p).kind = _ ∨ (h1.at' p).kind = _ ∨ (h1.at' p).kind = _
    rw [(hl p c1).kind]
    exact c2
  have hke : (((a.renew h1).adopt h1 e).data e).kind = (h1.at' e).kind := by rw [hdat]; rfl
  have hlast : ∀ l, (((a.renew h1).adopt h1 e).kids p).getLast? = some l → (((a.renew h1).adopt h1 e).data l).kind ≠ .doc := by
    intro l hgl
    have hgl : (a.kids p).getLast? = some l := hgl
    rw [hdat]
    show (h1.at' l).kind ≠ _
    rw [(hl l (R.kid p l (List.mem_of_getLast? hgl)).1).kind]
    exact c3 l hgl
  obtain ⟨h2, r1, R2, f2⟩ := R1.nodeAddChild_run hpt (by rcases hkp with h | h | h <;> rw [h] <;> rfl) (c := e) (by simp [Forest.adopt]) hlast
  have hok : nodeAddChild p e h1 = .ok () h2 := by
    rcases r1 with r1 | ⟨r1, _⟩
    · exact r1
    · rcases hkp with h | h | h <;> rw [h] at r1 <;> simp at r1
  have hap : ((a.renew h1).adopt h1 e).addChild p e = ((a.renew h1).adopt h1 e).append p e := by
    unfold Forest.addChild
    rw [if_neg (by rcases hkp with h | h | h <;> rw [h] <;> simp)]
    have : (((a.renew h1).adopt h1 e).data e).kind ≠ .text := by rw [hke]; exact hk
    cases (((a.renew h1).adopt h1 e).kids p).getLast? with
    | none => rfl
    | some l => simp [this]
  rw [hap] at R2
  have htr : ∀ n, (((a.renew h1).adopt h1 e).append p e).tree n = if n = e then true else a.tree n := fun n => rfl
  have hinfo : ∀ n, (((a.renew h1).adopt h1 e).append p e).tree n = true → info (h2.at' n) = info (h1.at' n) := by
    intro n hn
    rw [R2.data n hn]
    exact hdat n
  have hout : ∀ x, a.tree x = false → x ≠ e → h2.at' x = h1.at' x := by
    intro x hx hxe
    exact f2 x (by simp [Forest.adopt, Forest.renew, hxe, hx])
  refine ⟨h2, ((a.renew h1).adopt h1 e).append p e, hok, ⟨R2, ?_, R2.size, htr, fun n => rfl, hinfo, hout⟩⟩
  refine T.of_same R2.size (fun i => ?_)
  by_cases hi : (((a.renew h1).adopt h1 e).append p e).tree i = true
  · exact info_tab (hinfo i hi)
  · rw [htr] at hi
    by_cases hie : i = e
    · simp [hie] at hi
    · simp only [hie, if_false] at hi
      rw [hout i (by simpa using hi) hie]
      exact ⟨rfl, rfl, rfl⟩

theorem attach_at {a : Forest} {h h1 : Heap} (R : Rel h a) (T : TabOK h1) (hs : h.size ≤ h1.size)
    (hl : ∀ n, a.tree n = true → Linked (h.at' n) (h1.at' n)) {p e : Nat} (c1 : a.tree p = true)
    (c2 : (h.at' p).kind = .doc ∨ (h.at' p).kind = .element ∨ (h.at' p).kind = .dtd)
    (c3 : ∀ l, (a.kids p).getLast? = some l → (h.at' l).kind ≠ .doc) (he : h.size ≤ e) (he1 : e < h1.size)
    (hx : (h1.at' e).first = none ∧ (h1.at' e).last = none ∧ (h1.at' e).next = none ∧ (h1.at' e).prev = none)
    (hk : (h1.at' e).kind ≠ .text) : ∃ h2 a2, nodeAddChild p e h1 = .ok () h2 ∧ Attached a h1 p e a2 h2 :=
  attach_at' R T hs hl c1 c2 c3 he he1 ⟨fun _ => ⟨hx.1, hx.2.1⟩, hx.2.2⟩ hk

/-- the same as a frame. -/
theorem Attached.fr {a a2 : Forest} {h h1 h2 : Heap} {p e : Nat} {S : Nat → Prop} (A : Attached a h1 p e a2 h2) (hs : h.size ≤ h1.size)
    (hv : ∀ n, a.tree n = true → vinfo (h1.at' n) = vinfo (h.at' n))
    (ho : ∀ i, i < h.size → a.tree i = false → (h.at' i).kind ≠ .entity → h1.at' i = h.at' i) (he : h.size ≤ e)
    (hS : ∀ i, S i → i ≠ p ∨ (h.at' p).kind = .dtd) : Fr a h a2 h2 S where
  size := by rw [A.size]; exact hs
  out x hx ht hk := by
    have : x ≠ e := by omega
    exact ⟨by rw [A.tree]; simp [this, ht], by rw [A.out x ht this]; exact ho x hx ht hk⟩
  node i hi ht := by
    refine ⟨A.keeps ht, fun hk => ?_, (vinfo_of_info (A.info i (A.keeps ht))).trans (hv i ht)⟩
    rw [A.kids]
    rcases hS i hi with h1 | h1
    · rw [if_neg h1]
    · rw [if_neg (by rintro rfl; exact hk h1)]

/-- a new node below the current one. -/
theorem attach' {a : Forest} {h h1 : Heap} {dn : Nat} {top : XTree} {fs : List (Nat × XData × XTree)} (R : Rel h a)
    (Z : Zip a h dn top fs) (T : TabOK h1) (hs : h.size ≤ h1.size) (hl : ∀ n, a.tree n = true → Linked (h.at' n) (h1.at' n))
    (hv : ∀ n, a.tree n = true → vinfo (h1.at' n) = vinfo (h.at' n))
    (ho : ∀ i, i < h.size → a.tree i = false → (h.at' i).kind ≠ .entity → h1.at' i = h.at' i) {e : Nat} (he : h.size ≤ e) (he1 : e < h1.size)
    (hx : (tracked (h1.at' e).kind = true → (h1.at' e).first = none ∧ (h1.at' e).last = none) ∧ (h1.at' e).next = none ∧ (h1.at' e).prev = none)
    (hk : (h1.at' e).kind ≠ .text) :
    ∃ h2 a2, nodeAddChild (curNode dn fs) e h1 = .ok () h2 ∧ Attached a h1 (curNode dn fs) e a2 h2 ∧ Fr a h a2 h2 (fun i => i ≠ curNode dn fs) := by
  obtain ⟨c1, c2, c3⟩ := Z.cur
  obtain ⟨h2, a2, r, A⟩ := attach_at' R T hs hl c1 (c2.imp_right Or.inl) (fun l hgl => by
    obtain ⟨_, _, m3, d, m4⟩ := c3.mem l (List.mem_of_getLast? hgl)
    rcases m4.kind with h | h | h | h | h | h <;> rw [h] <;> simp) he he1 hx hk
  exact ⟨h2, a2, r, A, A.fr hs hv ho he (fun i hi => Or.inl hi)⟩

theorem attach {a : Forest} {h h1 : Heap} {dn : Nat} {top : XTree} {fs : List (Nat × XData × XTree)} (R : Rel h a)
    (Z : Zip a h dn top fs) (T : TabOK h1) (hs : h.size ≤ h1.size) (hl : ∀ n, a.tree n = true → Linked (h.at' n) (h1.at' n))
    (hv : ∀ n, a.tree n = true → vinfo (h1.at' n) = vinfo (h.at' n))
    (ho : ∀ i, i < h.size → a.tree i = false → (h.at' i).kind ≠ .entity → h1.at' i = h.at' i) {e : Nat} (he : h.size ≤ e) (he1 : e < h1.size)
    (hx : (h1.at' e).first = none ∧ (h1.at' e).last = none ∧ (h1.at' e).next = none ∧ (h1.at' e).prev = none)
    (hk : (h1.at' e).kind ≠ .text) :
    ∃ h2 a2, nodeAddChild (curNode dn fs) e h1 = .ok () h2 ∧ Attached a h1 (curNode dn fs) e a2 h2 ∧ Fr a h a2 h2 (fun i => i ≠ curNode dn fs) :=
  attach' R Z T hs hl hv ho he he1 ⟨fun _ => ⟨hx.1, hx.2.1⟩, hx.2.2⟩ hk

/-! ### declarations -/

theorem winfo_eq {x y : Node} (e : winfo x = winfo y) : x.kind = y.kind ∧ x.doc = y.doc ∧ x.elements = y.elements ∧ x.declType = y.declType ∧
    x.intSubset = y.intSubset ∧ x.extSubset = y.extSubset ∧ x.parent.isSome = x.parent.isSome := by
  have h1 := congrArg Node.kind e
  have h2 := congrArg Node.doc e
  have h3 := congrArg Node.elements e
  have h4 := congrArg Node.declType e
  have h5 := congrArg Node.intSubset e
  have h6 := congrArg Node.extSubset e
  exact ⟨h1, h2, h3, h4, h5, h6, rfl⟩

theorem Spec.HoldsDecl.kind {h : Heap} {i : Nat} {ev : Ev} (H : HoldsDecl h i ev) :
    (h.at' i).kind = .elemDecl ∨ (h.at' i).kind = .attrDecl ∨ (h.at' i).kind = .entity := by
  cases ev <;> first | exact Or.inl H.1 | exact Or.inr (Or.inl H.1) | exact Or.inr (Or.inr H.1) | exact H.elim

theorem Spec.HoldsDecl.congr {h h' : Heap} {i : Nat} {ev : Ev} (e : vinfo (h'.at' i) = vinfo (h.at' i)) (H : HoldsDecl h i ev) : HoldsDecl h' i ev := by
  have e1 : (h'.at' i).kind = (h.at' i).kind := by have := congrArg Node.kind e; exact this
  have e2 : (h'.at' i).name = (h.at' i).name := by have := congrArg Node.name e; exact this
  have e3 : (h'.at' i).pfx = (h.at' i).pfx := by have := congrArg Node.pfx e; exact this
  have e4 : (h'.at' i).declType = (h.at' i).declType := by have := congrArg Node.declType e; exact this
  have e5 : (h'.at' i).ec = (h.at' i).ec := by have := congrArg Node.ec e; exact this
  have e6 : (h'.at' i).elem = (h.at' i).elem := by have := congrArg Node.elem e; exact this
  have e7 : (h'.at' i).atype = (h.at' i).atype := by have := congrArg Node.atype e; exact this
  have e8 : (h'.at' i).defType = (h.at' i).defType := by have := congrArg Node.defType e; exact this
  have e9 : (h'.at' i).defValue = (h.at' i).defValue := by have := congrArg Node.defValue e; exact this
  have e10 : (h'.at' i).tree = (h.at' i).tree := by have := congrArg Node.tree e; exact this
  have e11 : (h'.at' i).entType = (h.at' i).entType := by have := congrArg Node.entType e; exact this
  have e12 : (h'.at' i).externalID = (h.at' i).externalID := by have := congrArg Node.externalID e; exact this
  have e13 : (h'.at' i).systemID = (h.at' i).systemID := by have := congrArg Node.systemID e; exact this
  have e14 : (h'.at' i).content = (h.at' i).content := by have := congrArg Node.content e; exact this
  cases ev <;> simp only [HoldsDecl] at H ⊢ <;> rw [e1, e2] <;> simp only [e3, e4, e5, e6, e7, e8, e9, e10, e11, e12, e13, e14] <;> exact H

theorem Spec.HoldsDecls.congr {h h' : Heap} : ∀ {l : List Nat} {evs : List Ev}, (∀ i ∈ l, (h.at' i).kind ≠ .text → vinfo (h'.at' i) = vinfo (h.at' i)) →
    HoldsDecls h l evs → HoldsDecls h' l evs
  | [], [], _, _ => trivial
  | i :: l, ev :: evs, e, H => ⟨H.1.congr (e i (by simp) (by rcases H.1.kind with h | h | h <;> rw [h] <;> simp)),
      HoldsDecls.congr (fun j hj => e j (by simp [hj])) H.2⟩

theorem Spec.HoldsDecls.kinds {h : Heap} : ∀ {l : List Nat} {evs : List Ev}, HoldsDecls h l evs → ∀ i ∈ l,
    (h.at' i).kind = .elemDecl ∨ (h.at' i).kind = .attrDecl ∨ (h.at' i).kind = .entity
  | [], [], _, i, hi => by cases hi
  | j :: l, ev :: evs, H, i, hi => by
    rcases List.mem_cons.1 hi with rfl | hi
    · exact H.1.kind
    · exact HoldsDecls.kinds H.2 i hi

theorem Spec.HoldsDecls.snoc {h : Heap} {e : Nat} {ev : Ev} (he : HoldsDecl h e ev) : ∀ {l : List Nat} {evs : List Ev}, HoldsDecls h l evs →
    HoldsDecls h (l ++ [e]) (evs ++ [ev])
  | [], [], _ => ⟨he, trivial⟩
  | _ :: _, _ :: _, H => ⟨H.1, HoldsDecls.snoc he H.2⟩

/-- the document type declaration of `dn`, if there is one, holds the declarations `ds`, and every element in its table is declared. -/
def DtdPart (a : Forest) (h : Heap) (dn : Nat) (ds : List Ev) : Prop :=
  match (h.at' dn).intSubset with
  | none => ds = []
  | some t => t ∈ a.kids dn ∧ (h.at' t).kind = .dtd ∧ (h.at' t).doc = some dn ∧ HoldsDecls h (a.kids t) ds ∧
      ∀ x ∈ (h.at' t).elements, a.tree x.2 = true ∧ (h.at' x.2).kind = .elemDecl ∧ (h.at' x.2).declType ≠ 0

theorem DtdPart.none {a : Forest} {h : Heap} {dn : Nat} (hd : (h.at' dn).intSubset = none) : DtdPart a h dn [] := by
  unfold DtdPart; rw [hd]

theorem DtdPart.keep {a a' : Forest} {h h' : Heap} {dn : Nat} {ds : List Ev} (D : DtdPart a h dn ds) (R : Rel h a)
    (hd : (h'.at' dn).intSubset = (h.at' dn).intSubset) (hT : ∀ n, a.tree n = true → a'.tree n = true)
    (hI : ∀ n, a.tree n = true → (h.at' n).kind ≠ .text → winfo (h'.at' n) = winfo (h.at' n))
    (hK : ∀ t, a.tree t = true → (h.at' t).kind = .dtd → a'.kids t = a.kids t) (hD : ∀ t ∈ a.kids dn, t ∈ a'.kids dn) : DtdPart a' h' dn ds := by
  unfold DtdPart at D ⊢
  rw [hd]
  cases hi : (h.at' dn).intSubset with
  | none => rw [hi] at D; exact D
  | some t =>
    rw [hi] at D
    obtain ⟨d1, d2, d3, d4, d5⟩ := D
    have ht := (R.kid dn t d1).1
    obtain ⟨e1, e2, e3, e4, _⟩ := winfo_eq (hI t ht (by rw [d2]; simp))
    refine ⟨hD t d1, e1.trans d2, e2.trans d3, ?_, ?_⟩
    · rw [hK t ht d2]
      exact d4.congr (fun i hi hk => vinfo_of_winfo (hI i (R.kid t i hi).1 hk))
    · intro x hx
      rw [e3] at hx
      obtain ⟨x1, x2, x3⟩ := d5 x hx
      obtain ⟨f1, f2, f3, f4, _⟩ := winfo_eq (hI x.2 x1 (by rw [x2]; simp))
      exact ⟨hT _ x1, f1.trans x2, by rw [f4]; exact x3⟩


theorem Attached.dtd {a a2 : Forest} {h h1 h2 : Heap} {p e dn : Nat} {ds : List Ev} (A : Attached a h1 p e a2 h2) (R : Rel h a)
    (D : DtdPart a h dn ds) (hw : ∀ n, a.tree n = true → winfo (h1.at' n) = winfo (h.at' n)) (hd : a.tree dn = true)
    (hp : (h.at' p).kind ≠ .dtd) : DtdPart a2 h2 dn ds := by
  have hw2 : ∀ n, a.tree n = true → winfo (h2.at' n) = winfo (h.at' n) := fun n hn => (winfo_of_info (A.info n (A.keeps hn))).trans (hw n hn)
  refine D.keep R (winfo_eq (hw2 dn hd)).2.2.2.2.1 (fun n => A.keeps) (fun n hn _ => hw2 n hn) (fun t _ ht => ?_) (fun t ht => ?_)
  · rw [A.kids, if_neg (by rintro rfl; exact hp ht)]
  · rw [A.kids]
    by_cases hdp : dn = p
    · subst hdp; rw [if_pos rfl]; simp [ht]
    · rw [if_neg hdp]; exact ht

section
variable {σ : Type}

/-- the tree builder has built the partial tree `s` below document node `dn`, and the declarations `ds` in its document type declaration. -/
def TInv (c : HC σ) (dn : Nat) (s : Partial) (ds : List Ev) : Prop :=
  ∃ a fs, c.doc = some dn ∧ Rel c.heap a ∧ TabOK c.heap ∧
    fs.map (·.2) = s.inner ∧ c.elem = fs.head?.map (·.1) ∧ Zip a c.heap dn s.top fs ∧
    DtdPart a c.heap dn ds ∧ (c.heap.at' dn).extSubset = none

theorem Outer.doc {a : Forest} {h : Heap} {dn : Nat} {top : XTree} : ∀ {fs : List (Nat × XData × XTree)} {e : Nat},
    Outer a h dn top fs e → a.tree dn = true ∧ dn < e
  | [], _, H => ⟨H.2.1, H.1⟩
  | _ :: _, _, H => by
    have := Outer.doc H.2.2.2.2.2
    exact ⟨this.1, Nat.lt_trans this.2 H.1⟩

theorem Zip.doc {a : Forest} {h : Heap} {dn : Nat} {top : XTree} {fs : List (Nat × XData × XTree)} (Z : Zip a h dn top fs) : a.tree dn = true := by
  cases fs with
  | nil => exact Z.1
  | cons x fs => exact (Outer.doc Z.2.2.2.2).1

theorem Outer.docKind {a : Forest} {h : Heap} {dn : Nat} {top : XTree} : ∀ {fs : List (Nat × XData × XTree)} {e : Nat},
    Outer a h dn top fs e → (h.at' dn).kind = .doc
  | [], _, H => H.2.2.1
  | _ :: _, _, H => Outer.docKind H.2.2.2.2.2

theorem Zip.docKind {a : Forest} {h : Heap} {dn : Nat} {top : XTree} {fs : List (Nat × XData × XTree)} (Z : Zip a h dn top fs) :
    (h.at' dn).kind = .doc := by
  cases fs with
  | nil => exact Z.2.1
  | cons x fs => exact Outer.docKind Z.2.2.2.2

theorem info_subsets {x y : Node} (e : info x = info y) : x.intSubset = y.intSubset ∧ x.extSubset = y.extSubset := by
  have h1 := congrArg Node.intSubset e
  have h2 := congrArg Node.extSubset e
  exact ⟨h1, h2⟩

theorem add_setCur {s : Partial} {fs : List (Nat × XData × XTree)} (hf : fs.map (·.2) = s.inner) (d : XData) (k : XTree) :
    (setCur s.top fs ((curTree s.top fs).snoc d k)).2.map (·.2) = (s.add d k).inner ∧
      (setCur s.top fs ((curTree s.top fs).snoc d k)).1 = (s.add d k).top ∧
      (setCur s.top fs ((curTree s.top fs).snoc d k)).2.head?.map (·.1) = fs.head?.map (·.1) := by
  unfold Partial.add
  rw [← hf]
  cases fs with
  | nil => exact ⟨rfl, rfl, rfl⟩
  | cons x fs => obtain ⟨e, d0, t⟩ := x; exact ⟨rfl, rfl, rfl⟩


theorem Fr.docInfo {a a' : Forest} {h h' : Heap} {dn p : Nat} (f : Fr a h a' h' (fun i => i ≠ p)) (hd : a.tree dn = true)
    (hi : vinfo (h'.at' p) = vinfo (h.at' p)) : vinfo (h'.at' dn) = vinfo (h.at' dn) := by
  by_cases h1 : dn = p
  · rw [h1]; exact hi
  · exact (f.node dn h1 hd).2.2

theorem tbH_ok {α : Type} {p : HM α} {a : α} {c : HC σ} {h : Heap} (hp : p c.heap = .ok a h) : (tbH p : TB σ α) c = .ok a { c with heap := h } := by
  unfold tbH; rw [hp]

theorem tbAttach_run {dn n : Nat} {fs : List (Nat × XData × XTree)} {c : HC σ} (he : c.elem = fs.head?.map (·.1)) {h2 : Heap}
    (hr : nodeAddChild (curNode dn fs) n c.heap = .ok () h2) : tbAttach dn n c = .ok () { c with heap := h2 } := by
  unfold tbAttach
  rw [get_bind]
  cases fs with
  | nil =>
    have he : c.elem = none := he
    simp only [he]
    rw [← he]
    exact bind_run (attempt_run (tbH_ok hr))
  | cons x fs =>
    have he : c.elem = some x.1 := he
    simp only [he]
    rw [← he]
    exact bind_run (attempt_run (tbH_ok hr))


/-- a new leaf. -/
theorem tb_leaf' {c : HC σ} {dn : Nat} {s : Partial} {ds : List Ev} (I : TInv c dn s ds) {x : Node} {d : XData}
    (hx : (tracked x.kind = true → x.first = none ∧ x.last = none) ∧ x.next = none ∧ x.prev = none) (hk : x.kind ≠ .text)
    (ht : x.entities = [] ∧ x.pentities = [])
    (hd : ∀ (ok : Nat → Prop) h i, info (h.at' i) = info x → HoldsData ok h i d) :
    ∃ h2, tbAttach dn c.heap.size { c with heap := c.heap.alloc x } = .ok () { c with heap := h2 } ∧
      TInv { c with heap := h2 } dn (s.add d .nil) ds ∧ info (h2.at' dn) = info (c.heap.at' dn) := by
  obtain ⟨a, fs, i1, R, T, i5, i6, Z, D, i9⟩ := I
  have hnew : (c.heap.alloc x).at' c.heap.size = x := by simp [Heap.alloc]
  have hold : ∀ i, i < c.heap.size → (c.heap.alloc x).at' i = c.heap.at' i := fun i hi => by simp [Heap.alloc, Nat.ne_of_lt hi]
  have hold' : ∀ i, a.tree i = true → (c.heap.alloc x).at' i = c.heap.at' i := fun i hi => hold i (by rw [R.size]; exact R.bound i hi)
  obtain ⟨h2, a2, r1, A, f⟩ := attach' R Z (T.alloc ht) (Nat.le_succ _) (fun n hn => Linked.of_eq (hold' n hn)) (fun n hn => by rw [hold' n hn])
    (fun i hi _ _ => hold i hi) (Nat.le_refl _) (Nat.lt_succ_self _) (by rw [hnew]; exact hx) (by rw [hnew]; exact hk)
  refine ⟨h2, tbAttach_run (c := { c with heap := c.heap.alloc x }) i6 r1, ?_⟩
  obtain ⟨c1, c2, c3⟩ := Z.cur
  have hnt := R.out_of_size (Nat.le_refl _)
  have hI : ∀ n, a.tree n = true → info (h2.at' n) = info (c.heap.at' n) := fun n hn => by rw [A.info n (A.keeps hn), hold' n hn]
  have hpe : curNode dn fs ≠ c.heap.size := by intro e; rw [e, hnt] at c1; cases c1
  have hxt : a2.tree c.heap.size = true := by rw [A.tree]; simp
  have hxi : info (h2.at' c.heap.size) = info x := by rw [A.info _ hxt, hnew]
  have hxk : a2.kids c.heap.size = [] := by rw [A.kids, if_neg (Ne.symm hpe)]; exact R.kids_out hnt
  have hs2 : a2.size = c.heap.size + 1 := by rw [← A.rel.size, A.size]; rfl
  obtain ⟨e1, e2, e3⟩ := add_setCur i5 d .nil
  have hz2 : Zone a2 h2 (curNode dn fs + 1) a2.size (a2.kids (curNode dn fs)) ((curTree s.top fs).snoc d .nil) := by
    have hzx : if d.shut = true then XTree.nil = .nil else Zone a2 h2 (c.heap.size + 1) a2.size (a2.kids c.heap.size) .nil := by
      split
      · rfl
      · rw [hxk, hs2]; exact Nat.le_refl _
    rw [A.kids, if_pos rfl]
    refine Zone.snoc hxt (hd _ _ _ hxi) hzx (by omega) (c3.frame f (fun i hi _ => by omega)) ?_
    rw [R.size]
    exact Nat.le_refl _
  have hZ := Z.setCur (f.mono (fun i hi => Nat.ne_of_lt hi)) (A.keeps c1) (vinfo_of_info (hI _ c1)) hz2
  refine ⟨⟨a2, _, i1, A.rel, A.tab, e1, i6.trans e3.symm, by rw [e2] at hZ; exact hZ, ?_, ?_⟩, hI dn Z.doc⟩
  · exact A.dtd R D (fun n hn => by rw [hold' n hn]) Z.doc (by rcases c2 with h | h <;> rw [h] <;> simp)
  · exact (info_subsets (hI dn Z.doc)).2.trans i9

/-- a new leaf. -/
theorem tb_leaf {c : HC σ} {dn : Nat} {s : Partial} {ds : List Ev} (I : TInv c dn s ds) {x : Node} {d : XData}
    (hx : x.first = none ∧ x.last = none ∧ x.next = none ∧ x.prev = none) (hk : x.kind = .comment ∨ x.kind = .pi)
    (ht : x.entities = [] ∧ x.pentities = [])
    (hd : ∀ (ok : Nat → Prop) h i, info (h.at' i) = info x → HoldsData ok h i d) :
    ∃ h2, tbAttach dn c.heap.size { c with heap := c.heap.alloc x } = .ok () { c with heap := h2 } ∧
      TInv { c with heap := h2 } dn (s.add d .nil) ds ∧ info (h2.at' dn) = info (c.heap.at' dn) :=
  tb_leaf' I ⟨fun _ => ⟨hx.1, hx.2.1⟩, hx.2.2⟩ (by rcases hk with h | h <;> rw [h] <;> simp) ht hd

theorem tbComment_inv {c : HC σ} {dn : Nat} {s : Partial} {ds : List Ev} (I : TInv c dn s ds) (b : Bytes) :
    ∃ c', tbComment b c = .ok () c' ∧ TInv c' dn (s.add (.comment b) .nil) ds ∧ info (c'.heap.at' dn) = info (c.heap.at' dn) := by
  obtain ⟨h2, r, I2⟩ := tb_leaf I (x := mkComment b) (d := .comment b) ⟨rfl, rfl, rfl, rfl⟩ (Or.inl rfl) ⟨rfl, rfl⟩
    (fun ok h i hi => by obtain ⟨e1, e2, e3, e4, e5, e6, e7, e8⟩ := info_eq hi; exact ⟨e1, e6⟩)
  obtain ⟨a, fs, i1, _⟩ := I
  refine ⟨_, ?_, I2⟩
  unfold tbComment
  rw [get_bind]
  simp only [i1]
  rw [← i1]
  rw [bind_run (tbH_ok (a := c.heap.size) (h := c.heap.alloc (mkComment b)) rfl)]
  exact r

theorem tbPI_inv {c : HC σ} {dn : Nat} {s : Partial} {ds : List Ev} (I : TInv c dn s ds) {v : HV} (hv : v.inSubset = 0) (t d : Bytes) :
    ∃ c', tbPI v t d c = .ok () c' ∧ TInv c' dn (s.add (.pi t d) .nil) ds ∧ info (c'.heap.at' dn) = info (c.heap.at' dn) := by
  obtain ⟨h2, r, I2⟩ := tb_leaf I (x := mkPI t d) (d := .pi t d) ⟨rfl, rfl, rfl, rfl⟩ (Or.inr rfl) ⟨rfl, rfl⟩
    (fun ok h i hi => by obtain ⟨e1, e2, e3, e4, e5, e6, e7, e8⟩ := info_eq hi; exact ⟨e1, e7, e8, e2, e3⟩)
  obtain ⟨a, fs, i1, _⟩ := I
  refine ⟨_, ?_, I2⟩
  have hd : (tbDoc : TB σ Nat) c = .ok dn c := by
    unfold tbDoc
    rw [get_bind, i1]
    rfl
  unfold tbPI
  rw [bind_run hd, bind_run (tbH_ok (a := c.heap.size) (h := c.heap.alloc (mkPI t d)) rfl)]
  rw [hv]
  exact r

/-! ### text -/

theorem text_step {a : Forest} {h : Heap} {dn : Nat} {top : XTree} {fs : List (Nat × XData × XTree)} {e : Nat} {d : XData} {t : XTree}
    (R : Rel h a) (T : TabOK h) (Z : Zip a h dn top ((e, d, t) :: fs)) (b : Bytes) :
    ∃ h2 a2, nodeAddContent e b h = .ok () h2 ∧ Rel h2 a2 ∧ TabOK h2 ∧
      Zip a2 h2 dn top ((e, d, t.addText b) :: fs) ∧ (∀ n, a.tree n = true → a2.tree n = true) ∧ (∀ n, a.tree n = true → (h.at' n).kind ≠ .text → info (h2.at' n) = info (h.at' n)) ∧
      (∀ n, a.tree n = true → n ≠ e → a2.kids n = a.kids n) := by
  obtain ⟨z1, z2, z3, z4, z5⟩ := Z
  have hes : e < a.size := R.bound e z1
  have hke : (a.data e).kind = .element := by rw [← R.kind z1]; exact z2
  have hlastk : ∀ l, (a.kids e).getLast? = some l → (a.data l).kind ≠ .doc := by
    intro l hl
    obtain ⟨_, _, m3, d, m4⟩ := z4.mem l (List.mem_of_getLast? hl)
    rw [← R.kind m3]
    rcases m4.kind with h | h | h | h | h | h <;> rw [h] <;> simp
  obtain ⟨h2, r1, R2, f2⟩ := R.nodeAddContent_run z1 (by rw [hke]; rfl) hlastk b
  have htree : ∀ n, a.tree n = true → n ≠ a.size := fun n hn => by have := R.bound n hn; omega
  have hdoc := (Outer.doc z5)
  have hsz0 : h.size = a.size := R.size
  have hnt : a.tree a.size = false := R.out_of_size (by omega)
  have hT2 : ∀ a2 : Forest, Rel h2 a2 → a2.size = a.size + 1 → (∀ n, a2.tree n = if n = a.size then true else a.tree n) →
      (∀ n, a.tree n = true → (a2.data n).kind = (a.data n).kind ∧ (a2.data n).entities = (a.data n).entities ∧
        (a2.data n).pentities = (a.data n).pentities) → a2.data a.size = info (mkText b) →
      TabOK h2 := by
    intro a2 R3 hs ht hd hnew
    have hk2 : ∀ n, a.tree n = true → (h2.at' n).kind = (h.at' n).kind ∧ (h2.at' n).entities = (h.at' n).entities ∧
        (h2.at' n).pentities = (h.at' n).pentities := by
      intro n hn
      have e1 := R3.data n (by rw [ht]; simp [hn])
      have e2 := R.data n hn
      have e3 := hd n hn
      rw [← e1, ← e2] at e3
      exact e3
    have hn2 : info (h2.at' a.size) = info (mkText b) := by rw [R3.data a.size (by rw [ht]; simp), hnew]
    have T1 : TabOK (h.alloc (mkText b)) := T.alloc ⟨rfl, rfl⟩
    refine T1.of_same (by rw [R3.size, hs, ← hsz0]; rfl) (fun i => ?_)
    by_cases hi : i = a.size
    · subst hi
      have : (h.alloc (mkText b)).at' a.size = mkText b := by rw [← hsz0]; simp [Heap.alloc]
      rw [this]
      exact info_tab hn2
    · have : (h.alloc (mkText b)).at' i = h.at' i := by rw [← hsz0] at hi; simp [Heap.alloc, hi]
      rw [this]
      by_cases hi2 : a.tree i = true
      · exact hk2 i hi2
      · rw [f2 i hi (by simpa using hi2)]; exact ⟨rfl, rfl, rfl⟩
  have hac : a.addContent e b = (a.alloc (mkText b)).addChild e a.size := by
    unfold Forest.addContent
    rw [if_neg (by rw [hke]; simp)]
  have hde : (a.alloc (mkText b)).data e = a.data e := by simp [Forest.alloc, htree e z1]
  have hke' : (a.alloc (mkText b)).kids e = a.kids e := by simp [Forest.alloc, htree e z1]
  have hds : (a.alloc (mkText b)).data a.size = info (mkText b) := by simp [Forest.alloc]
  rw [hac] at R2
  unfold Forest.addChild at R2
  rw [if_neg (by rw [hde, hke]; simp), hke', hds] at R2
  have happ : Rel h2 ((a.alloc (mkText b)).append e a.size) → (∀ c, (a.kids e).getLast? = some c → (h.at' c).kind ≠ .text) → ∃ a2, Rel h2 a2 ∧ TabOK h2 ∧
      Zip a2 h2 dn top ((e, d, t.addText b) :: fs) ∧ (∀ n, a.tree n = true → a2.tree n = true) ∧ (∀ n, a.tree n = true → (h.at' n).kind ≠ .text → info (h2.at' n) = info (h.at' n)) ∧
      (∀ n, a.tree n = true → n ≠ e → a2.kids n = a.kids n) := by
    intro R3 hlt
    have t1 := hT2 _ R3 rfl (fun n => rfl) (fun n hn => by simp [Forest.append, Forest.alloc, htree n hn]) (by simp [Forest.append, Forest.alloc])
    have hinf : ∀ n, a.tree n = true → info (h2.at' n) = info (h.at' n) := by
      intro n hn
      rw [R3.data n (by simp [Forest.append, Forest.alloc, hn]), R.data n hn]
      simp [Forest.append, Forest.alloc, htree n hn]
    have f : Fr a h ((a.alloc (mkText b)).append e a.size) h2 (fun i => i ≠ e) := by
      refine { size := by rw [R3.size, hsz0]; exact Nat.le_succ _, out := ?_, node := ?_ }
      · intro x hx ht _
        have : x ≠ a.size := by omega
        exact ⟨by simp [Forest.append, Forest.alloc, this, ht], f2 x this ht⟩
      · intro i hi ht
        exact ⟨by simp [Forest.append, Forest.alloc, ht], fun _ => by simp [Forest.append, Forest.alloc, htree i ht, hi], vinfo_of_info (hinf i ht)⟩
    have hz2 : Zone ((a.alloc (mkText b)).append e a.size) h2 (e + 1) (a.size + 1) (((a.alloc (mkText b)).append e a.size).kids e) (t.addText b) := by
      rw [Zone.addText_new z4 hlt]
      have : ((a.alloc (mkText b)).append e a.size).kids e = a.kids e ++ [a.size] := by simp [Forest.append, Forest.alloc, htree e z1]
      rw [this]
      refine Zone.snoc (by simp [Forest.append, Forest.alloc]) ?_ ?_ (Nat.lt_succ_self _) (z4.frame f (fun i hi _ => by omega)) (Nat.le_refl _)
      · have : info (h2.at' a.size) = info (mkText b) := by
          rw [R3.data a.size (by simp [Forest.append, Forest.alloc])]
          simp [Forest.append, Forest.alloc]
        obtain ⟨e1, e2, e3, e4, e5, e6, e7, e8⟩ := info_eq this
        exact ⟨e1, e6⟩
      · have hne : a.size ≠ e := by omega
        have : ((a.alloc (mkText b)).append e a.size).kids a.size = [] := by simp [Forest.append, Forest.alloc, hne]
        rw [if_neg (by simp [XData.shut]), this]
        exact Nat.le_refl _
    have hZ := Zip.setCur (dn := dn) (top := top) (fs := (e, d, t) :: fs) ⟨z1, z2, z3, z4, z5⟩ (f.mono (fun i hi => Nat.ne_of_lt hi))
      (by simp [Forest.append, Forest.alloc, curNode, z1]) (vinfo_of_info (hinf e z1)) hz2
    exact ⟨_, R3, t1, hZ, fun n hn => by simp [Forest.append, Forest.alloc, hn], fun n hn _ => hinf n hn,
      fun n hn hne => by simp [Forest.append, Forest.alloc, htree n hn, hne]⟩
  suffices h : ∃ a2, Rel h2 a2 ∧ TabOK h2 ∧
      Zip a2 h2 dn top ((e, d, t.addText b) :: fs) ∧ (∀ n, a.tree n = true → a2.tree n = true) ∧ (∀ n, a.tree n = true → (h.at' n).kind ≠ .text → info (h2.at' n) = info (h.at' n)) ∧
      (∀ n, a.tree n = true → n ≠ e → a2.kids n = a.kids n) by
    obtain ⟨a2, h⟩ := h
    exact ⟨h2, a2, r1, h⟩
  cases hl : (a.kids e).getLast? with
  | none =>
    rw [hl] at R2
    exact happ R2 (fun c hc => by rw [hl] at hc; cases hc)
  | some l =>
    rw [hl] at R2
    obtain ⟨m1, m2, m3, d', m4⟩ := z4.mem l (List.mem_of_getLast? hl)
    have hdl : (a.alloc (mkText b)).data l = a.data l := by simp [Forest.alloc, htree l m3]
    simp only [hdl] at R2
    by_cases htx : (a.data l).kind = .text
    · rw [if_pos ⟨htx, rfl⟩] at R2
      have hcb : (info (mkText b)).content = b := rfl
      rw [hcb] at R2
      have t1 := hT2 _ R2 rfl (fun n => rfl) (fun n hn => by
          by_cases hnl : n = l
          · subst hnl; simp [Forest.addText, Forest.alloc, htree n hn]
          · simp [Forest.addText, Forest.alloc, htree n hn, hnl])
        (by simp [Forest.addText, Forest.alloc, Ne.symm (htree l m3)])
      have hinf : ∀ n, a.tree n = true → n ≠ l → info (h2.at' n) = info (h.at' n) := by
        intro n hn hnl
        rw [R2.data n (by simp [Forest.addText, Forest.alloc, hn]), R.data n hn]
        simp [Forest.addText, Forest.alloc, htree n hn, hnl]
      have f : Fr a h ((a.alloc (mkText b)).addText l b) h2 (fun i => i ≠ l) := by
        refine { size := by rw [R2.size, hsz0]; exact Nat.le_succ _, out := ?_, node := ?_ }
        · intro x hx ht _
          have : x ≠ a.size := by omega
          exact ⟨by simp [Forest.addText, Forest.alloc, this, ht], f2 x this ht⟩
        · intro i hi ht
          exact ⟨by simp [Forest.addText, Forest.alloc, ht], fun _ => by simp [Forest.addText, Forest.alloc, htree i ht], vinfo_of_info (hinf i ht hi)⟩
      have hl2 : info (h2.at' l) = { a.data l with content := (a.data l).content ++ b } := by
        rw [R2.data l (by simp [Forest.addText, Forest.alloc, m3])]
        simp [Forest.addText, Forest.alloc, htree l m3]
      have hz2 : Zone ((a.alloc (mkText b)).addText l b) h2 (e + 1) (a.size + 1) (((a.alloc (mkText b)).addText l b).kids e) (t.addText b) := by
        have hk : ((a.alloc (mkText b)).addText l b).kids e = a.kids e := hke'
        rw [hk]
        refine Zone.mono (Zone.addText_last f ?_ ?_ ?_ ?_ ?_ z4 hl) (Nat.le_succ _)
        · simp [Forest.addText, Forest.alloc, htree l m3]
        · simp [Forest.addText, Forest.alloc, m3]
        · rw [R.kind m3]; exact htx
        · have := congrArg Node.kind hl2
          exact this.trans htx
        · have := congrArg Node.content hl2
          rw [R.content m3]
          exact this
      have hZ := Zip.setCur (dn := dn) (top := top) (fs := (e, d, t) :: fs) ⟨z1, z2, z3, z4, z5⟩
        (f.mono (fun i hi => by simp only [curNode] at hi; omega))
        (by simp [Forest.addText, Forest.alloc, curNode, z1]) (vinfo_of_info (hinf e z1 (by omega))) hz2
      exact ⟨_, R2, t1, hZ, fun n hn => by simp [Forest.addText, Forest.alloc, hn],
        fun n hn hk => hinf n hn (by rintro rfl; exact hk (by rw [R.kind hn]; exact htx)), fun n hn _ => by simp [Forest.addText, Forest.alloc, htree n hn]⟩
    · rw [if_neg (fun hc => htx hc.1)] at R2
      exact happ R2 (fun c hc => by rw [hl] at hc; cases hc; rw [R.kind m3]; exact htx)

theorem tbCharacters_inv {c : HC σ} {dn : Nat} {s : Partial} {ds : List Ev} (I : TInv c dn s ds) {d : XData} {t : XTree} {r : List (XData × XTree)}
    (hs : s.inner = (d, t) :: r) (b : Bytes) :
    ∃ c', tbCharacters b c = .ok () c' ∧ TInv c' dn { s with inner := (d, t.addText b) :: r } ds ∧
      info (c'.heap.at' dn) = info (c.heap.at' dn) := by
  obtain ⟨a, fs, i1, R, T, i5, i6, Z, D, i9⟩ := I
  rw [hs] at i5
  cases fs with
  | nil => cases i5
  | cons x fs =>
    obtain ⟨e, d0, t0⟩ := x
    simp only [List.map_cons, List.cons.injEq, Prod.mk.injEq] at i5
    obtain ⟨⟨rfl, rfl⟩, i5⟩ := i5
    obtain ⟨h2, a2, r1, R2, T2, Z2, k1, k2, k3⟩ := text_step R T Z b
    have he : c.elem = some e := i6
    have hdd := Outer.doc Z.2.2.2.2
    have hdk := Z.docKind
    have hd := k2 dn hdd.1 (by rw [hdk]; simp)
    refine ⟨{ c with heap := h2 }, ?_, ⟨a2, (e, d0, t0.addText b) :: fs, i1, R2, T2, ?_, i6, Z2, ?_, ?_⟩, hd⟩
    · unfold tbCharacters
      rw [get_bind]
      simp only [he]
      rw [← he]
      exact tbH_ok r1
    · simp [i5]
    · refine D.keep R (info_subsets hd).1 k1 (fun n hn hk => winfo_of_info (k2 n hn hk)) (fun t htt ht => ?_) (fun t ht => ?_)
      · exact k3 t htt (by rintro rfl; rw [Z.2.1] at ht; cases ht)
      · rw [k3 dn hdd.1 (by omega)]; exact ht
    · exact (info_subsets hd).2.trans i9

theorem tbEndElement_inv {c : HC σ} {dn : Nat} {s : Partial} {ds : List Ev} (I : TInv c dn s ds) {d : XData} {t : XTree} {r : List (XData × XTree)}
    (hs : s.inner = (d, t) :: r) : ∃ c', tbEndElement c = .ok () c' ∧ TInv c' dn ({ s with inner := r }.add d t) ds ∧
      info (c'.heap.at' dn) = info (c.heap.at' dn) := by
  obtain ⟨a, fs, i1, R, T, i5, i6, Z, D, i9⟩ := I
  rw [hs] at i5
  cases fs with
  | nil => cases i5
  | cons x fs =>
    obtain ⟨e, d0, t0⟩ := x
    simp only [List.map_cons, List.cons.injEq, Prod.mk.injEq] at i5
    obtain ⟨⟨rfl, rfl⟩, i5⟩ := i5
    have he : c.elem = some e := i6
    obtain ⟨p1, p2⟩ := Z.parent R
    have Z2 := Z.pop
    obtain ⟨e1, e2, e3⟩ := add_setCur (s := { s with inner := r }) i5 d0 t0
    refine ⟨{ c with elem := fs.head?.map (·.1) }, ?_, ⟨a, _, i1, R, T, e1, e3.symm, by rw [← e2]; exact Z2, D, i9⟩, rfl⟩
    unfold tbEndElement
    rw [get_bind]
    simp only [he, p1, p2]
    cases fs with
    | nil => rfl
    | cons y fs => rfl

/-! ### start tags -/

/-- an element under construction in `g`, started from `h`: not linked yet, attributes `m`. -/
structure Built (h g : Heap) (e : Nat) (x : Node) (m : List Nat) (as : List (Bytes × Bytes)) : Prop where
  es : e = h.size
  lt : e < g.size
  same : ∀ i, i < h.size → (h.at' i).kind ≠ .entity → g.at' i = h.at' i
  ent : ∀ i, i < h.size → ∃ f l, g.at' i = { h.at' i with first := f, last := l }
  tab : TabOK g
  elem : g.at' e = { x with props := m.head? }
  list : PropList g e m
  attrs : HoldsAttrs (fun x => e < x) g m as
  nodup : (as.map (·.1)).Nodup

theorem Spec.HoldsAttrs.move {h h' : Heap} {ok ok' : Nat → Prop} (hs : h.size ≤ h'.size) (hm : ∀ x, ok x → ok' x ∧ h'.at' x = h.at' x) :
    ∀ {m : List Nat} {as : List (Bytes × Bytes)}, HoldsAttrs ok h m as → HoldsAttrs ok' h' m as
  | [], [], _ => trivial
  | x :: m, p :: as, H => by
    obtain ⟨h1, h2, hns, h3, h4⟩ := H
    obtain ⟨f1, f2⟩ := hm x h1
    refine ⟨f1, by rw [f2]; exact h2, by rw [f2]; exact hns, ?_, HoldsAttrs.move hs hm h4⟩
    intro w hw
    rcases h3 w hw with ⟨e1, e2⟩ | ⟨t, t1, t2, t3, t4, t5, t6⟩
    · exact Or.inl ⟨e1, by rw [f2]; exact e2⟩
    · obtain ⟨g1, g2⟩ := hm t t1
      refine Or.inr ⟨t, g1, Nat.lt_of_lt_of_le t2 hs, ?_, ?_, ?_, ?_⟩
      · rw [f2]; exact t3
      · rw [g2]; exact t4
      · rw [g2]; exact t5
      · rw [g2]; exact t6

theorem Spec.HoldsAttrs.step {g g' : Heap} {e : Nat} {l : List Nat} (s : AStep g g' e l) (he : (g.at' e).kind = .element)
    (hl : ∀ c ∈ l, (g.at' c).kind = .attr) : ∀ {m : List Nat} {as : List (Bytes × Bytes)}, (∀ x ∈ m, x < g.size ∧ (g.at' x).kind = .attr) →
    HoldsAttrs (fun x => e < x) g m as → HoldsAttrs (fun x => e < x) g' m as
  | [], [], _, _ => trivial
  | x :: m, p :: as, hb, H => by
    obtain ⟨h1, h2, hns, h3, h4⟩ := H
    obtain ⟨b1, b2⟩ := hb x (by simp)
    have hx : (g'.at' x).name = (g.at' x).name ∧ (g'.at' x).ns = (g.at' x).ns ∧ (g'.at' x).first = (g.at' x).first := by
      by_cases hlast : l.getLast? = some x
      · obtain ⟨n, hn⟩ := s.tail x b1 hlast
        rw [hn]; exact ⟨rfl, rfl, rfl⟩
      · rw [s.same x b1 (Nat.ne_of_gt h1) hlast (by rw [b2]; simp)]; exact ⟨rfl, rfl, rfl⟩
    refine ⟨h1, hx.1.trans h2, hx.2.1.trans hns, ?_, HoldsAttrs.step s he hl (fun y hy => hb y (by simp [hy])) h4⟩
    intro w hw
    rcases h3 w hw with ⟨e1, e2⟩ | ⟨t, t1, t2, t3, t4, t5, t6⟩
    · exact Or.inl ⟨e1, hx.2.2.trans e2⟩
    · have ht : g'.at' t = g.at' t := s.same t t2 (Nat.ne_of_gt t1)
        (fun hc => by have := hl t (List.mem_of_getLast? hc); rw [t4] at this; cases this) (by rw [t4]; simp)
      refine Or.inr ⟨t, t1, Nat.lt_of_lt_of_le t2 s.size, hx.2.2.trans t3, ?_, ?_, ?_⟩
      · rw [ht]; exact t4
      · rw [ht]; exact t5
      · rw [ht]; exact t6

theorem Spec.HoldsAttrs.snoc {h : Heap} {ok : Nat → Prop} {x : Nat} {p : Bytes × Bytes} (hx : ok x) (hn : (h.at' x).name = p.1)
    (hns : (h.at' x).ns = none) (ht : ∀ w, StandsFor p.2 w → HoldsText ok h x w) :
    ∀ {m : List Nat} {as : List (Bytes × Bytes)}, HoldsAttrs ok h m as → HoldsAttrs ok h (m ++ [x]) (as ++ [p])
  | [], [], _ => ⟨hx, hn, hns, ht, trivial⟩
  | _ :: _, _ :: _, H => ⟨H.1, H.2.1, H.2.2.1, H.2.2.2.1, HoldsAttrs.snoc hx hn hns ht H.2.2.2.2⟩

theorem Spec.HoldsAttrs.names {h : Heap} {ok : Nat → Prop} : ∀ {m : List Nat} {as : List (Bytes × Bytes)}, HoldsAttrs ok h m as →
    attrNames h m = as.map (·.1)
  | [], [], _ => rfl
  | _ :: _, _ :: _, H => by
    have := HoldsAttrs.names H.2.2.2.2
    simp only [attrNames, List.map_cons] at this ⊢
    rw [H.2.1, this]

/-- one attribute of the new element. -/
theorem Built.attr {h g : Heap} {e : Nat} {x : Node} {m : List Nat} {as : List (Bytes × Bytes)} (B : Built h g e x m as)
    (hx : x.kind = .element) {fuel : Nat} {n v : Bytes} {g' : Heap} (hr : setAttribute fuel e n v g = .ok () g') :
    Built h g' e x (m ++ [g.size]) (as ++ [(n, v)]) := by
  have hk : (g.at' e).kind = .element := by rw [B.elem]; exact hx
  have h1 := setAttribute_step B.tab B.lt hk B.list fuel n v
  rw [hr] at h1
  obtain ⟨s, hnm, C, hname, g1, hc, hat, hsz⟩ := h1
  have hgt : ∀ c ∈ m, e < c := B.attrs.all
  have hnl : ∀ i, i < h.size → m.getLast? ≠ some i := by
    intro i hi hc
    have := hgt i (List.mem_of_getLast? hc)
    have := B.es
    omega
  have hl : ∀ c ∈ m, (g.at' c).kind = .attr := B.list.kind
  refine { es := B.es, lt := Nat.lt_of_lt_of_le B.lt s.size, same := ?_, ent := ?_, tab := s.tab, elem := ?_, list := C, attrs := ?_, nodup := ?_ }
  · intro i hi hki
    have h2 := B.same i hi hki
    have := B.es
    have := B.lt
    rw [s.same i (by omega) (by omega) (hnl i hi) (by rw [h2]; exact hki), h2]
  · intro i hi
    have h0 := B.es
    have h0' := B.lt
    obtain ⟨f, q, h2⟩ := B.ent i hi
    by_cases hki : (h.at' i).kind = .entity
    · obtain ⟨f', q', h3⟩ := s.ent i (by omega) (by rw [h2]; exact hki)
      exact ⟨f', q', by rw [h3, h2]⟩
    · rw [s.same i (by omega) (by omega) (hnl i hi) (by rw [h2]; exact hki), h2]
      exact ⟨_, _, rfl⟩
  · obtain ⟨p, hp⟩ := s.elem
    have := C.first
    rw [hp] at this ⊢
    simp only at this
    rw [B.elem, this]
  · refine HoldsAttrs.snoc B.lt hname ?_ ?_ (HoldsAttrs.step s hk hl (fun c hc => ⟨B.list.alloc c hc, hl c hc⟩) B.attrs)
    · have h2 := createAttribute_val B.tab (g.at' e).doc fuel n v none
      rw [hc] at h2
      obtain ⟨_, _, _, _, f, hf⟩ := h2
      rw [hat _ (Nat.le_refl _), hf]
      rfl
    · intro w hw
      obtain ⟨rs, ts, hs, ha, e1, e2⟩ := hw
      have e1 : v = encodeRunes rs := e1
      subst e1
      subst e2
      rcases createAttribute_stands (g.at' e).doc hs ha fuel n none g with h3 | h3
      · rw [h3] at hc
        cases hc
        by_cases ht : ts = []
        · subst ht
          left
          refine ⟨rfl, ?_⟩
          rw [hat _ (Nat.le_refl _)]
          simp [attrHeap, Heap.alloc, mkAttr]
        · right
          have hsz' : g'.size = g.size + 2 := by rw [hsz]; simp [attrHeap, ht, Heap.alloc]
          have := B.lt
          refine ⟨g.size + 1, by omega, by omega, ?_, ?_, ?_, ?_⟩
          · rw [hat _ (Nat.le_refl _)]
            simp [attrHeap, ht, Heap.alloc, mkAttr]
          all_goals
            rw [hat _ (Nat.le_succ _)]
            simp [attrHeap, ht, Heap.alloc, mkText]
      · rw [h3] at hc
        cases hc
  · rw [List.map_append, List.nodup_append]
    refine ⟨B.nodup, by simp, ?_⟩
    intro a ha b hb hab
    subst hab
    have hb : a = n := by simpa using hb
    subst hb
    refine hnm ?_
    rw [← B.attrs.names] at ha
    exact ha

/-- all attributes were written in the tag. -/
def allParsed (as : List AttrD) : Prop := ∀ a ∈ as, ∃ p l v, a = .parsed p l v

/-- every attribute was written in the tag, or is a node marked as default. -/
def tagAttrs (h : Heap) (as : List AttrD) : Prop :=
  ∀ a ∈ as, (∃ p l v, a = .parsed p l v) ∨ ∃ i, a = .dflt i ∧ i < h.size ∧ (h.at' i).isDefault = true

theorem allParsed.tag {h : Heap} {as : List AttrD} (hp : allParsed as) : tagAttrs h as := fun a ha => Or.inl (hp a ha)

theorem tbH_inv {α : Type} {p : HM α} {a : α} {c c' : HC σ} (h : (tbH p : TB σ α) c = .ok a c') :
    ∃ g, p c.heap = .ok a g ∧ c' = { c with heap := g } := by
  unfold tbH at h
  split at h
  · rename_i b g hg
    cases h
    exact ⟨g, hg, rfl⟩
  · cases h
  · cases h
  · cases h

theorem tbAttrs_inv {fuel : Nat} {h : Heap} {e : Nat} {x : Node} (hx : x.kind = .element) : ∀ {ats : List AttrD} {m : List Nat}
    {as : List (Bytes × Bytes)} {c c' : HC σ}, tagAttrs h ats → Built h c.heap e x m as → ats.forM (tbAttr fuel e) c = .ok () c' →
    ∃ m', Built h c'.heap e x m' (as ++ givenAttrs ats) ∧ c' = { c with heap := c'.heap }
  | [], m, as, c, c', _, B, hr => by
    cases hr
    exact ⟨m, by simpa [givenAttrs] using B, rfl⟩
  | y :: ats, m, as, c, c', hp, B, hr => by
    rcases hp y (by simp) with ⟨p, l, v, rfl⟩ | ⟨i, rfl, hi, hdf⟩
    case inr =>
      have hr : ((tbAttr fuel e (.dflt i) : TB σ Unit) >>= fun _ => ats.forM (tbAttr fuel e)) c = .ok () c' := hr
      have hsk : (tbAttr fuel e (.dflt i) : TB σ Unit) c = .ok () c := by
        obtain ⟨f, q, h2⟩ := B.ent i hi
        have : AttrD.isDefault c.heap (.dflt i) = true := by simp only [AttrD.isDefault]; rw [h2]; exact hdf
        unfold tbAttr
        rw [get_bind, if_pos this]
        rfl
      rw [bind_run hsk] at hr
      have := tbAttrs_inv (ats := ats) hx (fun a ha => hp a (by simp [ha])) B hr
      exact this
    have hr : ((tbAttr fuel e (.parsed p l v) : TB σ Unit) >>= fun _ => ats.forM (tbAttr fuel e)) c = .ok () c' := hr
    rw [bind_ok] at hr
    obtain ⟨_, c1, h1, h2⟩ := hr
    have h1 : (tbH (setAttribute fuel e (AttrD.name c.heap (.parsed p l v)) v) : TB σ Unit) c = .ok () c1 := h1
    obtain ⟨g, hg, rfl⟩ := tbH_inv h1
    have B1 := B.attr hx hg
    obtain ⟨m', B2, hc⟩ := tbAttrs_inv hx (fun a ha => hp a (by simp [ha])) B1 h2
    refine ⟨m', ?_, hc⟩
    have : (as ++ [(AttrD.name c.heap (.parsed p l v), v)]) ++ givenAttrs ats = as ++ givenAttrs (.parsed p l v :: ats) := by
      simp only [givenAttrs, AttrD.name, List.append_assoc, List.singleton_append]
      by_cases hpe : p = [] <;> simp [hpe]
    rw [this] at B2
    exact B2

/-- declared namespaces. -/
theorem tbNs_inv {h : Heap} {e : Nat} : ∀ {ns : List (Option (Bytes × Bytes))} {x : Node} {c c' : HC σ}, x.props = none →
    Built h c.heap e x [] [] → ns.forM (fun n => do
      let n ← M.deref n
      tbH (setNamespace e n.1 n.2 false) : Option (Bytes × Bytes) → TB σ Unit) c = .ok () c' →
    Built h c'.heap e { x with nsDefs := x.nsDefs ++ ns.filterMap id } [] [] ∧ c' = { c with heap := c'.heap }
  | [], x, c, c', hx, B, hr => by
    cases hr
    exact ⟨by simpa using B, rfl⟩
  | n :: ns, x, c, c', hx, B, hr => by
    have hr : (((do let n ← M.deref n; tbH (setNamespace e n.1 n.2 false)) : TB σ Unit) >>= fun _ => ns.forM (fun n => do
      let n ← M.deref n
      tbH (setNamespace e n.1 n.2 false) : Option (Bytes × Bytes) → TB σ Unit)) c = .ok () c' := hr
    rw [bind_ok] at hr
    obtain ⟨_, c1, h1, h2⟩ := hr
    rw [bind_ok] at h1
    obtain ⟨q, c2, h3, h4⟩ := h1
    rw [deref_ok] at h3
    obtain ⟨rfl, rfl⟩ := h3
    obtain ⟨g, hg, rfl⟩ := tbH_inv h4
    cases hg
    have hex := B.elem
    have hes := B.es
    have B1 : Built h (c2.heap.upd e (fun x => { x with nsDefs := x.nsDefs ++ [(q.1, q.2)] })) e { x with nsDefs := x.nsDefs ++ [q] } [] [] := by
      refine { es := B.es, lt := B.lt, same := ?_, ent := ?_, tab := B.tab.upd rfl ⟨rfl, rfl⟩, elem := ?_, list := ?_, attrs := trivial, nodup := List.nodup_nil }
      · intro i hi hk
        have : i ≠ e := by omega
        simp only [Heap.upd, Heap.put, this, if_false]
        exact B.same i hi hk
      · intro i hi
        have : i ≠ e := by omega
        simp only [Heap.upd, Heap.put, this, if_false]
        exact B.ent i hi
      · simp [Heap.upd, Heap.put, hex]
      · refine { first := ?_, next := ?_, prev := ?_, kind := ?_, alloc := ?_, nodup := List.nodup_nil }
        · simp [Heap.upd, Heap.put, hex]
        · intro a c b hc; simp at hc
        · intro a c b hc; simp at hc
        · intro c hc; cases hc
        · intro c hc; cases hc
    obtain ⟨B2, hc⟩ := tbNs_inv (ns := ns) (x := { x with nsDefs := x.nsDefs ++ [q] }) hx B1 h2
    refine ⟨?_, hc⟩
    simpa using B2

theorem Built.linked {h g : Heap} {e : Nat} {x : Node} {m : List Nat} {as : List (Bytes × Bytes)} (B : Built h g e x m as) {i : Nat} (hi : i < h.size) :
    Linked (h.at' i) (g.at' i) ∧ info (g.at' i) = info (h.at' i) := by
  obtain ⟨f, l, e⟩ := B.ent i hi
  refine ⟨⟨?_, ?_, ?_, ?_, fun ht => ?_⟩, ?_⟩
  · rw [e]
  · rw [e]
  · rw [e]
  · rw [e]
  · rw [B.same i hi (by intro hk; rw [hk] at ht; cases ht)]
    exact ⟨rfl, rfl⟩
  · rw [e]; rfl

theorem tbStartElement_inv {c c' : HC σ} {dn : Nat} {s : Partial} {ds : List Ev} (I : TInv c dn s ds) {fuel : Nat} {l p u : Bytes}
    {ns : List (Option (Bytes × Bytes))} {ats : List AttrD} (hp : tagAttrs c.heap ats) (hr : tbStartElement fuel l p u ns ats c = .ok () c') :
    TInv c' dn { s with inner := (.elem l p u (ns.filterMap id) (givenAttrs ats), .nil) :: s.inner } ds ∧
      info (c'.heap.at' dn) = info (c.heap.at' dn) := by
  obtain ⟨a, fs, i1, R, T, i5, i6, Z, D, i9⟩ := I
  have hd : (tbDoc : TB σ Nat) c = .ok dn c := by
    unfold tbDoc
    rw [get_bind, i1]
    rfl
  unfold tbStartElement at hr
  rw [bind_run hd, bind_run (tbH_ok (a := c.heap.size) (h := c.heap.alloc (mkElement (some dn) l)) rfl)] at hr
  -- the namespace of the element
  have hB0 : Built c.heap (c.heap.alloc (mkElement (some dn) l)) c.heap.size (mkElement (some dn) l) [] [] := by
    refine { es := rfl, lt := Nat.lt_succ_self _, same := ?_, ent := ?_, tab := T.alloc ⟨rfl, rfl⟩, elem := ?_, list := ?_, attrs := trivial, nodup := List.nodup_nil }
    · intro i hi _; simp [Heap.alloc, Nat.ne_of_lt hi]
    · intro i hi; exact ⟨(c.heap.at' i).first, (c.heap.at' i).last, by simp [Heap.alloc, Nat.ne_of_lt hi]⟩
    · simp [Heap.alloc, mkElement]
    · refine { first := ?_, next := ?_, prev := ?_, kind := ?_, alloc := ?_, nodup := List.nodup_nil }
      · simp [Heap.alloc, mkElement]
      · intro a c b hc; simp at hc
      · intro a c b hc; simp at hc
      · intro c hc; cases hc
      · intro c hc; cases hc
  have hB1 : Built c.heap ((c.heap.alloc (mkElement (some dn) l)).upd c.heap.size (fun x => { x with ns := some (p, u) })) c.heap.size
      { mkElement (some dn) l with ns := some (p, u) } [] [] := by
    refine { es := rfl, lt := Nat.lt_succ_self _, same := ?_, ent := ?_, tab := hB0.tab.upd rfl ⟨rfl, rfl⟩, elem := ?_, list := ?_, attrs := trivial, nodup := List.nodup_nil }
    · intro i hi _; simp [Heap.alloc, Heap.upd, Heap.put, Nat.ne_of_lt hi]
    · intro i hi; exact ⟨(c.heap.at' i).first, (c.heap.at' i).last, by simp [Heap.alloc, Heap.upd, Heap.put, Nat.ne_of_lt hi]⟩
    · simp [Heap.alloc, Heap.upd, Heap.put, mkElement]
    · refine { first := ?_, next := ?_, prev := ?_, kind := ?_, alloc := ?_, nodup := List.nodup_nil }
      · simp [Heap.alloc, Heap.upd, Heap.put, mkElement]
      · intro a c b hc; simp at hc
      · intro a c b hc; simp at hc
      · intro c hc; cases hc
      · intro c hc; cases hc
  have key : ∃ (c1 : HC σ), Built c.heap c1.heap c.heap.size { mkElement (some dn) l with ns := if u = [] then none else some (p, u) } [] [] ∧
      c1 = { c with heap := c1.heap } ∧ (do
        ns.forM (fun n => do
          let n ← M.deref n
          tbH (setNamespace c.heap.size n.1 n.2 false))
        ats.forM (tbAttr fuel c.heap.size)
        tbAttach dn c.heap.size
        M.modify (fun c0 => { c0 with elem := some c.heap.size }) : TB σ Unit) c1 = .ok () c' := by
    by_cases hu : u = []
    · simp only [hu, ne_eq, not_true_eq_false, if_false] at hr
      exact ⟨_, by rw [if_pos hu]; exact hB0, rfl, hr⟩
    · simp only [ne_eq, hu, not_false_eq_true, if_true] at hr
      rw [bind_run (tbH_ok (a := ()) (h := (c.heap.alloc (mkElement (some dn) l)).upd c.heap.size (fun x => { x with ns := some (p, u) })) rfl)] at hr
      exact ⟨_, by rw [if_neg hu]; exact hB1, rfl, hr⟩
  obtain ⟨c1, B1, hc1, hr⟩ := key
  rw [bind_ok] at hr
  obtain ⟨_, c2, r2, hr⟩ := hr
  obtain ⟨B2, hc2⟩ := tbNs_inv (by split <;> rfl) B1 r2
  rw [bind_ok] at hr
  obtain ⟨_, c3, r3, hr⟩ := hr
  obtain ⟨m, B3, hc3⟩ := tbAttrs_inv (by rfl) hp B2 r3
  simp only [List.nil_append] at B3
  have hc : c3 = { c with heap := c3.heap } := by rw [hc3, hc2, hc1]
  have he := B3.elem
  have hlt : ∀ {n}, a.tree n = true → n < c.heap.size := fun hn => by rw [R.size]; exact R.bound _ hn
  obtain ⟨h2, a2, q1, A, f⟩ := attach R Z B3.tab (Nat.le_of_lt B3.lt) (fun n hn => (B3.linked (hlt hn)).1)
    (fun n hn => vinfo_of_info (B3.linked (hlt hn)).2) (fun i hi _ hk => B3.same i hi hk) (Nat.le_refl _) B3.lt
    (by rw [he]; exact ⟨rfl, rfl, rfl, rfl⟩) (by rw [he]; simp [mkElement])
  have hel : c3.elem = fs.head?.map (·.1) := by rw [hc]; exact i6
  rw [bind_run (tbAttach_run hel q1)] at hr
  cases hr
  have hI : ∀ n, a.tree n = true → info (h2.at' n) = info (c.heap.at' n) := fun n hn => (A.info n (A.keeps hn)).trans (B3.linked (hlt hn)).2
  have hnt := R.out_of_size (Nat.le_refl _)
  have hxt : a2.tree c.heap.size = true := by rw [A.tree]; simp
  obtain ⟨c1', c2', c3'⟩ := Z.cur
  have hpe : curNode dn fs ≠ c.heap.size := by intro e; rw [e, hnt] at c1'; cases c1'
  have hxk : a2.kids c.heap.size = [] := by rw [A.kids, if_neg (Ne.symm hpe)]; exact R.kids_out hnt
  obtain ⟨n1, n2, n3, n4, n5, n6, n7, n8⟩ := info_eq (A.info _ hxt)
  rw [he] at n1 n2 n3 n4 n5
  have hmv : ∀ x, c.heap.size < x → Outside a2 x ∧ h2.at' x = c3.heap.at' x := fun x hx => by
    have h0 := R.out_of_size (Nat.le_of_lt hx)
    exact ⟨by unfold Outside; rw [A.tree, if_neg (Nat.ne_of_gt hx)]; exact h0, A.out x h0 (Nat.ne_of_gt hx)⟩
  have hsz2 : h2.size = c3.heap.size := A.size
  have hH : HoldsData (Outside a2) h2 c.heap.size (.elem l p u (ns.filterMap id) (givenAttrs ats)) := by
    refine ⟨n1, n2, n3, ?_, B3.nodup, m, ?_, HoldsAttrs.move (by rw [hsz2]; exact Nat.le_refl _) hmv B3.attrs⟩
    · rw [n4]; simp [mkElement]
    · refine B3.list.congr (by rw [hsz2]; exact Nat.le_refl _) (by rw [n5, he]) ?_
      intro x hx
      rw [(hmv x (B3.attrs.all x hx)).2]
      exact ⟨rfl, rfl, rfl⟩
  have hcd : c3.doc = some dn := by rw [hc]; exact i1
  refine ⟨⟨a2, (c.heap.size, .elem l p u (ns.filterMap id) (givenAttrs ats), .nil) :: fs, hcd, A.rel, A.tab, by simp [i5], rfl, ?_, ?_, ?_⟩, hI dn Z.doc⟩
  · refine Z.push f (A.keeps c1') (vinfo_of_info (hI _ c1')) (by rw [A.kids, if_pos rfl]) (by rw [R.size]; exact Nat.le_refl _)
      (by rw [← A.rel.size, hsz2]; exact B3.lt) (hlt c1') hxt n1 hxk hH
  · exact A.dtd R D (fun n hn => winfo_of_info (B3.linked (hlt hn)).2) Z.doc (by rcases c2' with h | h <;> rw [h] <;> simp)
  · exact (info_subsets (hI dn Z.doc)).2.trans i9

/-! ### the document type declaration -/

theorem newNode_run (x : Node) (h : Heap) : newNode x h = .ok h.size (h.alloc x) := rfl

theorem Zip.frame {a a' : Forest} {h h' : Heap} {dn : Nat} {top : XTree} {fs : List (Nat × XData × XTree)} (Z : Zip a h dn top fs)
    (f : Fr a h a' h' (fun _ => True)) (hs : a.size ≤ a'.size) : Zip a' h' dn top fs := by
  cases fs with
  | nil =>
    obtain ⟨z1, z2, z3⟩ := Z
    obtain ⟨f1, f2, f3⟩ := f.node dn trivial z1
    exact ⟨f1, (vinfo_eq f3).1.trans z2, by rw [f2 (by rw [z2]; simp)]; exact (z3.mono hs).frame f (fun _ _ _ => trivial)⟩
  | cons x fs =>
    obtain ⟨e, d, t⟩ := x
    obtain ⟨z1, z2, z3, z4, z5⟩ := Z
    obtain ⟨f1, f2, f3⟩ := f.node e trivial z1
    exact ⟨f1, (vinfo_eq f3).1.trans z2, z3.frame f f3, by rw [f2 (by rw [z2]; simp)]; exact (z4.mono hs).frame f (fun _ _ _ => trivial),
      z5.frame (f.mono (fun _ _ => trivial))⟩

/-- nothing but the literals and children of entities and the standalone flag of document `dn` changed. -/
structure Soft (dn : Nat) (h h' : Heap) : Prop where
  size : h.size ≤ h'.size
  tab : TabOK h → TabOK h'
  link : ∀ i, i < h.size → Linked (h.at' i) (h'.at' i)
  data : ∀ i, i < h.size → winfo (h'.at' i) = winfo (h.at' i)
  same : ∀ i, i < h.size → (h.at' i).kind ≠ .entity → i ≠ dn → h'.at' i = h.at' i

theorem Soft.refl (dn : Nat) (h : Heap) : Soft dn h h := ⟨Nat.le_refl _, id, fun _ _ => Linked.of_eq rfl, fun _ _ => rfl, fun _ _ _ _ => rfl⟩

theorem TInv.soft {c : HC σ} {dn : Nat} {s : Partial} {ds : List Ev} (I : TInv c dn s ds) {h' : Heap} (S : Soft dn c.heap h') :
    TInv { c with heap := h' } dn s ds := by
  obtain ⟨a, fs, i1, R, T, i5, i6, Z, D, i9⟩ := I
  have hlt : ∀ {n}, a.tree n = true → n < c.heap.size := fun hn => by rw [R.size]; exact R.bound _ hn
  have hdn := winfo_eq (S.data dn (hlt Z.doc))
  refine ⟨a.renew h', fs, i1, R.renew S.size (fun n hn => S.link n (hlt hn)), S.tab T, i5, i6, Z.frame ?_ ?_, ?_, hdn.2.2.2.2.2.1.trans i9⟩
  · refine ⟨S.size, fun x hx ht hk => ⟨ht, S.same x hx hk ?_⟩, fun i _ hi => ⟨hi, fun _ => rfl, vinfo_of_winfo (S.data i (hlt hi))⟩⟩
    rintro rfl
    rw [Z.doc] at ht
    cases ht
  · rw [← R.size]; exact S.size
  · exact D.keep R hdn.2.2.2.2.1 (fun _ => id) (fun n hn _ => S.data n (hlt hn)) (fun _ _ _ => rfl) (fun _ => id)

/-- the document type declaration itself. -/
theorem tbInternalSubset_inv {c : HC σ} {dn : Nat} {s : Partial} {ds : List Ev} (I : TInv c dn s ds) (hs : s.inner = []) (n e u : Bytes) :
    ∃ c', tbInternalSubset n e u c = .ok () c' ∧ TInv c' dn (s.add (.dtd n e u) .nil) [] ∧ (c'.heap.at' dn).intSubset = some c.heap.size := by
  obtain ⟨a, fs, i1, R, T, i5, i6, Z, D, i9⟩ := I
  have hfs : fs = [] := by rw [hs] at i5; simpa using i5
  subst hfs
  have hd : (tbDoc : TB σ Nat) c = .ok dn c := by
    unfold tbDoc
    rw [get_bind, i1]
    rfl
  obtain ⟨h1, hh1⟩ : ∃ h1, h1 = (((c.heap.upd dn (fun x => { x with intSubset := none })).alloc
      { kind := .dtd, doc := some dn, name := n, externalID := e, systemID := u }).upd dn (fun x => { x with intSubset := some c.heap.size })).upd
      c.heap.size (fun x => { x with parent := some dn }) := ⟨_, rfl⟩
  have hlt : ∀ {n}, a.tree n = true → n < c.heap.size := fun hn => by rw [R.size]; exact R.bound _ hn
  have hdl := hlt Z.doc
  have hsz : h1.size = c.heap.size + 1 := by rw [hh1]; rfl
  have hold : ∀ i, i < c.heap.size → i ≠ dn → h1.at' i = c.heap.at' i := fun i hi hid => by
    rw [hh1]; simp [Heap.upd, Heap.put, Heap.alloc, Nat.ne_of_lt hi, hid]
  have hdn : h1.at' dn = { c.heap.at' dn with intSubset := some c.heap.size } := by
    rw [hh1]; simp [Heap.upd, Heap.put, Heap.alloc, Nat.ne_of_lt hdl]
  have hnew : h1.at' c.heap.size = { kind := .dtd, doc := some dn, name := n, externalID := e, systemID := u, parent := some dn } := by
    rw [hh1]; simp [Heap.upd, Heap.put, Heap.alloc, Ne.symm (Nat.ne_of_lt hdl)]
  have T1 : TabOK h1 := by
    rw [hh1]
    refine TabOK.upd (TabOK.upd (TabOK.alloc (TabOK.upd T ?_ ?_) ⟨rfl, rfl⟩) ?_ ?_) ?_ ?_ <;> first | rfl | exact ⟨rfl, rfl⟩
  have hl : ∀ i, a.tree i = true → Linked (c.heap.at' i) (h1.at' i) ∧ vinfo (h1.at' i) = vinfo (c.heap.at' i) := by
    intro i hi
    by_cases hid : i = dn
    · subst hid
      rw [hdn]
      exact ⟨⟨rfl, rfl, rfl, rfl, fun _ => ⟨rfl, rfl⟩⟩, rfl⟩
    · rw [hold i (hlt hi) hid]
      exact ⟨Linked.of_eq rfl, rfl⟩
  have hdnt : ∀ i, a.tree i = false → i ≠ dn := by rintro i hi rfl; rw [Z.doc] at hi; cases hi
  obtain ⟨h2, a2, r1, A, f⟩ := attach R Z T1 (by omega) (fun i hi => (hl i hi).1) (fun i hi => (hl i hi).2)
    (fun i hi ht _ => hold i hi (hdnt i ht)) (Nat.le_refl _) (by omega) (by rw [hnew]; exact ⟨rfl, rfl, rfl, rfl⟩) (by rw [hnew]; simp)
  simp only [curNode] at r1 A f
  obtain ⟨c1, c2, c3⟩ := Z.cur
  have hnt := R.out_of_size (Nat.le_refl _)
  have hpe : dn ≠ c.heap.size := Nat.ne_of_lt hdl
  have hxt : a2.tree c.heap.size = true := by rw [A.tree]; simp
  have hxi := A.info _ hxt
  rw [hnew] at hxi
  have hdi := A.info dn (A.keeps Z.doc)
  rw [hdn] at hdi
  have hxk : a2.kids c.heap.size = [] := by rw [A.kids, if_neg (Ne.symm hpe)]; exact R.kids_out hnt
  have hs2 : a2.size = c.heap.size + 1 := by rw [← A.rel.size, A.size, hsz]
  refine ⟨{ c with heap := h2 }, ?_, ?_, (info_subsets hdi).1⟩
  · have hcis : createInternalSubset dn n e u (c.heap.upd dn (fun x => { x with intSubset := none })) = .ok c.heap.size h2 := by
      unfold createInternalSubset
      have : (node dn : HM Node) (c.heap.upd dn (fun x => { x with intSubset := none })) = .ok { c.heap.at' dn with intSubset := none } (c.heap.upd dn (fun x => { x with intSubset := none })) := by
        simp [node, Heap.upd, Heap.put]
      rw [bind_run this, if_neg (by simp)]
      rw [bind_run (newNode_run _ _), bind_run updNode_run, bind_run updNode_run, bind_run (attempt_run (a := ()) (t := h2) (by rw [hh1] at r1; exact r1))]
      rfl
    unfold tbInternalSubset
    rw [bind_run hd, bind_run (tbH_ok (a := ()) (h := c.heap.upd dn (fun x => { x with intSubset := none })) rfl), bind_run (tbH_ok hcis)]
    rfl
  obtain ⟨e1, e2, e3⟩ := add_setCur i5 (.dtd n e u) .nil
  have hz2 : Zone a2 h2 (dn + 1) a2.size (a2.kids dn) (s.top.snoc (.dtd n e u) .nil) := by
    rw [A.kids, if_pos rfl]
    have h0 := vinfo_ids (vinfo_of_info hxi)
    have hH : HoldsData (Outside a2) h2 c.heap.size (.dtd n e u) := ⟨(info_eq hxi).1, (info_eq hxi).2.1, h0.1, h0.2⟩
    refine Zone.snoc hxt hH (by simp [XData.shut]) (by omega) (c3.frame f (fun i hi _ => by omega)) ?_
    rw [R.size]
    exact Nat.le_refl _
  have hZ := Z.setCur (f.mono (fun i hi => Nat.ne_of_lt hi)) (A.keeps c1) ((vinfo_of_info (A.info _ (A.keeps c1))).trans (hl _ c1).2) hz2
  refine ⟨a2, _, i1, A.rel, A.tab, e1, i6.trans e3.symm, by rw [← e2]; exact hZ, ?_, (info_subsets hdi).2.trans i9⟩
  unfold DtdPart
  rw [(info_subsets hdi).1]
  obtain ⟨w1, w2, w3, w4, _⟩ := winfo_eq (winfo_of_info hxi)
  refine ⟨by rw [A.kids, if_pos rfl]; simp, w1, w2, by rw [hxk]; trivial, ?_⟩
  intro x hx
  rw [w3] at hx
  cases hx

/-- one declaration: `t` is the document type declaration, `h1` the heap with the new node `e` and new tables of `t`. -/
theorem decl_step {c : HC σ} {dn : Nat} {s : Partial} {ds : List Ev} (I : TInv c dn s ds) {t : Nat} (ht : (c.heap.at' dn).intSubset = some t)
    {h1 : Heap} {ev : Ev} (hsz : h1.size = c.heap.size + 1) (T1 : TabOK h1) (hold : ∀ i, i < c.heap.size → i ≠ t → h1.at' i = c.heap.at' i)
    (hl : Linked (c.heap.at' t) (h1.at' t)) (hv : vinfo (h1.at' t) = vinfo (c.heap.at' t)) (hdd : (h1.at' t).doc = (c.heap.at' t).doc)
    (hx : (h1.at' c.heap.size).first = none ∧ (h1.at' c.heap.size).last = none ∧ (h1.at' c.heap.size).next = none ∧ (h1.at' c.heap.size).prev = none)
    (he : HoldsDecl h1 c.heap.size ev)
    (htab : ∀ x ∈ (h1.at' t).elements, x ∈ (c.heap.at' t).elements ∨ (x.2 = c.heap.size ∧ (h1.at' c.heap.size).kind = .elemDecl ∧ (h1.at' c.heap.size).declType ≠ 0)) :
    ∃ h2, nodeAddChild t c.heap.size h1 = .ok () h2 ∧ TInv { c with heap := h2 } dn s (ds ++ [ev]) ∧ (h2.at' dn).intSubset = (c.heap.at' dn).intSubset := by
  obtain ⟨a, fs, i1, R, T, i5, i6, Z, D, i9⟩ := I
  unfold DtdPart at D
  rw [ht] at D
  obtain ⟨d1, d2, d3, d4, d5⟩ := D
  have hlt : ∀ {n}, a.tree n = true → n < c.heap.size := fun hn => by rw [R.size]; exact R.bound _ hn
  have htt := (R.kid dn t d1).1
  have hdl := hlt Z.doc
  have hdt : dn ≠ t := by rintro rfl; rw [Z.docKind] at d2; cases d2
  have hL : ∀ i, a.tree i = true → Linked (c.heap.at' i) (h1.at' i) ∧ vinfo (h1.at' i) = vinfo (c.heap.at' i) := by
    intro i hi
    by_cases hid : i = t
    · subst hid; exact ⟨hl, hv⟩
    · rw [hold i (hlt hi) hid]; exact ⟨Linked.of_eq rfl, rfl⟩
  have htnt : ∀ i, a.tree i = false → i ≠ t := by rintro i hi rfl; rw [htt] at hi; cases hi
  have hek := he.kind
  obtain ⟨h2, a2, r1, A⟩ := attach_at (e := c.heap.size) R T1 (by omega) (fun i hi => (hL i hi).1) htt (Or.inr (Or.inr d2)) (fun l hgl => by
    rcases d4.kinds l (List.mem_of_getLast? hgl) with h | h | h <;> rw [h] <;> simp) (Nat.le_refl _) (by omega) hx
    (by rcases hek with h | h | h <;> rw [h] <;> simp)
  have f := A.fr (h := c.heap) (S := fun _ => True) (by omega) (fun i hi => (hL i hi).2) (fun i hi h0 _ => hold i hi (htnt i h0)) (Nat.le_refl _) (fun _ _ => Or.inr d2)
  have hxt : a2.tree c.heap.size = true := by rw [A.tree]; simp
  have hdi := A.info dn (A.keeps Z.doc)
  rw [hold dn hdl hdt] at hdi
  refine ⟨h2, r1, ⟨a2, fs, i1, A.rel, A.tab, i5, i6, Z.frame f (by rw [← R.size, ← A.rel.size, A.size]; omega), ?_, (info_subsets hdi).2.trans i9⟩, (info_subsets hdi).1⟩
  unfold DtdPart
  rw [(info_subsets hdi).1, ht]
  obtain ⟨w1, w2, w3, w4, _⟩ := winfo_eq (winfo_of_info (A.info t (A.keeps htt)))
  have hde : dn ≠ c.heap.size := Nat.ne_of_lt hdl
  refine ⟨by rw [A.kids, if_neg hdt]; exact d1, w1.trans (hl.kind.trans d2), w2.trans (hdd.trans d3), ?_, ?_⟩
  · rw [A.kids, if_pos rfl]
    refine HoldsDecls.snoc (he.congr (vinfo_of_info (A.info _ hxt))) (d4.congr (fun i hi _ => ?_))
    have hit := (R.kid t i hi).1
    exact (vinfo_of_info (A.info i (A.keeps hit))).trans (hL i hit).2
  · intro x hx
    rw [w3] at hx
    rcases htab x hx with h0 | ⟨h0, h0', h0''⟩
    · obtain ⟨x1, x2, x3⟩ := d5 x h0
      have hxt' : x.2 ≠ t := by intro e; rw [e, d2] at x2; cases x2
      obtain ⟨v1, v2, v3, v4, _⟩ := winfo_eq (winfo_of_info (A.info x.2 (A.keeps x1)))
      rw [hold x.2 (hlt x1) hxt'] at v1 v4
      exact ⟨A.keeps x1, v1.trans x2, by rw [v4]; exact x3⟩
    · rw [h0]
      obtain ⟨v1, v2, v3, v4, _⟩ := winfo_eq (winfo_of_info (A.info _ hxt))
      exact ⟨hxt, v1.trans h0', by rw [v4]; exact h0''⟩

/-- the heap of one declaration. -/
theorem decl_heap {c : HC σ} {dn : Nat} {s : Partial} {ds : List Ev} (I : TInv c dn s ds) {t : Nat} (ht : (c.heap.at' dn).intSubset = some t)
    {N : Node} {f : Node → Node} {ev : Ev} (hN : N.first = none ∧ N.last = none ∧ N.next = none ∧ N.prev = none) (hNt : N.entities = [] ∧ N.pentities = [])
    (hf : ∀ x, Linked x (f x) ∧ vinfo (f x) = vinfo x ∧ (f x).doc = x.doc)
    (hft : ∀ x : Node, (∀ y, (y ∈ (f x).entities ∨ y ∈ (f x).pentities) → (y ∈ x.entities ∨ y ∈ x.pentities) ∨ (y.2 = c.heap.size ∧ N.kind = .entity)) ∧
      ∀ y ∈ (f x).elements, y ∈ x.elements ∨ (y.2 = c.heap.size ∧ N.kind = .elemDecl ∧ N.declType ≠ 0))
    (he : ∀ (h : Heap) i, h.at' i = N → HoldsDecl h i ev) :
    ∃ h2, nodeAddChild t c.heap.size ((c.heap.alloc N).upd t f) = .ok () h2 ∧ TInv { c with heap := h2 } dn s (ds ++ [ev]) ∧ (h2.at' dn).intSubset = (c.heap.at' dn).intSubset := by
  obtain ⟨a, fs, i1, R, T, i5, i6, Z, D, i9⟩ := I
  have htt : t < c.heap.size := by
    unfold DtdPart at D
    rw [ht] at D
    rw [R.size]
    exact R.bound _ (R.kid dn t D.1).1
  have I : TInv c dn s ds := ⟨a, fs, i1, R, T, i5, i6, Z, D, i9⟩
  have htx : ((c.heap.alloc N).upd t f).at' t = f (c.heap.at' t) := by simp [Heap.upd, Heap.put, Heap.alloc, Nat.ne_of_lt htt]
  have hnx : ((c.heap.alloc N).upd t f).at' c.heap.size = N := by simp [Heap.upd, Heap.put, Heap.alloc, Ne.symm (Nat.ne_of_lt htt)]
  have hold : ∀ i, i ≠ c.heap.size → i ≠ t → ((c.heap.alloc N).upd t f).at' i = c.heap.at' i := fun i hi hit => by
    simp [Heap.upd, Heap.put, Heap.alloc, hi, hit]
  refine decl_step I ht rfl ?_ (fun i hi hit => hold i (Nat.ne_of_lt hi) hit) (by rw [htx]; exact (hf _).1) (by rw [htx]; exact (hf _).2.1) (by rw [htx]; exact (hf _).2.2)
    (by rw [hnx]; exact hN) (he _ _ hnx) (fun x hx => ?_)
  · intro i x hx
    show x.2 < c.heap.size + 1 ∧ _
    have hkind : ∀ j, j < c.heap.size → (((c.heap.alloc N).upd t f).at' j).kind = (c.heap.at' j).kind := fun j hj => by
      by_cases hjt : j = t
      · subst hjt; rw [htx]; exact (hf _).1.kind
      · rw [hold j (Nat.ne_of_lt hj) hjt]
    have hin : ∀ i, (x ∈ (c.heap.at' i).entities ∨ x ∈ (c.heap.at' i).pentities) → x.2 < c.heap.size + 1 ∧ (((c.heap.alloc N).upd t f).at' x.2).kind = .entity := fun i hx => by
      obtain ⟨h1, h2⟩ := T i x hx
      exact ⟨by omega, by rw [hkind _ h1]; exact h2⟩
    by_cases hit : i = t
    · subst hit
      rw [htx] at hx
      rcases (hft _).1 x hx with h | ⟨h, h'⟩
      · exact hin _ h
      · rw [h]; exact ⟨by omega, by rw [hnx]; exact h'⟩
    · by_cases his : i = c.heap.size
      · subst his
        rw [hnx, hNt.1, hNt.2] at hx
        rcases hx with hx | hx <;> cases hx
      · rw [hold i his hit] at hx
        exact hin _ hx
  · rw [htx] at hx
    rw [hnx]
    exact (hft _).2 x hx

theorem tbSubset_inv {c c' : HC σ} {dn : Nat} {v : HV} {r : Option Nat} (he : (c.heap.at' dn).extSubset = none) (h : (tbSubset v dn : TB σ _) c = .ok r c') :
    c' = c ∧ (r = none ∨ r = (c.heap.at' dn).intSubset) := by
  unfold tbSubset at h
  rw [get_bind] at h
  split at h
  · cases h; exact ⟨rfl, Or.inr rfl⟩
  · split at h
    · cases h; exact ⟨rfl, Or.inl he⟩
    · cases h

theorem tbEntityDecl_inv {c c' : HC σ} {dn : Nat} {s : Partial} {ds : List Ev} (I : TInv c dn s ds) {v : HV} {n : Bytes} {ty : Nat} {p u b : Bytes}
    (hr : tbEntityDecl v n ty p u b c = .ok () c') : TInv c' dn s (ds ++ [.entityDecl n ty p u b]) ∧
      (c'.heap.at' dn).intSubset = (c.heap.at' dn).intSubset := by
  have hI := I
  obtain ⟨a, fs, i1, R, T, i5, i6, Z, D, i9⟩ := I
  have hd : (tbDoc : TB σ Nat) c = .ok dn c := by
    unfold tbDoc
    rw [get_bind, i1]
    rfl
  unfold tbEntityDecl at hr
  rw [bind_run hd, bind_ok] at hr
  obtain ⟨o, c0, r0, hr⟩ := hr
  obtain ⟨rfl, ho⟩ := tbSubset_inv i9 r0
  cases o with
  | none => simp only at hr; split at hr <;> cases hr
  | some t =>
    have ht : (c0.heap.at' dn).intSubset = some t := by
      rcases ho with h | h
      · cases h
      · exact h.symm
    simp only at hr
    rw [bind_ok] at hr
    obtain ⟨i, c1, r1, hr⟩ := hr
    cases hr
    obtain ⟨g, hg, rfl⟩ := tbH_inv r1
    unfold dtdAddEntity at hg
    split at hg
    · cases hg
    · split at hg
      · rw [node_bind, bind_run (newNode_run _ _)] at hg
        split at hg
        · rw [updNode_bind] at hg
          obtain ⟨h2, q1, I2⟩ := decl_heap hI ht (N := { mkEntity n ty p u b [] with doc := (c0.heap.at' t).doc })
            (f := fun x => { x with pentities := mapSet x.pentities n c0.heap.size }) (ev := .entityDecl n ty p u b) ⟨rfl, rfl, rfl, rfl⟩ ⟨rfl, rfl⟩
            (fun x => ⟨⟨rfl, rfl, rfl, rfl, fun _ => ⟨rfl, rfl⟩⟩, rfl, rfl⟩)
            (fun x => ⟨fun y hy => by
              rcases hy with h | h
              · exact Or.inl (Or.inl h)
              · rcases mem_mapSetT h with h | h
                · exact Or.inr ⟨h, rfl⟩
                · exact Or.inl (Or.inr h), fun y hy => Or.inl hy⟩)
            (fun h i hi => by simp [HoldsDecl, hi, mkEntity])
          simp only at hg
          rw [bind_run (attempt_run q1)] at hg
          cases hg
          exact I2
        · rw [updNode_bind] at hg
          obtain ⟨h2, q1, I2⟩ := decl_heap hI ht (N := { mkEntity n ty p u b [] with doc := (c0.heap.at' t).doc })
            (f := fun x => { x with entities := mapSet x.entities n c0.heap.size }) (ev := .entityDecl n ty p u b) ⟨rfl, rfl, rfl, rfl⟩ ⟨rfl, rfl⟩
            (fun x => ⟨⟨rfl, rfl, rfl, rfl, fun _ => ⟨rfl, rfl⟩⟩, rfl, rfl⟩)
            (fun x => ⟨fun y hy => by
              rcases hy with h | h
              · rcases mem_mapSetT h with h | h
                · exact Or.inr ⟨h, rfl⟩
                · exact Or.inl (Or.inl h)
              · exact Or.inl (Or.inr h), fun y hy => Or.inl hy⟩)
            (fun h i hi => by simp [HoldsDecl, hi, mkEntity])
          simp only at hg
          rw [bind_run (attempt_run q1)] at hg
          cases hg
          exact I2
      · cases hg

theorem tbAttributeDecl_inv {c c' : HC σ} {dn : Nat} {s : Partial} {ds : List Ev} (I : TInv c dn s ds) {v : HV} {e n : Bytes} {ty df : Nat} {b : Bytes}
    {en : List Bytes} (hr : tbAttributeDecl v e n ty df b en c = .ok () c') : TInv c' dn s (ds ++ [.attributeDecl e n ty df b en]) ∧
      (c'.heap.at' dn).intSubset = (c.heap.at' dn).intSubset := by
  have hI := I
  obtain ⟨a, fs, i1, R, T, i5, i6, Z, D, i9⟩ := I
  have hd : (tbDoc : TB σ Nat) c = .ok dn c := by
    unfold tbDoc
    rw [get_bind, i1]
    rfl
  unfold tbAttributeDecl at hr
  split at hr
  · cases hr
  rw [bind_run hd, bind_ok] at hr
  obtain ⟨o, c0, r0, hr⟩ := hr
  obtain ⟨rfl, ho⟩ := tbSubset_inv i9 r0
  rw [bind_ok] at hr
  obtain ⟨i, c1, r1, hr⟩ := hr
  cases hr
  obtain ⟨g, hg, rfl⟩ := tbH_inv r1
  cases o with
  | none => cases hg
  | some t =>
    have ht : (c0.heap.at' dn).intSubset = some t := by
      rcases ho with h | h
      · cases h
      · exact h.symm
    have hD : (c0.heap.at' t).doc = some dn := by
      unfold DtdPart at D
      rw [ht] at D
      exact D.2.2.1
    have htl : t < c0.heap.size := by
      unfold DtdPart at D
      rw [ht] at D
      rw [R.size]
      exact R.bound _ (R.kid dn t D.1).1
    unfold addAttributeDecl at hg
    simp only at hg
    split at hg
    · cases hg
    rw [get_bind] at hg
    simp only [hD, i9, reduceCtorEq, if_false, Bool.false_eq_true] at hg
    rw [bind_run (newNode_run _ _), bind_ok] at hg
    obtain ⟨_, g1, q0, hg⟩ := hg
    unfold dtdRegisterAttribute at q0
    rw [get_bind] at q0
    simp only [alloc_new, alloc_lt htl] at q0
    cases hm : mapGet (c0.heap.at' t).attributes (attrKey (splitColon n).2 (splitColon n).1 e) with
    | some _ => rw [hm] at q0; cases q0
    | none =>
    rw [hm] at q0
    cases q0
    obtain ⟨h2, q1, I2⟩ := decl_heap hI ht (N := { kind := .attrDecl, atype := ty, doc := some dn, name := (splitColon n).2, pfx := (splitColon n).1, elem := e, defType := df, tree := en, defValue := b })
      (f := fun x => { x with attributes := mapSet x.attributes (attrKey (splitColon n).2 (splitColon n).1 e) c0.heap.size }) (ev := .attributeDecl e n ty df b en) ⟨rfl, rfl, rfl, rfl⟩ ⟨rfl, rfl⟩
      (fun x => ⟨⟨rfl, rfl, rfl, rfl, fun _ => ⟨rfl, rfl⟩⟩, rfl, rfl⟩)
      (fun x => ⟨fun y hy => Or.inl hy, fun y hy => Or.inl hy⟩)
      (fun h i hi => by simp [HoldsDecl, hi])
    rw [bind_run (attempt_run q1)] at hg
    cases hg
    exact I2

theorem tbElementDecl_inv {c c' : HC σ} {dn : Nat} {s : Partial} {ds : List Ev} (I : TInv c dn s ds) {v : HV} {n : Bytes} {ty : Nat} {ec : EC}
    (hr : tbElementDecl v n ty ec c = .ok () c') : TInv c' dn s (ds ++ [.elementDecl n ty ec]) ∧
      (c'.heap.at' dn).intSubset = (c.heap.at' dn).intSubset := by
  have hI := I
  obtain ⟨a, fs, i1, R, T, i5, i6, Z, D, i9⟩ := I
  have hd : (tbDoc : TB σ Nat) c = .ok dn c := by
    unfold tbDoc
    rw [get_bind, i1]
    rfl
  unfold tbElementDecl at hr
  rw [bind_run hd, bind_ok] at hr
  obtain ⟨o, c0, r0, hr⟩ := hr
  obtain ⟨rfl, ho⟩ := tbSubset_inv i9 r0
  cases o with
  | none =>
    simp only at hr
    split at hr
    · cases hr
    split at hr
    · cases hr
    split at hr <;> cases hr
  | some t =>
    have ht : (c0.heap.at' dn).intSubset = some t := by
      rcases ho with h | h
      · cases h
      · exact h.symm
    have D' := D
    unfold DtdPart at D'
    rw [ht] at D'
    obtain ⟨d1, d2, d3, d4, d5⟩ := D'
    have htl : t < c0.heap.size := by
      rw [R.size]
      exact R.bound _ (R.kid dn t d1).1
    simp only at hr
    rw [bind_ok] at hr
    obtain ⟨i, c1, r1, hr⟩ := hr
    cases hr
    obtain ⟨g, hg, rfl⟩ := tbH_inv r1
    have hcon : Consistent ty ec := by
      unfold dtdAddElementDecl at hg
      unfold Consistent
      by_cases h1 : ty = 1 ∨ ty = 2
      · by_cases h2 : ec = .nil
        · exact Or.inl ⟨h1, h2⟩
        · simp only [if_pos h1, ne_eq, h2, not_false_eq_true, if_true] at hg
          cases hg
      · by_cases h3 : ty = 3 ∨ ty = 4
        · by_cases h2 : ec = .nil
          · simp only [if_neg h1, if_pos h3, if_pos h2] at hg
            cases hg
          · exact Or.inr ⟨h3, h2⟩
        · simp only [if_neg h1, if_neg h3] at hg
          cases hg
    have hty0 : ty ≠ 0 := by rcases hcon with ⟨h, _⟩ | ⟨h, _⟩ <;> omega
    have hck : dtdAddElementDecl t n ty ec c0.heap = (do
        let o ← (match mapGet (c0.heap.at' t).elements (elemKey (splitColon n).2 (splitColon n).1) with
          | none => pure none
          | some dc =>
            if (c0.heap.at' dc).declType = 0 then do
              let old := (c0.heap.at' dc).declAttrs
              updNode dc (fun x => { x with declAttrs := none })
              updNode t (fun x => { x with elements := mapDel x.elements (elemKey (splitColon n).2 (splitColon n).1) })
              pure old
            else pure none : HM (Option Nat))
        addElemRest t n ty ec o) c0.heap := by
      unfold dtdAddElementDecl
      rcases hcon with ⟨h1, h2⟩ | ⟨h1, h2⟩
      · simp only [if_pos h1, h2, ne_eq, not_true_eq_false, if_false, get_bind, d3, ht]; rfl
      · have : ¬ (ty = 1 ∨ ty = 2) := by omega
        simp only [if_neg this, if_pos h1, if_neg h2, get_bind, d3, ht]; rfl
    rw [hck] at hg
    cases hm : mapGet (c0.heap.at' t).elements (elemKey (splitColon n).2 (splitColon n).1) with
    | some dc =>
      obtain ⟨x, hx, rfl⟩ := mapGet_in hm
      have h0 := (d5 x hx).2.2
      simp only [hm, if_neg h0] at hg
      have hg : addElemRest t n ty ec none c0.heap = .ok i g := hg
      unfold addElemRest at hg
      simp only [get_bind, hm, if_pos h0] at hg
      cases hg
    | none =>
      simp only [hm] at hg
      have hg : addElemRest t n ty ec none c0.heap = .ok i g := hg
      obtain ⟨h2, q1, I2⟩ := decl_heap hI ht
        (N := { kind := .elemDecl, name := (splitColon n).2, pfx := (splitColon n).1, declAttrs := none, declType := ty, ec := copyEC ec, doc := (c0.heap.at' t).doc })
        (f := fun x => { x with elements := mapSet x.elements (elemKey (splitColon n).2 (splitColon n).1) c0.heap.size }) (ev := .elementDecl n ty ec) ⟨rfl, rfl, rfl, rfl⟩ ⟨rfl, rfl⟩
        (fun x => ⟨⟨rfl, rfl, rfl, rfl, fun _ => ⟨rfl, rfl⟩⟩, rfl, rfl⟩)
        (fun x => ⟨fun y hy => Or.inl hy, fun y hy => by
          rcases mem_mapSetT hy with h | h
          · exact Or.inr ⟨h, rfl, hty0⟩
          · exact Or.inl h⟩)
        (fun h i hi => by simp [HoldsDecl, hi, (copyEC_eq ec).1])
      have hrr : addElemRest t n ty ec none c0.heap = .ok c0.heap.size h2 := by
        unfold addElemRest
        simp only [get_bind, hm]
        refine Eq.trans (bind_run (a := c0.heap.size) (t := (c0.heap.alloc { kind := .elemDecl, name := (splitColon n).2, pfx := (splitColon n).1, declAttrs := none }).upd t
          (fun x => { x with elements := mapSet x.elements (elemKey (splitColon n).2 (splitColon n).1) c0.heap.size })) rfl) ?_
        simp only [node_bind, updNode_bind]
        rw [upd_alloc (Nat.ne_of_lt htl), at'_upd, if_pos rfl, alloc_lt htl]
        exact bind_run q1
      rw [hrr] at hg
      cases hg
      exact I2

end
end Helium
