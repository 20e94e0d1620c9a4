import Batteries.Data.List.Perm
import Verif.Lemmas.LinkSimp
import Verif.Lemmas.Forward
/-! Running the DOM operations on well-linked child lists. -/
namespace Helium
open Spec

section
variable {β : Type}
theorem node_bind {i : Nat} {f : Node → HM β} {h : Heap} : (node i >>= f) h = f (h.at' i) h := rfl
theorem updNode_bind {i : Nat} {g : Node → Node} {f : Unit → HM β} {h : Heap} : (updNode i g >>= f) h = f () (h.upd i g) := rfl
theorem updNode_run {i : Nat} {g : Node → Node} {h : Heap} : updNode i g h = .ok () (h.upd i g) := rfl
theorem newNode_bind {x : Node} {f : Nat → HM β} {h : Heap} : (newNode x >>= f) h = f h.size (h.alloc x) := rfl
theorem attempt_bind {α : Type} {p : HM α} {f : Except Err α → HM β} {h : Heap} : (M.attempt p >>= f) h =
    match p h with
    | .ok a s => f (.ok a) s
    | .err e s => f (.error e) s
    | .panic => .panic
    | .diverge => .diverge := by
  show M.bind (M.attempt p) f h = _
  unfold M.bind M.attempt
  cases p h <;> rfl
end

theorem find_congr {α : Type} {p q : α → Bool} : ∀ {l : List α}, (∀ x ∈ l, p x = q x) → l.find? p = l.find? q
  | [], _ => rfl
  | x :: l, h => by
    simp only [List.find?_cons, h x (by simp), find_congr (l := l) (fun y hy => h y (by simp [hy]))]

/-- content of a text, comment or entity node. -/
theorem content_leaf {h : Heap} {i : Nat} (hk : (h.at' i).kind = .text ∨ (h.at' i).kind = .comment ∨ (h.at' i).kind = .entity) :
    content i h = .ok (h.at' i).content h := by
  unfold content contentF
  rcases hk with hk | hk | hk <;> simp [hk]


theorem map_replace {n c : Nat} : ∀ {l r : List Nat}, n ∉ l → n ∉ r →
    (l ++ n :: r).map (fun x => if x = n then c else x) = l ++ c :: r := by
  have key : ∀ r : List Nat, n ∉ r → r.map (fun x => if x = n then c else x) = r := by
    intro r hr
    induction r with
    | nil => rfl
    | cons x r ih =>
      simp only [List.mem_cons, not_or] at hr
      simp only [List.map_cons, ih hr.2, if_neg (Ne.symm hr.1)]
  intro l r hl hr
  simp [key l hl, key r hr]


namespace Spec.ChildList
variable {h : Heap} {p : Nat} {l : List Nat}

theorem length_le (C : ChildList h p l) : l.length ≤ h.size := by
  have h1 : l.Subperm (List.range h.size) := by
    apply List.subperm_of_subset C.nodup
    intro c hc
    exact List.mem_range.2 (C.alloc c hc)
  simpa using h1.length_le

theorem chain_from (C : ChildList h p l) : ∀ (r a : List Nat) (c : Nat) (f : Nat), l = a ++ c :: r → r.length < f →
    chain h f (some c) = some (c :: r)
  | [], a, c, f + 1, hk, _ => by
    have := C.next a c [] hk
    simp [chain, this]
  | d :: r, a, c, f + 1, hk, hf => by
    have h1 := C.next a c (d :: r) hk
    have h2 := chain_from C r (a ++ [c]) d f (by rw [hk]; simp) (by simp at hf; omega)
    unfold chain
    rw [h1]
    simp [h2]

theorem chain_eq (C : ChildList h p l) : chain h (h.size + 1) (h.at' p).first = some l := by
  rw [C.first]
  cases hk : l with
  | nil => simp [chain]
  | cons c r =>
    have := C.length_le
    rw [hk] at this
    exact C.chain_from r [] c (h.size + 1) hk (by simp at this; omega)

theorem lastSibling_from (C : ChildList h p l) : ∀ (r a : List Nat) (c : Nat) (f : Nat), l = a ++ c :: r → r.length < f →
    lastSibling h f c = l.getLast?
  | [], a, c, f + 1, hk, _ => by
    have := C.next a c [] hk
    unfold lastSibling
    rw [this, hk]
    simp
  | d :: r, a, c, f + 1, hk, hf => by
    have h1 := C.next a c (d :: r) hk
    have h2 := lastSibling_from C r (a ++ [c]) d f (by rw [hk]; simp) (by simp at hf; omega)
    unfold lastSibling
    rw [h1]
    simp [h2]

theorem lastSibling_eq (C : ChildList h p l) {c : Nat} (hc : c ∈ l) : lastSibling h (h.size + 1) c = l.getLast? := by
  obtain ⟨a, r, hk⟩ := List.append_of_mem hc
  apply C.lastSibling_from r a c _ hk
  have := C.length_le
  rw [hk] at this
  simp at this
  omega

end Spec.ChildList

/-- what putting `c` between `l` and `r` below `p` changes. -/
structure Replaced (h h' : Heap) (p c : Nat) (l r : List Nat) : Prop where
  size : h'.size = h.size
  info : ∀ x, Spec.info (h'.at' x) = Spec.info (h.at' x)
  first : ∀ x, (h'.at' x).first = if x = p ∧ l = [] then some c else (h.at' x).first
  last : ∀ x, (h'.at' x).last = if x = p ∧ r = [] then some c else (h.at' x).last
  next : ∀ x, x ≠ c → (h'.at' x).next = if l.getLast? = some x then some c else (h.at' x).next
  nextc : (h'.at' c).next = r.head?
  prev : ∀ x, x ≠ c → (h'.at' x).prev = if r.head? = some x then some c else (h.at' x).prev
  prevc : (h'.at' c).prev = l.getLast?
  parent : ∀ x, x ≠ c → (h'.at' x).parent = (h.at' x).parent
  parentc : (h'.at' c).parent = some p
  frame : ∀ x, x ≠ c → x ≠ p → l.getLast? ≠ some x → r.head? ≠ some x → h'.at' x = h.at' x

theorem replaceNode_links {h : Heap} {p n c : Nat} {l r : List Nat} (C : ChildList h p (l ++ n :: r)) (hcm : c ∉ l ++ n :: r)
    (c1 : r = [] → (h.at' c).next = none) (c2 : l = [] → (h.at' c).prev = none) :
    ∃ h', replaceNode n c h = .ok () h' ∧ Replaced h h' p c l r := by
  have k1 := C.next l n r rfl
  have k2 := C.prev l n r rfl
  have k3 := C.parent n (by simp)
  have hf := C.first
  have hl := C.last
  have hcl : c ∉ l := fun hm => hcm (by simp [hm])
  have hcr : c ∉ r := fun hm => hcm (by simp [hm])
  have hnc : n ≠ c := by rintro rfl; exact hcm (by simp)
  have hnd := C.nodup
  rw [List.nodup_append] at hnd
  obtain ⟨ndl, ndnr, dis⟩ := hnd
  obtain ⟨nnr, ndr⟩ := List.nodup_cons.1 ndnr
  have nnl : n ∉ l := fun hm => dis n hm n (by simp) rfl
  have dlr : ∀ x ∈ l, x ∉ r := fun x hx hr => dis x hx x (by simp [hr]) rfl
  have hfn : (h.at' p).first = some n ↔ l = [] := by
    rw [hf]
    cases l with
    | nil => simp
    | cons y l =>
      simp
      rintro rfl
      simp at nnl
  have hln : (h.at' p).last = some n ↔ r = [] := by
    rw [hl]
    rcases List.eq_nil_or_concat r with rfl | ⟨r', z, rfl⟩
    · simp
    · simp [List.getLast?_cons]
      rintro rfl
      simp at nnr
  have tr : ∀ x, r.head? = some x → x ≠ c ∧ x ≠ n := fun x hx => by
    have hm := List.mem_of_head? hx
    exact ⟨by rintro rfl; exact hcr hm, by rintro rfl; exact nnr hm⟩
  have tl : ∀ x, l.getLast? = some x → x ≠ c ∧ x ≠ n := fun x hx => by
    have hm := List.mem_of_getLast? hx
    exact ⟨by rintro rfl; exact hcl hm, by rintro rfl; exact nnl hm⟩
  unfold replaceNode
  simp only [node_bind, k1]
  cases hr : r.head? with
  | none =>
    have hr0 : r = [] := by cases r <;> simp_all
    cases hl' : l.getLast? with
    | none =>
      have hl0 : l = [] := List.getLast?_eq_none_iff.1 hl'
      simp only [pure_bind', node_bind, k2, hl', k3, hfn.2 hl0, if_true, updNode_bind, lnk, hln.2 hr0, updNode_run]
      refine ⟨_, rfl, ?_⟩
      constructor
      · simp only [lnk]
      · intro x; simp only [lnk]
      · intro x; simp only [lnk, hl0, and_true]
      · intro x; simp only [lnk, hr0, and_true]
      · intro x hx; simp only [lnk, hl', reduceCtorEq, if_false]
      · simp only [lnk, hr]; exact c1 hr0
      · intro x hx; simp only [lnk, hr, reduceCtorEq, if_false]
      · simp only [lnk, hl']; exact c2 hl0
      · intro x hx; simp only [lnk, hx, if_false]
      · simp only [lnk, if_true]
      · intro x hx1 hx2 hx3 hx4; simp [at'_upd, hx1, hx2]
    | some y =>
      have hl0 : l ≠ [] := by rintro rfl; simp at hl'
      have hf0 : ¬ (h.at' p).first = some n := mt hfn.1 hl0
      obtain ⟨y1, y2⟩ := tl y hl'
      simp only [pure_bind', node_bind, k2, hl', updNode_bind, lnk, k3, if_neg hnc, hf0, if_false,
        hln.2 hr0, if_true, updNode_run]
      refine ⟨_, rfl, ?_⟩
      · constructor
        · simp only [lnk]
        · intro x; simp only [lnk]
        · intro x; simp only [lnk, hl0, and_false, if_false]
        · intro x; simp only [lnk, hr0, and_true]
        · intro x hx; simp only [lnk, hl', Option.some.injEq, @eq_comm _ y x]
        · simp only [lnk, Ne.symm y1, if_false, hr]; exact c1 hr0
        · intro x hx; simp only [lnk, hx, if_false, hr, reduceCtorEq]
        · simp only [lnk, if_true, hl']
        · intro x hx; simp only [lnk, hx, if_false]
        · simp only [lnk, if_true]
        · intro x hx1 hx2 hx3 hx4
          simp only [hl', hr, Option.some.injEq, ne_eq] at hx3 hx4
          simp [at'_upd, hx1, hx2, Ne.symm hx3]
  | some z =>
    have hr0 : r ≠ [] := by rintro rfl; simp at hr
    have hlz : ¬ (h.at' p).last = some n := mt hln.1 hr0
    obtain ⟨z1, z2⟩ := tr z hr
    cases hl' : l.getLast? with
    | none =>
      have hl0 : l = [] := List.getLast?_eq_none_iff.1 hl'
      simp only [pure_bind', node_bind, updNode_bind, lnk, k2, hl', k3, hfn.2 hl0, if_true, if_neg hnc, if_neg (Ne.symm z2), 
        hlz, if_false, updNode_run]
      refine ⟨_, rfl, ?_⟩
      · constructor
        · simp only [lnk]
        · intro x; simp only [lnk]
        · intro x; simp only [lnk, hl0, and_true]
        · intro x; simp only [lnk, hr0, and_false, if_false]
        · intro x hx; simp only [lnk, hx, if_false, hl', reduceCtorEq]
        · simp only [lnk, if_true, hr]
        · intro x hx; simp only [lnk, hr, Option.some.injEq, @eq_comm _ z x]
        · simp only [lnk, Ne.symm z1, if_false, hl']; exact c2 hl0
        · intro x hx; simp only [lnk, hx, if_false]
        · simp only [lnk, if_true]
        · intro x hx1 hx2 hx3 hx4
          simp only [hl', hr, Option.some.injEq, ne_eq] at hx3 hx4
          simp [at'_upd, hx1, hx2, Ne.symm hx4]
    | some y =>
      have hl0 : l ≠ [] := by rintro rfl; simp at hl'
      have hf0 : ¬ (h.at' p).first = some n := mt hfn.1 hl0
      obtain ⟨y1, y2⟩ := tl y hl'
      simp only [pure_bind', node_bind, updNode_bind, lnk, k2, hl', k3, hf0, if_neg hnc,
        if_neg (Ne.symm z2), hlz, if_false, updNode_run]
      refine ⟨_, rfl, ?_⟩
      · constructor
        · simp only [lnk]
        · intro x; simp only [lnk]
        · intro x; simp only [lnk, hl0, and_false, if_false]
        · intro x; simp only [lnk, hr0, and_false, if_false]
        · intro x hx; simp only [lnk, hx, if_false, hl', Option.some.injEq, @eq_comm _ y x]
        · simp only [lnk, Ne.symm y1, if_false, if_true, hr]
        · intro x hx; simp only [lnk, hx, if_false, hr, Option.some.injEq, @eq_comm _ z x]
        · simp only [lnk, if_true, hl']
        · intro x hx; simp only [lnk, hx, if_false]
        · simp only [lnk, if_true]
        · intro x hx1 hx2 hx3 hx4
          simp only [hl', hr, Option.some.injEq, ne_eq] at hx3 hx4
          simp [at'_upd, hx1, hx2, Ne.symm hx3, Ne.symm hx4]


theorem addSibling_links {h : Heap} {p n c : Nat} {l : List Nat} (C : ChildList h p l) (hn : n ∈ l) (hcm : c ∉ l)
    (c1 : (h.at' c).next = none) : ∃ h', addSibling n c h = .ok () h' ∧ Replaced h h' p c l [] := by
  have hls := C.lastSibling_eq hn
  cases hg : l.getLast? with
  | none => rw [List.getLast?_eq_none_iff] at hg; rw [hg] at hn; cases hn
  | some y =>
    rw [hg] at hls
    have hy := List.mem_of_getLast? hg
    have hyc : y ≠ c := by rintro rfl; exact hcm hy
    have hpar := C.parent y hy
    have hne : l ≠ [] := by rintro rfl; cases hn
    unfold addSibling
    simp only [hls, lnk, hpar]
    refine ⟨_, rfl, ?_⟩
    constructor
    · simp only [lnk]
    · intro x; simp only [lnk]
    · intro x; simp only [lnk, hne, and_false, if_false]
    · intro x; simp only [lnk, and_true]
    · intro x hx; simp only [lnk, hg, Option.some.injEq, eq_comm]
    · simp only [lnk, Ne.symm hyc, if_false, c1, List.head?_nil]
    · intro x hx; simp only [lnk, hx, if_false, List.head?_nil, reduceCtorEq]
    · simp only [lnk, hg, if_true]
    · intro x hx; simp only [lnk, hx, if_false]
    · simp only [lnk, if_true]
    · intro x hx1 hx2 hx3 _
      have hx4 : x ≠ y := by rintro rfl; exact hx3 hg
      simp [at'_upd, hx1, hx2, hx4]

theorem addFirst_links {h : Heap} {p c : Nat} (C : ChildList h p []) (c1 : (h.at' c).next = none) (c2 : (h.at' c).prev = none) :
    ∃ h', addChild p c h = .ok () h' ∧ Replaced h h' p c [] [] := by
  have hl := C.last
  unfold addChild
  simp only [node_bind, hl, List.getLast?_nil, updNode_bind, updNode_run]
  refine ⟨_, rfl, ?_⟩
  constructor
  · simp only [lnk]
  · intro x; simp only [lnk]
  · intro x; simp only [lnk, and_true]
  · intro x; simp only [lnk, and_true]
  · intro x hx; simp only [lnk, List.getLast?_nil, reduceCtorEq, if_false]
  · simp only [lnk, c1, List.head?_nil]
  · intro x hx; simp only [lnk, List.head?_nil, reduceCtorEq, if_false]
  · simp only [lnk, c2, List.getLast?_nil]
  · intro x hx; simp only [lnk, hx, if_false]
  · simp only [lnk, if_true]
  · intro x hx1 hx2 hx3 _
    simp [at'_upd, hx1, hx2]

/-- `AddChild` where nothing is merged. -/
theorem nodeAddChild_links {h : Heap} {p c : Nat} {l : List Nat} (C : ChildList h p l) (hcm : c ∉ l)
    (c1 : (h.at' c).next = none) (c2 : l = [] → (h.at' c).prev = none) (hp : (h.at' p).kind ≠ .text ∧ (h.at' p).kind ≠ .comment)
    (hd : ∀ y ∈ l, (h.at' y).kind ≠ .doc) (ht : (h.at' c).kind ≠ .text) : ∃ h', nodeAddChild p c h = .ok () h' ∧ Replaced h h' p c l [] := by
  have h0 : nodeAddChild p c h = addChild p c h := by
    unfold nodeAddChild
    simp only [node_bind]
    cases hk : (h.at' p).kind <;> simp_all
  rw [h0]
  cases hg : l.getLast? with
  | none =>
    have : l = [] := List.getLast?_eq_none_iff.1 hg
    subst this
    exact addFirst_links C c1 (c2 rfl)
  | some y =>
    have hy := List.mem_of_getLast? hg
    obtain ⟨h', e, X⟩ := addSibling_links C hy hcm c1
    have hl := C.last
    rw [hg] at hl
    have e2 : nodeAddSibling y c h = addSibling y c h := by
      unfold nodeAddSibling
      simp only [node_bind]
      have := hd y hy
      cases hk : (h.at' y).kind <;> simp_all [node_bind]
    refine ⟨h', ?_, X⟩
    unfold addChild
    simp only [node_bind, hl]
    rw [bind_run (e2.trans e)]
    simp only [node_bind]
    have hk : (h'.at' c).kind = (h.at' c).kind := by
      have := congrArg Node.kind (X.info c)
      simpa [Spec.info] using this
    rw [if_neg (fun hh => ht (by rw [← hk]; exact hh.1))]
    rfl

theorem Spec.ChildList.replaced {h h' : Heap} {p n c : Nat} {l r : List Nat} (C : ChildList h p (l ++ n :: r)) (hcm : c ∉ l ++ n :: r)
    (hc : c < h.size) (X : Replaced h h' p c l r) : ChildList h' p (l ++ c :: r) := by
  have hcl : c ∉ l := fun hm => hcm (by simp [hm])
  have hcr : c ∉ r := fun hm => hcm (by simp [hm])
  have hnd := C.nodup
  rw [List.nodup_append] at hnd
  obtain ⟨ndl, ndnr, dis⟩ := hnd
  obtain ⟨nnr, ndr⟩ := List.nodup_cons.1 ndnr
  have nnl : n ∉ l := fun hm => dis n hm n (by simp) rfl
  have dlr : ∀ x ∈ l, x ∉ r := fun x hx hr => dis x hx x (by simp [hr]) rfl
  have memr : ∀ x, r.head? = some x → x ∈ r := fun x hx => List.mem_of_head? hx
  refine { first := ?_, last := ?_, next := ?_, prev := ?_, parent := ?_, nodup := ?_, alloc := ?_ }
  · rw [X.first]
    have := C.first
    cases l with
    | nil => simp
    | cons y l => simp at this; simp [this]
  · rw [X.last]
    have := C.last
    rcases List.eq_nil_or_concat r with rfl | ⟨r', y, rfl⟩
    · simp
    · rw [this]
      simp [List.getLast?_cons]
  · intro l' x r' hq
    rcases List.append_eq_append_iff.1 hq with ⟨m, hm1, hm2⟩ | ⟨m, hm1, hm2⟩
    · cases m with
      | nil =>
        simp only [List.nil_append, List.cons.injEq] at hm2
        obtain ⟨rfl, rfl⟩ := hm2
        exact X.nextc
      | cons y m =>
        simp only [List.cons_append, List.cons.injEq] at hm2
        obtain ⟨rfl, hr⟩ := hm2
        have hxr : x ∈ r := by rw [hr]; simp
        have hxc : x ≠ c := by rintro rfl; exact hcr hxr
        rw [X.next x hxc, if_neg, C.next (l ++ n :: m) x r' (by rw [hr]; simp)]
        intro hl
        exact dlr x (List.mem_of_getLast? hl) hxr
    · cases m with
      | nil =>
        simp only [List.nil_append, List.cons.injEq] at hm2
        obtain ⟨rfl, rfl⟩ := hm2
        exact X.nextc
      | cons y m =>
        simp only [List.cons_append, List.cons.injEq] at hm2
        obtain ⟨rfl, hr⟩ := hm2
        have hxl : x ∈ l := by rw [hm1]; simp
        have hxc : x ≠ c := by rintro rfl; exact hcl hxl
        have k1 := C.next l' x (m ++ n :: r) (by rw [hm1]; simp)
        rw [X.next x hxc]
        rcases List.eq_nil_or_concat m with rfl | ⟨m', z, rfl⟩
        · simp [hm1, hr]
        · rw [if_neg, k1, hr]
          · cases m' <;> simp
          · rw [hm1]
            simp [List.getLast?_cons]
            rintro rfl
            rw [hm1] at ndl
            simp [List.nodup_append] at ndl
  · intro l' x r' hq
    rcases List.append_eq_append_iff.1 hq with ⟨m, hm1, hm2⟩ | ⟨m, hm1, hm2⟩
    · cases m with
      | nil =>
        simp only [List.nil_append, List.cons.injEq] at hm2
        obtain ⟨rfl, rfl⟩ := hm2
        simp only [List.append_nil] at hm1
        subst hm1
        exact X.prevc
      | cons y m =>
        simp only [List.cons_append, List.cons.injEq] at hm2
        obtain ⟨rfl, hr⟩ := hm2
        subst hm1
        have hxr : x ∈ r := by rw [hr]; simp
        have hxc : x ≠ c := by rintro rfl; exact hcr hxr
        have k2 := C.prev (l ++ n :: m) x r' (by rw [hr]; simp)
        rw [X.prev x hxc]
        cases m with
        | nil => simp [hr]
        | cons z m =>
          rw [if_neg, k2]
          · simp [List.getLast?_cons]
          · rw [hr]
            simp
            rintro rfl
            rw [hr] at ndr
            simp at ndr
    · cases m with
      | nil =>
        simp only [List.nil_append, List.cons.injEq] at hm2
        obtain ⟨rfl, rfl⟩ := hm2
        simp only [List.append_nil] at hm1
        subst hm1
        exact X.prevc
      | cons y m =>
        simp only [List.cons_append, List.cons.injEq] at hm2
        obtain ⟨rfl, hr⟩ := hm2
        have hxl : x ∈ l := by rw [hm1]; simp
        have hxc : x ≠ c := by rintro rfl; exact hcl hxl
        rw [X.prev x hxc, if_neg, C.prev l' x (m ++ n :: r) (by rw [hm1]; simp)]
        intro hh
        exact dlr x hxl (memr x hh)
  · intro x hx
    by_cases hxc : x = c
    · subst hxc; exact X.parentc
    · rw [X.parent x hxc]
      apply C.parent
      simp only [List.mem_append, List.mem_cons, hxc, false_or] at hx ⊢
      rcases hx with hx | hx
      · exact Or.inl hx
      · exact Or.inr (Or.inr hx)
  · rw [List.nodup_append]
    refine ⟨ndl, List.nodup_cons.2 ⟨hcr, ndr⟩, ?_⟩
    intro x hx y hy
    rintro rfl
    rcases List.mem_cons.1 hy with rfl | hy
    · exact hcl hx
    · exact dlr x hx hy
  · intro x hx
    rw [X.size]
    by_cases hxc : x = c
    · subst hxc; exact hc
    · apply C.alloc
      simp only [List.mem_append, List.mem_cons, hxc, false_or] at hx ⊢
      rcases hx with hx | hx
      · exact Or.inl hx
      · exact Or.inr (Or.inr hx)

theorem Spec.ChildList.appended {h h' : Heap} {p c : Nat} {l : List Nat} (C : ChildList h p l) (hcl : c ∉ l)
    (hc : c < h.size) (X : Replaced h h' p c l []) : ChildList h' p (l ++ [c]) := by
  have ndl := C.nodup
  refine { first := ?_, last := ?_, next := ?_, prev := ?_, parent := ?_, nodup := ?_, alloc := ?_ }
  · rw [X.first]
    have := C.first
    cases l with
    | nil => simp
    | cons y l => simp at this; simp [this]
  · rw [X.last]
    simp
  · intro l' x r' hq
    rcases List.append_eq_append_iff.1 hq with ⟨m, hm1, hm2⟩ | ⟨m, hm1, hm2⟩
    · cases m with
      | nil =>
        simp only [List.nil_append, List.cons.injEq] at hm2
        obtain ⟨rfl, rfl⟩ := hm2
        exact X.nextc
      | cons y m => simp at hm2
    · cases m with
      | nil =>
        simp only [List.nil_append, List.cons.injEq] at hm2
        obtain ⟨rfl, rfl⟩ := hm2
        exact X.nextc
      | cons y m =>
        simp only [List.cons_append, List.cons.injEq] at hm2
        obtain ⟨rfl, hr⟩ := hm2
        have hxl : x ∈ l := by rw [hm1]; simp
        have hxc : x ≠ c := by rintro rfl; exact hcl hxl
        have k1 := C.next l' x m hm1
        rw [X.next x hxc]
        rcases List.eq_nil_or_concat m with rfl | ⟨m', z, rfl⟩
        · simp [hm1, hr]
        · rw [if_neg, k1, hr]
          · cases m' <;> simp
          · rw [hm1]
            simp [List.getLast?_cons]
            rintro rfl
            rw [hm1] at ndl
            simp [List.nodup_append] at ndl
  · intro l' x r' hq
    rcases List.append_eq_append_iff.1 hq with ⟨m, hm1, hm2⟩ | ⟨m, hm1, hm2⟩
    · cases m with
      | nil =>
        simp only [List.nil_append, List.cons.injEq] at hm2
        obtain ⟨rfl, rfl⟩ := hm2
        simp only [List.append_nil] at hm1
        subst hm1
        exact X.prevc
      | cons y m => simp at hm2
    · cases m with
      | nil =>
        simp only [List.nil_append, List.cons.injEq] at hm2
        obtain ⟨rfl, rfl⟩ := hm2
        simp only [List.append_nil] at hm1
        subst hm1
        exact X.prevc
      | cons y m =>
        simp only [List.cons_append, List.cons.injEq] at hm2
        obtain ⟨rfl, hr⟩ := hm2
        have hxl : x ∈ l := by rw [hm1]; simp
        have hxc : x ≠ c := by rintro rfl; exact hcl hxl
        rw [X.prev x hxc, C.prev l' x m hm1]
        simp
  · intro x hx
    by_cases hxc : x = c
    · subst hxc; exact X.parentc
    · rw [X.parent x hxc]
      apply C.parent
      simpa [hxc] using hx
  · rw [List.nodup_append]
    refine ⟨ndl, by simp, ?_⟩
    intro x hx y hy
    rintro rfl
    simp at hy
    subst hy
    exact hcl hx
  · intro x hx
    rw [X.size]
    by_cases hxc : x = c
    · subst hxc; exact hc
    · apply C.alloc
      simpa [hxc] using hx

/-- the children of other nodes are not affected. -/
theorem Spec.ChildList.untouched {h h' : Heap} {p c : Nat} {l r : List Nat} (X : Replaced h h' p c l r)
    (hpar : ∀ x ∈ l ++ r, (h.at' x).parent = some p) {q : Nat} {m : List Nat} (hq : q ≠ p) (C : ChildList h q m) (hcm : c ∉ m) : ChildList h' q m := by
  have hne : ∀ x ∈ m, x ≠ c := by rintro x hx rfl; exact hcm hx
  have hno : ∀ x ∈ m, x ∉ l ++ r := by
    intro x hx hx2
    have h1 := C.parent x hx
    rw [hpar x hx2] at h1
    cases h1
    exact hq rfl
  have hno1 : ∀ x ∈ m, l.getLast? ≠ some x := fun x hx hl => hno x hx (by simp [List.mem_of_getLast? hl])
  have hno2 : ∀ x ∈ m, r.head? ≠ some x := fun x hx hl => hno x hx (by simp [List.mem_of_head? hl])
  refine { first := ?_, last := ?_, next := ?_, prev := ?_, parent := ?_, nodup := C.nodup, alloc := ?_ }
  · rw [X.first, if_neg (fun hh => hq hh.1)]; exact C.first
  · rw [X.last, if_neg (fun hh => hq hh.1)]; exact C.last
  · intro a x b hm
    have hx : x ∈ m := by rw [hm]; simp
    rw [X.next x (hne x hx), if_neg (hno1 x hx)]
    exact C.next a x b hm
  · intro a x b hm
    have hx : x ∈ m := by rw [hm]; simp
    rw [X.prev x (hne x hx), if_neg (hno2 x hx)]
    exact C.prev a x b hm
  · intro x hx
    rw [X.parent x (hne x hx)]
    exact C.parent x hx
  · intro x hx
    rw [X.size]
    exact C.alloc x hx

end Helium
