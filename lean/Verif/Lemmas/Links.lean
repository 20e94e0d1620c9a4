import Batteries.Data.List.Perm
import Verif.Spec.Dom
import Verif.Lemmas.Run
import Verif.Lemmas.Forward
/-! The pointer heap represents an abstract forest, and the DOM operations respect that. -/
namespace Helium
open Spec

/-- the heap represents the forest. -/
structure Rel (h : Heap) (a : Forest) : Prop where
  size : h.size = a.size
  data : ∀ n, a.tree n = true → info (h.at' n) = a.data n
  first : ∀ n, a.tree n = true → tracked (a.data n).kind = true → (h.at' n).first = (a.kids n).head?
  last : ∀ n, a.tree n = true → tracked (a.data n).kind = true → (h.at' n).last = (a.kids n).getLast?
  link : ∀ p l c r, a.kids p = l ++ c :: r → (h.at' c).next = r.head? ∧ (h.at' c).prev = l.getLast? ∧ (h.at' c).parent = some p
  nodup : ∀ p, (a.kids p).Nodup
  kid : ∀ p, ∀ c ∈ a.kids p, a.tree c = true ∧ a.tree p = true ∧ tracked (a.data p).kind = true
  loose : ∀ c, a.loose c = true → (h.at' c).next = none ∧ (h.at' c).prev = none ∧ a.tree c = true ∧ ∀ p, c ∉ a.kids p
  bound : ∀ n, a.tree n = true → n < a.size

namespace Rel
variable {h : Heap} {a : Forest}

theorem kind (R : Rel h a) {n : Nat} (hn : a.tree n = true) : (h.at' n).kind = (a.data n).kind := by
  have := congrArg Node.kind (R.data n hn)
  simpa [info] using this

theorem content (R : Rel h a) {n : Nat} (hn : a.tree n = true) : (h.at' n).content = (a.data n).content := by
  have := congrArg Node.content (R.data n hn)
  simpa [info] using this

theorem kids_length (R : Rel h a) (p : Nat) : (a.kids p).length ≤ a.size := by
  have h1 : (a.kids p).Subperm (List.range a.size) := by
    apply List.subperm_of_subset (R.nodup p)
    intro c hc
    exact List.mem_range.2 (R.bound c (R.kid p c hc).1)
  simpa using h1.length_le

/-- following `next` from a child gives the rest of the children. -/
theorem chain_from (R : Rel h a) (p : Nat) : ∀ (r l : List Nat) (c : Nat) (f : Nat), a.kids p = l ++ c :: r → r.length < f →
    chain h f (some c) = some (c :: r)
  | [], l, c, f + 1, hk, _ => by
    have := (R.link p l c [] hk).1
    simp [chain, this]
  | d :: r, l, c, f + 1, hk, hf => by
    have h1 := (R.link p l c (d :: r) hk).1
    have h2 := chain_from R p r (l ++ [c]) d f (by rw [hk]; simp) (by simp at hf; omega)
    unfold chain
    rw [h1]
    simp [h2]

theorem chain_kids (R : Rel h a) {p : Nat} (hp : a.tree p = true) (ht : tracked (a.data p).kind = true) :
    chain h (h.size + 1) (h.at' p).first = some (a.kids p) := by
  rw [R.first p hp ht]
  cases hk : a.kids p with
  | nil => simp [chain]
  | cons c r =>
    have := R.kids_length p
    rw [hk] at this
    exact R.chain_from p r [] c (h.size + 1) hk (by rw [R.size]; simp at this; omega)

theorem lastSibling_from (R : Rel h a) (p : Nat) : ∀ (r l : List Nat) (c : Nat) (f : Nat), a.kids p = l ++ c :: r → r.length < f →
    lastSibling h f c = (a.kids p).getLast?
  | [], l, c, f + 1, hk, _ => by
    have := (R.link p l c [] hk).1
    unfold lastSibling
    rw [this, hk]
    simp
  | d :: r, l, c, f + 1, hk, hf => by
    have h1 := (R.link p l c (d :: r) hk).1
    have h2 := lastSibling_from R p r (l ++ [c]) d f (by rw [hk]; simp) (by simp at hf; omega)
    unfold lastSibling
    rw [h1]
    simp [h2]

theorem lastSibling_eq (R : Rel h a) {p c : Nat} (hc : c ∈ a.kids p) : lastSibling h (h.size + 1) c = (a.kids p).getLast? := by
  obtain ⟨l, r, hk⟩ := List.append_of_mem hc
  apply R.lastSibling_from p r l c _ hk
  have := R.kids_length p
  rw [hk] at this
  simp at this
  rw [R.size]
  omega

theorem not_loose (R : Rel h a) {p c : Nat} (hc : c ∈ a.kids p) : a.loose c = false := by
  cases hl : a.loose c
  · rfl
  · exact absurd hc ((R.loose c hl).2.2.2 p)

/-- a child has one parent. -/
theorem parent_unique (R : Rel h a) {p q c : Nat} (hp : c ∈ a.kids p) (hq : c ∈ a.kids q) : p = q := by
  obtain ⟨l, r, hk⟩ := List.append_of_mem hp
  obtain ⟨l', r', hk'⟩ := List.append_of_mem hq
  have h1 := (R.link p l c r hk).2.2
  rw [(R.link q l' c r' hk').2.2] at h1
  cases h1
  rfl

/-- changes outside the forest do not matter. -/
theorem frame (R : Rel h a) {h' : Heap} (hs : h'.size = h.size) (hf : ∀ n, a.tree n = true → h'.at' n = h.at' n) : Rel h' a where
  size := by rw [hs, R.size]
  data n hn := by rw [hf n hn]; exact R.data n hn
  first n hn := by rw [hf n hn]; exact R.first n hn
  last n hn := by rw [hf n hn]; exact R.last n hn
  link p l c r hk := by
    rw [hf c (R.kid p c (by rw [hk]; simp)).1]
    exact R.link p l c r hk
  nodup := R.nodup
  kid := R.kid
  loose c hc := by
    have := R.loose c hc
    rw [hf c this.2.2.1]
    exact this
  bound := R.bound

/-- a new node that is not part of the forest. -/
theorem allocOut (R : Rel h a) (x : Node) : Rel (h.alloc x) { a with size := a.size + 1 } := by
  have hne : ∀ n, a.tree n = true → n ≠ h.size := fun n hn => by have := R.bound n hn; rw [R.size]; omega
  have hat : ∀ n, a.tree n = true → (h.alloc x).at' n = h.at' n := fun n hn => by simp [Heap.alloc, hne n hn]
  exact {
    size := by simp [Heap.alloc, R.size]
    data := fun n hn => by rw [hat n hn]; exact R.data n hn
    first := fun n hn => by rw [hat n hn]; exact R.first n hn
    last := fun n hn => by rw [hat n hn]; exact R.last n hn
    link := fun p l c r hk => by
      rw [hat c (R.kid p c (by rw [hk]; simp)).1]
      exact R.link p l c r hk
    nodup := R.nodup
    kid := R.kid
    loose := fun c hc => by
      have := R.loose c hc
      rw [hat c this.2.2.1]
      exact this
    bound := fun n hn => Nat.lt_succ_of_lt (R.bound n hn) }

/-- a new node of the forest. -/
theorem alloc (R : Rel h a) (x : Node) (hx : x.first = none ∧ x.last = none ∧ x.next = none ∧ x.prev = none) : Rel (h.alloc x) (a.alloc x) := by
  have hnt : a.tree a.size = false := by
    cases ht : a.tree a.size
    · rfl
    · exact absurd (R.bound _ ht) (Nat.lt_irrefl _)
  have hat : ∀ n, n ≠ a.size → (h.alloc x).at' n = h.at' n := fun n hn => by
    rw [← R.size] at hn
    simp [Heap.alloc, hn]
  have hnew : (h.alloc x).at' a.size = x := by rw [← R.size]; simp [Heap.alloc]
  have hmem : ∀ p, a.size ∉ a.kids p := by
    intro p hp
    rw [(R.kid p _ hp).1] at hnt
    cases hnt
  have hk0 : a.kids a.size = [] := by
    cases hk : a.kids a.size with
    | nil => rfl
    | cons c r =>
      have := (R.kid a.size c (by rw [hk]; simp)).2.1
      rw [this] at hnt
      cases hnt
  have hkids : ∀ p, (a.alloc x).kids p = a.kids p := by
    intro p
    by_cases hp : p = a.size
    · subst hp; simp [Forest.alloc, hk0]
    · simp [Forest.alloc, hp]
  refine {
    size := by simp [Heap.alloc, Forest.alloc, R.size]
    data := ?_, first := ?_, last := ?_, link := ?_, nodup := fun p => by rw [hkids]; exact R.nodup p, kid := ?_, loose := ?_, bound := ?_ }
  · intro n hn
    by_cases hp : n = a.size
    · subst hp; rw [hnew]; simp [Forest.alloc]
    · rw [hat n hp]
      simp only [Forest.alloc, hp, if_false] at hn ⊢
      exact R.data n hn
  · intro n hn ht
    by_cases hp : n = a.size
    · subst hp; rw [hnew, hkids, hk0]; exact hx.1
    · rw [hat n hp, hkids]
      simp only [Forest.alloc, hp, if_false] at hn ht
      exact R.first n hn ht
  · intro n hn ht
    by_cases hp : n = a.size
    · subst hp; rw [hnew, hkids, hk0]; exact hx.2.1
    · rw [hat n hp, hkids]
      simp only [Forest.alloc, hp, if_false] at hn ht
      exact R.last n hn ht
  · intro p l c r hk
    rw [hkids] at hk
    have hc : c ≠ a.size := by
      rintro rfl
      exact hmem p (by rw [hk]; simp)
    rw [hat c hc]
    exact R.link p l c r hk
  · intro p c hc
    rw [hkids] at hc
    have h1 : c ≠ a.size := by
      rintro rfl
      exact hmem p hc
    have h2 : p ≠ a.size := by
      rintro rfl
      rw [hk0] at hc
      cases hc
    simp only [Forest.alloc, h1, h2, if_false]
    exact R.kid p c hc
  · intro c hc
    by_cases hp : c = a.size
    · subst hp
      rw [hnew]
      exact ⟨hx.2.2.1, hx.2.2.2, by simp [Forest.alloc], fun p => by rw [hkids]; exact hmem p⟩
    · simp only [Forest.alloc, hp, if_false] at hc
      have := R.loose c hc
      rw [hat c hp]
      refine ⟨this.1, this.2.1, by simp [Forest.alloc, hp, this.2.2.1], fun p => by rw [hkids]; exact this.2.2.2 p⟩
  · intro n hn
    by_cases hp : n = a.size
    · subst hp; simp [Forest.alloc]
    · simp only [Forest.alloc, hp, if_false] at hn ⊢
      exact Nat.lt_succ_of_lt (R.bound n hn)

/-- appending content. -/
theorem addText (R : Rel h a) {n : Nat} (hn : a.tree n = true) (b : Bytes) :
    Rel (h.upd n (fun x => { x with content := x.content ++ b })) (a.addText n b) := by
  have hl : ∀ m, ((h.upd n (fun x => { x with content := x.content ++ b })).at' m).first = (h.at' m).first ∧
      ((h.upd n (fun x => { x with content := x.content ++ b })).at' m).last = (h.at' m).last ∧
      ((h.upd n (fun x => { x with content := x.content ++ b })).at' m).next = (h.at' m).next ∧
      ((h.upd n (fun x => { x with content := x.content ++ b })).at' m).prev = (h.at' m).prev ∧
      ((h.upd n (fun x => { x with content := x.content ++ b })).at' m).parent = (h.at' m).parent := by
    intro m
    by_cases hm : m = n
    · subst hm; simp [Heap.upd, Heap.put]
    · simp [Heap.upd, Heap.put, hm]
  have hk : ∀ m, ((a.addText n b).data m).kind = (a.data m).kind := by
    intro m
    by_cases hm : m = n
    · subst hm; simp [Forest.addText]
    · simp [Forest.addText, hm]
  exact {
    size := R.size
    data := fun m hm => by
      have := R.data m hm
      by_cases hmn : m = n
      · subst hmn
        simp only [Heap.upd, Heap.put, if_true, Forest.addText]
        rw [← this]
        rfl
      · simp only [Heap.upd, Heap.put, hmn, if_false, Forest.addText]
        exact this
    first := fun m hm ht => by rw [(hl m).1]; exact R.first m hm (by rw [← hk]; exact ht)
    last := fun m hm ht => by rw [(hl m).2.1]; exact R.last m hm (by rw [← hk]; exact ht)
    link := fun p l c r hk => by
      rw [(hl c).2.2.1, (hl c).2.2.2.1, (hl c).2.2.2.2]
      exact R.link p l c r hk
    nodup := R.nodup
    kid := fun p c hc => by
      have := R.kid p c hc
      exact ⟨this.1, this.2.1, by rw [hk]; exact this.2.2⟩
    loose := fun c hc => by
      rw [(hl c).2.2.1, (hl c).2.2.2.1]
      exact R.loose c hc
    bound := R.bound }

/-- the general shape of appending: any heap whose links changed in the way of an append. -/
theorem append (R : Rel h a) {p c : Nat} {h' : Heap} (hp : a.tree p = true) (ht : tracked (a.data p).kind = true) (hc : a.loose c = true)
    (hs : h'.size = h.size) (hd : ∀ n, info (h'.at' n) = info (h.at' n))
    (hfirst : ∀ n, (h'.at' n).first = if n = p ∧ a.kids p = [] then some c else (h.at' n).first)
    (hlast : ∀ n, (h'.at' n).last = if n = p then some c else (h.at' n).last)
    (hnext : ∀ n, (h'.at' n).next = if (a.kids p).getLast? = some n then some c else (h.at' n).next)
    (hprev : ∀ n, n ≠ c → (h'.at' n).prev = (h.at' n).prev) (hprevc : (h'.at' c).prev = (a.kids p).getLast?)
    (hpar : ∀ n, n ≠ c → (h'.at' n).parent = (h.at' n).parent) (hparc : (h'.at' c).parent = some p) : Rel h' (a.append p c) := by
  obtain ⟨l1, l2, l3, l4⟩ := R.loose c hc
  have hkp : (a.append p c).kids p = a.kids p ++ [c] := by simp [Forest.append]
  have hko : ∀ q, q ≠ p → (a.append p c).kids q = a.kids q := fun q hq => by simp [Forest.append, hq]
  refine { size := by rw [hs]; exact R.size, data := fun n hn => by rw [hd n]; exact R.data n hn, first := ?_, last := ?_, link := ?_,
           nodup := ?_, kid := ?_, loose := ?_, bound := R.bound }
  · intro n hn htn
    rw [hfirst n]
    by_cases hnp : n = p
    · subst hnp
      rw [hkp]
      cases hk : a.kids n with
      | nil => simp
      | cons x r =>
        have := R.first n hn htn
        rw [hk] at this
        simp [this]
    · rw [hko n hnp]
      simp only [hnp, false_and, if_false]
      exact R.first n hn htn
  · intro n hn htn
    rw [hlast n]
    by_cases hnp : n = p
    · subst hnp; rw [hkp]; simp
    · rw [hko n hnp]
      simp only [hnp, if_false]
      exact R.last n hn htn
  · intro q l x r hk
    by_cases hq : q = p
    · subst hq
      rw [hkp] at hk
      rcases List.eq_nil_or_concat r with rfl | ⟨r', y, rfl⟩
      · -- the new last child
        have h1 : a.kids q = l ∧ c = x := by
          have := congrArg List.reverse hk
          simp at this
          exact ⟨this.2, this.1⟩
        obtain ⟨h1, rfl⟩ := h1
        refine ⟨?_, ?_, hparc⟩
        · rw [hnext c, if_neg]
          · simpa using l1
          · intro hl
            exact l4 q (List.mem_of_getLast? hl)
        · rw [hprevc, h1]
      · have h1 : a.kids q = l ++ x :: r' ∧ c = y := by
          have := congrArg List.reverse hk
          simp at this
          refine ⟨?_, this.1⟩
          have h2 := congrArg List.reverse this.2
          simpa using h2
        obtain ⟨h1, rfl⟩ := h1
        have hxc : x ≠ c := by
          rintro rfl
          exact l4 q (by rw [h1]; simp)
        obtain ⟨k1, k2, k3⟩ := R.link q l x r' h1
        refine ⟨?_, ?_, ?_⟩
        · rw [hnext x]
          by_cases hr : r' = []
          · subst hr
            simp [h1]
          · have : (a.kids q).getLast? ≠ some x := by
              intro hl
              have hnd := R.nodup q
              rw [h1] at hl hnd
              have : x ∈ r' := by
                rw [List.getLast?_append] at hl
                cases hg : r'.getLast? with
                | none => rw [List.getLast?_eq_none_iff] at hg; exact absurd hg hr
                | some z =>
                  rw [List.getLast?_cons, hg] at hl
                  simp at hl
                  subst hl
                  exact List.mem_of_getLast? hg
              rw [List.nodup_append] at hnd
              exact (List.nodup_cons.1 hnd.2.1).1 this
            rw [if_neg this, k1]
            cases r' with
            | nil => exact absurd rfl hr
            | cons z r' => simp
        · rw [hprev x hxc]; exact k2
        · rw [hpar x hxc]; exact k3
    · rw [hko q hq] at hk
      have hxq : x ∈ a.kids q := by rw [hk]; simp
      have hxc : x ≠ c := by
        rintro rfl
        exact l4 q hxq
      obtain ⟨k1, k2, k3⟩ := R.link q l x r hk
      refine ⟨?_, by rw [hprev x hxc]; exact k2, by rw [hpar x hxc]; exact k3⟩
      rw [hnext x, if_neg]
      · exact k1
      · intro hl
        exact hq (R.parent_unique hxq (List.mem_of_getLast? hl))
  · intro q
    by_cases hq : q = p
    · subst hq
      rw [hkp, List.nodup_append]
      refine ⟨R.nodup q, by simp, ?_⟩
      intro x hx y hy
      simp at hy
      subst hy
      rintro rfl
      exact l4 q hx
    · rw [hko q hq]; exact R.nodup q
  · intro q x hx
    by_cases hq : q = p
    · subst hq
      rw [hkp] at hx
      rcases List.mem_append.1 hx with hx | hx
      · exact R.kid q x hx
      · simp at hx
        subst hx
        exact ⟨l3, hp, ht⟩
    · rw [hko q hq] at hx
      exact R.kid q x hx
  · intro x hx
    simp only [Forest.append] at hx
    by_cases hxc : x = c
    · simp [hxc] at hx
    · simp only [hxc, if_false] at hx
      obtain ⟨m1, m2, m3, m4⟩ := R.loose x hx
      refine ⟨?_, by rw [hprev x hxc]; exact m2, m3, ?_⟩
      · rw [hnext x, if_neg]
        · exact m1
        · intro hl
          exact m4 p (List.mem_of_getLast? hl)
      · intro q hq
        by_cases hqp : q = p
        · subst hqp
          rw [hkp] at hq
          rcases List.mem_append.1 hq with hq | hq
          · exact m4 q hq
          · simp at hq; exact hxc hq
        · rw [hko q hqp] at hq
          exact m4 q hq

end Rel
end Helium
