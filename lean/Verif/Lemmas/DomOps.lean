import Verif.Lemmas.Links
import Verif.Lemmas.LinkSimp
import Verif.Lemmas.HeapOps
/-! Each DOM operation implements its abstract counterpart. -/
namespace Helium
open Spec

namespace Rel
variable {h : Heap} {a : Forest}

/-- in a represented forest the children are properly linked. -/
theorem childList (R : Rel h a) {p : Nat} (hp : a.tree p = true) (ht : tracked (a.data p).kind = true) : ChildList h p (a.kids p) where
  first := R.first p hp ht
  last := R.last p hp ht
  next x c y hk := (R.link p x c y hk).1
  prev x c y hk := (R.link p x c y hk).2.1
  parent c hc := by
    obtain ⟨l, r, hk⟩ := List.append_of_mem hc
    exact (R.link p l c r hk).2.2
  nodup := R.nodup p
  alloc c hc := by rw [R.size]; exact R.bound c (R.kid p c hc).1

theorem last_mem {p l : Nat} (hl : (a.kids p).getLast? = some l) : l ∈ a.kids p := List.mem_of_getLast? hl

/-- linking behind the last child. -/
theorem addSibling_run (R : Rel h a) {p n c : Nat} (hn : n ∈ a.kids p) (hc : a.loose c = true) :
    ∃ h', Helium.addSibling n c h = .ok () h' ∧ Rel h' (a.append p c) ∧ (∀ x, a.tree x = false → h'.at' x = h.at' x) := by
  have hls := R.lastSibling_eq hn
  cases hg : (a.kids p).getLast? with
  | none => rw [List.getLast?_eq_none_iff] at hg; rw [hg] at hn; cases hn
  | some l =>
    rw [hg] at hls
    have hlk := last_mem hg
    obtain ⟨hlt, hpt, hptr⟩ := R.kid p l hlk
    have hlc : l ≠ c := by
      rintro rfl
      exact (R.loose l hc).2.2.2 p hlk
    obtain ⟨l1, r1, hk1⟩ := List.append_of_mem hlk
    have hpar := (R.link p l1 l r1 hk1).2.2
    unfold Helium.addSibling
    simp only [hls, lnk, hpar]
    refine ⟨_, rfl, ?_, ?_⟩
    · refine R.append hpt hptr hc rfl ?_ ?_ ?_ ?_ ?_ ?_ ?_ ?_
      · intro x
        simp only [lnk]
      · intro x
        have hne : a.kids p ≠ [] := by rintro h; rw [h] at hlk; cases hlk
        simp only [lnk, hne, and_false, if_false]
      · intro x
        simp only [lnk]
      · intro x
        simp only [lnk, hg, Option.some.injEq, eq_comm]
      · intro x hx
        simp only [lnk, hx, if_false]
      · simp only [lnk, hg, if_true]
      · intro x hx
        simp only [lnk, hx, if_false]
      · simp only [lnk, if_true]
    · intro x hx
      have hx1 : x ≠ c := by rintro rfl; rw [(R.loose x hc).2.2.1] at hx; cases hx
      have hx3 : x ≠ p := by rintro rfl; rw [hpt] at hx; cases hx
      have hxl : x ≠ l := by rintro rfl; rw [hlt] at hx; cases hx
      simp [at'_upd, hx1, hx3, hxl]

/-- first child. -/
theorem addFirst_run (R : Rel h a) {p c : Nat} (hp : a.tree p = true) (ht : tracked (a.data p).kind = true) (hc : a.loose c = true)
    (hk : a.kids p = []) : ∃ h', Helium.addChild p c h = .ok () h' ∧ Rel h' (a.append p c) ∧ (∀ x, a.tree x = false → h'.at' x = h.at' x) := by
  have hl := R.last p hp ht
  rw [hk] at hl
  unfold Helium.addChild
  simp only [node_bind, hl, List.getLast?_nil, updNode_bind, updNode_run]
  refine ⟨_, rfl, ?_, ?_⟩
  · refine R.append hp ht hc rfl ?_ ?_ ?_ ?_ ?_ ?_ ?_ ?_
    · intro x; simp only [lnk]
    · intro x; simp only [lnk, hk, and_true]
    · intro x; simp only [lnk]
    · intro x; simp [lnk, hk]
    · intro x hx; simp only [lnk]
    · simp only [lnk, hk, List.getLast?_nil]; exact (R.loose c hc).2.1
    · intro x hx; simp only [lnk, hx, if_false]
    · simp only [lnk, if_true]
  · intro x hx
    have hx1 : x ≠ c := by rintro rfl; rw [(R.loose x hc).2.2.1] at hx; cases hx
    have hx3 : x ≠ p := by rintro rfl; rw [hp] at hx; cases hx
    simp [at'_upd, hx1, hx3]

theorem nodeAddSibling_run (R : Rel h a) {p n c : Nat} (hn : n ∈ a.kids p) (hc : a.loose c = true) (hd : (a.data n).kind ≠ .doc) :
    ∃ h', nodeAddSibling n c h = .ok () h' ∧ Rel h' (a.addSibling p n c) ∧ (∀ x, a.tree x = false → h'.at' x = h.at' x) := by
  have hnt := (R.kid p n hn).1
  have hct := (R.loose c hc).2.2.1
  have h1 := R.kind hnt
  have h2 := R.kind hct
  unfold nodeAddSibling Forest.addSibling
  simp only [node_bind, h1]
  cases hk : (a.data n).kind with
  | doc => exact absurd hk hd
  | text =>
    simp only [true_and, node_bind, h2]
    by_cases hkc : (a.data c).kind = .text
    · rw [if_pos hkc, if_pos hkc]
      rw [bind_run (content_leaf (Or.inl (by rw [h2, hkc])))]
      refine ⟨_, rfl, ?_, ?_⟩
      · rw [R.content hct]
        exact R.addText hnt _
      · intro x hx
        have : x ≠ n := by rintro rfl; rw [hnt] at hx; cases hx
        simp [at'_upd, this]
    · rw [if_neg hkc, if_neg hkc]
      exact R.addSibling_run hn hc
  | _ =>
    simp only [false_and, reduceCtorEq, if_false]
    exact R.addSibling_run hn hc

theorem addChild_run (R : Rel h a) {p c : Nat} (hp : a.tree p = true) (ht : tracked (a.data p).kind = true) (hc : a.loose c = true)
    (hd : ∀ l, (a.kids p).getLast? = some l → (a.data l).kind ≠ .doc) :
    ∃ h', Helium.addChild p c h = .ok () h' ∧
      Rel h' (match (a.kids p).getLast? with
        | none => a.append p c
        | some l => if (a.data l).kind = .text ∧ (a.data c).kind = .text then a.addText l (a.data c).content else a.append p c) ∧
      (∀ x, a.tree x = false → h'.at' x = h.at' x) := by
  have hl := R.last p hp ht
  have hct := (R.loose c hc).2.2.1
  cases hg : (a.kids p).getLast? with
  | none =>
    exact R.addFirst_run hp ht hc (List.getLast?_eq_none_iff.1 hg)
  | some l =>
    have hlk := last_mem hg
    obtain ⟨h1, e1, R1, f1⟩ := R.nodeAddSibling_run hlk hc (hd l hg)
    rw [hg] at hl
    unfold Helium.addChild
    simp only [node_bind, hl]
    rw [bind_run e1]
    simp only [node_bind]
    have hlt := (R.kid p l hlk).1
    have hkl : (h1.at' l).kind = (a.data l).kind ∧ (h1.at' c).kind = (a.data c).kind ∧ (a.addSibling p l c).tree = a.tree := by
      have t1 : (a.addSibling p l c).tree = a.tree := by unfold Forest.addSibling; split <;> rfl
      have t2 : ∀ x, ((a.addSibling p l c).data x).kind = (a.data x).kind := by
        intro x
        unfold Forest.addSibling
        split
        · simp only [Forest.addText]; split
          · rename_i h; rw [h]
          · rfl
        · rfl
      refine ⟨?_, ?_, t1⟩
      · rw [R1.kind (by rw [t1]; exact hlt), t2]
      · rw [R1.kind (by rw [t1]; exact hct), t2]
    rw [hkl.1, hkl.2.1]
    have hsw : ((a.data c).kind = .text ∧ (a.data l).kind = .text) ↔ ((a.data l).kind = .text ∧ (a.data c).kind = .text) := and_comm
    by_cases hb : (a.data l).kind = .text ∧ (a.data c).kind = .text
    · rw [if_pos (hsw.2 hb)]
      simp only [hb, and_self, if_true]
      refine ⟨_, rfl, ?_, ?_⟩
      · have R2 := R1
        unfold Forest.addSibling at R2
        rw [if_pos hb] at R2
        have hlast := R2.last p hp (by
          simp only [Forest.addText]
          split
          · rename_i h; rw [← h]; exact ht
          · exact ht)
        refine Rel.frame R2 rfl ?_
        intro n _
        simp only [at'_upd]
        split
        · rename_i hnp
          subst hnp
          have : (h1.at' n).last = some l := by rw [hlast]; exact hg
          rw [← this]
        · rfl
      · intro x hx
        have : x ≠ p := by rintro rfl; rw [hp] at hx; cases hx
        simp only [at'_upd, this, if_false]
        exact f1 x hx
    · rw [if_neg (fun h => hb (hsw.1 h)), if_neg hb]
      refine ⟨h1, rfl, ?_, f1⟩
      unfold Forest.addSibling at R1
      rw [if_neg hb] at R1
      exact R1

/-- `AddChild` never fails except for text and comment parents, and does what it should. -/
theorem nodeAddChild_run (R : Rel h a) {p c : Nat} (hp : a.tree p = true) (ht : tracked (a.data p).kind = true) (hc : a.loose c = true)
    (hd : ∀ l, (a.kids p).getLast? = some l → (a.data l).kind ≠ .doc) :
    ∃ h', (nodeAddChild p c h = .ok () h' ∨ ((a.data p).kind ∈ [Kind.text, .comment] ∧ h' = h ∧ nodeAddChild p c h = .err (.k .invalidOperation) h')) ∧
      Rel h' (a.addChild p c) ∧ (∀ x, a.tree x = false → h'.at' x = h.at' x) := by
  have hct := (R.loose c hc).2.2.1
  have h1 := R.kind hp
  have h2 := R.kind hct
  unfold nodeAddChild Forest.addChild
  simp only [node_bind, h1]
  cases hk : (a.data p).kind with
  | text =>
    simp only [true_or, if_true, node_bind, h2]
    by_cases hkc : (a.data c).kind = .text
    · rw [if_pos hkc, if_pos hkc]
      refine ⟨_, Or.inl rfl, ?_, ?_⟩
      · rw [R.content hct]; exact R.addText hp _
      · intro x hx
        have : x ≠ p := by rintro rfl; rw [hp] at hx; cases hx
        simp [at'_upd, this]
    · rw [if_neg hkc, if_neg hkc]
      exact ⟨h, Or.inr ⟨by simp, rfl, rfl⟩, R, fun _ _ => rfl⟩
  | comment =>
    simp only [or_true, if_true, node_bind, h2, reduceCtorEq, if_false]
    by_cases hkc : (a.data c).kind = .comment
    · rw [if_pos hkc, if_pos hkc]
      refine ⟨_, Or.inl rfl, ?_, ?_⟩
      · rw [R.content hct]; exact R.addText hp _
      · intro x hx
        have : x ≠ p := by rintro rfl; rw [hp] at hx; cases hx
        simp [at'_upd, this]
    · rw [if_neg hkc, if_neg hkc]
      exact ⟨h, Or.inr ⟨by simp, rfl, rfl⟩, R, fun _ _ => rfl⟩
  | _ =>
    simp only [reduceCtorEq, or_self, if_false]
    obtain ⟨h', e, R', f⟩ := R.addChild_run hp ht hc hd
    exact ⟨h', Or.inl e, R', f⟩

/-- `AddContent` always succeeds. -/
theorem nodeAddContent_run (R : Rel h a) {p : Nat} (hp : a.tree p = true) (ht : tracked (a.data p).kind = true)
    (hd : ∀ l, (a.kids p).getLast? = some l → (a.data l).kind ≠ .doc) (b : Bytes) :
    ∃ h', nodeAddContent p b h = .ok () h' ∧ Rel h' (a.addContent p b) ∧ (∀ x, x ≠ a.size → a.tree x = false → h'.at' x = h.at' x) := by
  have h1 := R.kind hp
  have hps : p ≠ a.size := by have := R.bound p hp; omega
  unfold nodeAddContent Forest.addContent
  simp only [node_bind, h1]
  by_cases hk : (a.data p).kind = .text ∨ (a.data p).kind = .comment
  · rw [if_pos hk]
    have hf : ∀ x, x ≠ a.size → a.tree x = false → (h.upd p (fun x => { x with content := x.content ++ b })).at' x = h.at' x := by
      intro x _ hx
      have : x ≠ p := by rintro rfl; rw [hp] at hx; cases hx
      simp [at'_upd, this]
    rcases hk with hk | hk <;> rw [hk] <;> exact ⟨_, rfl, R.addText hp b, hf⟩
  · rw [if_neg hk]
    have R1 := R.alloc (mkText b) ⟨rfl, rfl, rfl, rfl⟩
    have hd' : (a.alloc (mkText b)).data p = a.data p := by simp [Forest.alloc, hps]
    have hk' : (a.alloc (mkText b)).kids p = a.kids p := by simp [Forest.alloc, hps]
    obtain ⟨h', e, R', f⟩ := R1.nodeAddChild_run (p := p) (c := a.size) (by simp [Forest.alloc, hp]) (by rw [hd']; exact ht) (by simp [Forest.alloc])
      (by
        intro l hl
        rw [hk'] at hl
        have := R.bound l (R.kid p l (last_mem hl)).1
        have hne : l ≠ a.size := by omega
        simp only [Forest.alloc, hne, if_false]
        exact hd l hl)
    have hrun : nodeAddChild p h.size (h.alloc (mkText b)) = .ok () h' := by
      rcases e with e | ⟨e, _⟩
      · rw [R.size]; exact e
      · rw [hd'] at e
        simp at e
        exact absurd e hk
    refine ⟨h', ?_, R', ?_⟩
    · cases hkk : (a.data p).kind with
      | text => exact absurd (Or.inl hkk) hk
      | comment => exact absurd (Or.inr hkk) hk
      | _ => simp only [newNode_bind]; exact hrun
    · intro x hxs hx
      rw [f x (by simp [Forest.alloc, hxs, hx])]
      have : x ≠ h.size := by rw [R.size]; exact hxs
      simp [Heap.alloc, this]

/-- the general shape of replacing. -/
theorem replaced (R : Rel h a) {p n c : Nat} {l r : List Nat} {h' : Heap} (hk : a.kids p = l ++ n :: r) (hc : a.loose c = true)
    (hs : h'.size = h.size) (hd : ∀ x, info (h'.at' x) = info (h.at' x))
    (hfirst : ∀ x, (h'.at' x).first = if x = p ∧ l = [] then some c else (h.at' x).first)
    (hlast : ∀ x, (h'.at' x).last = if x = p ∧ r = [] then some c else (h.at' x).last)
    (hnext : ∀ x, x ≠ c → (h'.at' x).next = if l.getLast? = some x then some c else (h.at' x).next) (hnextc : (h'.at' c).next = r.head?)
    (hprev : ∀ x, x ≠ c → (h'.at' x).prev = if r.head? = some x then some c else (h.at' x).prev) (hprevc : (h'.at' c).prev = l.getLast?)
    (hpar : ∀ x, x ≠ c → (h'.at' x).parent = (h.at' x).parent) (hparc : (h'.at' c).parent = some p) : Rel h' (a.replace p n c) := by
  obtain ⟨l1, l2, l3, l4⟩ := R.loose c hc
  have hnd := R.nodup p
  rw [hk] at hnd
  have hnd' := hnd
  rw [List.nodup_append] at hnd'
  obtain ⟨ndl, ndnr, dis⟩ := hnd'
  obtain ⟨nnr, ndr⟩ := List.nodup_cons.1 ndnr
  have nnl : n ∉ l := fun hm => dis n hm n (by simp) rfl
  have dlr : ∀ x ∈ l, x ∉ r := fun x hx hr => dis x hx x (by simp [hr]) rfl
  have hkp : (a.replace p n c).kids p = l ++ c :: r := by
    simp only [Forest.replace, if_true, hk]
    exact map_replace nnl nnr
  have hko : ∀ q, q ≠ p → (a.replace p n c).kids q = a.kids q := fun q hq => by simp [Forest.replace, hq]
  have hcl : c ∉ l := fun hm => l4 p (by rw [hk]; simp [hm])
  have hcr : c ∉ r := fun hm => l4 p (by rw [hk]; simp [hm])
  have hpk := R.kid p n (by rw [hk]; simp)
  have meml : ∀ x, l.getLast? = some x → x ∈ a.kids p := fun x hx => by rw [hk]; simp [List.mem_of_getLast? hx]
  have memr : ∀ x, r.head? = some x → x ∈ a.kids p := fun x hx => by rw [hk]; simp [List.mem_of_head? hx]
  refine { size := by rw [hs]; exact R.size, data := fun n hn => by rw [hd n]; exact R.data n hn, first := ?_, last := ?_, link := ?_,
           nodup := ?_, kid := ?_, loose := ?_, bound := R.bound }
  · intro x hx htx
    rw [hfirst x]
    by_cases hxp : x = p
    · subst hxp
      rw [hkp]
      have := R.first x hx htx
      rw [hk] at this
      cases l with
      | nil => simp
      | cons y l => simp at this; simp [this]
    · rw [hko x hxp]
      simp only [hxp, false_and, if_false]
      exact R.first x hx htx
  · intro x hx htx
    rw [hlast x]
    by_cases hxp : x = p
    · subst hxp
      rw [hkp]
      have := R.last x hx htx
      rw [hk] at this
      rcases List.eq_nil_or_concat r with rfl | ⟨r', y, rfl⟩
      · simp
      · rw [this]
        simp [List.getLast?_cons]
    · rw [hko x hxp]
      simp only [hxp, false_and, if_false]
      exact R.last x hx htx
  · intro q l' x r' hq
    by_cases hqp : q = p
    · subst hqp
      rw [hkp] at hq
      rcases List.append_eq_append_iff.1 hq with ⟨m, hm1, hm2⟩ | ⟨m, hm1, hm2⟩
      · cases m with
        | nil =>
          simp only [List.nil_append, List.cons.injEq] at hm2
          obtain ⟨rfl, rfl⟩ := hm2
          simp only [List.append_nil] at hm1
          subst hm1
          exact ⟨hnextc, hprevc, hparc⟩
        | cons y m =>
          simp only [List.cons_append, List.cons.injEq] at hm2
          obtain ⟨rfl, hr⟩ := hm2
          subst hm1
          have hxr : x ∈ r := by rw [hr]; simp
          have hxc : x ≠ c := by rintro rfl; exact hcr hxr
          obtain ⟨k1, k2, k3⟩ := R.link q (l ++ n :: m) x r' (by rw [hk, hr]; simp)
          refine ⟨?_, ?_, by rw [hpar x hxc]; exact k3⟩
          · rw [hnext x hxc, if_neg, k1]
            intro hl
            exact dlr x (List.mem_of_getLast? hl) hxr
          · rw [hprev x hxc]
            cases m with
            | nil => simp [hr]
            | cons z m =>
              rw [if_neg, k2]
              · simp [List.getLast?_cons]
              · rw [hr]
                simp
                rintro rfl
                rw [hr] at ndr
                simp at ndr
      · cases m with
        | nil =>
          simp only [List.nil_append, List.cons.injEq] at hm2
          obtain ⟨rfl, rfl⟩ := hm2
          simp only [List.append_nil] at hm1
          subst hm1
          exact ⟨hnextc, hprevc, hparc⟩
        | cons y m =>
          simp only [List.cons_append, List.cons.injEq] at hm2
          obtain ⟨rfl, hr⟩ := hm2
          have hxl : x ∈ l := by rw [hm1]; simp
          have hxc : x ≠ c := by rintro rfl; exact hcl hxl
          obtain ⟨k1, k2, k3⟩ := R.link q l' x (m ++ n :: r) (by rw [hk, hm1]; simp)
          refine ⟨?_, ?_, by rw [hpar x hxc]; exact k3⟩
          · rw [hnext x hxc]
            rcases List.eq_nil_or_concat m with rfl | ⟨m', z, rfl⟩
            · simp [hm1, hr]
            · rw [if_neg, k1, hr]
              · cases m' <;> simp
              · rw [hm1]
                simp [List.getLast?_cons]
                rintro rfl
                rw [hm1] at ndl
                simp [List.nodup_append] at ndl
          · rw [hprev x hxc, if_neg, k2]
            intro hh
            exact dlr x hxl (List.mem_of_head? hh)
    · rw [hko q hqp] at hq
      have hxq : x ∈ a.kids q := by rw [hq]; simp
      have hxc : x ≠ c := by
        rintro rfl
        exact l4 q hxq
      obtain ⟨k1, k2, k3⟩ := R.link q l' x r' hq
      refine ⟨?_, ?_, by rw [hpar x hxc]; exact k3⟩
      · rw [hnext x hxc, if_neg, k1]
        exact fun hl => hqp (R.parent_unique hxq (meml x hl))
      · rw [hprev x hxc, if_neg, k2]
        exact fun hl => hqp (R.parent_unique hxq (memr x hl))
  · intro q
    by_cases hq : q = p
    · subst hq
      rw [hkp, List.nodup_append]
      refine ⟨ndl, List.nodup_cons.2 ⟨hcr, ndr⟩, ?_⟩
      intro x hx y hy
      rintro rfl
      rcases List.mem_cons.1 hy with rfl | hy
      · exact hcl hx
      · exact dlr x hx hy
    · rw [hko q hq]; exact R.nodup q
  · intro q x hx
    by_cases hq : q = p
    · subst hq
      rw [hkp] at hx
      by_cases hxc : x = c
      · subst hxc; exact ⟨l3, hpk.2⟩
      · refine R.kid q x ?_
        rw [hk]
        simp only [List.mem_append, List.mem_cons, hxc, false_or] at hx ⊢
        rcases hx with hx | hx
        · exact Or.inl hx
        · exact Or.inr (Or.inr hx)
    · rw [hko q hq] at hx
      exact R.kid q x hx
  · intro x hx
    simp only [Forest.replace] at hx
    by_cases hxc : x = c
    · simp [hxc] at hx
    · simp only [hxc, if_false] at hx
      obtain ⟨m1, m2, m3, m4⟩ := R.loose x hx
      refine ⟨?_, ?_, m3, ?_⟩
      · rw [hnext x hxc, if_neg, m1]
        exact fun hl => m4 p (meml x hl)
      · rw [hprev x hxc, if_neg, m2]
        exact fun hl => m4 p (memr x hl)
      · intro q hq
        by_cases hqp : q = p
        · subst hqp
          rw [hkp] at hq
          refine m4 q ?_
          rw [hk]
          simp only [List.mem_append, List.mem_cons, hxc, false_or] at hq ⊢
          rcases hq with hq | hq
          · exact Or.inl hq
          · exact Or.inr (Or.inr hq)
        · rw [hko q hqp] at hq
          exact m4 q hq

theorem replaceNode_run (R : Rel h a) {p n c : Nat} (hn : n ∈ a.kids p) (hc : a.loose c = true) :
    ∃ h', replaceNode n c h = .ok () h' ∧ Rel h' (a.replace p n c) ∧ (∀ x, a.tree x = false → h'.at' x = h.at' x) := by
  obtain ⟨l, r, hk⟩ := List.append_of_mem hn
  obtain ⟨c1, c2, c3, c4⟩ := R.loose c hc
  have ht := R.kid p n hn
  have hC := R.childList ht.2.1 ht.2.2
  rw [hk] at hC
  obtain ⟨h', e, X⟩ := replaceNode_links hC (by rw [← hk]; exact c4 p) (fun _ => c1) (fun _ => c2)
  refine ⟨h', e, R.replaced hk hc X.size X.info X.first X.last X.next X.nextc X.prev X.prevc X.parent X.parentc, ?_⟩
  intro x hx
  have hxt : ∀ {y : Nat}, a.tree y = true → x ≠ y := by
    rintro y h1 rfl
    rw [h1] at hx
    cases hx
  refine X.frame x (hxt c3) (hxt ht.2.1) ?_ ?_
  · intro hl
    exact hxt (R.kid p x (by rw [hk]; simp [List.mem_of_getLast? hl])).1 rfl
  · intro hl
    exact hxt (R.kid p x (by rw [hk]; simp [List.mem_of_head? hl])).1 rfl

/-- the parent of a loose node does not matter. -/
theorem set_parent (R : Rel h a) {c : Nat} (hc : a.loose c = true) (v : Option Nat) : Rel (h.upd c (fun x => { x with parent := v })) a where
  size := R.size
  data n hn := by simp only [lnk]; exact R.data n hn
  first n hn ht := by simp only [lnk]; exact R.first n hn ht
  last n hn ht := by simp only [lnk]; exact R.last n hn ht
  link p l x r hk := by
    have hx : x ≠ c := by
      rintro rfl
      exact (R.loose x hc).2.2.2 p (by rw [hk]; simp)
    simp only [lnk, hx, if_false]
    exact R.link p l x r hk
  nodup := R.nodup
  kid := R.kid
  loose x hx := by simp only [lnk]; exact R.loose x hx
  bound := R.bound

theorem setDocumentElement_run (R : Rel h a) {d r : Nat} (hd : a.tree d = true) (hk : (a.data d).kind = .doc) (hr : a.loose r = true)
    (hrk : (a.data r).kind = .element) (hnd : ∀ x ∈ a.kids d, (a.data x).kind ≠ .doc) :
    ∃ h', Helium.setDocumentElement d (some r) h = .ok () h' ∧ Rel h' (a.setDocumentElement d r) ∧
      (∀ x, a.tree x = false → h'.at' x = h.at' x) := by
  have hrt := (R.loose r hr).2.2.1
  have ht : tracked (a.data d).kind = true := by rw [hk]; rfl
  have R1 := R.set_parent hr (some d)
  have hf1 : ∀ x, a.tree x = false → (h.upd r (fun x => { x with parent := some d })).at' x = h.at' x := by
    intro x hx
    have : x ≠ r := by rintro rfl; rw [hrt] at hx; cases hx
    simp [at'_upd, this]
  unfold Helium.setDocumentElement Forest.setDocumentElement
  simp only [updNode_bind, get_bind, R1.chain_kids hd ht]
  have hfind : (a.kids d).find? (fun i => ((h.upd r (fun x => { x with parent := some d })).at' i).kind = .element) =
      (a.kids d).find? (fun i => (a.data i).kind = .element) := by
    apply find_congr
    intro x hx
    rw [R1.kind (R.kid d x hx).1]
  rw [hfind]
  cases hfd : (a.kids d).find? (fun i => (a.data i).kind = .element) with
  | none =>
    simp only []
    obtain ⟨h', e, R', f⟩ := R1.nodeAddChild_run hd ht hr (fun l hl => hnd l (last_mem hl))
    have e' : nodeAddChild d r (h.upd r (fun x => { x with parent := some d })) = .ok () h' := by
      rcases e with e | ⟨e, _⟩
      · exact e
      · rw [hk] at e; simp at e
    rw [attempt_bind, e']
    refine ⟨h', rfl, ?_, fun x hx => (f x hx).trans (hf1 x hx)⟩
    have : a.addChild d r = a.append d r := by
      unfold Forest.addChild
      rw [if_neg (by rw [hk]; simp)]
      split
      · rfl
      · rw [if_neg (by rw [hrk]; simp)]
    rw [← this]
    exact R'
  | some old =>
    simp only []
    have hmem := List.mem_of_find?_eq_some hfd
    have hnd' := hnd old hmem
    unfold nodeReplace
    simp only [node_bind, R1.kind (R.kid d old hmem).1, if_neg hnd']
    obtain ⟨h', e, R', f⟩ := R1.replaceNode_run hmem hr
    exact ⟨h', e, R', fun x hx => (f x hx).trans (hf1 x hx)⟩

end Rel
end Helium
