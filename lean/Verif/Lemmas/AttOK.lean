import Verif.Lemmas.AttrRun
import Verif.Lemmas.DocLogic
/-!
Attribute lists through a whole parse, whatever the document: every node has a proper list of attributes with different names, and no
attribute is in two lists.
-/
namespace Helium
open Spec

/-- the attribute lists of all nodes are `m`. -/
structure AttrMap (h : Heap) (m : Nat → List Nat) : Prop where
  typed : Typed h
  list : ∀ e, PropList h e (m e)
  names : ∀ e, (attrNames h (m e)).Nodup
  disj : ∀ e e', e ≠ e' → ∀ a ∈ m e, a ∉ m e'

/-- every node has a proper attribute list. -/
def ListsOK (h : Heap) : Prop := ∃ m, AttrMap h m

theorem ListsOK.typed {h : Heap} (a : ListsOK h) : Typed h := a.choose_spec.typed

theorem AttrMap.gentle {h h' : Heap} {m : Nat → List Nat} (A : AttrMap h m) (g : Gentle h h') :
    ∃ m', AttrMap h' m' ∧ ∀ e, m' e = m e ∨ m' e = [] := by
  have key : ∀ e, ∃ l, PropList h' e l ∧ (attrNames h' l).Nodup ∧ (l = m e ∨ l = []) := by
    intro e
    have hm : ∀ c ∈ m e, (h'.at' c).name = (h.at' c).name ∧ (h'.at' c).next = (h.at' c).next ∧ (h'.at' c).prev = (h.at' c).prev :=
      fun c hc => g.attr c ((A.list e).alloc c hc) ((A.list e).kind c hc)
    rcases g.props e with hp | ⟨_, hp⟩
    · refine ⟨m e, (A.list e).congr g.size hp (fun c hc => ⟨(hm c hc).2.1, (hm c hc).2.2, g.kind c ((A.list e).alloc c hc)⟩), ?_, .inl rfl⟩
      have : attrNames h' (m e) = attrNames h (m e) := List.map_congr_left (fun c hc => (hm c hc).1)
      rw [this]
      exact A.names e
    · refine ⟨[], ⟨hp, ?_, ?_, ?_, ?_, List.nodup_nil⟩, List.nodup_nil, .inr rfl⟩
      · intro a c b hl; simp at hl
      · intro a c b hl; simp at hl
      · intro c hc; cases hc
      · intro c hc; cases hc
  refine ⟨fun e => (key e).choose, ⟨g.typed, fun e => (key e).choose_spec.1, fun e => (key e).choose_spec.2.1, ?_⟩, fun e => (key e).choose_spec.2.2⟩
  intro e e' hn a ha ha'
  have h1 : a ∈ m e := by
    rcases (key e).choose_spec.2.2 with h | h
    · rwa [h] at ha
    · rw [h] at ha; cases ha
  have h2 : a ∈ m e' := by
    rcases (key e').choose_spec.2.2 with h | h
    · rwa [h] at ha'
    · rw [h] at ha'; cases ha'
  exact A.disj e e' hn a h1 h2

theorem ListsOK.gentle {h h' : Heap} (A : ListsOK h) (g : Gentle h h') : ListsOK h' := by
  obtain ⟨m, A⟩ := A
  obtain ⟨m', A', _⟩ := A.gentle g
  exact ⟨m', A'⟩

/-- nodes that are not attributes stay so. -/
def NAMono (h h' : Heap) : Prop := ∀ i, NAttr h i → NAttr h' i

theorem NAMono.refl (h : Heap) : NAMono h h := fun _ n => n
theorem NAMono.trans {a b c : Heap} (h : NAMono a b) (k : NAMono b c) : NAMono a c := fun i n => k i (h i n)
theorem Gentle.mono {h h' : Heap} (g : Gentle h h') : NAMono h h' := fun _ n => n.calm g
theorem NAMono.upd (h : Heap) (i : Nat) {f : Node → Node} (hk : (f (h.at' i)).kind = (h.at' i).kind) : NAMono h (h.upd i f) := fun j n => ⟨n.lt, by
  rw [upd_at]
  split
  · rename_i e; subst e; rw [hk]; exact n.kind
  · exact n.kind⟩

/-- a change of `next` of an attribute, of `prev` or of `props`. -/
theorem Typed.upd {h : Heap} (T : Typed h) (i : Nat) {f : Node → Node} (hk : (f (h.at' i)).kind = (h.at' i).kind)
    (hf : (f (h.at' i)).first = (h.at' i).first) (hl : (f (h.at' i)).last = (h.at' i).last)
    (hn : (h.at' i).kind ≠ .attr → (f (h.at' i)).next = (h.at' i).next) (he : (f (h.at' i)).entities = (h.at' i).entities)
    (hd : (f (h.at' i)).elements = (h.at' i).elements) : Typed (h.upd i f) := by
  have up := NAMono.upd h i (f := f) hk
  refine ⟨fun j => ?_, fun j => ?_, fun j => ?_, fun j x => ?_, fun j x => ?_⟩ <;> rw [upd_at] <;> by_cases e : j = i <;>
    simp only [e, if_true, if_false]
  · rw [hf]; exact fun k hk' => up k (T.first i k hk')
  · exact fun k hk' => up k (T.first j k hk')
  · rw [hl]; exact fun k hk' => up k (T.last i k hk')
  · exact fun k hk' => up k (T.last j k hk')
  · rw [hk]; intro a k hk'; rw [hn a] at hk'; exact up k (T.next i a k hk')
  · exact fun a k hk' => up k (T.next j a k hk')
  · rw [he]; exact fun a => up _ (T.ents i x a)
  · exact fun a => up _ (T.ents j x a)
  · rw [hd]; exact fun a => up _ (T.elems i x a)
  · exact fun a => up _ (T.elems j x a)

/-! ### computations -/

/-- the computation `p` on `h` keeps attribute lists in order. -/
def Tidy {α : Type} (h : Heap) (p : HM α) (Q : α → Heap → Prop) : Prop :=
  ListsOK h → match p h with
  | .ok a h' => ListsOK h' ∧ NAMono h h' ∧ Q a h'
  | .err _ h' => ListsOK h' ∧ NAMono h h'
  | _ => True

theorem Calms.tidy {α : Type} {h : Heap} {p : HM α} {Q : α → Heap → Prop} (hc : Typed h → Calms h p Q) : Tidy h p Q := by
  intro A
  have := hc A.typed
  unfold Calms at this
  cases hr : p h with
  | ok a h' => rw [hr] at this; exact ⟨A.gentle this.1, this.1.mono, this.2⟩
  | err e h' => rw [hr] at this; exact ⟨A.gentle this, this.mono⟩
  | panic => trivial
  | diverge => trivial

theorem Tidy.setAttribute {h : Heap} {e : Nat} (he : e < h.size) (fuel : Nat) (name value : Bytes) :
    Tidy h (setAttribute fuel e name value) (fun _ _ => True) := by
  intro A
  obtain ⟨m, A⟩ := A
  unfold Helium.setAttribute
  simp only [node_bind]
  have h1 := Calms.createAttribute A.typed (d := (h.at' e).doc) (fuel := fuel) (name := name) (value := value) (ns := none)
  unfold Calms at h1
  cases hx : createAttribute (h.at' e).doc fuel name value none h with
  | panic => rw [bind_run_panic hx]; trivial
  | diverge => rw [bind_run_diverge hx]; trivial
  | err er h' =>
    rw [hx] at h1
    rw [bind_run_err hx]
    exact ⟨ListsOK.gentle ⟨m, A⟩ h1, h1.mono⟩
  | ok a h' =>
    rw [hx] at h1
    obtain ⟨g, n⟩ := h1
    rw [bind_run hx]
    simp only [get_bind]
    obtain ⟨m', A', hm⟩ := A.gentle g
    have hal : ∀ x, ∀ c ∈ m' x, c < h.size := fun x c hc => by
      rcases hm x with h | h
      · rw [h] at hc; exact (A.list x).alloc c hc
      · rw [h] at hc; cases hc
    have hns : ∀ x, a ∉ m' x := fun x hc => by have := hal x a hc; have := n.old; omega
    have hea : e ≠ a := by have := n.old; omega
    have C := A'.list e
    rw [C.chain_eq (Nat.le_refl _)]
    cases hlist : m' e with
    | nil =>
      simp only [updNode_run]
      have hpl : ∀ x, PropList (h'.upd e (fun x => { x with props := some a })) x (if x = e then [a] else m' x) := by
        intro x
        by_cases hxe : x = e
        · subst hxe
          simp only [if_true]
          refine { first := ?_, next := ?_, prev := ?_, kind := ?_, alloc := ?_, nodup := ?_ }
          · rw [upd_at, if_pos rfl]; rfl
          · intro p c b hab
            cases p with
            | nil => simp only [List.nil_append, List.cons.injEq] at hab; obtain ⟨rfl, rfl⟩ := hab; rw [upd_at, if_neg (Ne.symm hea)]; exact n.next
            | cons y p => simp at hab
          · intro p c b hab
            cases p with
            | nil => simp only [List.nil_append, List.cons.injEq] at hab; obtain ⟨rfl, rfl⟩ := hab; rw [upd_at, if_neg (Ne.symm hea)]; exact n.prev
            | cons y p => simp at hab
          · intro c hc; rw [List.mem_singleton.1 hc, upd_at, if_neg (Ne.symm hea)]; exact n.kind
          · intro c hc; rw [List.mem_singleton.1 hc]; exact n.lt
          · simp
        · simp only [hxe, if_false]
          refine (A'.list x).congr (Nat.le_refl _) ?_ (fun c hc => ?_)
          · rw [upd_at, if_neg hxe]
          · rw [upd_at]; split
            · rename_i h; subst h; exact ⟨rfl, rfl, rfl⟩
            · exact ⟨rfl, rfl, rfl⟩
      refine ⟨⟨fun x => if x = e then [a] else m' x, Typed.upd A'.typed e rfl rfl rfl (fun _ => rfl) rfl rfl, hpl, ?_, ?_⟩,
        g.mono.trans (NAMono.upd _ _ rfl), trivial⟩
      · intro x
        by_cases hxe : x = e
        · simp [hxe, attrNames]
        · simp only [hxe, if_false]
          have : attrNames (h'.upd e (fun x => { x with props := some a })) (m' x) = attrNames h' (m' x) := by
            refine List.map_congr_left (fun c _ => ?_)
            rw [upd_at]; split
            · rename_i h; subst h; rfl
            · rfl
          rw [this]; exact A'.names x
      · intro x y hxy c hc hc'
        by_cases hxe : x = e
        · simp only [hxe, if_true, List.mem_singleton] at hc
          subst hc
          rw [if_neg (fun h => hxy (hxe.trans h.symm))] at hc'
          exact hns y hc'
        · simp only [hxe, if_false] at hc
          by_cases hye : y = e
          · simp only [hye, if_true, List.mem_singleton] at hc'
            subst hc'
            exact hns x hc
          · simp only [hye, if_false] at hc'
            exact A'.disj x y hxy c hc hc'
    | cons c0 r =>
      simp only [setAttrScan_eq]
      rw [← hlist]
      by_cases hdup : name ∈ (m' e).map (fun p => (h'.at' p).name)
      · simp only [hdup, if_true]
        exact ⟨⟨m', A'⟩, g.mono⟩
      · obtain ⟨i0, last, hil⟩ : ∃ i0 last, m' e = i0 ++ [last] := by
          have hlne : m' e ≠ [] := by rw [hlist]; simp
          simpa using (List.eq_nil_or_concat (m' e)).resolve_left hlne
        have hgl : (m' e).getLast? = some last := by rw [hil]; simp
        have hlm : last ∈ m' e := by rw [hil]; simp
        have hlk := C.kind last hlm
        have hls : last ≠ a := by rintro rfl; exact hns e hlm
        have hli : last ∉ i0 := by
          have := C.nodup
          rw [hil] at this
          simp [List.nodup_append] at this
          intro hc
          exact this.2 _ hc rfl
        simp only [hdup, if_false, hgl]
        change match ((do
            updNode last (fun x => { x with next := some a })
            updNode a (fun x => { x with prev := some last }) : HM Unit) h') with
          | .ok _ h' => ListsOK h' ∧ NAMono h h' ∧ True
          | .err _ h' => ListsOK h' ∧ NAMono h h'
          | _ => True
        have hrun : (do
            updNode last (fun x => { x with next := some a })
            updNode a (fun x => { x with prev := some last }) : HM Unit) h' =
            .ok () ((h'.upd last (fun x => { x with next := some a })).upd a (fun x => { x with prev := some last })) := rfl
        rw [hrun]
        have T2 : Typed ((h'.upd last (fun x => { x with next := some a })).upd a (fun x => { x with prev := some last })) :=
          Typed.upd (Typed.upd A'.typed last rfl rfl rfl (fun hk => absurd hlk hk) rfl rfl) a rfl rfl rfl (fun _ => rfl) rfl rfl
        have M2 : NAMono h' ((h'.upd last (fun x => { x with next := some a })).upd a (fun x => { x with prev := some last })) :=
          (NAMono.upd h' last rfl).trans (NAMono.upd _ a rfl)
        generalize hh2 : (h'.upd last (fun x => { x with next := some a })).upd a (fun x => { x with prev := some last }) = h2
        rw [hh2] at T2 M2
        have e1 : h2.at' last = { h'.at' last with next := some a } := by
          rw [← hh2]
          simp [Heap.upd, Heap.put, hls]
        have e2 : h2.at' a = { h'.at' a with prev := some last } := by
          rw [← hh2]
          simp [Heap.upd, Heap.put, Ne.symm hls]
        have e3 : ∀ i, i ≠ last → i ≠ a → h2.at' i = h'.at' i := by
          intro i ha hb
          rw [← hh2]
          simp [Heap.upd, Heap.put, ha, hb]
        have e4 : h2.size = h'.size := by rw [← hh2]; rfl
        have e5 : ∀ i, (h2.at' i).name = (h'.at' i).name ∧ (h2.at' i).kind = (h'.at' i).kind ∧ (h2.at' i).props = (h'.at' i).props := by
          intro i
          by_cases h1 : i = last
          · rw [h1, e1]; exact ⟨rfl, rfl, rfl⟩
          · by_cases h2 : i = a
            · rw [h2, e2]; exact ⟨rfl, rfl, rfl⟩
            · rw [e3 i h1 h2]; exact ⟨rfl, rfl, rfl⟩
        have hnm : ∀ l, attrNames h2 l = attrNames h' l := fun l => List.map_congr_left (fun c _ => (e5 c).1)
        refine ⟨⟨fun x => if x = e then m' e ++ [a] else m' x, T2, ?_, ?_, ?_⟩, g.mono.trans M2, trivial⟩
        · intro x
          by_cases hxe : x = e
          · subst hxe
            simp only [if_true]
            refine { first := ?_, next := ?_, prev := ?_, kind := ?_, alloc := ?_, nodup := ?_ }
            · rw [(e5 x).2.2, C.first, hil]; cases i0 <;> rfl
            · intro p c b hab
              rcases List.append_eq_append_iff.1 hab with ⟨q, h1, h2⟩ | ⟨q, h1, h2⟩
              · cases q with
                | nil => simp at h2; obtain ⟨rfl, rfl⟩ := h2; rw [e2]; exact n.next
                | cons y q => simp at h2
              · cases q with
                | nil => simp at h2; obtain ⟨rfl, rfl⟩ := h2; rw [e2]; exact n.next
                | cons y q =>
                  simp at h2
                  obtain ⟨rfl, rfl⟩ := h2
                  have hn := C.next p c q h1
                  cases q with
                  | nil =>
                    have : c = last := by
                      rw [hil] at h1
                      have := congrArg List.getLast? h1
                      simpa [eq_comm] using this
                    rw [this, e1]; rfl
                  | cons z q =>
                    have hcl : c ≠ last := by
                      rintro rfl
                      rw [h1] at hil
                      have := C.nodup
                      have hll : c ∈ z :: q := by
                        have := congrArg List.getLast? hil
                        simp only [List.getLast?_append, List.getLast?_cons_cons, List.getLast?_singleton] at this
                        have h3 := List.getLast?_cons (a := z) (l := q)
                        rw [List.getLast?_cons] at this
                        exact List.mem_of_getLast? (by rw [List.getLast?_cons]; simpa using this)
                      rw [h1, List.nodup_append] at this
                      exact (List.nodup_cons.1 this.2.1).1 hll
                    have hca : c ≠ a := by rintro rfl; exact hns x (by rw [h1]; simp)
                    rw [e3 c hcl hca, hn]; rfl
            · intro p c b hab
              rcases List.append_eq_append_iff.1 hab with ⟨q, h1, h2⟩ | ⟨q, h1, h2⟩
              · cases q with
                | nil => simp at h2 h1; obtain ⟨rfl, rfl⟩ := h2; rw [e2, h1, hgl]
                | cons y q => simp at h2
              · cases q with
                | nil => simp at h2 h1; obtain ⟨rfl, rfl⟩ := h2; rw [e2, ← h1, hgl]
                | cons y q =>
                  simp at h2
                  obtain ⟨rfl, rfl⟩ := h2
                  rw [← C.prev p c q h1]
                  have hca : c ≠ a := by rintro rfl; exact hns x (by rw [h1]; simp)
                  by_cases hcl : c = last
                  · rw [hcl, e1]
                  · rw [e3 c hcl hca]
            · intro c hc
              rw [(e5 c).2.1]
              rcases List.mem_append.1 hc with hc | hc
              · exact C.kind c hc
              · rw [List.mem_singleton.1 hc]; exact n.kind
            · intro c hc
              rw [e4]
              rcases List.mem_append.1 hc with hc | hc
              · exact C.alloc c hc
              · rw [List.mem_singleton.1 hc]; exact n.lt
            · rw [List.nodup_append]
              refine ⟨C.nodup, by simp, ?_⟩
              intro y hy z hz
              rw [List.mem_singleton.1 hz]
              rintro rfl
              exact hns x hy
          · simp only [hxe, if_false]
            refine (A'.list x).congr (by rw [e4]; exact Nat.le_refl _) (e5 x).2.2 (fun c hc => ?_)
            have hca : c ≠ a := by rintro rfl; exact hns x hc
            have hcl : c ≠ last := by rintro rfl; exact A'.disj x e hxe c hc hlm
            rw [e3 c hcl hca]; exact ⟨rfl, rfl, rfl⟩
        · intro x
          rw [hnm]
          by_cases hxe : x = e
          · simp only [hxe, if_true]
            have : attrNames h' (m' e ++ [a]) = attrNames h' (m' e) ++ [name] := by simp [attrNames, n.name]
            rw [this, List.nodup_append]
            refine ⟨A'.names e, by simp, ?_⟩
            intro y hy z hz
            rw [List.mem_singleton.1 hz]
            rintro rfl
            exact hdup hy
          · simp only [hxe, if_false]; exact A'.names x
        · intro x y hxy c hc hc'
          have key : ∀ z, c ∈ (if z = e then m' e ++ [a] else m' z) → c ∈ m' z ∨ (z = e ∧ c = a) := by
            intro z hz
            split at hz
            · rename_i h
              rw [h]
              rcases List.mem_append.1 hz with hz | hz
              · exact .inl hz
              · exact .inr ⟨rfl, List.mem_singleton.1 hz⟩
            · exact .inl hz
          rcases key x hc with h1 | ⟨rfl, rfl⟩
          · rcases key y hc' with h2 | ⟨rfl, rfl⟩
            · exact A'.disj x y hxy c h1 h2
            · exact hns x h1
          · rcases key y hc' with h2 | ⟨rfl, _⟩
            · exact hns y h2
            · exact hxy rfl

/-! ### callbacks of the tree builder -/
section
variable {σ : Type} {α β : Type}

/-- the tree-builder computation `p` on `c` keeps attribute lists in order. -/
def TidyB (c : HC σ) (p : TB σ α) (Q : α → HC σ → Prop) : Prop :=
  ListsOK c.heap → match p c with
  | .ok a c' => ListsOK c'.heap ∧ NAMono c.heap c'.heap ∧ Q a c'
  | .err _ c' => ListsOK c'.heap ∧ NAMono c.heap c'.heap
  | _ => True

theorem TidyB.bind {c : HC σ} {p : TB σ α} {f : α → TB σ β} {Q : α → HC σ → Prop} {Q' : β → HC σ → Prop} (hp : TidyB c p Q)
    (hf : ∀ a c', NAMono c.heap c'.heap → Q a c' → TidyB c' (f a) Q') : TidyB c (p >>= f) Q' := by
  intro A
  have h1 := hp A
  rw [show (p >>= f) c = M.bind p f c from rfl]
  unfold M.bind
  cases hr : p c with
  | ok a c' =>
    rw [hr] at h1
    have h2 := hf a c' h1.2.1 h1.2.2 h1.1
    simp only
    cases hr' : f a c' with
    | ok b c'' => rw [hr'] at h2; exact ⟨h2.1, h1.2.1.trans h2.2.1, h2.2.2⟩
    | err e c'' => rw [hr'] at h2; exact ⟨h2.1, h1.2.1.trans h2.2⟩
    | panic => trivial
    | diverge => trivial
  | err e c' => rw [hr] at h1; exact h1
  | panic => trivial
  | diverge => trivial

theorem TidyB.mono {c : HC σ} {p : TB σ α} {Q Q' : α → HC σ → Prop} (hp : TidyB c p Q) (hq : ∀ a c', Q a c' → Q' a c') : TidyB c p Q' := by
  intro A
  have := hp A
  cases hr : p c with
  | ok a c' => rw [hr] at this; exact ⟨this.1, this.2.1, hq _ _ this.2.2⟩
  | err e c' => rw [hr] at this; exact this
  | panic => trivial
  | diverge => trivial

variable {c : HC σ}
theorem TidyB.pure {a : α} {Q : α → HC σ → Prop} (hq : Q a c) : TidyB c (Pure.pure a : TB σ α) Q := fun A => ⟨A, NAMono.refl _, hq⟩
theorem TidyB.raw {e : EK} {Q : α → HC σ → Prop} : TidyB c (M.raw e : TB σ α) Q := fun A => ⟨A, NAMono.refl _⟩
theorem TidyB.panic {Q : α → HC σ → Prop} : TidyB c (M.panic : TB σ α) Q := fun _ => trivial
theorem TidyB.get : TidyB c (M.get : TB σ (HC σ)) (fun _ _ => True) := fun A => ⟨A, NAMono.refl _, trivial⟩
theorem TidyB.deref {o : Option α} : TidyB c (M.deref o : TB σ α) (fun _ _ => True) := by
  cases o with
  | none => exact fun _ => trivial
  | some a => exact fun A => ⟨A, NAMono.refl _, trivial⟩
theorem TidyB.modify {f : HC σ → HC σ} (hf : ∀ c, (f c).heap = c.heap) : TidyB c (M.modify f : TB σ Unit) (fun _ _ => True) :=
  fun A => ⟨by rw [hf]; exact A, by rw [hf]; exact NAMono.refl _, trivial⟩
theorem TidyB.attempt {p : TB σ α} {Q : α → HC σ → Prop} (hp : TidyB c p Q) : TidyB c (M.attempt p) (fun _ _ => True) := by
  intro A
  have := hp A
  unfold M.attempt
  cases hr : p c with
  | ok a c' => rw [hr] at this; exact ⟨this.1, this.2.1, trivial⟩
  | err e c' => rw [hr] at this; exact ⟨this.1, this.2, trivial⟩
  | panic => trivial
  | diverge => trivial
theorem TidyB.forM {l : List α} {f : α → TB σ Unit} (hf : ∀ a c', NAMono c.heap c'.heap → TidyB c' (f a) (fun _ _ => True)) :
    TidyB c (l.forM f) (fun _ _ => True) := by
  induction l generalizing c with
  | nil => exact TidyB.pure trivial
  | cons x l ih =>
    refine TidyB.bind (hf x c (NAMono.refl _)) (fun _ c' m _ => ih (fun a c'' m' => hf a c'' (m.trans m')))
theorem TidyB.tbH {p : HM α} {Q : α → Heap → Prop} (hp : Tidy c.heap p Q) : TidyB c (Helium.tbH p) (fun a c' => Q a c'.heap) := by
  intro A
  have := hp A
  unfold Helium.tbH
  cases hr : p c.heap with
  | ok a c' => rw [hr] at this; exact this
  | err e c' => rw [hr] at this; exact this
  | panic => trivial
  | diverge => trivial
theorem TidyB.calm {p : HM α} {Q : α → Heap → Prop} (hp : Typed c.heap → Calms c.heap p Q) : TidyB c (Helium.tbH p) (fun a c' => Q a c'.heap) :=
  TidyB.tbH (Calms.tidy hp)
theorem TidyB.tbDoc : TidyB c (tbDoc : TB σ Nat) (fun _ _ => True) := TidyB.bind TidyB.get (fun _ _ _ _ => TidyB.deref)

theorem TidyB.tbAttach {d n : Nat} (hn : NAttr c.heap n) : TidyB c (tbAttach d n) (fun _ _ => True) := by
  unfold Helium.tbAttach
  refine TidyB.bind TidyB.get (fun s c1 m _ => ?_)
  refine TidyB.bind (TidyB.attempt (TidyB.calm (Q := fun _ _ => True) (fun T => ?_))) (fun _ _ _ _ => TidyB.pure trivial)
  split
  · exact Calms.nodeAddChild T (m _ hn)
  · exact Calms.nodeAddChild T (m _ hn)

theorem TidyB.tbSubset {v : HV} {d : Nat} : TidyB c (tbSubset v d) (fun _ _ => True) := by
  unfold Helium.tbSubset
  refine TidyB.bind TidyB.get (fun s c1 m _ => ?_)
  repeat' split
  · exact TidyB.pure trivial
  · exact TidyB.pure trivial
  · exact TidyB.raw

theorem TidyB.tbAttr {fuel e : Nat} {a : AttrD} (he : NAttr c.heap e) : TidyB c (tbAttr fuel e a) (fun _ _ => True) := by
  unfold Helium.tbAttr
  refine TidyB.bind TidyB.get (fun s c1 m _ => ?_)
  split
  · exact TidyB.pure trivial
  · split
    · exact TidyB.tbH (Tidy.setAttribute (m _ he).lt _ _ _)
    · refine TidyB.bind (TidyB.calm (fun T => Calms.content T)) (fun v c2 m2 _ => ?_)
      exact TidyB.tbH (Tidy.setAttribute (m2 _ (m _ he)).lt _ _ _)

theorem TidyB.newNA {n : Node} (hm : n.bare) (hk : n.kind ≠ .attr) : TidyB c (Helium.tbH (newNode n)) (fun a c' => NAttr c'.heap a) :=
  TidyB.calm (fun T => Calms.newNA T hm hk)

theorem TidyB.tbStartElement {fuel : Nat} {loc pfx uri : Bytes} {ns : List (Option (Bytes × Bytes))} {attrs : List AttrD} :
    TidyB c (tbStartElement fuel loc pfx uri ns attrs) (fun _ _ => True) := by
  unfold Helium.tbStartElement
  refine TidyB.bind TidyB.tbDoc (fun d c1 _ _ => ?_)
  refine TidyB.bind (TidyB.newNA ⟨rfl, rfl, rfl, rfl, rfl, rfl⟩ (by simp [mkElement])) (fun e c2 _ he => ?_)
  have rest : ∀ c3 : HC σ, NAMono c2.heap c3.heap → TidyB c3 (ns.forM (fun n => do
      let n ← M.deref n
      Helium.tbH (Helium.setNamespace e n.1 n.2 false)) >>= fun _ => attrs.forM (Helium.tbAttr fuel e) >>= fun _ => Helium.tbAttach d e >>= fun _ =>
        M.modify (fun c => { c with elem := some e })) (fun _ _ => True) := by
    intro c3 m3
    refine TidyB.bind (TidyB.forM (fun n c4 _ => TidyB.bind TidyB.deref (fun _ _ _ _ => TidyB.calm (fun T => Calms.setNamespace T)))) (fun _ c5 m5 _ => ?_)
    refine TidyB.bind (TidyB.forM (fun a c6 m6 => TidyB.tbAttr (m6 _ (m5 _ (m3 _ he))))) (fun _ c7 m7 _ => ?_)
    exact TidyB.bind (TidyB.tbAttach (m7 _ (m5 _ (m3 _ he)))) (fun _ _ _ _ => TidyB.modify (fun _ => rfl))
  split
  · exact TidyB.bind (TidyB.calm (fun T => Calms.setNamespace T)) (fun _ c3 m3 _ => rest c3 m3)
  · exact rest c2 (NAMono.refl _)

theorem TidyB.tbEndElement : TidyB c (tbEndElement : TB σ Unit) (fun _ _ => True) := by
  unfold Helium.tbEndElement
  refine TidyB.bind TidyB.get (fun s c1 m _ => ?_)
  split
  · exact TidyB.raw
  · exact TidyB.modify (fun _ => rfl)

theorem TidyB.tbCharacters {b : Bytes} : TidyB c (tbCharacters b) (fun _ _ => True) := by
  unfold Helium.tbCharacters
  refine TidyB.bind TidyB.get (fun s c1 m _ => ?_)
  split
  · exact TidyB.raw
  · exact TidyB.calm (fun T => Calms.nodeAddContent T)

theorem TidyB.tbPI {v : HV} {t b : Bytes} : TidyB c (tbPI v t b) (fun _ _ => True) := by
  unfold Helium.tbPI
  refine TidyB.bind TidyB.tbDoc (fun d c1 _ _ => ?_)
  refine TidyB.bind (TidyB.newNA ⟨rfl, rfl, rfl, rfl, rfl, rfl⟩ (by simp [mkPI])) (fun e c2 _ he => ?_)
  split
  · refine TidyB.bind TidyB.tbSubset (fun t c3 m3 _ => ?_)
    refine TidyB.bind TidyB.deref (fun t c4 m4 _ => ?_)
    refine TidyB.bind (TidyB.attempt (TidyB.calm (fun T => Calms.nodeAddChild T (m4 _ (m3 _ he))))) (fun t c5 m5 _ => ?_)
    exact TidyB.tbAttach (m5 _ (m4 _ (m3 _ he)))
  · exact TidyB.tbAttach he

theorem TidyB.tbComment {b : Bytes} : TidyB c (tbComment b) (fun _ _ => True) := by
  unfold Helium.tbComment
  refine TidyB.bind TidyB.get (fun s c1 _ _ => ?_)
  split
  · exact TidyB.raw
  · refine TidyB.bind (TidyB.newNA ⟨rfl, rfl, rfl, rfl, rfl, rfl⟩ (by simp [mkComment])) (fun e c2 _ he => ?_)
    exact TidyB.tbAttach he

theorem TidyB.tbInternalSubset {n e u : Bytes} : TidyB c (tbInternalSubset n e u) (fun _ _ => True) := by
  unfold Helium.tbInternalSubset
  refine TidyB.bind TidyB.tbDoc (fun d c1 _ _ => ?_)
  refine TidyB.bind (TidyB.calm (fun T => Calms.upd (Gentle.upd_same T d ⟨rfl, rfl, rfl, rfl, rfl, rfl, rfl, rfl, rfl⟩))) (fun _ c2 _ _ => ?_)
  exact TidyB.bind (TidyB.calm (fun T => Calms.createInternalSubset T)) (fun _ _ _ _ => TidyB.pure trivial)

theorem TidyB.tbReference {n : Bytes} : TidyB c (tbReference n) (fun _ _ => True) := by
  unfold Helium.tbReference
  refine TidyB.bind TidyB.tbDoc (fun d c1 _ _ => ?_)
  split
  · exact TidyB.panic
  · refine TidyB.bind (TidyB.calm (Q := fun a h => NAttr h a) (fun T => ?_)) (fun n c2 _ hn => ?_)
    · split
      · exact Calms.createCharRef T
      · exact Calms.createReference T
    · refine TidyB.bind TidyB.get (fun s c3 m3 _ => ?_)
      refine TidyB.bind TidyB.deref (fun p c4 m4 _ => ?_)
      exact TidyB.calm (fun T => Calms.nodeAddChild T (m4 _ (m3 _ hn)))

theorem TidyB.tbAttributeDecl {v : HV} {e a : Bytes} {t d : Nat} {vl : Bytes} {en : List Bytes} :
    TidyB c (tbAttributeDecl v e a t d vl en) (fun _ _ => True) := by
  unfold Helium.tbAttributeDecl
  split
  · exact TidyB.raw
  · refine TidyB.bind TidyB.tbDoc (fun d c1 _ _ => ?_)
    refine TidyB.bind TidyB.tbSubset (fun t c3 m3 _ => ?_)
    exact TidyB.bind (TidyB.calm (fun T => Calms.addAttributeDecl T)) (fun _ _ _ _ => TidyB.pure trivial)

theorem TidyB.tbElementDecl {v : HV} {n : Bytes} {t : Nat} {ec : EC} : TidyB c (tbElementDecl v n t ec) (fun _ _ => True) := by
  unfold Helium.tbElementDecl
  refine TidyB.bind TidyB.tbDoc (fun d c1 _ _ => ?_)
  refine TidyB.bind TidyB.tbSubset (fun t c3 m3 _ => ?_)
  split
  · exact TidyB.bind (TidyB.calm (fun T => Calms.dtdAddElementDecl T)) (fun _ _ _ _ => TidyB.pure trivial)
  · repeat' split
    all_goals first | exact TidyB.raw | exact TidyB.panic

theorem TidyB.tbEntityDecl {v : HV} {n : Bytes} {t : Nat} {p s x : Bytes} : TidyB c (tbEntityDecl v n t p s x) (fun _ _ => True) := by
  unfold Helium.tbEntityDecl
  refine TidyB.bind TidyB.tbDoc (fun d c1 _ _ => ?_)
  refine TidyB.bind TidyB.tbSubset (fun t c3 m3 _ => ?_)
  split
  · exact TidyB.bind (TidyB.calm (fun T => Calms.dtdAddEntity T)) (fun _ _ _ _ => TidyB.pure trivial)
  · split
    · exact TidyB.raw
    · exact TidyB.panic

theorem tbOut_tidy {p : TB σ HOut} {Q : HOut → HC σ → Prop} (hp : TidyB c p Q) (A : ListsOK c.heap) :
    ListsOK (tbOut p c).2.heap ∧ NAMono c.heap (tbOut p c).2.heap := by
  have := hp A
  unfold tbOut
  cases hr : p c with
  | ok a c' => rw [hr] at this; exact ⟨this.1, this.2.1⟩
  | err e c' => rw [hr] at this; exact this
  | panic => exact ⟨A, NAMono.refl _⟩
  | diverge => exact ⟨A, NAMono.refl _⟩

theorem tbUnit_tidy {p : TB σ Unit} {Q : Unit → HC σ → Prop} (hp : TidyB c p Q) (A : ListsOK c.heap) :
    ListsOK (tbUnit p c).2.heap ∧ NAMono c.heap (tbUnit p c).2.heap :=
  tbOut_tidy (TidyB.bind hp (fun _ _ _ _ => TidyB.pure (Q := fun _ _ => True) trivial)) A

/-- no callback of the tree builder breaks an attribute list. -/
theorem treeBuilder_tidy (fuel : Nat) (v : HV) (ev : Ev) (c : HC σ) (A : ListsOK c.heap) :
    ListsOK (treeBuilder fuel v ev c).2.heap ∧ NAMono c.heap (treeBuilder fuel v ev c).2.heap := by
  unfold treeBuilder
  cases ev with
  | setDocumentLocator => exact tbUnit_tidy (TidyB.pure (Q := fun _ _ => True) trivial) A
  | startDocument =>
    exact tbUnit_tidy (TidyB.bind (TidyB.newNA ⟨rfl, rfl, rfl, rfl, rfl, rfl⟩ (by simp [mkDoc])) (fun _ _ _ _ => TidyB.modify (fun _ => rfl))) A
  | endDocument => exact tbUnit_tidy (TidyB.pure (Q := fun _ _ => True) trivial) A
  | pi t d => exact tbUnit_tidy TidyB.tbPI A
  | startElement l p u ns as => exact tbUnit_tidy TidyB.tbStartElement A
  | endElement _ _ _ => exact tbUnit_tidy TidyB.tbEndElement A
  | characters b => exact tbUnit_tidy TidyB.tbCharacters A
  | ignorable b => exact tbUnit_tidy TidyB.tbCharacters A
  | cdata b => exact tbUnit_tidy (TidyB.pure (Q := fun _ _ => True) trivial) A
  | comment b => exact tbUnit_tidy TidyB.tbComment A
  | internalSubset n e u => exact tbUnit_tidy TidyB.tbInternalSubset A
  | externalSubset _ _ _ => exact tbUnit_tidy (TidyB.pure (Q := fun _ _ => True) trivial) A
  | getEntity n =>
    refine tbOut_tidy (Q := fun _ _ => True) (TidyB.bind TidyB.tbDoc (fun d c1 _ _ => TidyB.bind TidyB.get (fun s c2 _ _ => ?_))) A
    split
    · exact TidyB.pure trivial
    · exact TidyB.raw
  | getParameterEntity n =>
    refine tbOut_tidy (Q := fun _ _ => True) (TidyB.bind TidyB.get (fun s c2 _ _ => ?_)) A
    split
    · exact TidyB.raw
    · split
      · exact TidyB.pure trivial
      · exact TidyB.raw
  | attributeDecl e a t df vl en => exact tbUnit_tidy TidyB.tbAttributeDecl A
  | elementDecl n t ec => exact tbUnit_tidy TidyB.tbElementDecl A
  | reference n => exact tbUnit_tidy TidyB.tbReference A
  | entityDecl n t p s c => exact tbUnit_tidy TidyB.tbEntityDecl A

/-! ### the whole parser -/

/-- what a step may do to the heap. -/
def HeapOK (h h' : Heap) : Prop := ListsOK h → ListsOK h' ∧ NAMono h h'

theorem HeapOK.refl (h : Heap) : HeapOK h h := fun A => ⟨A, NAMono.refl h⟩
theorem HeapOK.trans {a b c : Heap} (h : HeapOK a b) (k : HeapOK b c) : HeapOK a c := fun A =>
  ⟨(k (h A).1).1, (h A).2.trans (k (h A).1).2⟩
theorem Tabs0.heapOK {h h' : Heap} (t : Tabs0 h h') : HeapOK h h' := fun A => ⟨A.gentle (t.calm A.typed), (t.calm A.typed).mono⟩

/-- the program logic of `ListsOK`. -/
def attL (fuel : Nat) : Logic false (treeBuilder (σ := σ) fuel) where
  R s s' := HeapOK s.hc.heap s'.hc.heap
  X s _ s' := HeapOK s.hc.heap s'.hc.heap
  Q _ := True
  quiet q := q.tabs.heapOK
  trans h k := h.trans k
  transX h k := h.trans k
  xquiet h q := h.trans q.tabs.heapOK
  fail _ := HeapOK.refl _
  wrap h := h
  call _ _ := treeBuilder_tidy fuel _ _ _
  callX _ _ := treeBuilder_tidy fuel _ _ _
  look _ := treeBuilder_tidy fuel _ _ _

theorem chunkBack_heapOK {s : St σ} {d : Nat} {h : Heap} {x : List Nat} {fc lc : Option Nat} {t : St σ} (he : Entered s.hc.heap h fc lc)
    (hR : HeapOK (chunkSt s d h x).hc.heap t.hc.heap) : HeapOK s.hc.heap (chunkBack s d fc lc t).hc.heap := by
  intro A
  obtain ⟨A1, m1⟩ := he.tabs.heapOK A
  obtain ⟨A2, m2⟩ := hR A1
  obtain ⟨k1, k2⟩ := he.kids A.typed
  have T := A2.typed
  have g : Gentle t.hc.heap (t.hc.heap.upd d (fun x => { x with first := fc, last := lc })) :=
    Gentle.upd T d rfl (fun i hi => m2 i (k1 i hi)) (fun i hi => m2 i (k2 i hi)) (T.next d) (fun _ => ⟨rfl, rfl, rfl⟩) rfl (T.ents d) (T.elems d)
  exact ⟨A2.gentle g, (m1.trans m2).trans g.mono⟩

theorem attL_wide (fuel : Nat) : Wide (attL (σ := σ) fuel) where
  q _ _ := trivial
  cur _ _ := HeapOK.refl _
  sub _ _ := HeapOK.refl _
  nodes _ _ := HeapOK.refl _
  ns _ _ := HeapOK.refl _
  leave _ _ _ _ _ _ _ ht hR := chunkBack_heapOK ht hR
  leaveX _ _ _ _ _ _ _ _ ht hR := chunkBack_heapOK ht hR

theorem attOK_empty : ListsOK Heap.empty := by
  have hp : ∀ e, PropList Heap.empty e [] := fun e =>
    ⟨rfl, fun a c b hl => by simp at hl, fun a c b hl => by simp at hl, (fun c hc => nomatch hc), (fun c hc => nomatch hc), List.nodup_nil⟩
  refine ⟨fun _ => [], ⟨?_, ?_, ?_, ?_, ?_⟩, hp, fun _ => List.nodup_nil, fun _ _ _ a ha => nomatch ha⟩
  · exact fun i => OptNA.none
  · exact fun i => OptNA.none
  · exact fun i _ => OptNA.none
  · exact fun i x hx => nomatch hx
  · exact fun i x hx => nomatch hx

theorem attOK_document (E : Env) (usr : σ) (tb fuel snl : Nat) (input : Bytes) :
    post (parseDocument E (treeBuilder tb) fuel snl (initSt usr Heap.empty input)) (fun s => ListsOK s.hc.heap) (fun _ s => ListsOK s.hc.heap) :=
  post_mono (Wide.document E (attL_wide tb) fuel snl _) (fun _ h => (h attOK_empty).1) (fun _ _ h => (h attOK_empty).1)

end
end Helium
