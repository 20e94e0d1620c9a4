import Verif.Lemmas.Shows
/-! `SetTreeDoc` over trees with attributes. -/
namespace Helium
open Spec

namespace Spec.AShows

theorem unique {h : Heap} : ∀ {t t' : ATrees} {s : Option Nat}, AShows h s t → AShows h s t' → t = t'
  | .nil, .nil, _, _, _ => rfl
  | .nil, .node i a k r, s, h1, h2 => by
    simp only [AShows] at h1 h2
    rw [h1] at h2
    exact absurd h2.1 (by simp)
  | .node i a k r, .nil, s, h1, h2 => by
    simp only [AShows] at h1 h2
    rw [h2] at h1
    exact absurd h1.1 (by simp)
  | .node i a k r, .node i' a' k' r', s, h1, h2 => by
    simp only [AShows] at h1 h2
    obtain ⟨e1, _, x1, _, a1, b1⟩ := h1
    obtain ⟨e2, _, x2, _, a2, b2⟩ := h2
    rw [e1] at e2
    cases e2
    rw [unique x1 x2, unique a1 a2, unique b1 b2]

end Spec.AShows

namespace Spec.ATrees

def count : ATrees → Nat
  | nil => 0
  | node _ a k r => 1 + a.count + k.count + r.count

def depth : ATrees → Nat
  | nil => 0
  | node _ a k r => max (1 + max a.depth k.depth) r.depth

theorem roots_ids : ∀ {t : ATrees} {i : Nat}, i ∈ t.roots → i ∈ t.ids
  | .nil, i, hi => by simp [roots] at hi
  | .node j a k r, i, hi => by
    simp only [roots, List.mem_cons] at hi
    simp only [ids, List.mem_cons, List.mem_append]
    rcases hi with rfl | hi
    · exact Or.inl rfl
    · exact Or.inr (Or.inr (Or.inr (roots_ids hi)))

end Spec.ATrees

namespace Spec.AShows

theorem alloc {h : Heap} : ∀ {t : ATrees} {s : Option Nat}, AShows h s t → ∀ i ∈ t.ids, i < h.size
  | .nil, _, _, i, hi => by simp [ATrees.ids] at hi
  | .node j a k r, s, h1, i, hi => by
    simp only [AShows] at h1
    simp only [ATrees.ids, List.mem_cons, List.mem_append] at hi
    rcases hi with rfl | hi | hi | hi
    · exact h1.2.1
    · exact alloc h1.2.2.1 i hi
    · exact alloc h1.2.2.2.2.1 i hi
    · exact alloc h1.2.2.2.2.2 i hi

/-- the attribute pointer that counts. -/
def propsOf (h : Heap) (i : Nat) : Option Nat := if (h.at' i).kind = .element then (h.at' i).props else none

theorem sub {h : Heap} : ∀ {t : ATrees} {s : Option Nat}, AShows h s t → ∀ i ∈ t.ids,
    ∃ a k r, AShows h (propsOf h i) a ∧ AShows h (h.at' i).first k ∧ AShows h (h.at' i).next r ∧ (ATrees.node i a k r).count ≤ t.count ∧
      (∀ x ∈ a.ids ++ k.ids, x ∈ t.ids)
  | .nil, _, _, i, hi => by simp [ATrees.ids] at hi
  | .node j a k r, s, h1, i, hi => by
    simp only [AShows] at h1
    simp only [ATrees.ids, List.mem_cons, List.mem_append] at hi
    have fin : ∀ {t' : ATrees}, t'.count ≤ (ATrees.node j a k r).count → (∀ x ∈ t'.ids, x ∈ (ATrees.node j a k r).ids) →
        (∃ a k r, AShows h (propsOf h i) a ∧ AShows h (h.at' i).first k ∧ AShows h (h.at' i).next r ∧ (ATrees.node i a k r).count ≤ t'.count ∧
          (∀ x ∈ a.ids ++ k.ids, x ∈ t'.ids)) →
        ∃ a' k' r', AShows h (propsOf h i) a' ∧ AShows h (h.at' i).first k' ∧ AShows h (h.at' i).next r' ∧
          (ATrees.node i a' k' r').count ≤ (ATrees.node j a k r).count ∧ (∀ x ∈ a'.ids ++ k'.ids, x ∈ (ATrees.node j a k r).ids) := by
      rintro t' hc hm ⟨a', k', r', x, y, z, c, m⟩
      exact ⟨a', k', r', x, y, z, Nat.le_trans c hc, fun x hx => hm x (m x hx)⟩
    rcases hi with rfl | hi | hi | hi
    · exact ⟨a, k, r, h1.2.2.1, h1.2.2.2.2.1, h1.2.2.2.2.2, Nat.le_refl _, fun x hx => by
        simp only [ATrees.ids, List.mem_cons, List.mem_append] at hx ⊢
        rcases hx with hx | hx
        · exact Or.inr (Or.inl hx)
        · exact Or.inr (Or.inr (Or.inl hx))⟩
    · exact fin (by simp only [ATrees.count]; omega) (fun x hx => by simp [ATrees.ids, hx]) (sub h1.2.2.1 i hi)
    · exact fin (by simp only [ATrees.count]; omega) (fun x hx => by simp [ATrees.ids, hx]) (sub h1.2.2.2.2.1 i hi)
    · exact fin (by simp only [ATrees.count]; omega) (fun x hx => by simp [ATrees.ids, hx]) (sub h1.2.2.2.2.2 i hi)

theorem not_below {h : Heap} {i : Nat} {k : ATrees} (hk : AShows h (h.at' i).first k) : i ∉ k.ids := by
  intro hi
  obtain ⟨a', k', r', x, a, b, c, _⟩ := sub hk i hi
  have := unique hk a
  subst this
  simp only [ATrees.count] at c
  omega

theorem not_attr {h : Heap} {i : Nat} {a : ATrees} (hk : AShows h (propsOf h i) a) : i ∉ a.ids := by
  intro hi
  obtain ⟨a', k', r', x, y, b, c, _⟩ := sub hk i hi
  have := unique hk x
  subst this
  simp only [ATrees.count] at c
  omega

theorem not_after {h : Heap} {i : Nat} {r : ATrees} (hr : AShows h (h.at' i).next r) : i ∉ r.ids := by
  intro hi
  obtain ⟨a', k', r', x, a, b, c, _⟩ := sub hr i hi
  have := unique hr b
  subst this
  simp only [ATrees.count] at c
  omega

theorem roots_nodup {h : Heap} : ∀ {t : ATrees} {s : Option Nat}, AShows h s t → t.roots.Nodup
  | .nil, _, _ => by simp [ATrees.roots]
  | .node j a k r, s, h1 => by
    simp only [AShows] at h1
    simp only [ATrees.roots, List.nodup_cons]
    exact ⟨fun hj => not_after h1.2.2.2.2.2 (ATrees.roots_ids hj), roots_nodup h1.2.2.2.2.2⟩

theorem roots_length {h : Heap} {t : ATrees} {s : Option Nat} (H : AShows h s t) : t.roots.length ≤ h.size := by
  have h1 : t.roots.Subperm (List.range h.size) := by
    apply List.subperm_of_subset H.roots_nodup
    intro c hc
    exact List.mem_range.2 (H.alloc c (ATrees.roots_ids hc))
  simpa using h1.length_le

theorem depth_le {h : Heap} : ∀ {t : ATrees} {s : Option Nat}, AShows h s t → ∀ S : List Nat, S.Nodup → (∀ i ∈ t.ids, i ∈ S) → t.depth ≤ S.length
  | .nil, _, _, S, _, _ => by simp [ATrees.depth]
  | .node j a k r, s, h1, S, hS, hsub => by
    simp only [AShows] at h1
    have hr := depth_le h1.2.2.2.2.2 S hS (fun i hi => hsub i (by simp [ATrees.ids, hi]))
    have hj : j ∈ S := hsub j (by simp [ATrees.ids])
    have hk := depth_le h1.2.2.2.2.1 (S.erase j) (hS.erase j) (fun i hi => by
      refine (List.mem_erase_of_ne ?_).2 (hsub i (by simp [ATrees.ids, hi]))
      rintro rfl
      exact not_below h1.2.2.2.2.1 hi)
    have ha := depth_le h1.2.2.1 (S.erase j) (hS.erase j) (fun i hi => by
      refine (List.mem_erase_of_ne ?_).2 (hsub i (by simp [ATrees.ids, hi]))
      rintro rfl
      exact not_attr h1.2.2.1 hi)
    have hlen := List.length_erase_of_mem hj
    have hpos : 0 < S.length := List.length_pos_of_mem hj
    simp only [ATrees.depth]
    omega

theorem chain_from {h : Heap} : ∀ {t : ATrees} {s : Option Nat} {f : Nat}, AShows h s t → t.roots.length ≤ f → chain h f s = some t.roots
  | .nil, s, f, h1, _ => by
    simp only [AShows] at h1
    subst h1
    cases f <;> rfl
  | .node i a k r, s, 0, h1, hf => by simp [ATrees.roots] at hf
  | .node i a k r, s, f + 1, h1, hf => by
    simp only [AShows] at h1
    obtain ⟨rfl, _, _, _, _, b⟩ := h1
    have := chain_from (f := f) b (by simp only [ATrees.roots, List.length_cons] at hf; omega)
    simp [chain, this, ATrees.roots]

theorem chain_eq {h : Heap} {t : ATrees} {s : Option Nat} (H : AShows h s t) : chain h (h.size + 1) s = some t.roots :=
  H.chain_from (by have := H.roots_length; omega)

/-- only owners changed. -/
theorem of_own {h : Heap} {d : Option Nat} {l : List Nat} : ∀ {t : ATrees} {s : Option Nat}, AShows h s t → AShows (own h d l) s t
  | .nil, s, h1 => h1
  | .node i a k r, s, h1 => by
    simp only [AShows] at h1 ⊢
    obtain ⟨e, b, x, y, z, w⟩ := h1
    have hf : ∀ j, ((own h d l).at' j).first = (h.at' j).first ∧ ((own h d l).at' j).next = (h.at' j).next ∧
        ((own h d l).at' j).props = (h.at' j).props ∧ ((own h d l).at' j).kind = (h.at' j).kind := by
      intro j
      simp only [own]
      split <;> exact ⟨rfl, rfl, rfl, rfl⟩
    rw [(hf i).1, (hf i).2.1, (hf i).2.2.1, (hf i).2.2.2]
    exact ⟨e, b, of_own x, fun q hq => by rw [(hf q).2.2.2]; exact y q hq, of_own z, of_own w⟩

end Spec.AShows

theorem own_own {h : Heap} {d : Option Nat} {l m : List Nat} : own (own h d l) d m = own h d (l ++ m) := by
  unfold own
  congr 1
  funext i
  simp only [List.mem_append]
  by_cases h1 : i ∈ l <;> by_cases h2 : i ∈ m <;> simp [h1, h2]

theorem own_congr {h : Heap} {d : Option Nat} {l m : List Nat} (hm : ∀ x, x ∈ l ↔ x ∈ m) : own h d l = own h d m := by
  unfold own
  congr 1
  funext i
  simp only [hm i]

theorem own_id {h : Heap} {d : Option Nat} {l : List Nat} (hd : ∀ x ∈ l, (h.at' x).doc = d) : own h d l = h := by
  unfold own
  cases h with
  | mk size f =>
    congr 1
    funext i
    split
    · rename_i hi
      have := hd i hi
      simp only at this ⊢
      rw [← this]
    · rfl

theorem doc_own {h : Heap} {d : Option Nat} {l : List Nat} {x : Nat} : ((own h d l).at' x).doc = if x ∈ l then d else (h.at' x).doc := by
  simp only [own]
  split <;> rfl

/-- contains everything below its members. -/
def DownClosed (h : Heap) (S : List Nat) : Prop := ∀ j ∈ S, ∀ a k, AShows h (AShows.propsOf h j) a → AShows h (h.at' j).first k →
  ∀ x ∈ a.ids ++ k.ids, x ∈ S

theorem closed_own {h : Heap} {d : Option Nat} {S : List Nat} (hS : DownClosed h S) : ∀ {t : ATrees} {s : Option Nat}, AShows h s t →
    OwnClosed h d t → OwnClosed (own h d S) d t
  | .nil, _, _, _ => trivial
  | .node i a k r, s, h1, hc => by
    simp only [AShows] at h1
    simp only [OwnClosed] at hc ⊢
    refine ⟨?_, closed_own hS h1.2.2.1 hc.2.1, closed_own hS h1.2.2.2.2.1 hc.2.2.1, closed_own hS h1.2.2.2.2.2 hc.2.2.2⟩
    intro hi x hx
    rw [doc_own] at hi ⊢
    split
    · rfl
    · rename_i hxs
      split at hi
      · rename_i his
        exact absurd (hS i his a k h1.2.2.1 h1.2.2.2.2.1 x hx) hxs
      · exact hc.1 hi x hx

theorem closed_fresh {h : Heap} {d : Option Nat} {S : List Nat} : ∀ {t : ATrees}, (∀ x ∈ t.ids, x ∉ S) → OwnClosed h d t → OwnClosed (own h d S) d t
  | .nil, _, _ => trivial
  | .node i a k r, hn, hc => by
    simp only [ATrees.ids, List.mem_cons, List.mem_append] at hn
    simp only [OwnClosed] at hc ⊢
    refine ⟨?_, closed_fresh (fun x hx => hn x (Or.inr (Or.inl hx))) hc.2.1, closed_fresh (fun x hx => hn x (Or.inr (Or.inr (Or.inl hx)))) hc.2.2.1,
      closed_fresh (fun x hx => hn x (Or.inr (Or.inr (Or.inr hx)))) hc.2.2.2⟩
    intro hi x hx
    rw [doc_own] at hi ⊢
    rw [if_neg (hn i (Or.inl rfl))] at hi
    split
    · rfl
    · exact hc.1 hi x hx

theorem downClosed_ids {h : Heap} {t : ATrees} {s : Option Nat} (H : AShows h s t) : DownClosed h t.ids := by
  intro j hj a k ha hk x hx
  obtain ⟨a', k', r', xa, xk, _, _, m⟩ := H.sub j hj
  rw [AShows.unique ha xa, AShows.unique hk xk] at hx
  exact m x hx

/-- a node with its attributes and descendants. -/
theorem downClosed_node {h : Heap} {i : Nat} {a k : ATrees} (ha : AShows h (AShows.propsOf h i) a) (hk : AShows h (h.at' i).first k) :
    DownClosed h (i :: (a.ids ++ k.ids)) := by
  intro j hj a' k' ha' hk' x hx
  simp only [List.mem_cons, List.mem_append] at hj ⊢
  rcases hj with rfl | hj | hj
  · rw [AShows.unique ha' ha, AShows.unique hk' hk] at hx
    exact Or.inr (List.mem_append.1 hx)
  · exact Or.inr (Or.inl (downClosed_ids ha j hj a' k' ha' hk' x hx))
  · exact Or.inr (Or.inr (downClosed_ids hk j hj a' k' ha' hk' x hx))

theorem updNode_own {d : Option Nat} {n : Nat} {h : Heap} : updNode n (fun a => { a with doc := d }) h = .ok () (own h d [n]) := by
  simp only [updNode, M.modify, Heap.upd, Heap.put, own]
  congr 2
  funext j
  by_cases hj : j = n
  · subst hj; simp
  · simp [hj]

theorem setList_run {d : Option Nat} {h : Heap} {s : Option Nat} {t : ATrees} {fuel : Nat} (H : AShows h s t) :
    setTreeDoc.setList d fuel s h = (t.roots.forM (fun c => setTreeDoc d fuel c)) h := by
  unfold setTreeDoc.setList
  simp only [get_bind, H.chain_eq]

mutual
/-- a list of nodes. -/
theorem setDoc_list (d : Option Nat) : ∀ (t : ATrees) (h : Heap) (s : Option Nat) (fuel : Nat), AShows h s t → OwnClosed h d t →
    t.depth ≤ fuel → (t.roots.forM (fun c => setTreeDoc d fuel c)) h = .ok () (own h d t.ids)
  | .nil, h, _, _, _, _, _ => by
    rw [own_id (by intro x hx; simp [ATrees.ids] at hx)]
    rfl
  | .node i a k r, h, s, 0, _, _, hf => by simp only [ATrees.depth] at hf; omega
  | .node i a k r, h, s, fuel + 1, h1, hc, hf => by
    simp only [AShows] at h1
    simp only [OwnClosed] at hc
    simp only [ATrees.depth] at hf
    obtain ⟨_, hsz, ha, hak, hk, hr⟩ := h1
    have e1 : setTreeDoc d (fuel + 1) i h = .ok () (own h d (i :: (a.ids ++ k.ids))) := by
      unfold setTreeDoc
      simp only [get_bind]
      by_cases hd : (h.at' i).doc = d
      · rw [if_pos hd, own_id]
        · rfl
        · intro x hx
          rcases List.mem_cons.1 hx with rfl | hx
          · exact hd
          · exact hc.1 hd x hx
      · rw [if_neg hd]
        have ck : OwnClosed (own h d a.ids) d k := closed_own (downClosed_ids ha) hk hc.2.2.1
        have hk' : AShows (own h d a.ids) (h.at' i).first k := hk.of_own
        have e2 := setDoc_list d k (own h d a.ids) _ fuel hk' ck (by omega)
        rw [← setList_run hk'] at e2
        have hlast : own (own (own h d a.ids) d k.ids) d [i] = own h d (i :: (a.ids ++ k.ids)) := by
          rw [own_own, own_own]
          apply own_congr
          intro x
          simp [or_comm, or_left_comm]
        by_cases he : (h.at' i).kind = .element
        · rw [if_pos he] at ha ⊢
          rw [ha.chain_eq]
          simp only []
          rw [bind_run (setDoc_attrs d a h h _ fuel ha hak hc.2.1 (by omega) (fun _ => rfl)), bind_run e2, updNode_own, hlast]
        · rw [if_neg he] at ha ⊢
          have ha0 : a = .nil := by
            cases a with
            | nil => rfl
            | node j a k r => simp [AShows] at ha
          subst ha0
          have h0 : own h d ATrees.nil.ids = h := own_id (by intro x hx; simp [ATrees.ids] at hx)
          rw [h0] at e2 hlast
          rw [bind_run e2, updNode_own, hlast]
    rw [ATrees.roots, forM_cons_run, e1]
    simp only []
    have cr : OwnClosed (own h d (i :: (a.ids ++ k.ids))) d r := closed_own (downClosed_node ha hk) hr hc.2.2.2
    rw [setDoc_list d r _ _ (fuel + 1) hr.of_own cr (by omega), own_own]
    simp [ATrees.ids]

/-- a list of attributes; `h0` is an earlier state with the same links. -/
theorem setDoc_attrs (d : Option Nat) : ∀ (t : ATrees) (h0 h : Heap) (s : Option Nat) (fuel : Nat), AShows h s t →
    (∀ x ∈ t.roots, (h.at' x).kind = .attr) → OwnClosed h d t → t.depth ≤ fuel + 1 → (∀ x, (h0.at' x).first = (h.at' x).first) →
    (t.roots.forM (fun p => do
      updNode p (fun a => { a with doc := d })
      setTreeDoc.setList d fuel (h0.at' p).first)) h = .ok () (own h d t.ids)
  | .nil, _, h, _, _, _, _, _, _, _ => by
    rw [own_id (by intro x hx; simp [ATrees.ids] at hx)]
    rfl
  | .node i a k r, h0, h, s, fuel, h1, hat, hc, hf, hl => by
    simp only [AShows] at h1
    simp only [OwnClosed] at hc
    simp only [ATrees.depth] at hf
    obtain ⟨_, hsz, ha, hak, hk, hr⟩ := h1
    have hi : (h.at' i).kind = .attr := hat i (by simp [ATrees.roots])
    have ha0 : a = .nil := by
      rw [if_neg (by rw [hi]; decide)] at ha
      cases a with
      | nil => rfl
      | node j a k r => simp [AShows] at ha
    subst ha0
    have hne : ∀ x ∈ k.ids, x ∉ [i] := by
      intro x hx hx2
      simp at hx2
      subst hx2
      exact hk.not_below hx
    have hk' : AShows (own h d [i]) (h0.at' i).first k := by rw [hl i]; exact hk.of_own
    have e2 := setDoc_list d k (own h d [i]) _ fuel hk' (closed_fresh hne hc.2.2.1) (by omega)
    rw [← setList_run hk'] at e2
    rw [ATrees.roots, forM_cons_run, bind_run updNode_own, e2, own_own]
    simp only []
    have cr : OwnClosed (own h d (i :: (ATrees.nil.ids ++ k.ids))) d r := closed_own (downClosed_node ha hk) hr hc.2.2.2
    have hown : own h d ([i] ++ k.ids) = own h d (i :: (ATrees.nil.ids ++ k.ids)) := by simp [ATrees.ids]
    rw [hown]
    rw [setDoc_attrs d r h0 _ _ fuel hr.of_own (fun x hx => by
        have := hat x (by simp [ATrees.roots, hx])
        simp only [own]
        split <;> exact this) cr (by omega) (fun x => by
        rw [hl x]
        simp only [own]
        split <;> rfl), own_own]
    simp [ATrees.ids]
end

/-- one node with everything below it. -/
theorem setDoc_node (d : Option Nat) {a k : ATrees} {h : Heap} {i fuel : Nat} (ha : AShows h (AShows.propsOf h i) a)
    (hak : ∀ x ∈ a.roots, (h.at' x).kind = .attr) (hk : AShows h (h.at' i).first k)
    (hc0 : (h.at' i).doc = d → ∀ x ∈ a.ids ++ k.ids, (h.at' x).doc = d) (hca : OwnClosed h d a) (hck : OwnClosed h d k)
    (hfa : a.depth ≤ fuel) (hfk : k.depth ≤ fuel) :
    setTreeDoc d (fuel + 1) i h = .ok () (own h d (i :: (a.ids ++ k.ids))) := by
  unfold AShows.propsOf at ha
  unfold setTreeDoc
  simp only [get_bind]
  by_cases hd : (h.at' i).doc = d
  · rw [if_pos hd, own_id]
    · rfl
    · intro x hx
      rcases List.mem_cons.1 hx with rfl | hx
      · exact hd
      · exact hc0 hd x hx
  · rw [if_neg hd]
    have ck : OwnClosed (own h d a.ids) d k := closed_own (downClosed_ids ha) hk hck
    have hk' : AShows (own h d a.ids) (h.at' i).first k := hk.of_own
    have e2 := setDoc_list d k (own h d a.ids) _ fuel hk' ck hfk
    rw [← setList_run hk'] at e2
    have hlast : own (own (own h d a.ids) d k.ids) d [i] = own h d (i :: (a.ids ++ k.ids)) := by
      rw [own_own, own_own]
      apply own_congr
      intro x
      simp [or_comm, or_left_comm]
    by_cases he : (h.at' i).kind = .element
    · rw [if_pos he] at ha ⊢
      rw [ha.chain_eq]
      simp only []
      rw [bind_run (setDoc_attrs d a h h _ fuel ha hak hca (by omega) (fun _ => rfl)), bind_run e2, updNode_own, hlast]
    · rw [if_neg he] at ha ⊢
      have ha0 : a = .nil := by
        cases a with
        | nil => rfl
        | node j a k r => simp [AShows] at ha
      subst ha0
      have h0 : own h d ATrees.nil.ids = h := own_id (by intro x hx; simp [ATrees.ids] at hx)
      rw [h0] at e2 hlast
      rw [bind_run e2, updNode_own, hlast]

theorem Spec.AShows.depth_size {h : Heap} {k : ATrees} {s : Option Nat} (H : AShows h s k) : k.depth ≤ h.size := by
  have := H.depth_le (List.range h.size) List.nodup_range (fun i hi => List.mem_range.2 (H.alloc i hi))
  simpa using this

end Helium
