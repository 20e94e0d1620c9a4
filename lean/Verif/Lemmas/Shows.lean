import Verif.Lemmas.HeapOps
/-! Trees shown by the heap: pointers determine the tree, so nothing is its own descendant or later sibling, and the step budgets of
the model (`size + 1`) always suffice. -/
namespace Helium
open Spec

theorem Spec.Shows.unique {h : Heap} : ∀ {t t' : Trees} {s : Option Nat}, Shows h s t → Shows h s t' → t = t'
  | .nil, .nil, _, _, _ => rfl
  | .nil, .node i k r, s, h1, h2 => by
    simp only [Shows] at h1 h2
    rw [h1] at h2
    exact absurd h2.1 (by simp)
  | .node i k r, .nil, s, h1, h2 => by
    simp only [Shows] at h1 h2
    rw [h2] at h1
    exact absurd h1.1 (by simp)
  | .node i k r, .node i' k' r', s, h1, h2 => by
    simp only [Shows] at h1 h2
    obtain ⟨e1, _, a1, b1⟩ := h1
    obtain ⟨e2, _, a2, b2⟩ := h2
    rw [e1] at e2
    cases e2
    rw [Shows.unique a1 a2, Shows.unique b1 b2]

namespace Spec.Trees

/-- number of nodes. -/
def count : Trees → Nat
  | nil => 0
  | node _ k r => 1 + k.count + r.count

/-- nesting depth. -/
def depth : Trees → Nat
  | nil => 0
  | node _ k r => max (1 + k.depth) r.depth

end Spec.Trees

theorem Spec.Shows.alloc {h : Heap} : ∀ {t : Trees} {s : Option Nat}, Shows h s t → ∀ i ∈ t.ids, i < h.size
  | .nil, _, _, i, hi => by simp [Trees.ids] at hi
  | .node j k r, s, h1, i, hi => by
    simp only [Shows] at h1
    simp only [Trees.ids, List.mem_cons, List.mem_append] at hi
    rcases hi with rfl | hi | hi
    · exact h1.2.1
    · exact Shows.alloc h1.2.2.1 i hi
    · exact Shows.alloc h1.2.2.2 i hi

/-- a node that occurs heads a part of the tree. -/
theorem Spec.Shows.sub {h : Heap} : ∀ {t : Trees} {s : Option Nat}, Shows h s t → ∀ i ∈ t.ids,
    ∃ k r, Shows h (h.at' i).first k ∧ Shows h (h.at' i).next r ∧ (Trees.node i k r).count ≤ t.count
  | .nil, _, _, i, hi => by simp [Trees.ids] at hi
  | .node j k r, s, h1, i, hi => by
    simp only [Shows] at h1
    simp only [Trees.ids, List.mem_cons, List.mem_append] at hi
    rcases hi with rfl | hi | hi
    · exact ⟨k, r, h1.2.2.1, h1.2.2.2, Nat.le_refl _⟩
    · obtain ⟨k', r', a, b, c⟩ := Shows.sub h1.2.2.1 i hi
      exact ⟨k', r', a, b, by simp only [Trees.count] at c ⊢; omega⟩
    · obtain ⟨k', r', a, b, c⟩ := Shows.sub h1.2.2.2 i hi
      exact ⟨k', r', a, b, by simp only [Trees.count] at c ⊢; omega⟩

/-- no node is its own descendant. -/
theorem Spec.Shows.not_below {h : Heap} {i : Nat} {k : Trees} (hk : Shows h (h.at' i).first k) : i ∉ k.ids := by
  intro hi
  obtain ⟨k', r', a, b, c⟩ := Shows.sub hk i hi
  have := Shows.unique hk a
  subst this
  simp only [Trees.count] at c
  omega

/-- no node is its own later sibling or below one. -/
theorem Spec.Shows.not_after {h : Heap} {i : Nat} {r : Trees} (hr : Shows h (h.at' i).next r) : i ∉ r.ids := by
  intro hi
  obtain ⟨k', r', a, b, c⟩ := Shows.sub hr i hi
  have := Shows.unique hr b
  subst this
  simp only [Trees.count] at c
  omega

theorem Spec.Trees.roots_ids : ∀ {t : Trees} {i : Nat}, i ∈ t.roots → i ∈ t.ids
  | .nil, i, hi => by simp [Trees.roots] at hi
  | .node j k r, i, hi => by
    simp only [Trees.roots, List.mem_cons] at hi
    simp only [Trees.ids, List.mem_cons, List.mem_append]
    rcases hi with rfl | hi
    · exact Or.inl rfl
    · exact Or.inr (Or.inr (Trees.roots_ids hi))

theorem Spec.Shows.roots_nodup {h : Heap} : ∀ {t : Trees} {s : Option Nat}, Shows h s t → t.roots.Nodup
  | .nil, _, _ => by simp [Trees.roots]
  | .node j k r, s, h1 => by
    simp only [Shows] at h1
    simp only [Trees.roots, List.nodup_cons]
    exact ⟨fun hj => h1.2.2.2.not_after (Trees.roots_ids hj), Shows.roots_nodup h1.2.2.2⟩

theorem Spec.Shows.roots_length {h : Heap} {t : Trees} {s : Option Nat} (H : Shows h s t) : t.roots.length ≤ h.size := by
  have h1 : t.roots.Subperm (List.range h.size) := by
    apply List.subperm_of_subset H.roots_nodup
    intro c hc
    exact List.mem_range.2 (H.alloc c (Trees.roots_ids hc))
  simpa using h1.length_le

theorem Spec.Shows.depth_le {h : Heap} : ∀ {t : Trees} {s : Option Nat}, Shows h s t → ∀ S : List Nat, S.Nodup → (∀ i ∈ t.ids, i ∈ S) → t.depth ≤ S.length
  | .nil, _, _, S, _, _ => by simp [Trees.depth]
  | .node j k r, s, h1, S, hS, hsub => by
    simp only [Shows] at h1
    have hr := Shows.depth_le h1.2.2.2 S hS (fun i hi => hsub i (by simp [Trees.ids, hi]))
    have hj : j ∈ S := hsub j (by simp [Trees.ids])
    have hk := Shows.depth_le h1.2.2.1 (S.erase j) (hS.erase j) (fun i hi => by
      refine (List.mem_erase_of_ne ?_).2 (hsub i (by simp [Trees.ids, hi]))
      rintro rfl
      exact h1.2.2.1.not_below hi)
    have hlen := List.length_erase_of_mem hj
    have hpos : 0 < S.length := List.length_pos_of_mem hj
    simp only [Trees.depth]
    omega

/-- the children of one node: depth below it is bounded. -/
theorem Spec.Shows.depth_lt {h : Heap} {n : Nat} {k : Trees} (hn : n < h.size) (H : Shows h (h.at' n).first k) : k.depth < h.size := by
  have hd := H.depth_le ((List.range h.size).erase n) (List.nodup_range.erase n) (fun i hi => by
    refine (List.mem_erase_of_ne ?_).2 (List.mem_range.2 (H.alloc i hi))
    rintro rfl
    exact H.not_below hi)
  rw [List.length_erase_of_mem (List.mem_range.2 hn), List.length_range] at hd
  omega

theorem Spec.Shows.chain_from {h : Heap} : ∀ {t : Trees} {s : Option Nat} {f : Nat}, Shows h s t → t.roots.length ≤ f → chain h f s = some t.roots
  | .nil, s, f, h1, _ => by
    simp only [Shows] at h1
    subst h1
    cases f <;> rfl
  | .node i k r, s, 0, h1, hf => by simp [Trees.roots] at hf
  | .node i k r, s, f + 1, h1, hf => by
    simp only [Shows] at h1
    obtain ⟨rfl, _, a, b⟩ := h1
    have := Shows.chain_from (f := f) b (by simp only [Trees.roots, List.length_cons] at hf; omega)
    simp [chain, this, Trees.roots]

theorem Spec.Shows.chain_eq {h : Heap} {t : Trees} {s : Option Nat} (H : Shows h s t) : chain h (h.size + 1) s = some t.roots :=
  H.chain_from (by have := H.roots_length; omega)

theorem visit_append {τ : Type} (f : Nat → τ → Option Err × τ) (b : List Nat) : ∀ (a : List Nat) (t : τ),
    visit f (a ++ b) t = match visit f a t with
      | .ok _ t => visit f b t
      | .err e t => .err e t
      | .panic => .panic
      | .diverge => .diverge
  | [], t => rfl
  | i :: a, t => by
    simp only [List.cons_append, visit]
    cases hf : f i t with
    | mk o t' =>
      cases o with
      | some e => rfl
      | none => exact visit_append f b a t'

theorem forM_cons_run {τ α : Type} (g : α → M τ Unit) (x : α) (l : List α) (t : τ) : ((x :: l).forM g) t =
    match g x t with
    | .ok _ t => (l.forM g) t
    | .err e t => .err e t
    | .panic => .panic
    | .diverge => .diverge := by
  show M.bind (g x) (fun _ => l.forM g) t = _
  unfold M.bind
  cases g x t <;> rfl

theorem walk_list {τ : Type} (h : Heap) (f : Nat → τ → Option Err × τ) : ∀ (tr : Trees) (s : Option Nat) (fuel : Nat), Shows h s tr →
    tr.depth ≤ fuel → ∀ t, (tr.roots.forM (fun c => walk h f fuel c)) t = visit f tr.ids t
  | .nil, _, _, _, _, t => rfl
  | .node i k r, s, 0, _, hf, t => by simp only [Trees.depth] at hf; omega
  | .node i k r, s, fuel + 1, h1, hf, t => by
    simp only [Shows] at h1
    simp only [Trees.depth] at hf
    have hk := fun t => walk_list h f k _ fuel h1.2.2.1 (by omega) t
    have hr := fun t => walk_list h f r _ (fuel + 1) h1.2.2.2 (by omega) t
    simp only [Trees.roots, Trees.ids]
    rw [forM_cons_run]
    have hw : walk h f (fuel + 1) i t = visit f (i :: k.ids) t := by
      rw [walk]
      simp only [visit]
      cases hf : f i t with
      | mk o t' =>
        cases o with
        | some e => rfl
        | none =>
          simp only [h1.2.2.1.chain_eq]
          exact hk t'
    rw [hw, show i :: (k.ids ++ r.ids) = (i :: k.ids) ++ r.ids by simp, visit_append]
    cases visit f (i :: k.ids) t with
    | ok a t => exact hr t
    | err e t => rfl
    | panic => rfl
    | diverge => rfl

end Helium
