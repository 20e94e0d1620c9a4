import Verif.Lemmas.LinkAttr
import Verif.Spec.Dom
/-! Link fields after changing one link field. -/
namespace Helium
open Spec
theorem at'_upd (h : Heap) (i : Nat) (f : Node → Node) (j : Nat) : (h.upd i f).at' j = if j = i then f (h.at' i) else h.at' j := rfl
@[lnk] theorem size_upd (h : Heap) (i : Nat) (f : Node → Node) : (h.upd i f).size = h.size := rfl

@[lnk] theorem first_set_first (h : Heap) (i : Nat) (v : Option Nat) (x : Nat) :
    ((h.upd i (fun y => { y with first := v })).at' x).first = if x = i then v else (h.at' x).first := by
  simp only [at'_upd]; split <;> simp_all
@[lnk] theorem last_set_first (h : Heap) (i : Nat) (v : Option Nat) (x : Nat) :
    ((h.upd i (fun y => { y with first := v })).at' x).last = (h.at' x).last := by
  simp only [at'_upd]; split <;> simp_all
@[lnk] theorem next_set_first (h : Heap) (i : Nat) (v : Option Nat) (x : Nat) :
    ((h.upd i (fun y => { y with first := v })).at' x).next = (h.at' x).next := by
  simp only [at'_upd]; split <;> simp_all
@[lnk] theorem prev_set_first (h : Heap) (i : Nat) (v : Option Nat) (x : Nat) :
    ((h.upd i (fun y => { y with first := v })).at' x).prev = (h.at' x).prev := by
  simp only [at'_upd]; split <;> simp_all
@[lnk] theorem parent_set_first (h : Heap) (i : Nat) (v : Option Nat) (x : Nat) :
    ((h.upd i (fun y => { y with first := v })).at' x).parent = (h.at' x).parent := by
  simp only [at'_upd]; split <;> simp_all
@[lnk] theorem info_set_first (h : Heap) (i : Nat) (v : Option Nat) (x : Nat) :
    info ((h.upd i (fun y => { y with first := v })).at' x) = info (h.at' x) := by
  simp only [at'_upd]; split <;> simp_all [info]
@[lnk] theorem kind_set_first (h : Heap) (i : Nat) (v : Option Nat) (x : Nat) :
    ((h.upd i (fun y => { y with first := v })).at' x).kind = (h.at' x).kind := by
  simp only [at'_upd]; split <;> simp_all
theorem other_set_first (h : Heap) (i : Nat) (v : Option Nat) (x : Nat) (hx : x ≠ i) :
    (h.upd i (fun y => { y with first := v })).at' x = h.at' x := by
  simp [at'_upd, hx]
@[lnk] theorem first_set_last (h : Heap) (i : Nat) (v : Option Nat) (x : Nat) :
    ((h.upd i (fun y => { y with last := v })).at' x).first = (h.at' x).first := by
  simp only [at'_upd]; split <;> simp_all
@[lnk] theorem last_set_last (h : Heap) (i : Nat) (v : Option Nat) (x : Nat) :
    ((h.upd i (fun y => { y with last := v })).at' x).last = if x = i then v else (h.at' x).last := by
  simp only [at'_upd]; split <;> simp_all
@[lnk] theorem next_set_last (h : Heap) (i : Nat) (v : Option Nat) (x : Nat) :
    ((h.upd i (fun y => { y with last := v })).at' x).next = (h.at' x).next := by
  simp only [at'_upd]; split <;> simp_all
@[lnk] theorem prev_set_last (h : Heap) (i : Nat) (v : Option Nat) (x : Nat) :
    ((h.upd i (fun y => { y with last := v })).at' x).prev = (h.at' x).prev := by
  simp only [at'_upd]; split <;> simp_all
@[lnk] theorem parent_set_last (h : Heap) (i : Nat) (v : Option Nat) (x : Nat) :
    ((h.upd i (fun y => { y with last := v })).at' x).parent = (h.at' x).parent := by
  simp only [at'_upd]; split <;> simp_all
@[lnk] theorem info_set_last (h : Heap) (i : Nat) (v : Option Nat) (x : Nat) :
    info ((h.upd i (fun y => { y with last := v })).at' x) = info (h.at' x) := by
  simp only [at'_upd]; split <;> simp_all [info]
@[lnk] theorem kind_set_last (h : Heap) (i : Nat) (v : Option Nat) (x : Nat) :
    ((h.upd i (fun y => { y with last := v })).at' x).kind = (h.at' x).kind := by
  simp only [at'_upd]; split <;> simp_all
theorem other_set_last (h : Heap) (i : Nat) (v : Option Nat) (x : Nat) (hx : x ≠ i) :
    (h.upd i (fun y => { y with last := v })).at' x = h.at' x := by
  simp [at'_upd, hx]
@[lnk] theorem first_set_next (h : Heap) (i : Nat) (v : Option Nat) (x : Nat) :
    ((h.upd i (fun y => { y with next := v })).at' x).first = (h.at' x).first := by
  simp only [at'_upd]; split <;> simp_all
@[lnk] theorem last_set_next (h : Heap) (i : Nat) (v : Option Nat) (x : Nat) :
    ((h.upd i (fun y => { y with next := v })).at' x).last = (h.at' x).last := by
  simp only [at'_upd]; split <;> simp_all
@[lnk] theorem next_set_next (h : Heap) (i : Nat) (v : Option Nat) (x : Nat) :
    ((h.upd i (fun y => { y with next := v })).at' x).next = if x = i then v else (h.at' x).next := by
  simp only [at'_upd]; split <;> simp_all
@[lnk] theorem prev_set_next (h : Heap) (i : Nat) (v : Option Nat) (x : Nat) :
    ((h.upd i (fun y => { y with next := v })).at' x).prev = (h.at' x).prev := by
  simp only [at'_upd]; split <;> simp_all
@[lnk] theorem parent_set_next (h : Heap) (i : Nat) (v : Option Nat) (x : Nat) :
    ((h.upd i (fun y => { y with next := v })).at' x).parent = (h.at' x).parent := by
  simp only [at'_upd]; split <;> simp_all
@[lnk] theorem info_set_next (h : Heap) (i : Nat) (v : Option Nat) (x : Nat) :
    info ((h.upd i (fun y => { y with next := v })).at' x) = info (h.at' x) := by
  simp only [at'_upd]; split <;> simp_all [info]
@[lnk] theorem kind_set_next (h : Heap) (i : Nat) (v : Option Nat) (x : Nat) :
    ((h.upd i (fun y => { y with next := v })).at' x).kind = (h.at' x).kind := by
  simp only [at'_upd]; split <;> simp_all
theorem other_set_next (h : Heap) (i : Nat) (v : Option Nat) (x : Nat) (hx : x ≠ i) :
    (h.upd i (fun y => { y with next := v })).at' x = h.at' x := by
  simp [at'_upd, hx]
@[lnk] theorem first_set_prev (h : Heap) (i : Nat) (v : Option Nat) (x : Nat) :
    ((h.upd i (fun y => { y with prev := v })).at' x).first = (h.at' x).first := by
  simp only [at'_upd]; split <;> simp_all
@[lnk] theorem last_set_prev (h : Heap) (i : Nat) (v : Option Nat) (x : Nat) :
    ((h.upd i (fun y => { y with prev := v })).at' x).last = (h.at' x).last := by
  simp only [at'_upd]; split <;> simp_all
@[lnk] theorem next_set_prev (h : Heap) (i : Nat) (v : Option Nat) (x : Nat) :
    ((h.upd i (fun y => { y with prev := v })).at' x).next = (h.at' x).next := by
  simp only [at'_upd]; split <;> simp_all
@[lnk] theorem prev_set_prev (h : Heap) (i : Nat) (v : Option Nat) (x : Nat) :
    ((h.upd i (fun y => { y with prev := v })).at' x).prev = if x = i then v else (h.at' x).prev := by
  simp only [at'_upd]; split <;> simp_all
@[lnk] theorem parent_set_prev (h : Heap) (i : Nat) (v : Option Nat) (x : Nat) :
    ((h.upd i (fun y => { y with prev := v })).at' x).parent = (h.at' x).parent := by
  simp only [at'_upd]; split <;> simp_all
@[lnk] theorem info_set_prev (h : Heap) (i : Nat) (v : Option Nat) (x : Nat) :
    info ((h.upd i (fun y => { y with prev := v })).at' x) = info (h.at' x) := by
  simp only [at'_upd]; split <;> simp_all [info]
@[lnk] theorem kind_set_prev (h : Heap) (i : Nat) (v : Option Nat) (x : Nat) :
    ((h.upd i (fun y => { y with prev := v })).at' x).kind = (h.at' x).kind := by
  simp only [at'_upd]; split <;> simp_all
theorem other_set_prev (h : Heap) (i : Nat) (v : Option Nat) (x : Nat) (hx : x ≠ i) :
    (h.upd i (fun y => { y with prev := v })).at' x = h.at' x := by
  simp [at'_upd, hx]
@[lnk] theorem first_set_parent (h : Heap) (i : Nat) (v : Option Nat) (x : Nat) :
    ((h.upd i (fun y => { y with parent := v })).at' x).first = (h.at' x).first := by
  simp only [at'_upd]; split <;> simp_all
@[lnk] theorem last_set_parent (h : Heap) (i : Nat) (v : Option Nat) (x : Nat) :
    ((h.upd i (fun y => { y with parent := v })).at' x).last = (h.at' x).last := by
  simp only [at'_upd]; split <;> simp_all
@[lnk] theorem next_set_parent (h : Heap) (i : Nat) (v : Option Nat) (x : Nat) :
    ((h.upd i (fun y => { y with parent := v })).at' x).next = (h.at' x).next := by
  simp only [at'_upd]; split <;> simp_all
@[lnk] theorem prev_set_parent (h : Heap) (i : Nat) (v : Option Nat) (x : Nat) :
    ((h.upd i (fun y => { y with parent := v })).at' x).prev = (h.at' x).prev := by
  simp only [at'_upd]; split <;> simp_all
@[lnk] theorem parent_set_parent (h : Heap) (i : Nat) (v : Option Nat) (x : Nat) :
    ((h.upd i (fun y => { y with parent := v })).at' x).parent = if x = i then v else (h.at' x).parent := by
  simp only [at'_upd]; split <;> simp_all
@[lnk] theorem info_set_parent (h : Heap) (i : Nat) (v : Option Nat) (x : Nat) :
    info ((h.upd i (fun y => { y with parent := v })).at' x) = info (h.at' x) := by
  simp only [at'_upd]; split <;> simp_all [info]
@[lnk] theorem kind_set_parent (h : Heap) (i : Nat) (v : Option Nat) (x : Nat) :
    ((h.upd i (fun y => { y with parent := v })).at' x).kind = (h.at' x).kind := by
  simp only [at'_upd]; split <;> simp_all
theorem other_set_parent (h : Heap) (i : Nat) (v : Option Nat) (x : Nat) (hx : x ≠ i) :
    (h.upd i (fun y => { y with parent := v })).at' x = h.at' x := by
  simp [at'_upd, hx]
end Helium
