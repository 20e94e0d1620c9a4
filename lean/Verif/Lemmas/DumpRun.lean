import Verif.Model.Dump
import Verif.Spec.Tree
import Verif.Lemmas.Forward
import Verif.Lemmas.AttrRun
import Verif.Lemmas.Shows
/-! What the serialiser writes for a heap that holds a tree. -/
namespace Helium
open Spec

/-! ### values -/

/-- the text an attribute value stands for: `&#38;` is an ampersand. -/
def meant : Bytes → Bytes
  | 38 :: 35 :: 51 :: 56 :: 59 :: t => 38 :: meant t
  | c :: t => c :: meant t
  | [] => []

theorem meant_cons (c : Nat) (t : Bytes) (h : c ≠ 38) : meant (c :: t) = c :: meant t := by
  rw [meant]
  intro t' e1 _
  exact h e1

theorem meant_append (a t : Bytes) (h : 38 ∉ a) : meant (a ++ t) = a ++ meant t := by
  induction a with
  | nil => rfl
  | cons c a ih =>
    rw [List.cons_append, meant_cons _ _ (fun e => h (by simp [e])), ih (fun hm => h (by simp [hm]))]
    rfl

theorem Spec.StandsFor.meant_eq {v w : Bytes} (h : StandsFor v w) : meant v = w := by
  obtain ⟨rs, ts, _, ha, rfl, rfl⟩ := h
  induction ha with
  | nil => rfl
  | char c rs ts hc _ ih =>
    rw [encodeRunes_cons, encodeRunes_cons, meant_append, ih (by intro r hr; rename_i hs; exact hs r (by simp [hr]))]
    rw [mem_encodeRune_ascii _ _ (by decide)]
    exact fun e => hc e.symm
  | amp rs ts _ ih =>
    show meant (38 :: 35 :: 51 :: 56 :: 59 :: encodeRunes rs) = 38 :: encodeRunes ts
    rw [meant, ih (by intro r hr; rename_i hs; exact hs r (by simp [hr]))]

/-! ### the text written for a tree -/

/-- name of an element in its tags. -/
def tagName (l p u : Bytes) : Bytes := if u ≠ [] ∧ p ≠ [] then p ++ 58 :: l else l

/-- an attribute. -/
def writeAttr (a : Bytes × Bytes) : Bytes := 32 :: (a.1 ++ b!"=\"") ++ escapeAttrValue (meant a.2) ++ [34]

/-- a list of trees. -/
def written : XTree → Bytes
  | .nil => []
  | .node (.text b) _ r => escapeText false b ++ written r
  | .node (.comment b) _ r => b!"<!--" ++ b ++ b!"-->" ++ written r
  | .node (.pi _ _) k r => b!"<>" ++ written k ++ b!"</>" ++ written r
  | .node (.dtd _ _ _) _ r => written r
  | .node (.ref _) _ r => written r
  | .node (.elem l p u nsd as) k r =>
    60 :: (tagName l p u ++ nsd.flatMap dumpNs ++ as.flatMap writeAttr ++
      (if k = .nil then b!"/>" else 62 :: (written k ++ b!"</" ++ tagName l p u ++ [62]))) ++ written r

/-- what follows the XML declaration: every child of the document ends its line. -/
def writtenTop : XTree → Bytes
  | .nil => []
  | .node d k r => written (.node d k .nil) ++ 10 :: writtenTop r

namespace Spec.XTree

/-- trees that can be written: no text is the word `textnoenc`, the values of attributes are known, and there is no document type declaration
and no reference to an entity. -/
def Dumpable : XTree → Prop
  | .nil => True
  | .node (.text b) k r => b ≠ b!"textnoenc" ∧ Dumpable k ∧ Dumpable r
  | .node (.comment _) k r => Dumpable k ∧ Dumpable r
  | .node (.pi _ _) k r => Dumpable k ∧ Dumpable r
  | .node (.dtd _ _ _) _ _ => False
  | .node (.ref _) _ _ => False
  | .node (.elem _ _ _ _ as) k r => (∀ a ∈ as, ∃ w, StandsFor a.2 w) ∧ Dumpable k ∧ Dumpable r

/-- nesting depth. -/
def depth : XTree → Nat
  | .nil => 0
  | .node _ k r => max (1 + k.depth) r.depth

end Spec.XTree

theorem XTree.Dumpable.kids {d : XData} {k r : XTree} (D : (XTree.node d k r).Dumpable) : k.Dumpable ∧ r.Dumpable ∧ ¬ d.shut = true := by
  cases d with
  | text b => exact ⟨D.2.1, D.2.2, nofun⟩
  | comment b => exact ⟨D.1, D.2, nofun⟩
  | pi t d => exact ⟨D.1, D.2, nofun⟩
  | elem l p u n as => exact ⟨D.2.1, D.2.2, nofun⟩
  | dtd => exact absurd D id
  | ref => exact absurd D id

/-- the tree held by the heap as a tree of node numbers. -/
theorem holds_shows {h : Heap} : ∀ (t : XTree) {p : Nat} {l : List Nat} (_ : ChildList h p l) (a b : List Nat), l = a ++ b →
    HoldsTrees h b t → t.Dumpable → ∃ T, Shows h b.head? T ∧ T.depth = t.depth
  | .nil, p, l, C, a, [], hl, H, _ => ⟨.nil, rfl, rfl⟩
  | .nil, p, l, C, a, i :: b, hl, H, _ => by simp [HoldsTrees] at H
  | .node d k r, p, l, C, a, [], hl, H, _ => by simp [HoldsTrees] at H
  | .node d k r, p, l, C, a, i :: b, hl, H, D => by
    obtain ⟨D1, D2, D3⟩ := XTree.Dumpable.kids D
    simp only [HoldsTrees, if_neg D3] at H
    obtain ⟨_, ⟨m, hm, hk⟩, hr⟩ := H
    obtain ⟨T1, s1, d1⟩ := holds_shows k hm [] m rfl hk D1
    obtain ⟨T2, s2, d2⟩ := holds_shows r C (a ++ [i]) b (by rw [hl]; simp) hr D2
    refine ⟨.node i T1 T2, ⟨rfl, C.alloc i (by rw [hl]; simp), ?_, ?_⟩, ?_⟩
    · rw [hm.first]; exact s1
    · rw [C.next a i b hl]; exact s2
    · simp only [Trees.depth, XTree.depth, d1, d2]

theorem holds_depth {h : Heap} {t : XTree} {p : Nat} {l : List Nat} (C : ChildList h p l) (H : HoldsTrees h l t) (D : t.Dumpable) : t.depth ≤ h.size := by
  obtain ⟨T, s, d⟩ := holds_shows t C [] l rfl H D
  have := s.depth_le (List.range h.size) List.nodup_range (fun i hi => List.mem_range.2 (s.alloc i hi))
  rw [← d]
  simpa using this

/-! ### running the serialiser -/

theorem emit_bind {β : Type} (s : Bytes) (f : Unit → DM β) (o : Bytes) : (emit s >>= f) o = f () (o ++ s) := rfl
theorem emit_run (s o : Bytes) : emit s o = .ok () (o ++ s) := rfl

theorem forChain_run {h : Heap} {s : Option Nat} {l : List Nat} (hc : chain h (h.size + 1) s = some l) (f : Nat → DM Unit) (o : Bytes) :
    forChain h s f o = l.forM f o := by
  unfold forChain
  rw [hc]

/-- a list of steps that each write something. -/
theorem forM_emit {α : Type} {f : α → DM Unit} : ∀ (l : List α) (g : α → Bytes), (∀ x ∈ l, ∀ o, f x o = .ok () (o ++ g x)) → ∀ o,
    l.forM f o = .ok () (o ++ l.flatMap g)
  | [], g, _, o => by simp [pure_run]
  | x :: l, g, hf, o => by
    rw [forM_cons_run, hf x (by simp)]
    simp only
    rw [forM_emit l g (fun y hy => hf y (by simp [hy]))]
    simp

/-- the value of one attribute. -/
theorem attrValue_run {h : Heap} {x : Nat} {w : Bytes} (H : HoldsText (fun _ => True) h x w) (f : Nat → DM Unit) (o : Bytes) :
    forChain h (h.at' x).first (fun c => if (h.at' c).kind = .text then emit (escapeAttrValue (h.at' c).content) else f c) o =
      .ok () (o ++ escapeAttrValue w) := by
  rcases H with ⟨rfl, h1⟩ | ⟨t, _, h1, h2, h3, h4, h5⟩
  · rw [h1]
    simp [forChain, chain, pure_run, escapeAttrValue, escLoop]
  · have hs : 0 < h.size := by omega
    obtain ⟨n, hn⟩ : ∃ n, h.size = n + 1 := ⟨h.size - 1, by omega⟩
    rw [h2, forChain_run (l := [t]) (by simp [chain, h4])]
    rw [forM_cons_run, if_pos h3, emit_run, h5]
    rfl

theorem attrs_run {h : Heap} (f : Nat → DM Unit) : ∀ (l : List Nat) (as : List (Bytes × Bytes)), HoldsAttrs (fun _ => True) h l as →
    (∀ a ∈ as, ∃ w, StandsFor a.2 w) → ∀ o, (l.forM (fun a => (do
        emit (32 :: ((h.at' a).name ++ b!"=\""))
        forChain h (h.at' a).first (fun c =>
          if (h.at' c).kind = .text then emit (escapeAttrValue (h.at' c).content) else f c)
        emit [34] : DM Unit)) : DM Unit) o = .ok () (o ++ as.flatMap writeAttr)
  | [], [], _, _, o => by simp [pure_run]
  | [], _ :: _, H, _, _ => by simp [HoldsAttrs] at H
  | _ :: _, [], H, _, _ => by simp [HoldsAttrs] at H
  | x :: l, a :: as, H, hw, o => by
    simp only [HoldsAttrs] at H
    obtain ⟨_, h2, _, h4, h5⟩ := H
    obtain ⟨w, hs⟩ := hw a (by simp)
    rw [forM_cons_run, emit_bind, bind_run (attrValue_run (h4 w hs) f _), emit_run]
    simp only
    rw [attrs_run f l as h5 (fun a ha => hw a (by simp [ha]))]
    simp [writeAttr, h2, hs.meant_eq]

theorem holds_first {h : Heap} {p : Nat} {m : List Nat} {k : XTree} (C : ChildList h p m) (H : HoldsTrees h m k) : (h.at' p).first = none ↔ k = .nil := by
  rw [C.first]
  cases m with
  | nil => cases k <;> simp [HoldsTrees] at H ⊢
  | cons i m => cases k <;> simp [HoldsTrees] at H ⊢

/-- **the serialiser writes `written`**. -/
theorem dump_run {h : Heap} : ∀ (t : XTree) (l : List Nat) (fuel : Nat), HoldsTrees h l t → t.Dumpable → t.depth ≤ fuel → ∀ o,
    l.forM (dumpNode h fuel) o = .ok () (o ++ written t)
  | .nil, [], _, _, _, _, o => by simp [written, pure_run]
  | .nil, i :: l, _, H, _, _, _ => by simp [HoldsTrees] at H
  | .node d k r, [], _, H, _, _, _ => by simp [HoldsTrees] at H
  | .node d k r, i :: l, 0, H, _, hf, _ => by simp only [XTree.depth] at hf; omega
  | .node d k r, i :: l, fuel + 1, H, D, hf, o => by
    simp only [HoldsTrees, if_neg (XTree.Dumpable.kids D).2.2] at H
    simp only [XTree.depth] at hf
    obtain ⟨hd, ⟨m, hm, hk⟩, hr⟩ := H
    have ihr := dump_run r l (fuel + 1) hr
    have ihk := dump_run k m fuel hk
    rw [forM_cons_run]
    cases d with
    | text b =>
      obtain ⟨h1, h2⟩ := hd
      obtain ⟨D1, _, D2⟩ := D
      rw [show dumpNode h (fuel + 1) i o = .ok () (o ++ escapeText false b) from by
        unfold dumpNode
        simp only [h1, h2, if_neg D1, emit_run]]
      simp only
      rw [ihr D2 (by omega)]
      simp [written]
    | comment b =>
      obtain ⟨h1, h2⟩ := hd
      rw [show dumpNode h (fuel + 1) i o = .ok () (o ++ (b!"<!--" ++ b ++ b!"-->")) from by
        unfold dumpNode
        simp only [h1, h2, emit_run]]
      simp only
      rw [ihr D.2 (by omega)]
      simp [written]
    | pi tg dt =>
      obtain ⟨h1, h2, h3, h4, h5⟩ := hd
      obtain ⟨D1, D2⟩ := D
      rw [show dumpNode h (fuel + 1) i o = .ok () (o ++ (b!"<>" ++ written k ++ b!"</>")) from by
        unfold dumpNode
        simp only [h1]
        rw [emit_bind, emit_bind, bind_run (by rw [forChain_run hm.chain_eq]; exact ihk D1 (by omega) _), emit_run]
        simp [dumpName, Node.fullName, h4, h5]]
      simp only
      rw [ihr D2 (by omega)]
      simp [written]
    | dtd => exact absurd D id
    | ref => exact absurd D id
    | elem ln p u nsd as =>
      obtain ⟨h1, h2, h3, h4, _, pm, h6, h7⟩ := hd
      obtain ⟨D1, D2, D3⟩ := D
      have hn : dumpName (h.at' i) = tagName ln p u := by
        unfold dumpName Node.fullName tagName
        rw [h3, h2, h1]
        by_cases hu : u = []
        · simp [hu]
        · by_cases hp : p = []
          · simp [hu, hp]
          · simp [hu, hp]
      rw [show dumpNode h (fuel + 1) i o = .ok () (o ++ (60 :: (tagName ln p u ++ nsd.flatMap dumpNs ++ as.flatMap writeAttr ++
          (if k = .nil then b!"/>" else 62 :: (written k ++ b!"</" ++ tagName ln p u ++ [62]))))) from by
        unfold dumpNode
        simp only [h1, hn, h4]
        rw [emit_bind, emit_bind, bind_run (by rw [forChain_run (h6.chain_eq (Nat.le_refl _))]; exact attrs_run _ pm as h7 D1 _)]
        by_cases hkn : k = .nil
        · rw [if_pos ((holds_first hm hk).2 hkn), if_pos hkn, emit_run]
          simp
        · rw [if_neg (fun e => hkn ((holds_first hm hk).1 e)), if_neg hkn]
          rw [emit_bind, bind_run (by rw [forChain_run hm.chain_eq]; exact ihk D2 (by omega) _), emit_run]
          simp]
      simp only
      rw [ihr D3 (by omega)]
      simp [written]

theorem XTree.Dumpable.head {d : XData} {k r : XTree} (D : (XTree.node d k r).Dumpable) :
    (XTree.node d k .nil).Dumpable ∧ r.Dumpable := by
  cases d with
  | text b => exact ⟨⟨D.1, D.2.1, trivial⟩, D.2.2⟩
  | comment b => exact ⟨⟨D.1, trivial⟩, D.2⟩
  | dtd => exact absurd D id
  | ref => exact absurd D id
  | pi t d => exact ⟨⟨D.1, trivial⟩, D.2⟩
  | elem l p u n as => exact ⟨⟨D.1, D.2.1, trivial⟩, D.2.2⟩

theorem dumpTop_run {h : Heap} (f : Nat) : ∀ (t : XTree) (l : List Nat), HoldsTrees h l t → t.Dumpable → t.depth ≤ f → ∀ o,
    (l.forM (fun c => (do
      dumpNode h f c
      emit [10] : DM Unit)) : DM Unit) o = .ok () (o ++ writtenTop t)
  | .nil, [], _, _, _, o => by simp [writtenTop, pure_run]
  | .nil, i :: l, H, _, _, _ => by simp [HoldsTrees] at H
  | .node d k r, [], H, _, _, _ => by simp [HoldsTrees] at H
  | .node d k r, i :: l, H, D, hf, o => by
    unfold HoldsTrees at H
    simp only [XTree.depth] at hf
    obtain ⟨hd, hk, hr⟩ := H
    have ih := dumpTop_run f r l hr (XTree.Dumpable.head D).2 (by omega)
    have h1 := dump_run (.node d k .nil) [i] f ⟨hd, hk, trivial⟩ (XTree.Dumpable.head D).1 (by simp only [XTree.depth]; omega) o
    rw [forM_cons_run] at h1
    have h2 : dumpNode h f i o = .ok () (o ++ written (.node d k .nil)) := by
      cases hq : dumpNode h f i o with
      | ok a o' => rw [hq] at h1; exact h1
      | err e o' => rw [hq] at h1; cases h1
      | panic => rw [hq] at h1; cases h1
      | diverge => rw [hq] at h1; cases h1
    rw [forM_cons_run, bind_run h2, emit_run]
    simp only
    rw [ih]
    simp [writtenTop]

/-- **the serialiser on a document**. -/
theorem xmlString_run {h : Heap} {d : Nat} {t : XTree} (H : HoldsDoc h d t) (D : t.Dumpable) :
    xmlString h d = .ok () (dumpDocContent (h.at' d) ++ writtenTop t) := by
  obtain ⟨hk, m, hm, ht⟩ := H
  unfold xmlString dumpDoc
  rw [show ∀ f : Unit → DM Unit, (dumpNode h (h.size + 1) d >>= f) [] = f () (dumpDocContent (h.at' d)) from fun f => by
    have : dumpNode h (h.size + 1) d [] = .ok () (dumpDocContent (h.at' d)) := by
      unfold dumpNode
      simp only [hk, emit_run, List.nil_append]
    rw [bind_run this]]
  rw [forChain_run hm.chain_eq]
  exact dumpTop_run _ t m ht D (by have := holds_depth hm ht D; omega) _

end Helium
