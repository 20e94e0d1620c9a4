import Verif.Lemmas.DumpRun
import Verif.Props.Tree
/-! Trees of documents without document type declaration; serialising them if some text is the word taken for a marker. -/
namespace Helium
open Spec

namespace Spec.XTree

/-- trees of parsed documents without document type declaration: only elements have children, all values have the property. -/
def Parsed (V : Bytes → Prop) : XTree → Prop
  | .nil => True
  | .node (.elem _ _ _ _ as) k r => (∀ a ∈ as, V a.2) ∧ Parsed V k ∧ Parsed V r
  | .node (.dtd _ _ _) _ _ => False
  | .node (.ref _) _ _ => False
  | .node _ k r => k = .nil ∧ Parsed V r

/-- no text is the word that the serialiser takes for a marker. -/
def NoMarker : XTree → Prop
  | .nil => True
  | .node (.text b) k r => b ≠ b!"textnoenc" ∧ NoMarker k ∧ NoMarker r
  | .node _ k r => NoMarker k ∧ NoMarker r

end Spec.XTree

theorem Spec.XTree.Parsed.dumpable : ∀ {x : XTree}, x.Parsed (fun v => ∃ w, StandsFor v w) → x.NoMarker → x.Dumpable
  | .nil, _, _ => trivial
  | .node (.text _) _ _, h1, h2 => ⟨h2.1, by rw [h1.1]; trivial, h1.2.dumpable h2.2.2⟩
  | .node (.comment _) _ _, h1, h2 => ⟨by rw [h1.1]; trivial, h1.2.dumpable h2.2⟩
  | .node (.pi _ _) _ _, h1, h2 => ⟨by rw [h1.1]; trivial, h1.2.dumpable h2.2⟩
  | .node (.dtd _ _ _) _ _, h1, _ => h1.elim
  | .node (.ref _) _ _, h1, _ => h1.elim
  | .node (.elem _ _ _ _ _) _ _, h1, h2 => ⟨h1.1, h1.2.1.dumpable h2.1, h1.2.2.dumpable h2.2⟩

/-- an element with known values. -/
def dataValues (V : Bytes → Prop) : XData → Prop
  | .elem _ _ _ _ as => ∀ a ∈ as, V a.2
  | _ => False

/-- a finished tree: an element, or a leaf that is not a document type declaration. -/
def goodHead (V : Bytes → Prop) (d : XData) (k : XTree) : Prop := (dataValues V d ∧ k.Parsed V) ∨ (k = .nil ∧ d.shut = false ∧ ∀ l p u n as, d ≠ .elem l p u n as)

theorem parsed_node {V : Bytes → Prop} {d : XData} {k r : XTree} : (XTree.node d k r).Parsed V ↔ goodHead V d k ∧ r.Parsed V := by
  cases d <;> simp only [XTree.Parsed, dataValues, goodHead, XData.shut]
  case elem =>
    refine ⟨fun h => ⟨.inl ⟨h.1, h.2.1⟩, h.2.2⟩, ?_⟩
    rintro ⟨h | ⟨_, _, h⟩, h2⟩
    · exact ⟨h.1, h.2, h2⟩
    · exact absurd rfl (h _ _ _ _ _)
  all_goals simp

theorem goodHead.noDtd {V : Bytes → Prop} {d : XData} {k : XTree} (D1 : goodHead V d k) : ¬ d.shut = true := by
  rcases D1 with ⟨D1, _⟩ | ⟨_, D1, _⟩
  · cases d <;> first | exact Bool.false_ne_true | exact D1.elim
  · rw [D1]; exact Bool.false_ne_true

theorem goodHead.kids {V : Bytes → Prop} {d : XData} {k : XTree} (D1 : goodHead V d k) : k.Parsed V := by
  rcases D1 with ⟨_, D1⟩ | ⟨rfl, _⟩
  · exact D1
  · trivial

theorem parsed_snoc {V : Bytes → Prop} {d : XData} {k : XTree} (hd : goodHead V d k) : ∀ {x : XTree}, x.Parsed V → (x.snoc d k).Parsed V
  | .nil, h => parsed_node.2 ⟨hd, h⟩
  | .node d0 k0 r, h => by
    obtain ⟨h1, h2⟩ := parsed_node.1 h
    exact parsed_node.2 ⟨h1, parsed_snoc hd h2⟩

theorem parsed_addText {V : Bytes → Prop} {b : Bytes} {x : XTree} (h : x.Parsed V) : (x.addText b).Parsed V := by
  fun_induction XTree.addText x b
  · exact ⟨rfl, trivial⟩
  · exact h
  · rename_i ih
    obtain ⟨h1, h3⟩ := parsed_node.1 h
    exact parsed_node.2 ⟨h1, ih h3⟩

/-- the tree read so far. -/
def GoodPartial (V : Bytes → Prop) (s : Partial) : Prop := s.top.Parsed V ∧ ∀ x ∈ s.inner, dataValues V x.1 ∧ x.2.Parsed V

theorem goodPartial_add {V : Bytes → Prop} {s : Partial} (h : GoodPartial V s) {d : XData} {k : XTree} (hd : goodHead V d k) :
    GoodPartial V (s.add d k) := by
  obtain ⟨i, t⟩ := s
  obtain ⟨h1, h2⟩ := h
  cases i with
  | nil => exact ⟨parsed_snoc hd h1, h2⟩
  | cons x r =>
    obtain ⟨k1, k2⟩ := List.forall_mem_cons.1 h2
    exact ⟨h1, List.forall_mem_cons.2 ⟨⟨k1.1, parsed_snoc hd k1.2⟩, k2⟩⟩

theorem goodPartial_step {V : Bytes → Prop} {s s' : Partial} {ev : Ev} (h : GoodPartial V s) (hd : ¬ IsDoctype ev) (hr : ∀ n, ev ≠ .reference n)
    (hv : ∀ l p u ns as, ev = .startElement l p u ns as → ∀ a ∈ givenAttrs as, V a.2) (hs : s.step ev = some s') : GoodPartial V s' := by
  cases ev <;> simp only [Partial.step] at hs <;> try (cases hs; exact h)
  case startElement l p u ns as =>
    cases hs
    exact ⟨h.1, List.forall_mem_cons.2 ⟨⟨hv l p u ns as rfl, trivial⟩, h.2⟩⟩
  case endElement =>
    obtain ⟨i, t⟩ := s
    cases i with
    | nil => cases hs
    | cons x r =>
      cases hs
      obtain ⟨k1, k2⟩ := List.forall_mem_cons.1 h.2
      exact goodPartial_add (s := ⟨r, t⟩) ⟨h.1, k2⟩ (.inl k1)
  case comment => cases hs; exact goodPartial_add h (.inr ⟨rfl, rfl, nofun⟩)
  case pi => cases hs; exact goodPartial_add h (.inr ⟨rfl, rfl, nofun⟩)
  case internalSubset => exact absurd trivial hd
  case reference => exact absurd rfl (hr _)
  all_goals
    obtain ⟨i, t⟩ := s
    cases i with
    | nil => cases hs
    | cons x r =>
      cases hs
      obtain ⟨k1, k2⟩ := List.forall_mem_cons.1 h.2
      exact ⟨h.1, List.forall_mem_cons.2 ⟨⟨k1.1, parsed_addText k1.2⟩, k2⟩⟩

theorem goodPartial_steps {V : Bytes → Prop} : ∀ {evs : List Ev} {s s' : Partial}, GoodPartial V s → (∀ ev ∈ evs, ¬ IsDoctype ev) → (∀ n, .reference n ∉ evs) →
    (∀ l p u ns as, .startElement l p u ns as ∈ evs → ∀ a ∈ givenAttrs as, V a.2) → s.steps evs = some s' → GoodPartial V s'
  | [], s, s', h, _, _, _, hs => by cases hs; exact h
  | ev :: evs, s, s', h, hd, hr, hv, hs => by
    simp only [Partial.steps] at hs
    cases h1 : s.step ev with
    | none => rw [h1] at hs; cases hs
    | some t =>
      rw [h1] at hs
      exact goodPartial_steps (goodPartial_step h (hd ev List.mem_cons_self) (fun n he => hr n (by rw [he]; exact List.mem_cons_self))
        (fun l p u ns as he => hv l p u ns as (by rw [he]; exact List.mem_cons_self)) h1)
        (fun x hx => hd x (List.mem_cons_of_mem _ hx)) (fun n hx => hr n (List.mem_cons_of_mem _ hx)) (fun l p u ns as hx => hv l p u ns as (List.mem_cons_of_mem _ hx)) hs

theorem givenAttrs_source {as : List AttrD} {a : Bytes × Bytes} (h : a ∈ givenAttrs as) : ∃ q n, .parsed q n a.2 ∈ as := by
  fun_induction givenAttrs as
  · cases h
  · rename_i p l v as ih
    rcases List.mem_cons.1 h with rfl | h
    · exact ⟨p, l, List.mem_cons_self⟩
    · obtain ⟨q, n, h⟩ := ih h
      exact ⟨q, n, List.mem_cons_of_mem _ h⟩
  · rename_i ih
    obtain ⟨q, n, h⟩ := ih h
    exact ⟨q, n, List.mem_cons_of_mem _ h⟩

/-- the tree held by the heap as a tree of node numbers. -/
theorem parsed_shows {V : Bytes → Prop} {h : Heap} : ∀ (t : XTree) {p : Nat} {l : List Nat} (_ : ChildList h p l) (a b : List Nat), l = a ++ b →
    HoldsTrees h b t → t.Parsed V → ∃ T, Shows h b.head? T ∧ T.depth = t.depth
  | .nil, p, l, C, a, [], hl, H, _ => ⟨.nil, rfl, rfl⟩
  | .nil, p, l, C, a, i :: b, hl, H, _ => by simp [HoldsTrees] at H
  | .node d k r, p, l, C, a, [], hl, H, _ => by simp [HoldsTrees] at H
  | .node d k r, p, l, C, a, i :: b, hl, H, D => by
    obtain ⟨D1, D2⟩ := parsed_node.1 D
    simp only [HoldsTrees, if_neg D1.noDtd] at H
    obtain ⟨_, ⟨m, hm, hk⟩, hr⟩ := H
    obtain ⟨T1, s1, d1⟩ := parsed_shows k hm [] m rfl hk D1.kids
    obtain ⟨T2, s2, d2⟩ := parsed_shows r C (a ++ [i]) b (by rw [hl]; simp) hr D2
    refine ⟨.node i T1 T2, ⟨rfl, C.alloc i (by rw [hl]; simp), ?_, ?_⟩, ?_⟩
    · rw [hm.first]; exact s1
    · rw [C.next a i b hl]; exact s2
    · simp only [Trees.depth, XTree.depth, d1, d2]

theorem parsed_depth {V : Bytes → Prop} {h : Heap} {t : XTree} {p : Nat} {l : List Nat} (C : ChildList h p l) (H : HoldsTrees h l t)
    (D : t.Parsed V) : t.depth ≤ h.size := by
  obtain ⟨T, s, d⟩ := parsed_shows t C [] l rfl H D
  have := s.depth_le (List.range h.size) List.nodup_range (fun i hi => List.mem_range.2 (s.alloc i hi))
  rw [← d]
  simpa using this

/-- **the serialiser panics** if some text is the marker. -/
theorem dump_panics {h : Heap} : ∀ (t : XTree) (l : List Nat) (fuel : Nat), HoldsTrees h l t → t.Parsed (fun v => ∃ w, StandsFor v w) →
    ¬ t.NoMarker → t.depth ≤ fuel → ∀ o, l.forM (dumpNode h fuel) o = .panic
  | .nil, _, _, _, _, hn, _, o => absurd trivial hn
  | .node d k r, [], _, H, _, _, _, _ => by simp [HoldsTrees] at H
  | .node d k r, i :: l, 0, H, _, _, hf, _ => by simp only [XTree.depth] at hf; omega
  | .node d k r, i :: l, fuel + 1, H, D, hn, hf, o => by
    have H0 := H
    obtain ⟨D1, D2⟩ := parsed_node.1 D
    unfold HoldsTrees at H
    simp only [XTree.depth] at hf
    obtain ⟨hd, hk, hr⟩ := H
    rw [forM_cons_run]
    by_cases hh : (XTree.node d k .nil).NoMarker
    · have h1 := dump_run (.node d k .nil) [i] (fuel + 1) ⟨hd, hk, trivial⟩ (XTree.Parsed.dumpable (x := .node d k .nil) (parsed_node.2 ⟨D1, trivial⟩) hh)
        (by simp only [XTree.depth]; omega) o
      rw [forM_cons_run] at h1
      have h2 : dumpNode h (fuel + 1) i o = .ok () (o ++ written (.node d k .nil)) := by
        cases hq : dumpNode h (fuel + 1) i o with
        | ok a o' => rw [hq] at h1; exact h1
        | err e o' => rw [hq] at h1; cases h1
        | panic => rw [hq] at h1; cases h1
        | diverge => rw [hq] at h1; cases h1
      rw [h2]
      refine dump_panics r l (fuel + 1) hr D2 (fun hr' => hn ?_) (by omega) _
      cases d <;> first | exact ⟨hh.1, hr'⟩ | exact ⟨hh.1, hh.2.1, hr'⟩
    · suffices hp : dumpNode h (fuel + 1) i o = .panic by rw [hp]
      have hnd := D1.noDtd
      rw [if_neg hnd] at hk
      obtain ⟨m, hm, hk⟩ := hk
      cases d with
      | dtd => exact absurd rfl hnd
      | ref => exact absurd rfl hnd
      | comment b => rcases D1 with ⟨D1, _⟩ | ⟨rfl, _⟩; exact D1.elim; exact absurd ⟨trivial, trivial⟩ hh
      | pi a b => rcases D1 with ⟨D1, _⟩ | ⟨rfl, _⟩; exact D1.elim; exact absurd ⟨trivial, trivial⟩ hh
      | text b =>
        rcases D1 with ⟨D1, _⟩ | ⟨rfl, _⟩
        · exact D1.elim
        · have hb : b = b!"textnoenc" := Classical.byContradiction (fun hb => hh ⟨hb, trivial, trivial⟩)
          obtain ⟨h1, h2⟩ := hd
          unfold dumpNode
          simp only [h1, h2, if_pos hb]
          rfl
      | elem ln p u nsd as =>
        rcases D1 with ⟨D1, Dk⟩ | ⟨_, _, D1⟩
        · have hkn : ¬ k.NoMarker := fun h => hh ⟨h, trivial⟩
          obtain ⟨h1, h2, h3, h4, _, pm, h6, h7⟩ := hd
          have ih := dump_panics k m fuel hk Dk hkn (by omega)
          have hne : k ≠ .nil := fun e => hkn (by rw [e]; trivial)
          unfold dumpNode
          simp only [h1, h4]
          rw [emit_bind, emit_bind, bind_run (by rw [forChain_run (h6.chain_eq (Nat.le_refl _))]; exact attrs_run _ pm as h7 D1 _),
            if_neg (fun e => hne ((holds_first hm hk).1 e)), emit_bind]
          show M.bind _ _ _ = _
          unfold M.bind
          rw [forChain_run hm.chain_eq, ih]
        · exact absurd rfl (D1 _ _ _ _ _)

theorem dumpTop_panics {h : Heap} (f : Nat) : ∀ (t : XTree) (l : List Nat), HoldsTrees h l t → t.Parsed (fun v => ∃ w, StandsFor v w) →
    ¬ t.NoMarker → t.depth ≤ f → ∀ o, (l.forM (fun c => (do
      dumpNode h f c
      emit [10] : DM Unit)) : DM Unit) o = .panic
  | .nil, _, _, _, hn, _, o => absurd trivial hn
  | .node d k r, [], H, _, _, _, _ => by simp [HoldsTrees] at H
  | .node d k r, i :: l, H, D, hn, hf, o => by
    obtain ⟨D1, D2⟩ := parsed_node.1 D
    unfold HoldsTrees at H
    simp only [XTree.depth] at hf
    obtain ⟨hd, hk, hr⟩ := H
    have D0 : (XTree.node d k .nil).Parsed (fun v => ∃ w, StandsFor v w) := parsed_node.2 ⟨D1, trivial⟩
    rw [forM_cons_run]
    simp only [Bind.bind, M.bind]
    by_cases hh : (XTree.node d k .nil).NoMarker
    · have h1 := dump_run (.node d k .nil) [i] f ⟨hd, hk, trivial⟩ (D0.dumpable hh) (by simp only [XTree.depth]; omega) o
      rw [forM_cons_run] at h1
      have h2 : dumpNode h f i o = .ok () (o ++ written (.node d k .nil)) := by
        cases hq : dumpNode h f i o with
        | ok a o' => rw [hq] at h1; exact h1
        | err e o' => rw [hq] at h1; cases h1
        | panic => rw [hq] at h1; cases h1
        | diverge => rw [hq] at h1; cases h1
      rw [h2]
      simp only [emit_run]
      refine dumpTop_panics f r l hr D2 (fun hr' => hn ?_) (by omega) _
      cases d <;> first | exact ⟨hh.1, hr'⟩ | exact ⟨hh.1, hh.2.1, hr'⟩
    · have h1 := dump_panics (.node d k .nil) [i] f ⟨hd, hk, trivial⟩ D0 hh (by simp only [XTree.depth]; omega) o
      rw [forM_cons_run] at h1
      have h2 : dumpNode h f i o = .panic := by
        cases hq : dumpNode h f i o with
        | ok a o' => rw [hq] at h1; cases h1
        | err e o' => rw [hq] at h1; cases h1
        | panic => rfl
        | diverge => rw [hq] at h1; cases h1
      rw [h2]

/-- a document whose tree contains the marker cannot be serialised. -/
theorem xmlString_panics {h : Heap} {d : Nat} {t : XTree} (H : HoldsDoc h d t) (D : t.Parsed (fun v => ∃ w, StandsFor v w)) (hn : ¬ t.NoMarker) :
    xmlString h d = .panic := by
  obtain ⟨hk, m, hm, ht⟩ := H
  unfold xmlString dumpDoc
  rw [show ∀ f : Unit → DM Unit, (dumpNode h (h.size + 1) d >>= f) [] = f () (dumpDocContent (h.at' d)) from fun f => by
    have : dumpNode h (h.size + 1) d [] = .ok () (dumpDocContent (h.at' d)) := by
      unfold dumpNode
      simp only [hk, emit_run, List.nil_append]
    rw [bind_run this]]
  rw [forChain_run hm.chain_eq]
  exact dumpTop_panics _ t m ht D hn (by have := parsed_depth hm ht D; omega) _

end Helium
