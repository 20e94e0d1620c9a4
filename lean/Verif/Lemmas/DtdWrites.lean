import Verif.Lemmas.Marker
import Verif.Lemmas.DtdDocDump
/-! The serialiser on parsed documents with a document type declaration: it ends without error. -/
namespace Helium
open Spec

namespace Spec.XTree

/-- trees of parsed documents: only elements have children, all values have the property; `b`: document type declarations may stand here. -/
def Read (V : Bytes → Prop) : Bool → XTree → Prop
  | _, .nil => True
  | b, .node (.elem _ _ _ _ as) k r => (∀ a ∈ as, V a.2) ∧ Read V false k ∧ Read V b r
  | b, .node (.dtd _ _ _) k r => b = true ∧ k = .nil ∧ Read V b r
  | b, .node _ k r => k = .nil ∧ Read V b r

/-- the number of document type declarations among the trees. -/
def dtds : XTree → Nat
  | .nil => 0
  | .node (.dtd _ _ _) _ r => 1 + dtds r
  | .node _ _ r => dtds r

end Spec.XTree

/-- a finished tree: an element, or a leaf. -/
def readHead (V : Bytes → Prop) (b : Bool) (d : XData) (k : XTree) : Prop :=
  (dataValues V d ∧ k.Read V false) ∨ (k = .nil ∧ (∀ l p u n as, d ≠ .elem l p u n as) ∧ ∀ n e u, d = .dtd n e u → b = true)

theorem read_node {V : Bytes → Prop} {b : Bool} {d : XData} {k r : XTree} : (XTree.node d k r).Read V b ↔ readHead V b d k ∧ r.Read V b := by
  cases d <;> simp only [XTree.Read, dataValues, readHead]
  case elem =>
    refine ⟨fun h => ⟨.inl ⟨h.1, h.2.1⟩, h.2.2⟩, ?_⟩
    rintro ⟨h | ⟨_, h, _⟩, h2⟩
    · exact ⟨h.1, h.2, h2⟩
    · exact absurd rfl (h _ _ _ _ _)
  case dtd =>
    refine ⟨fun ⟨h1, h2, h3⟩ => ⟨.inr ⟨h2, nofun, fun _ _ _ _ => h1⟩, h3⟩, ?_⟩
    rintro ⟨h | ⟨h1, _, h2⟩, h3⟩
    · exact h.1.elim
    · exact ⟨h2 _ _ _ rfl, h1, h3⟩
  all_goals simp

theorem readHead.kids {V : Bytes → Prop} {b : Bool} {d : XData} {k : XTree} (D : readHead V b d k) : k.Read V false := by
  rcases D with ⟨_, D⟩ | ⟨rfl, _⟩
  · exact D
  · trivial

theorem read_snoc {V : Bytes → Prop} {b : Bool} {d : XData} {k : XTree} (hd : readHead V b d k) : ∀ {x : XTree}, x.Read V b → (x.snoc d k).Read V b
  | .nil, _ => read_node.2 ⟨hd, trivial⟩
  | .node d0 k0 r, h => by
    obtain ⟨h1, h2⟩ := read_node.1 h
    exact read_node.2 ⟨h1, read_snoc hd h2⟩

theorem read_addText {V : Bytes → Prop} {b : Bool} {t : Bytes} {x : XTree} (h : x.Read V b) : (x.addText t).Read V b := by
  fun_induction XTree.addText x t
  · exact ⟨rfl, trivial⟩
  · exact h
  · rename_i ih
    obtain ⟨h1, h3⟩ := read_node.1 h
    exact read_node.2 ⟨h1, ih h3⟩

theorem dtds_snoc {d : XData} {k : XTree} : ∀ {x : XTree}, (x.snoc d k).dtds = x.dtds + (match d with | .dtd _ _ _ => 1 | _ => 0)
  | .nil => by cases d <;> rfl
  | .node d0 k0 r => by
    have ih := dtds_snoc (d := d) (k := k) (x := r)
    cases d0 <;> simp only [XTree.snoc, XTree.dtds, ih] <;> omega

/-- the tree read so far. -/
def ReadPartial (V : Bytes → Prop) (s : Partial) : Prop := s.top.Read V true ∧ ∀ x ∈ s.inner, dataValues V x.1 ∧ x.2.Read V false

theorem readPartial_add {V : Bytes → Prop} {s : Partial} (h : ReadPartial V s) {d : XData} {k : XTree} (hd : readHead V (s.inner.isEmpty) d k) :
    ReadPartial V (s.add d k) := by
  obtain ⟨i, t⟩ := s
  obtain ⟨h1, h2⟩ := h
  cases i with
  | nil => exact ⟨read_snoc hd h1, h2⟩
  | cons x r =>
    obtain ⟨k1, k2⟩ := List.forall_mem_cons.1 h2
    exact ⟨h1, List.forall_mem_cons.2 ⟨⟨k1.1, read_snoc hd k1.2⟩, k2⟩⟩

theorem dtds_add {s : Partial} {d : XData} {k : XTree} (hd : s.inner = [] → ∀ n e u, d ≠ .dtd n e u) : (s.add d k).top.dtds = s.top.dtds := by
  obtain ⟨i, t⟩ := s
  cases i with
  | nil =>
    show (t.snoc d k).dtds = t.dtds
    rw [dtds_snoc]
    cases d with
    | dtd => exact absurd rfl (hd rfl _ _ _)
    | _ => rfl
  | cons x r => rfl

theorem readPartial_step {V : Bytes → Prop} {s s' : Partial} {ev : Ev} (h : ReadPartial V s)
    (hv : ∀ l p u ns as, ev = .startElement l p u ns as → ∀ a ∈ givenAttrs as, V a.2) (hs : s.step ev = some s') :
    ReadPartial V s' ∧ s'.top.dtds = s.top.dtds + (if isInt ev then 1 else 0) := by
  cases ev <;> simp only [Partial.step] at hs <;> try (cases hs; exact ⟨h, rfl⟩)
  case startElement l p u ns as =>
    cases hs
    exact ⟨⟨h.1, List.forall_mem_cons.2 ⟨⟨hv l p u ns as rfl, trivial⟩, h.2⟩⟩, rfl⟩
  case endElement =>
    obtain ⟨i, t⟩ := s
    cases i with
    | nil => cases hs
    | cons x r =>
      cases hs
      obtain ⟨k1, k2⟩ := List.forall_mem_cons.1 h.2
      refine ⟨readPartial_add (s := ⟨r, t⟩) ⟨h.1, k2⟩ (.inl k1), dtds_add (s := ⟨r, t⟩) (fun _ n e u he => ?_)⟩
      have := k1.1
      rw [he] at this
      exact this
  case comment => cases hs; exact ⟨readPartial_add h (.inr ⟨rfl, nofun, nofun⟩), dtds_add (fun _ => nofun)⟩
  case pi => cases hs; exact ⟨readPartial_add h (.inr ⟨rfl, nofun, nofun⟩), dtds_add (fun _ => nofun)⟩
  case internalSubset n e u =>
    obtain ⟨i, t⟩ := s
    cases i with
    | cons x r => cases hs
    | nil =>
      cases hs
      exact ⟨readPartial_add h (.inr ⟨rfl, nofun, fun _ _ _ _ => rfl⟩), dtds_snoc⟩
  case reference =>
    obtain ⟨i, t⟩ := s
    cases i with
    | nil => cases hs
    | cons x r => cases hs; exact ⟨readPartial_add h (.inr ⟨rfl, nofun, nofun⟩), dtds_add (fun _ => nofun)⟩
  all_goals
    obtain ⟨i, t⟩ := s
    cases i with
    | nil => cases hs
    | cons x r =>
      cases hs
      obtain ⟨k1, k2⟩ := List.forall_mem_cons.1 h.2
      exact ⟨⟨h.1, List.forall_mem_cons.2 ⟨⟨k1.1, read_addText k1.2⟩, k2⟩⟩, rfl⟩

theorem readPartial_steps {V : Bytes → Prop} : ∀ {evs : List Ev} {s s' : Partial}, ReadPartial V s →
    (∀ l p u ns as, .startElement l p u ns as ∈ evs → ∀ a ∈ givenAttrs as, V a.2) → s.steps evs = some s' →
    ReadPartial V s' ∧ s'.top.dtds = s.top.dtds + evs.countP isInt
  | [], s, s', h, _, hs => by cases hs; exact ⟨h, rfl⟩
  | ev :: evs, s, s', h, hv, hs => by
    simp only [Partial.steps] at hs
    cases h1 : s.step ev with
    | none => rw [h1] at hs; cases hs
    | some t =>
      rw [h1] at hs
      obtain ⟨a1, a2⟩ := readPartial_step h (fun l p u ns as he => hv l p u ns as (by rw [he]; exact List.mem_cons_self)) h1
      obtain ⟨b1, b2⟩ := readPartial_steps a1 (fun l p u ns as hx => hv l p u ns as (List.mem_cons_of_mem _ hx)) hs
      refine ⟨b1, ?_⟩
      rw [b2, a2, List.countP_cons]
      omega

/-- the tree described by a sequence of events. -/
theorem read_tree {V : Bytes → Prop} {evs : List Ev} {x : XTree} (hx : treeOf evs = some x)
    (hv : ∀ l p u ns as, .startElement l p u ns as ∈ evs → ∀ a ∈ givenAttrs as, V a.2) : x.Read V true ∧ x.dtds = evs.countP isInt := by
  unfold treeOf at hx
  cases hs : Partial.steps ⟨[], .nil⟩ evs with
  | none => rw [hs] at hx; cases hx
  | some s =>
    rw [hs] at hx
    obtain ⟨i, t⟩ := s
    cases i with
    | cons => cases hx
    | nil =>
      cases hx
      obtain ⟨a, b⟩ := readPartial_steps (V := V) (s := ⟨[], .nil⟩) ⟨trivial, nofun⟩ hv hs
      exact ⟨a.1, b.trans (Nat.zero_add _)⟩

/-! ### depth -/

/-- kinds of nodes whose children are not part of the tree. -/
def shutKind : Kind → Bool
  | .dtd | .entityRef => true
  | _ => false

/-- the heap without what is below document type declarations and references. -/
def pruned (h : Heap) : Heap := ⟨h.size, fun i => if shutKind (h.at' i).kind = true then { h.at' i with first := none } else h.at' i⟩

theorem pruned_next (h : Heap) (i : Nat) : ((pruned h).at' i).next = (h.at' i).next := by
  unfold pruned
  simp only
  split <;> rfl

theorem shut_kind {h : Heap} {ok : Nat → Prop} {i : Nat} {d : XData} (H : HoldsData ok h i d) : shutKind (h.at' i).kind = d.shut := by
  cases d <;> rw [H.1] <;> rfl

theorem read_shows {h : Heap} : ∀ (t : XTree) {p : Nat} {l : List Nat} (_ : ChildList h p l) (a b : List Nat), l = a ++ b →
    HoldsTrees h b t → ∃ T, Shows (pruned h) b.head? T ∧ T.depth = t.depth
  | .nil, p, l, C, a, [], hl, H => ⟨.nil, rfl, rfl⟩
  | .nil, p, l, C, a, i :: b, hl, H => by simp [HoldsTrees] at H
  | .node d k r, p, l, C, a, [], hl, H => by simp [HoldsTrees] at H
  | .node d k r, p, l, C, a, i :: b, hl, H => by
    unfold HoldsTrees at H
    obtain ⟨hd, hk, hr⟩ := H
    obtain ⟨T2, s2, d2⟩ := read_shows r C (a ++ [i]) b (by rw [hl]; simp) hr
    have hnx : Shows (pruned h) ((pruned h).at' i).next T2 := by rw [pruned_next, C.next a i b hl]; exact s2
    have hal : i < (pruned h).size := C.alloc i (by rw [hl]; simp)
    by_cases hs : d.shut = true
    · rw [if_pos hs] at hk
      subst hk
      refine ⟨.node i .nil T2, ⟨rfl, hal, ?_, hnx⟩, ?_⟩
      · show ((pruned h).at' i).first = none
        unfold pruned
        simp only [if_pos ((shut_kind hd).trans hs)]
      · simp only [Trees.depth, XTree.depth, d2]
    · rw [if_neg hs] at hk
      obtain ⟨m, hm, hk⟩ := hk
      obtain ⟨T1, s1, d1⟩ := read_shows k hm [] m rfl hk
      refine ⟨.node i T1 T2, ⟨rfl, hal, ?_, hnx⟩, ?_⟩
      · have : ((pruned h).at' i).first = (h.at' i).first := by
          unfold pruned
          simp only
          rw [if_neg (by rw [shut_kind hd]; exact hs)]
        rw [this, hm.first]
        exact s1
      · simp only [Trees.depth, XTree.depth, d1, d2]

theorem read_depth {h : Heap} {t : XTree} {p : Nat} {l : List Nat} (C : ChildList h p l) (H : HoldsTrees h l t) : t.depth ≤ h.size := by
  obtain ⟨T, s, d⟩ := read_shows t C [] l rfl H
  have := s.depth_le (List.range h.size) List.nodup_range (fun i hi => List.mem_range.2 (s.alloc i hi))
  rw [← d]
  simpa using this

/-! ### computations that only write -/

/-- whatever was written before, the computation ends without error. -/
def Writes (p : DM Unit) : Prop := ∀ o, ∃ o', p o = .ok () o'

theorem Writes.emit (s : Bytes) : Writes (emit s) := fun o => ⟨_, emit_run s o⟩
theorem Writes.pure : Writes (pure ()) := fun o => ⟨o, rfl⟩

theorem Writes.opt (g : Bool) (s : Bytes) : Writes (if g = true then Helium.emit s else Pure.pure ()) := by
  cases g
  · exact Writes.pure
  · exact Writes.emit s

theorem Writes.seq {p : DM Unit} {q : Unit → DM Unit} (hp : Writes p) (hq : Writes (q ())) : Writes (p >>= q) := fun o => by
  obtain ⟨o1, h1⟩ := hp o
  obtain ⟨o2, h2⟩ := hq o1
  exact ⟨o2, by rw [bind_run h1]; exact h2⟩

theorem Writes.forM {α : Type} {f : α → DM Unit} : ∀ {l : List α}, (∀ x ∈ l, Writes (f x)) → Writes (l.forM f)
  | [], _ => Writes.pure
  | x :: l, h => fun o => by
    obtain ⟨o1, h1⟩ := h x List.mem_cons_self o
    obtain ⟨o2, h2⟩ := Writes.forM (l := l) (fun y hy => h y (List.mem_cons_of_mem _ hy)) o1
    exact ⟨o2, by rw [forM_cons_run, h1]; exact h2⟩

theorem Writes.chain {h : Heap} {s : Option Nat} {l : List Nat} (hc : chain h (h.size + 1) s = some l) {f : Nat → DM Unit} (hf : ∀ x ∈ l, Writes (f x)) :
    Writes (forChain h s f) := fun o => by
  rw [forChain_run hc]
  exact Writes.forM hf o

/-- whatever was written before, the computation panics. -/
def Panics (p : DM Unit) : Prop := ∀ o, p o = .panic

theorem Panics.first {p : DM Unit} {q : Unit → DM Unit} (hp : Panics p) : Panics (p >>= q) := fun o => by
  show M.bind p q o = _
  unfold M.bind
  rw [hp o]

theorem Panics.second {p : DM Unit} {q : Unit → DM Unit} (hp : Writes p) (hq : Panics (q ())) : Panics (p >>= q) := fun o => by
  obtain ⟨o1, h1⟩ := hp o
  rw [bind_run h1]
  exact hq o1

theorem Panics.forM {α : Type} {f : α → DM Unit} : ∀ {l : List α}, (∀ x ∈ l, Writes (f x) ∨ Panics (f x)) → (∃ x ∈ l, Panics (f x)) → Panics (l.forM f)
  | [], _, ⟨_, h, _⟩ => nomatch h
  | x :: l, h, ⟨y, hy, hp⟩ => fun o => by
    rw [forM_cons_run]
    rcases h x List.mem_cons_self with h1 | h1
    · obtain ⟨o1, e1⟩ := h1 o
      rw [e1]
      rcases List.mem_cons.1 hy with rfl | hy
      · rw [hp o] at e1; cases e1
      · exact Panics.forM (l := l) (fun z hz => h z (List.mem_cons_of_mem _ hz)) ⟨y, hy, hp⟩ o1
    · rw [h1 o]

theorem Panics.chain {h : Heap} {s : Option Nat} {l : List Nat} (hc : chain h (h.size + 1) s = some l) {f : Nat → DM Unit}
    (hf : ∀ x ∈ l, Writes (f x) ∨ Panics (f x)) (he : ∃ x ∈ l, Panics (f x)) : Panics (forChain h s f) := fun o => by
  rw [forChain_run hc]
  exact Panics.forM hf he o

/-! ### declarations -/

namespace Spec

/-- content models the serialiser can write: sequences and choices have two members. -/
def ECWritable : EC → Prop
  | .nil => True
  | .mk t _ _ _ c1 c2 => t = 1 ∨ t = 2 ∨ ((t = 3 ∨ t = 4) ∧ c1 ≠ .nil ∧ c2 ≠ .nil ∧ ECWritable c1 ∧ ECWritable c2)

/-- declarations the serialiser can write: their type is one of the types of the specification, but not `ENTITIES`. -/
def WritableDecl : Ev → Prop
  | .elementDecl _ t ec => (t = 1 ∨ t = 2 ∨ t = 3 ∨ t = 4) ∧ ECWritable ec
  | .attributeDecl _ _ t df _ _ => (1 ≤ t ∧ t ≤ 10 ∧ t ≠ 6) ∧ (1 ≤ df ∧ df ≤ 4)
  | .entityDecl _ t _ _ _ => 1 ≤ t ∧ t ≤ 5
  | _ => True

end Spec

theorem writes_content : ∀ (ec : EC) (g : Bool), ECWritable ec → Writes (dumpElementContent g ec)
  | .nil, _, _ => Writes.pure
  | .mk t o n p c1 c2, g, h => by
    unfold dumpElementContent
    rcases h with rfl | rfl | ⟨h, n1, n2, w1, w2⟩
    · cases g <;> simp <;> repeat' first | exact Writes.emit _ | apply Writes.seq
    · cases g <;> simp <;> repeat' first | exact Writes.emit _ | apply Writes.seq
    · cases c1 with
      | nil => exact absurd rfl n1
      | mk t1 o1 a1 p1 x1 y1 =>
        cases c2 with
        | nil => exact absurd rfl n2
        | mk t2 o2 a2 p2 x2 y2 =>
          have i1 := fun g => writes_content _ g w1
          have i2 := fun g => writes_content _ g w2
          rcases h with rfl | rfl
          all_goals cases g <;> simp <;> repeat' first | exact Writes.emit _ | exact i1 _ | exact i2 _ | apply Writes.seq

theorem writes_decl {h : Heap} {i f : Nat} {ev : Ev} (H : HoldsDecl h i ev) (hw : WritableDecl ev) : Writes (dumpNode h (f + 1) i) := by
  unfold dumpNode
  cases ev <;> try exact H.elim
  case elementDecl n t ec =>
    obtain ⟨h1, _, h3, h4⟩ := H
    simp only [h1]
    unfold dumpElementDecl
    rw [h3, h4]
    obtain ⟨h5, h6⟩ := hw
    rcases h5 with rfl | rfl | rfl | rfl
    · exact Writes.emit _
    · exact Writes.emit _
    · exact Writes.seq (Writes.emit _) (Writes.seq (writes_content _ _ h6) (Writes.emit _))
    · exact Writes.seq (Writes.emit _) (Writes.seq (writes_content _ _ h6) (Writes.emit _))
  case attributeDecl e a t df v en =>
    obtain ⟨h1, _, _, h4, h5, _⟩ := H
    simp only [h1]
    unfold dumpAttributeDecl
    obtain ⟨⟨a1, a2, a3⟩, a4, a5⟩ := hw
    refine Writes.seq (Writes.emit _) ?_
    have e1 : ∃ x, attrTypeText (h.at' i) = some x := by
      unfold attrTypeText
      rw [h4]
      have : t = 1 ∨ t = 2 ∨ t = 3 ∨ t = 4 ∨ t = 5 ∨ t = 7 ∨ t = 8 ∨ t = 9 ∨ t = 10 := by omega
      rcases this with rfl | rfl | rfl | rfl | rfl | rfl | rfl | rfl | rfl <;> exact ⟨_, rfl⟩
    have e2 : ∃ x, attrDefaultText (h.at' i) = some x := by
      unfold attrDefaultText
      rw [h5]
      have : df = 1 ∨ df = 2 ∨ df = 3 ∨ df = 4 := by omega
      rcases this with rfl | rfl | rfl | rfl <;> exact ⟨_, rfl⟩
    obtain ⟨x, e1⟩ := e1
    obtain ⟨y, e2⟩ := e2
    rw [e1, e2]
    exact Writes.seq (Writes.emit _) (Writes.emit _)
  case entityDecl n t p s c =>
    obtain ⟨h1, _, h3, _⟩ := H
    simp only [h1]
    unfold dumpEntityDecl
    rw [h3]
    obtain ⟨a1, a2⟩ := hw
    have : t = 1 ∨ t = 2 ∨ t = 3 ∨ t = 4 ∨ t = 5 := by omega
    rcases this with rfl | rfl | rfl | rfl | rfl <;> exact Writes.emit _

theorem writes_decls {h : Heap} {f : Nat} : ∀ {m : List Nat} {evs : List Ev}, HoldsDecls h m evs → (∀ ev ∈ evs, WritableDecl ev) →
    ∀ i ∈ m, Writes (dumpNode h (f + 1) i)
  | [], _, _, _, i, hi => nomatch hi
  | j :: m, [], H, _, _, _ => H.elim
  | j :: m, ev :: evs, H, hw, i, hi => by
    rcases List.mem_cons.1 hi with rfl | hi
    · exact writes_decl H.1 (hw ev List.mem_cons_self)
    · exact writes_decls H.2 (fun e he => hw e (List.mem_cons_of_mem _ he)) i hi

/-! ### trees -/

/-- the serialiser on one of the trees; document type declarations are left to `hdt`. It panics exactly if some text is the marker. -/
theorem writes_tree {h : Heap} : ∀ (t : XTree) (l : List Nat) (b : Bool) (fuel : Nat), HoldsTrees h l t → t.Read (fun v => ∃ w, StandsFor v w) b →
    t.depth ≤ fuel → (b = true → ∀ i ∈ l, (h.at' i).kind = .dtd → Writes (dumpNode h fuel i)) →
    (∀ i ∈ l, Writes (dumpNode h fuel i) ∨ Panics (dumpNode h fuel i)) ∧ (t.NoMarker → ∀ i ∈ l, Writes (dumpNode h fuel i)) ∧
      (¬ t.NoMarker → ∃ i ∈ l, Panics (dumpNode h fuel i))
  | .nil, [], _, _, _, _, _, _ => ⟨nofun, fun _ => nofun, fun h => absurd trivial h⟩
  | .node _ _ _, [], _, _, H, _, _, _ => by simp [HoldsTrees] at H
  | .nil, _ :: _, _, _, H, _, _, _ => by simp [HoldsTrees] at H
  | .node d k r, j :: l, b, fuel, H, D, hf, hdt => by
    obtain ⟨D1, D2⟩ := read_node.1 D
    unfold HoldsTrees at H
    obtain ⟨hd, hk, hr⟩ := H
    simp only [XTree.depth] at hf
    obtain ⟨r1, r2, r3⟩ := writes_tree r l b fuel hr D2 (by omega) (fun hb i hi => hdt hb i (List.mem_cons_of_mem _ hi))
    suffices key : ((XTree.node d k .nil).NoMarker ∧ Writes (dumpNode h fuel j)) ∨ (¬ (XTree.node d k .nil).NoMarker ∧ Panics (dumpNode h fuel j)) by
      have hN : (XTree.node d k r).NoMarker ↔ (XTree.node d k .nil).NoMarker ∧ r.NoMarker := by
        cases d <;> simp only [XTree.NoMarker, and_true] <;> try exact and_assoc.symm
      refine ⟨List.forall_mem_cons.2 ⟨key.imp (·.2) (·.2), r1⟩, fun n => ?_, fun n => ?_⟩
      · obtain ⟨n1, n2⟩ := hN.1 n
        exact List.forall_mem_cons.2 ⟨(key.resolve_right (fun h => h.1 n1)).2, r2 n2⟩
      · rcases key with ⟨k1, _⟩ | ⟨_, k2⟩
        · obtain ⟨i, hi, hp⟩ := r3 (fun h => n (hN.2 ⟨k1, h⟩))
          exact ⟨i, List.mem_cons_of_mem _ hi, hp⟩
        · exact ⟨j, List.mem_cons_self, k2⟩
    have leaf : (∀ l p u n as, d ≠ .elem l p u n as) → k = .nil := fun h => by
      rcases D1 with ⟨D1, _⟩ | ⟨D1, _⟩
      · cases d <;> first | exact D1.elim | exact absurd rfl (h _ _ _ _ _)
      · exact D1
    cases d with
    | dtd n e u =>
      cases leaf nofun
      rcases D1 with ⟨D1, _⟩ | ⟨_, _, D1⟩
      · exact D1.elim
      · exact .inl ⟨⟨trivial, trivial⟩, hdt (D1 _ _ _ rfl) _ List.mem_cons_self hd.1⟩
    | ref n =>
      cases leaf nofun
      cases fuel with
      | zero => omega
      | succ fuel =>
        refine .inl ⟨⟨trivial, trivial⟩, ?_⟩
        unfold dumpNode
        simp only [hd.1]
        exact Writes.emit _
    | text t =>
      cases leaf nofun
      cases fuel with
      | zero => omega
      | succ fuel =>
        unfold dumpNode
        simp only [hd.1]
        rw [hd.2]
        by_cases ht : t = b!"textnoenc"
        · rw [if_pos ht]
          exact .inr ⟨fun h => h.1 ht, fun _ => rfl⟩
        · rw [if_neg ht]
          exact .inl ⟨⟨ht, trivial, trivial⟩, Writes.emit _⟩
    | comment t =>
      cases leaf nofun
      cases fuel with
      | zero => omega
      | succ fuel =>
        refine .inl ⟨⟨trivial, trivial⟩, ?_⟩
        unfold dumpNode
        simp only [hd.1]
        exact Writes.emit _
    | pi a b =>
      cases leaf nofun
      cases fuel with
      | zero => omega
      | succ fuel =>
        rw [if_neg (by simp [XData.shut])] at hk
        obtain ⟨m, hm, hk⟩ := hk
        cases m with
        | cons => simp [HoldsTrees] at hk
        | nil =>
          refine .inl ⟨⟨trivial, trivial⟩, ?_⟩
          unfold dumpNode
          simp only [hd.1]
          exact Writes.seq (Writes.emit _) (Writes.seq (Writes.emit _) (Writes.seq (Writes.chain hm.chain_eq (fun _ h => nomatch h)) (Writes.emit _)))
    | elem ln p u nsd as =>
      cases fuel with
      | zero => omega
      | succ fuel =>
        rw [if_neg (by simp [XData.shut])] at hk
        obtain ⟨m, hm, hk⟩ := hk
        obtain ⟨k1, k2, k3⟩ := writes_tree k m false fuel hk D1.kids (by omega) nofun
        have hfirst := holds_first hm hk
        obtain ⟨h1, h2, h3, h4, _, pm, h6, h7⟩ := hd
        rcases D1 with ⟨D1, _⟩ | ⟨_, D1, _⟩
        · have hat : ∀ f : Nat → DM Unit, Writes (forChain h (h.at' j).props (fun a => (do
              emit (32 :: ((h.at' a).name ++ b!"=\""))
              forChain h (h.at' a).first (fun c => if (h.at' c).kind = .text then emit (escapeAttrValue (h.at' c).content) else f c)
              emit [34] : DM Unit))) := fun f o => by
            rw [forChain_run (h6.chain_eq (Nat.le_refl _))]
            exact ⟨_, attrs_run _ pm as h7 D1 o⟩
          by_cases hn : k.NoMarker
          · refine .inl ⟨⟨hn, trivial⟩, ?_⟩
            unfold dumpNode
            simp only [h1]
            refine Writes.seq (Writes.emit _) (Writes.seq (Writes.emit _) (Writes.seq (hat _) ?_))
            split
            · exact Writes.emit _
            · exact Writes.seq (Writes.emit _) (Writes.seq (Writes.chain hm.chain_eq (k2 hn)) (Writes.emit _))
          · refine .inr ⟨fun h => hn h.1, ?_⟩
            have hne : ¬ (h.at' j).first = none := fun e => hn (by rw [hfirst.1 e]; trivial)
            unfold dumpNode
            simp only [h1]
            refine Panics.second (Writes.emit _) (Panics.second (Writes.emit _) (Panics.second (hat _) ?_))
            rw [if_neg hne]
            exact Panics.second (Writes.emit _) (Panics.first (Panics.chain hm.chain_eq k1 (k3 hn)))
        · exact absurd rfl (D1 _ _ _ _ _)

/-- the nodes of document type declarations among the children are as many as in the tree. -/
theorem dtd_count {h : Heap} : ∀ (t : XTree) (l : List Nat), HoldsTrees h l t → l.countP (fun i => (h.at' i).kind == .dtd) = t.dtds
  | .nil, [], _ => rfl
  | .nil, _ :: _, H => by simp [HoldsTrees] at H
  | .node d k r, [], H => by simp [HoldsTrees] at H
  | .node d k r, i :: l, H => by
    unfold HoldsTrees at H
    obtain ⟨hd, _, hr⟩ := H
    have ih := dtd_count r l hr
    rw [List.countP_cons, ih]
    cases d <;> (rw [hd.1]; simp only [XTree.dtds]) <;> first | rfl | exact Nat.add_comm _ _

theorem countP_unique {α : Type} {p : α → Bool} : ∀ {l : List α}, l.countP p ≤ 1 → ∀ a ∈ l, p a = true → ∀ b ∈ l, p b = true → a = b
  | [], _, a, ha, _, _, _, _ => nomatch ha
  | x :: l, h, a, ha, pa, b, hb, pb => by
    rw [List.countP_cons] at h
    by_cases hx : p x = true
    · rw [if_pos hx] at h
      have h0 : l.countP p = 0 := by omega
      rw [List.countP_eq_zero] at h0
      rcases List.mem_cons.1 ha with rfl | ha
      · rcases List.mem_cons.1 hb with rfl | hb
        · rfl
        · exact absurd pb (h0 b hb)
      · exact absurd pa (h0 a ha)
    · rw [if_neg hx] at h
      rcases List.mem_cons.1 ha with rfl | ha
      · exact absurd pa hx
      · rcases List.mem_cons.1 hb with rfl | hb
        · exact absurd pb hx
        · exact countP_unique (by omega) a ha pa b hb pb

/-- **the serialiser** on a document with one document type declaration whose declarations can be written: it ends without error if no text
is the marker, and panics otherwise. -/
theorem xmlString_writes {h : Heap} {d : Nat} {t : XTree} {evs : List Ev} (H : HoldsDoc h d t) (D : t.Read (fun v => ∃ w, StandsFor v w) true)
    (h1 : t.dtds ≤ 1) (hs : t.dtds ≠ 0 → HoldsSubset h d evs) (hw : ∀ ev ∈ evs, WritableDecl ev) :
    (t.NoMarker → ∃ out, xmlString h d = .ok () out) ∧ (¬ t.NoMarker → xmlString h d = .panic) := by
  obtain ⟨hk, m, hm, ht⟩ := H
  obtain ⟨k1, k2, k3⟩ := writes_tree t m true (h.size + 1) ht D (by have := read_depth hm ht; omega) (fun _ i hi hki => by
    have hc := dtd_count t m ht
    have hne : t.dtds ≠ 0 := by
      rw [← hc]
      intro h0
      rw [List.countP_eq_zero] at h0
      exact h0 i hi (by rw [hki]; rfl)
    obtain ⟨j, c, ks, _, e2, _, C, hj, Cj, hd⟩ := hs hne
    have := childList_unique C hm
    subst this
    have hij : i = j := countP_unique (by rw [hc]; exact h1) i hi (by rw [hki]; rfl) j hj (by rw [e2]; rfl)
    subst hij
    have hpos : i < h.size := hm.alloc i hi
    obtain ⟨n, hn⟩ : ∃ n, h.size = n + 1 := ⟨h.size - 1, by omega⟩
    rw [hn]
    unfold dumpNode
    simp only [hki]
    refine Writes.seq (Writes.emit _) ?_
    split
    · exact Writes.emit _
    · exact Writes.seq (Writes.emit _) (Writes.seq (Writes.chain Cj.chain_eq (writes_decls hd hw)) (Writes.emit _)))
  have h0 : Writes (dumpNode h (h.size + 1) d) := by
    unfold dumpNode
    simp only [hk]
    exact Writes.emit _
  unfold xmlString dumpDoc
  refine ⟨fun n => Writes.seq h0 (Writes.chain hm.chain_eq (fun i hi => Writes.seq (k2 n i hi) (Writes.emit _))) [], fun n => ?_⟩
  refine Panics.second h0 (Panics.chain hm.chain_eq (fun i hi => (k1 i hi).imp (fun h => Writes.seq h (Writes.emit _)) Panics.first) ?_) []
  obtain ⟨i, hi, hp⟩ := k3 n
  exact ⟨i, hi, hp.first⟩

theorem Spec.Visible.countInt {evs vis : List Ev} (v : Visible evs vis) : vis.countP isInt ≤ evs.countP isInt := by
  induction v with
  | nil => exact Nat.le_refl _
  | keep _ _ ih => rw [List.countP_cons, List.countP_cons]; omega
  | expand _ _ _ _ _ ih =>
    simp only [List.countP_cons, List.cons_append, List.countP_append, isInt] at ih ⊢
    simp only [Bool.false_eq_true, if_false] at ih ⊢
    omega

theorem Spec.Visible.sub {evs vis : List Ev} (v : Visible evs vis) : ∀ ev ∈ vis, ev ∈ evs := by
  induction v with
  | nil => exact fun _ h => h
  | keep _ _ ih =>
    intro ev hev
    rcases List.mem_cons.1 hev with rfl | hev
    · exact List.mem_cons_self
    · exact List.mem_cons_of_mem _ (ih ev hev)
  | expand _ _ _ _ _ ih =>
    intro ev hev
    rcases List.mem_cons.1 hev with rfl | hev
    · simp
    · rcases List.mem_cons.1 hev with rfl | hev
      · simp
      · have := ih ev hev
        simp [this]

end Helium
