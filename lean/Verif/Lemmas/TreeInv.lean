import Verif.Lemmas.DomOps
import Verif.Lemmas.AttrRun
import Verif.Spec.Tree
/-! The heap while a document is being built: finished trees, open elements, and what each tree operation preserves. -/
namespace Helium
open Spec

/-- nodes outside the forest: attributes and their values. -/
def Outside (a : Forest) (x : Nat) : Prop := a.tree x = false

/-- own data of a node without what is set later: the standalone flag of the document, the literal of an entity. -/
def winfo (x : Node) : Node := { info x with standalone := 0, orig := [] }

/-- the same without the tables of the document type declaration. -/
def vinfo (x : Node) : Node := { winfo x with elements := [], attributes := [], entities := [], pentities := [], intSubset := none }

theorem winfo_of_info {x y : Node} (e : info x = info y) : winfo x = winfo y := by unfold winfo; rw [e]
theorem vinfo_of_winfo {x y : Node} (e : winfo x = winfo y) : vinfo x = vinfo y := by unfold vinfo; rw [e]
theorem vinfo_of_info {x y : Node} (e : info x = info y) : vinfo x = vinfo y := vinfo_of_winfo (winfo_of_info e)

/-- from `(a, h)` to `(a', h')` nothing outside the forest changed, and the nodes in `S` kept data and children, but that there may be new
declarations. -/
structure Fr (a : Forest) (h : Heap) (a' : Forest) (h' : Heap) (S : Nat → Prop) : Prop where
  size : h.size ≤ h'.size
  out : ∀ x, x < h.size → a.tree x = false → (h.at' x).kind ≠ .entity → a'.tree x = false ∧ h'.at' x = h.at' x
  node : ∀ i, S i → a.tree i = true → a'.tree i = true ∧ ((h.at' i).kind ≠ .dtd → a'.kids i = a.kids i) ∧
    vinfo (h'.at' i) = vinfo (h.at' i)

variable {a a' a'' : Forest} {h h' h'' : Heap} {S S' : Nat → Prop}

theorem vinfo_eq {x y : Node} (e : vinfo x = vinfo y) : x.kind = y.kind ∧ x.name = y.name ∧ x.ns = y.ns ∧ x.nsDefs = y.nsDefs ∧
    x.props = y.props ∧ x.content = y.content ∧ x.target = y.target ∧ x.data = y.data := by
  have h1 := congrArg Node.kind e
  have h2 := congrArg Node.name e
  have h3 := congrArg Node.ns e
  have h4 := congrArg Node.nsDefs e
  have h5 := congrArg Node.props e
  have h6 := congrArg Node.content e
  have h7 := congrArg Node.target e
  have h8 := congrArg Node.data e
  exact ⟨h1, h2, h3, h4, h5, h6, h7, h8⟩

theorem info_eq {x y : Node} (e : info x = info y) : x.kind = y.kind ∧ x.name = y.name ∧ x.ns = y.ns ∧ x.nsDefs = y.nsDefs ∧
    x.props = y.props ∧ x.content = y.content ∧ x.target = y.target ∧ x.data = y.data := vinfo_eq (vinfo_of_info e)

theorem vinfo_ids {x y : Node} (e : vinfo x = vinfo y) : x.externalID = y.externalID ∧ x.systemID = y.systemID := by
  have h1 := congrArg Node.externalID e
  have h2 := congrArg Node.systemID e
  exact ⟨h1, h2⟩

theorem Fr.trans (f : Fr a h a' h' S) (g : Fr a' h' a'' h'' S) : Fr a h a'' h'' S where
  size := Nat.le_trans f.size g.size
  out x hx ht hk := by
    obtain ⟨h1, h2⟩ := f.out x hx ht hk
    obtain ⟨h3, h4⟩ := g.out x (Nat.lt_of_lt_of_le hx f.size) h1 (by rw [h2]; exact hk)
    exact ⟨h3, h4.trans h2⟩
  node i hi ht := by
    obtain ⟨h1, h2, h3⟩ := f.node i hi ht
    obtain ⟨h4, h5, h6⟩ := g.node i hi h1
    exact ⟨h4, fun hk => (h5 (by rw [(vinfo_eq h3).1]; exact hk)).trans (h2 hk), h6.trans h3⟩

theorem Fr.mono (f : Fr a h a' h' S) (hS : ∀ i, S' i → S i) : Fr a h a' h' S' :=
  ⟨f.size, f.out, fun i hi => f.node i (hS i hi)⟩

theorem Spec.HoldsAttrs.all {ok : Nat → Prop} : ∀ {m : List Nat} {as : List (Bytes × Bytes)}, HoldsAttrs ok h m as → ∀ x ∈ m, ok x
  | [], [], _, x, hx => by cases hx
  | y :: m, p :: as, H, x, hx => by
    rcases List.mem_cons.1 hx with rfl | hx
    · exact H.1
    · exact HoldsAttrs.all H.2.2.2.2 x hx

theorem Spec.HoldsAttrs.frame (f : Fr a h a' h' S) : ∀ {m : List Nat} {as : List (Bytes × Bytes)}, (∀ x ∈ m, x < h.size ∧ (h.at' x).kind = .attr) →
    HoldsAttrs (Outside a) h m as → HoldsAttrs (Outside a') h' m as
  | [], [], _, _ => trivial
  | x :: m, p :: as, hb, H => by
    obtain ⟨h1, h2, hns, h3, h4⟩ := H
    obtain ⟨f1, f2⟩ := f.out x (hb x (by simp)).1 h1 (by rw [(hb x (by simp)).2]; simp)
    refine ⟨f1, by rw [f2]; exact h2, by rw [f2]; exact hns, ?_, HoldsAttrs.frame f (fun y hy => hb y (by simp [hy])) h4⟩
    intro w hw
    rcases h3 w hw with ⟨e1, e2⟩ | ⟨t, t1, t2, t3, t4, t5, t6⟩
    · exact Or.inl ⟨e1, by rw [f2]; exact e2⟩
    · obtain ⟨g1, g2⟩ := f.out t t2 t1 (by rw [t4]; simp)
      refine Or.inr ⟨t, g1, Nat.lt_of_lt_of_le t2 f.size, ?_, ?_, ?_, ?_⟩
      · rw [f2]; exact t3
      · rw [g2]; exact t4
      · rw [g2]; exact t5
      · rw [g2]; exact t6

theorem Spec.HoldsData.frame (f : Fr a h a' h' S) {i : Nat} (hi : vinfo (h'.at' i) = vinfo (h.at' i)) {d : XData}
    (H : HoldsData (Outside a) h i d) : HoldsData (Outside a') h' i d := by
  obtain ⟨e1, e2, e3, e4, e5, e6, e7, e8⟩ := vinfo_eq hi
  cases d with
  | elem l p u nsd as =>
    obtain ⟨h1, h2, h3, h4, hnd, m, h5, h6⟩ := H
    refine ⟨e1.trans h1, e2.trans h2, e3.trans h3, e4.trans h4, hnd, m, ?_, h6.frame f (fun x hx => ⟨h5.alloc x hx, h5.kind x hx⟩)⟩
    refine h5.congr f.size e5 ?_
    intro c hc
    rw [(f.out c (h5.alloc c hc) (h6.all c hc) (by rw [h5.kind c hc]; simp)).2]
    exact ⟨rfl, rfl, rfl⟩
  | text b => exact ⟨e1.trans H.1, e6.trans H.2⟩
  | comment b => exact ⟨e1.trans H.1, e6.trans H.2⟩
  | pi t d => exact ⟨e1.trans H.1, e7.trans H.2.1, e8.trans H.2.2.1, e2.trans H.2.2.2.1, e3.trans H.2.2.2.2⟩
  | dtd n e u => exact ⟨e1.trans H.1, e2.trans H.2.1, (vinfo_ids hi).1.trans H.2.2.1, (vinfo_ids hi).2.trans H.2.2.2⟩
  | ref n => exact ⟨e1.trans H.1, fun hn => e2.trans (H.2 hn)⟩

theorem Spec.HoldsText.mono {ok : Nat → Prop} {x : Nat} {w : Bytes} (H : HoldsText ok h x w) : HoldsText (fun _ => True) h x w := by
  rcases H with H | ⟨t, _, H⟩
  · exact Or.inl H
  · exact Or.inr ⟨t, trivial, H⟩

theorem Spec.HoldsAttrs.mono {ok : Nat → Prop} : ∀ {m : List Nat} {as : List (Bytes × Bytes)}, HoldsAttrs ok h m as →
    HoldsAttrs (fun _ => True) h m as
  | [], [], _ => trivial
  | _ :: _, _ :: _, H => ⟨trivial, H.2.1, H.2.2.1, fun w hw => (H.2.2.2.1 w hw).mono, HoldsAttrs.mono H.2.2.2.2⟩

theorem Spec.HoldsData.mono {ok : Nat → Prop} {i : Nat} {d : XData} (H : HoldsData ok h i d) : HoldsData (fun _ => True) h i d := by
  cases d with
  | elem l p u nsd as =>
    obtain ⟨h1, h2, h3, h4, hnd, m, h5, h6⟩ := H
    exact ⟨h1, h2, h3, h4, hnd, m, h5, h6.mono⟩
  | text b => exact H
  | comment b => exact H
  | pi t d => exact H
  | dtd n e u => exact H
  | ref n => exact H

theorem Spec.HoldsData.kind {ok : Nat → Prop} {i : Nat} {d : XData} (H : HoldsData ok h i d) :
    (h.at' i).kind = .element ∨ (h.at' i).kind = .text ∨ (h.at' i).kind = .comment ∨ (h.at' i).kind = .pi ∨ (h.at' i).kind = .dtd ∨
      (h.at' i).kind = .entityRef := by
  cases d with
  | elem l p u nsd as => exact Or.inl H.1
  | text b => exact Or.inr (Or.inl H.1)
  | comment b => exact Or.inr (Or.inr (Or.inl H.1))
  | pi t d => exact Or.inr (Or.inr (Or.inr (Or.inl H.1)))
  | dtd n e u => exact Or.inr (Or.inr (Or.inr (Or.inr (Or.inl H.1))))
  | ref n => exact Or.inr (Or.inr (Or.inr (Or.inr (Or.inr H.1))))

theorem Spec.HoldsData.shut {ok : Nat → Prop} {i : Nat} {d : XData} (H : HoldsData ok h i d) :
    ((h.at' i).kind = .dtd ∨ (h.at' i).kind = .entityRef) ↔ d.shut = true := by
  cases d <;> simp [XData.shut, H.1]

/-- finished trees: the siblings `l` and everything below them, numbered from `lo` up to `hi` in document order. Declarations are not numbered
that way. -/
def Zone (a : Forest) (h : Heap) : Nat → Nat → List Nat → XTree → Prop
  | lo, hi, [], .nil => lo ≤ hi
  | lo, hi, i :: l, .node d k r => lo ≤ i ∧ a.tree i = true ∧ HoldsData (Outside a) h i d ∧
      ∃ mid, i < mid ∧ (if d.shut = true then k = .nil else Zone a h (i + 1) mid (a.kids i) k) ∧ Zone a h mid hi l r
  | _, _, _, _ => False

namespace Zone

theorem le : ∀ {t : XTree} {l : List Nat} {lo hi : Nat}, Zone a h lo hi l t → lo ≤ hi
  | .nil, [], lo, hi, H => H
  | .node d k r, i :: l, lo, hi, H => by
    obtain ⟨h1, h2, h3, mid, h4, h5, h6⟩ := H
    have := le h6
    omega

theorem mem : ∀ {t : XTree} {l : List Nat} {lo hi : Nat}, Zone a h lo hi l t → ∀ c ∈ l, lo ≤ c ∧ c < hi ∧ a.tree c = true ∧
    ∃ d, HoldsData (Outside a) h c d
  | .nil, [], lo, hi, H, c, hc => by cases hc
  | .node d k r, i :: l, lo, hi, H, c, hc => by
    obtain ⟨h1, h2, h3, mid, h4, h5, h6⟩ := H
    have h7 := le h6
    rcases List.mem_cons.1 hc with rfl | hc
    · exact ⟨h1, by omega, h2, d, h3⟩
    · obtain ⟨g1, g2, g3⟩ := mem h6 c hc
      exact ⟨by omega, g2, g3⟩

theorem mono : ∀ {t : XTree} {l : List Nat} {lo hi hi' : Nat}, Zone a h lo hi l t → hi ≤ hi' → Zone a h lo hi' l t
  | .nil, [], lo, hi, hi', H, hh => Nat.le_trans H hh
  | .node d k r, i :: l, lo, hi, hi', H, hh => by
    obtain ⟨h1, h2, h3, mid, h4, h5, h6⟩ := H
    exact ⟨h1, h2, h3, mid, h4, h5, mono h6 hh⟩

theorem frame : ∀ {t : XTree} {l : List Nat} {lo hi : Nat}, Fr a h a' h' S → (∀ i, lo ≤ i → i < hi → S i) → Zone a h lo hi l t →
    Zone a' h' lo hi l t
  | .nil, [], lo, hi, _, _, H => H
  | .node d k r, i :: l, lo, hi, f, hS, H => by
    obtain ⟨h1, h2, h3, mid, h4, h5, h6⟩ := H
    have h7 := le h6
    obtain ⟨f1, f2, f3⟩ := f.node i (hS i h1 (by omega)) h2
    refine ⟨h1, f1, h3.frame f f3, mid, h4, ?_, frame f (fun j hj1 hj2 => hS j (by omega) hj2) h6⟩
    by_cases hd : d.shut = true
    · rw [if_pos hd] at h5 ⊢
      exact h5
    · rw [if_neg hd] at h5 ⊢
      rw [f2 (fun e => hd (h3.shut.1 (Or.inl e)))]
      exact frame f (fun j hj1 hj2 => hS j (by omega) (by omega)) h5

theorem snoc {c : Nat} {d : XData} {k : XTree} {hi' : Nat} (hc : a.tree c = true) (hd : HoldsData (Outside a) h c d)
    (hk : if d.shut = true then k = .nil else Zone a h (c + 1) hi' (a.kids c) k) (hch : c < hi') : ∀ {t : XTree} {l : List Nat} {lo hi : Nat}, Zone a h lo hi l t → hi ≤ c →
    Zone a h lo hi' (l ++ [c]) (t.snoc d k)
  | .nil, [], lo, hi, H, hh => ⟨Nat.le_trans H hh, hc, hd, hi', hch, hk, Nat.le_refl _⟩
  | .node d0 k0 r, i :: l, lo, hi, H, hh => by
    obtain ⟨h1, h2, h3, mid, h4, h5, h6⟩ := H
    exact ⟨h1, h2, h3, mid, h4, h5, snoc hc hd hk hch h6 hh⟩

/-- text that does not follow text. -/
theorem addText_new {b : Bytes} : ∀ {t : XTree} {l : List Nat} {lo hi : Nat}, Zone a h lo hi l t →
    (∀ c, l.getLast? = some c → (h.at' c).kind ≠ .text) → t.addText b = t.snoc (.text b) .nil
  | .nil, [], lo, hi, _, _ => rfl
  | .node d k .nil, [i], lo, hi, H, hl => by
    have hk := hl i rfl
    cases d with
    | text b0 => exact absurd H.2.2.1.1 hk
    | _ => rfl
  | .node d k .nil, i :: j :: l, lo, hi, H, hl => by
    obtain ⟨_, _, _, mid, _, _, h6⟩ := H
    exact h6.elim
  | .node d k (.node d1 k1 r1), [i], lo, hi, H, hl => by
    obtain ⟨_, _, _, mid, _, _, h6⟩ := H
    exact h6.elim
  | .node d k (.node d1 k1 r1), i :: j :: l, lo, hi, H, hl => by
    obtain ⟨_, _, _, mid, _, _, h6⟩ := H
    have := addText_new (b := b) h6 (fun c hc => hl c (by simpa [List.getLast?_cons] using hc))
    have e : (XTree.node d k (.node d1 k1 r1)).addText b = .node d k ((XTree.node d1 k1 r1).addText b) := by cases d <;> rfl
    rw [e, this]
    rfl

/-- text after text: the last node changes. -/
theorem addText_last {b : Bytes} {c : Nat} (f : Fr a h a' h' (fun i => i ≠ c)) (hk : a'.kids c = a.kids c) (ht' : a'.tree c = true)
    (hkind : (h.at' c).kind = .text) (hkind' : (h'.at' c).kind = .text) (hcont : (h'.at' c).content = (h.at' c).content ++ b) :
    ∀ {t : XTree} {l : List Nat} {lo hi : Nat}, Zone a h lo hi l t → l.getLast? = some c → Zone a' h' lo hi l (t.addText b)
  | .nil, [], lo, hi, _, hl => by cases hl
  | .node d k .nil, [i], lo, hi, H, hl => by
    have hci : i = c := by simpa using hl
    subst hci
    obtain ⟨h1, h2, h3, mid, h4, h5, h6⟩ := H
    cases d with
    | text b0 =>
      refine ⟨h1, ht', ⟨hkind', ?_⟩, mid, h4, ?_, h6⟩
      · rw [hcont, h3.2]
      · have h5 : Zone a h (i + 1) mid (a.kids i) k := h5
        show Zone a' h' (i + 1) mid (a'.kids i) k
        rw [hk]
        exact h5.frame f (fun j hj _ => by omega)
    | elem => rw [h3.1] at hkind; cases hkind
    | comment => rw [h3.1] at hkind; cases hkind
    | pi => rw [h3.1] at hkind; cases hkind
    | dtd => rw [h3.1] at hkind; cases hkind
    | ref => rw [h3.1] at hkind; cases hkind
  | .node d k .nil, i :: j :: l, lo, hi, H, hl => by
    obtain ⟨_, _, _, mid, _, _, h6⟩ := H
    exact h6.elim
  | .node d k (.node d1 k1 r1), [i], lo, hi, H, hl => by
    obtain ⟨_, _, _, mid, _, _, h6⟩ := H
    exact h6.elim
  | .node d k (.node d1 k1 r1), i :: j :: l, lo, hi, H, hl => by
    obtain ⟨h1, h2, h3, mid, h4, h5, h6⟩ := H
    have hl' : (j :: l).getLast? = some c := by simpa [List.getLast?_cons] using hl
    have hc := (mem h6 c (List.mem_of_getLast? hl')).1
    have e : (XTree.node d k (.node d1 k1 r1)).addText b = .node d k ((XTree.node d1 k1 r1).addText b) := by cases d <;> rfl
    obtain ⟨f1, f2, f3⟩ := f.node i (by omega) h2
    rw [e]
    refine ⟨h1, f1, h3.frame f f3, mid, h4, ?_, addText_last f hk ht' hkind hkind' hcont h6 hl'⟩
    by_cases hd : d.shut = true
    · rw [if_pos hd] at h5 ⊢
      exact h5
    · rw [if_neg hd] at h5 ⊢
      rw [f2 (fun e => hd (h3.shut.1 (Or.inl e)))]
      exact h5.frame f (fun m hm1 hm2 => by omega)

/-- finished trees are what the heap holds. -/
theorem holds (R : Rel h a) : ∀ {t : XTree} {l : List Nat} {lo hi : Nat}, Zone a h lo hi l t → HoldsTrees h l t
  | .nil, [], _, _, _ => trivial
  | .node d k r, i :: l, lo, hi, H => by
    obtain ⟨h1, h2, h3, mid, h4, h5, h6⟩ := H
    refine ⟨h3.mono, ?_, holds R h6⟩
    by_cases hd : d.shut = true
    · rw [if_pos hd] at h5 ⊢
      exact h5
    · rw [if_neg hd] at h5 ⊢
      refine ⟨a.kids i, R.childList h2 ?_, holds R h5⟩
      rw [← R.kind h2]
      rcases h3.kind with e | e | e | e | e | e
      · rw [e]; rfl
      · rw [e]; rfl
      · rw [e]; rfl
      · rw [e]; rfl
      · rw [e]; rfl
      · exact absurd (h3.shut.1 (Or.inr e)) hd

end Zone

/-- the open elements around `e`, from the inside out, each with the trees finished before the next inner one. -/
def Outer (a : Forest) (h : Heap) (dn : Nat) (top : XTree) : List (Nat × XData × XTree) → Nat → Prop
  | [], e => dn < e ∧ a.tree dn = true ∧ (h.at' dn).kind = .doc ∧ ∃ l, a.kids dn = l ++ [e] ∧ Zone a h (dn + 1) e l top
  | (p, d, t) :: fs, e => p < e ∧ a.tree p = true ∧ (h.at' p).kind = .element ∧ HoldsData (Outside a) h p d ∧
      (∃ l, a.kids p = l ++ [e] ∧ Zone a h (p + 1) e l t) ∧ Outer a h dn top fs p

/-- the state of a document under construction. -/
def Zip (a : Forest) (h : Heap) (dn : Nat) (top : XTree) : List (Nat × XData × XTree) → Prop
  | [] => a.tree dn = true ∧ (h.at' dn).kind = .doc ∧ Zone a h (dn + 1) a.size (a.kids dn) top
  | (e, d, t) :: fs => a.tree e = true ∧ (h.at' e).kind = .element ∧ HoldsData (Outside a) h e d ∧ Zone a h (e + 1) a.size (a.kids e) t ∧
      Outer a h dn top fs e

theorem Outer.frame {dn : Nat} {top : XTree} : ∀ {fs : List (Nat × XData × XTree)} {e : Nat}, Fr a h a' h' (fun i => i < e) →
    Outer a h dn top fs e → Outer a' h' dn top fs e
  | [], e, f, H => by
    obtain ⟨h1, h2, h3, l, h4, h5⟩ := H
    obtain ⟨f1, f2, f3⟩ := f.node dn h1 h2
    exact ⟨h1, f1, (vinfo_eq f3).1.trans h3, l, by rw [f2 (by rw [h3]; simp)]; exact h4, h5.frame f (fun i _ hi => hi)⟩
  | (p, d, t) :: fs, e, f, H => by
    obtain ⟨h1, h2, h3, h4, ⟨l, h5, h6⟩, h7⟩ := H
    obtain ⟨f1, f2, f3⟩ := f.node p h1 h2
    exact ⟨h1, f1, (vinfo_eq f3).1.trans h3, h4.frame f f3, ⟨l, by rw [f2 (by rw [h3]; simp)]; exact h5, h6.frame f (fun i _ hi => hi)⟩,
      Outer.frame (f.mono (fun i hi => Nat.lt_trans hi h1)) h7⟩

/-- the node new children go to. -/
def curNode (dn : Nat) : List (Nat × XData × XTree) → Nat
  | [] => dn
  | (e, _, _) :: _ => e

/-- the trees finished there. -/
def curTree (top : XTree) : List (Nat × XData × XTree) → XTree
  | [] => top
  | (_, _, t) :: _ => t

/-- replace them. -/
def setCur (top : XTree) (fs : List (Nat × XData × XTree)) (t : XTree) : XTree × List (Nat × XData × XTree) :=
  match fs with
  | [] => (t, [])
  | (e, d, _) :: fs => (top, (e, d, t) :: fs)

theorem Zip.cur {dn : Nat} {top : XTree} {fs : List (Nat × XData × XTree)} (Z : Zip a h dn top fs) :
    a.tree (curNode dn fs) = true ∧ ((h.at' (curNode dn fs)).kind = .doc ∨ (h.at' (curNode dn fs)).kind = .element) ∧
      Zone a h (curNode dn fs + 1) a.size (a.kids (curNode dn fs)) (curTree top fs) := by
  cases fs with
  | nil => exact ⟨Z.1, Or.inl Z.2.1, Z.2.2⟩
  | cons x fs =>
    obtain ⟨e, d, t⟩ := x
    exact ⟨Z.1, Or.inr Z.2.1, Z.2.2.2.1⟩

/-- the children of the current node change, everything before is untouched. -/
theorem Zip.setCur {dn : Nat} {top : XTree} {fs : List (Nat × XData × XTree)} (Z : Zip a h dn top fs) {t : XTree}
    (f : Fr a h a' h' (fun i => i < curNode dn fs)) (hp : a'.tree (curNode dn fs) = true)
    (hi : vinfo (h'.at' (curNode dn fs)) = vinfo (h.at' (curNode dn fs)))
    (hz : Zone a' h' (curNode dn fs + 1) a'.size (a'.kids (curNode dn fs)) t) :
    Zip a' h' dn (Helium.setCur top fs t).1 (Helium.setCur top fs t).2 := by
  cases fs with
  | nil => exact ⟨hp, (vinfo_eq hi).1.trans Z.2.1, hz⟩
  | cons x fs =>
    obtain ⟨e, d, t0⟩ := x
    obtain ⟨h1, h2, h3, h4, h5⟩ := Z
    exact ⟨hp, (vinfo_eq hi).1.trans h2, h3.frame f hi, hz, h5.frame f⟩

/-- a new innermost element. -/
theorem Zip.push {dn : Nat} {top : XTree} {fs : List (Nat × XData × XTree)} (Z : Zip a h dn top fs) {c : Nat} {d : XData}
    (f : Fr a h a' h' (fun i => i ≠ curNode dn fs)) (hp : a'.tree (curNode dn fs) = true)
    (hi : vinfo (h'.at' (curNode dn fs)) = vinfo (h.at' (curNode dn fs))) (hk : a'.kids (curNode dn fs) = a.kids (curNode dn fs) ++ [c])
    (hs : a.size ≤ c) (hcs : c < a'.size) (hb : curNode dn fs < c) (hc : a'.tree c = true) (hck : (h'.at' c).kind = .element) (hck0 : a'.kids c = [])
    (hd : HoldsData (Outside a') h' c d) : Zip a' h' dn top ((c, d, .nil) :: fs) := by
  refine ⟨hc, hck, hd, by rw [hck0]; exact hcs, ?_⟩
  cases fs with
  | nil =>
    exact ⟨hb, hp, (vinfo_eq hi).1.trans Z.2.1, a.kids dn, hk, (Z.2.2.mono hs).frame f (fun i h1 _ => by simp only [curNode]; omega)⟩
  | cons x fs =>
    obtain ⟨e, d0, t0⟩ := x
    obtain ⟨h1, h2, h3, h4, h5⟩ := Z
    simp only [curNode] at f hp hi hk hb
    exact ⟨hb, hp, (vinfo_eq hi).1.trans h2, h3.frame f hi, ⟨a.kids e, hk, (h4.mono hs).frame f (fun i h1 _ => by omega)⟩,
      h5.frame (f.mono (fun i hi => Nat.ne_of_lt hi))⟩

/-- the innermost element is complete. -/
theorem Zip.pop {dn : Nat} {top : XTree} {e : Nat} {d : XData} {t : XTree} {fs : List (Nat × XData × XTree)}
    (Z : Zip a h dn top ((e, d, t) :: fs)) :
    Zip a h dn (Helium.setCur top fs ((curTree top fs).snoc d t)).1 (Helium.setCur top fs ((curTree top fs).snoc d t)).2 := by
  obtain ⟨h1, h2, h3, h4, h5⟩ := Z
  have hnd : ¬ d.shut = true := fun e => by
    rcases h3.shut.2 e with this | this <;> rw [h2] at this <;> cases this
  cases fs with
  | nil =>
    obtain ⟨g1, g2, g3, l, g4, g5⟩ := h5
    refine ⟨g2, g3, ?_⟩
    rw [g4]
    exact Zone.snoc h1 h3 (by rw [if_neg hnd]; exact h4) h4.le g5 (Nat.le_refl _)
  | cons x fs =>
    obtain ⟨p, d0, t0⟩ := x
    obtain ⟨g1, g2, g3, g4, ⟨l, g5, g6⟩, g7⟩ := h5
    refine ⟨g2, g3, g4, ?_, g7⟩
    rw [g5]
    exact Zone.snoc h1 h3 (by rw [if_neg hnd]; exact h4) h4.le g6 (Nat.le_refl _)

/-- the node around the innermost element. -/
theorem Zip.parent {dn : Nat} {top : XTree} {e : Nat} {d : XData} {t : XTree} {fs : List (Nat × XData × XTree)}
    (Z : Zip a h dn top ((e, d, t) :: fs)) (R : Rel h a) : (h.at' e).parent = some (curNode dn fs) ∧
      ((h.at' (curNode dn fs)).kind = if fs = [] then .doc else .element) := by
  obtain ⟨h1, h2, h3, h4, h5⟩ := Z
  cases fs with
  | nil =>
    obtain ⟨g1, g2, g3, l, g4, g5⟩ := h5
    exact ⟨(R.link dn l e [] g4).2.2, by simpa [curNode] using g3⟩
  | cons x fs =>
    obtain ⟨p, d0, t0⟩ := x
    obtain ⟨g1, g2, g3, g4, ⟨l, g5, g6⟩, g7⟩ := h5
    exact ⟨(R.link p l e [] g5).2.2, by simpa [curNode] using g3⟩

end Helium
