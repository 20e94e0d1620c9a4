import Verif.Lemmas.DtdDump
import Verif.Props.Dump
import Verif.Props.Atts
/-! What the serialiser writes for a document with a document type declaration. -/
namespace Helium
open Spec

section
variable (E : Env)

theorem decl_short_mono {d : Decl} {a b : Nat} (h : d.Short a) (hab : a ≤ b) : d.Short b := by
  cases d with
  | attlist n as => exact fun x hx => by have := h x hx; omega
  | _ => trivial

theorem nodes_dump : ∀ (ns : List Decl), (∀ d ∈ ns, ∃ t, DeclText E d t) → (∀ d ∈ ns, d.Survives) → (∀ d ∈ ns, Joined d) →
    ∀ {h0 : Heap} {m0 : List Nat}, HoldsNodes h0 m0 ns →
    ∃ y, SubsetText E ns (10 :: y) ∧ (∀ c ∈ y, Legal c) ∧ (∀ d ∈ ns, d.Short (encodeRunes y).length) ∧
      ∀ h m f o, HoldsNodes h m ns → (m.forM (dumpNode h (f + 1)) : DM Unit) o = .ok () (o ++ encodeRunes y)
  | [], _, _, _, h0, m0, _ => by
    refine ⟨[], .nil (by decide), by simp, by simp, fun h m f o H => ?_⟩
    cases m with
    | nil => simp [pure_run, encodeRunes]
    | cons i m => exact H.elim
  | d :: ns, ht, hs, hj, h0, [], H => H.elim
  | d :: ns, ht, hs, hj, h0, i0 :: m0, H => by
    obtain ⟨t, ht0⟩ := ht d (by simp)
    obtain ⟨y1, a1, a2, a3, a4⟩ := decl_dumps E ht0 (hs d (by simp)) (hj d (by simp)) H.1
    obtain ⟨y2, b1, b2, b3, b4⟩ := nodes_dump ns (fun x hx => ht x (by simp [hx])) (fun x hx => hs x (by simp [hx])) (fun x hx => hj x (by simp [hx])) H.2
    refine ⟨y1 ++ 10 :: y2, SubsetText.cons (ws := [10]) (by decide) a1 b1, legal_append a2 (legal_cons (by decide) b2), ?_, fun h m f o H' => ?_⟩
    · intro x hx
      have e1 : (encodeRunes (y1 ++ 10 :: y2)).length = (encodeRunes y1).length + ((encodeRunes [10]).length + (encodeRunes y2).length) := by
        rw [encodeRunes_append, encodeRunes_cons, List.length_append, List.length_append]; rfl
      rcases List.mem_cons.1 hx with rfl | hx
      · exact decl_short_mono a3 (by omega)
      · exact decl_short_mono (b3 x hx) (by omega)
    · cases m with
      | nil => exact H'.elim
      | cons i m =>
        rw [forM_cons_run, a4 h i f o H'.1]
        simp only
        rw [b4 h m f _ H'.2]
        simp [encodeRunes_append, encodeRunes_cons]

/-- a node for the document type declaration named `n` with the declarations `ns`; `b`: some table has an entry. -/
def DtdNode (h : Heap) (i : Nat) (n : Bytes) (ns : List Decl) (b : Bool) : Prop :=
  (h.at' i).kind = .dtd ∧ (h.at' i).name = n ∧ (h.at' i).externalID = [] ∧ (h.at' i).systemID = [] ∧
    (b = false ↔ ((h.at' i).entities = [] ∧ (h.at' i).elements = [] ∧ (h.at' i).pentities = [] ∧ (h.at' i).attributes = [])) ∧
    ∃ m, ChildList h i m ∧ HoldsNodes h m ns

theorem doctype_dump {n : List Nat} (hn : Name E n) {ns : List Decl} {b : Bool} (hb : ns ≠ [] → b = true) (ht : ∀ d ∈ ns, ∃ t, DeclText E d t)
    (hs : ∀ d ∈ ns, d.Survives) (hj : ∀ d ∈ ns, Joined d) {h0 : Heap} {i0 : Nat} (H : DtdNode h0 i0 (encodeRunes n) ns b) :
    ∃ y, DoctypeText E n ns y ∧ (∀ c ∈ y, Legal c) ∧ (∀ d ∈ ns, d.Short (encodeRunes y).length) ∧
      ∀ h i f o, DtdNode h i (encodeRunes n) ns b → dumpNode h (f + 2) i o = .ok () (o ++ encodeRunes y) := by
  obtain ⟨_, _, _, _, _, m0, _, H0⟩ := H
  obtain ⟨y, h1, h2, h3, h4⟩ := nodes_dump E ns ht hs hj H0
  cases b with
  | false =>
    have hns : ns = [] := Decidable.byContradiction fun h => by simpa using hb (fun e => h (e ▸ rfl))
    subst hns
    refine ⟨b!"<!DOCTYPE" ++ ([32] ++ (n ++ ([32] ++ [62]))), .plain hn (by simp) (by decide) (by decide),
      legal_append (by decide) (legal_append (by decide) (legal_append (name_legal E hn) (by decide))), by simp, ?_⟩
    intro h i f o ⟨k1, k2, k3, k4, k5, _⟩
    obtain ⟨e1, e2, e3, e4⟩ := k5.1 rfl
    unfold dumpNode
    simp only [k1]
    rw [emit_bind, if_pos (by rw [e1, e2, e3, e4]; simp), emit_run]
    unfold dumpDTDHead
    rw [k2, k3, k4]
    simp [encodeRunes_append, encodeRunes_cons]
    rfl
  | true =>
    refine ⟨b!"<!DOCTYPE" ++ ([32] ++ (n ++ ([32] ++ 91 :: (10 :: y ++ 93 :: ([] ++ [62]))))),
      .subset hn (by simp) (by decide) (by decide) (by decide) h1,
      legal_append (by decide) (legal_append (by decide) (legal_append (name_legal E hn) (legal_append (by decide) (legal_cons (by decide)
        (legal_append (legal_cons (by decide) h2) (by decide)))))), ?_, ?_⟩
    · intro d hd
      refine decl_short_mono (h3 d hd) ?_
      simp only [encodeRunes_append, encodeRunes_cons, List.length_append, List.cons_append]
      omega
    · intro h i f o ⟨k1, k2, k3, k4, k5, m, k6, k7⟩
      unfold dumpNode
      simp only [k1]
      rw [emit_bind, if_neg, emit_bind, bind_run ((forChain_run k6.chain_eq _ _).trans (h4 h m f _ k7)), emit_run]
      · unfold dumpDTDHead
        rw [k2, k3, k4]
        simp [encodeRunes_append, encodeRunes_cons]
        rfl
      · intro hc
        simp only [List.isEmpty_iff] at hc
        exact Bool.noConfusion (k5.2 hc)

/-! ### documents -/

theorem forM_append_run {α : Type} (g : α → DM Unit) : ∀ (a b : List α) (o o' : Bytes), a.forM g o = .ok () o' → ((a ++ b).forM g : DM Unit) o = b.forM g o'
  | [], b, o, o', h => by cases h; rfl
  | x :: a, b, o, o', h => by
    rw [forM_cons_run] at h
    rw [List.cons_append, forM_cons_run]
    cases hx : g x o with
    | ok u o1 => rw [hx] at h; exact forM_append_run g a b o1 o' h
    | err e s => rw [hx] at h; cases h
    | panic => rw [hx] at h; cases h
    | diverge => rw [hx] at h; cases h

theorem holds_split {h : Heap} : ∀ (x y : XTree) {l : List Nat}, HoldsTrees h l (x.append y) → ∃ a b, l = a ++ b ∧ HoldsTrees h a x ∧ HoldsTrees h b y
  | .nil, y, l, H => ⟨[], l, rfl, trivial, H⟩
  | .node d k r, y, [], H => H.elim
  | .node d k r, y, i :: l, H => by
    obtain ⟨a, b, e, h1, h2⟩ := holds_split r y H.2.2
    exact ⟨i :: a, b, by rw [e]; rfl, ⟨H.1, H.2.1, h1⟩, h2⟩

theorem plainTop_kinds {e : Bool} {x : XTree} (hx : PlainTop E e x) {h : Heap} : ∀ {l : List Nat}, HoldsTrees h l x → ∀ i ∈ l, (h.at' i).kind ≠ .dtd := by
  induction hx with
  | nil => intro l H i hi; cases l with | nil => cases hi | cons => exact H.elim
  | comment _ _ _ ih =>
    intro l H i hi
    cases l with
    | nil => exact H.elim
    | cons j l =>
      rcases List.mem_cons.1 hi with rfl | hi
      · rw [H.1.1]; nofun
      · exact ih H.2.2 i hi
  | root _ _ ih =>
    intro l H i hi
    cases l with
    | nil => exact H.elim
    | cons j l =>
      rcases List.mem_cons.1 hi with rfl | hi
      · rw [H.1.1]; nofun
      · exact ih H.2.2 i hi

theorem childList_unique {h : Heap} {d : Nat} {a b : List Nat} (ha : ChildList h d a) (hb : ChildList h d b) : a = b :=
  Option.some.inj (ha.chain_eq.symm.trans hb.chain_eq)

theorem misc_depth {e : Bool} {x : XTree} (hx : PlainTop E e x) (he : true = e) : x.depth ≤ 1 := by
  induction hx with
  | nil => simp [XTree.depth]
  | comment _ _ _ ih => have := ih he; simp only [XTree.depth]; omega
  | root => cases he

/-- the document type declaration among the children of a document. -/
theorem doc_split {h : Heap} {d : Nat} {x1 x2 : XTree} {n : Bytes} {ns : List Decl} (h1 : PlainTop E true x1) (h2 : PlainTop E false x2)
    (H : HoldsDoc h d (x1.append (.node (.dtd n [] []) .nil x2))) (D : HoldsDtd h d ns) :
    ∃ a t c b, ChildList h d (a ++ t :: c) ∧ HoldsTrees h a x1 ∧ HoldsTrees h c x2 ∧ DtdNode h t n ns b ∧ (ns ≠ [] → b = true) := by
  obtain ⟨_, m, C, T⟩ := H
  obtain ⟨a, b, rfl, T1, T2⟩ := holds_split x1 _ T
  cases b with
  | nil => exact T2.elim
  | cons t c =>
    obtain ⟨⟨k1, k2, k3, k4⟩, _, T3⟩ := T2
    obtain ⟨t', m', ks, _, e2, _, C', hm, M, N, F⟩ := D
    have := childList_unique C C'
    subst this
    have ht : t' = t := by
      rcases List.mem_append.1 hm with hm | hm
      · exact absurd e2 (plainTop_kinds E h1 T1 _ hm)
      · rcases List.mem_cons.1 hm with rfl | hm
        · rfl
        · exact absurd e2 (plainTop_kinds E h2 T3 _ hm)
    subst ht
    by_cases hall : (h.at' t').entities = [] ∧ (h.at' t').elements = [] ∧ (h.at' t').pentities = [] ∧ (h.at' t').attributes = []
    · exact ⟨a, t', c, false, C, T1, T3, ⟨k1, k2, k3, k4, ⟨fun _ => hall, fun _ => rfl⟩, m', M, N⟩, fun hne => absurd hall (F hne)⟩
    · exact ⟨a, t', c, true, C, T1, T3, ⟨k1, k2, k3, k4, ⟨nofun, fun hc => absurd hc hall⟩, m', M, N⟩, fun _ => rfl⟩

/-- **the serialiser on a document with a document type declaration**. -/
theorem xmlString_dtd {h : Heap} {d : Nat} (hk : (h.at' d).kind = .doc) {x1 x2 : XTree} {a c : List Nat} {t : Nat} {y : List Nat} (h1 : PlainTop E true x1)
    (h2 : PlainTop E false x2) (C : ChildList h d (a ++ t :: c)) (T1 : HoldsTrees h a x1) (T2 : HoldsTrees h c x2)
    (hy : ∀ f o, dumpNode h (f + 2) t o = .ok () (o ++ encodeRunes y)) :
    xmlString h d = .ok () (dumpDocContent (h.at' d) ++ (writtenTop x1 ++ (encodeRunes y ++ 10 :: writtenTop x2))) := by
  unfold xmlString dumpDoc
  rw [show ∀ f : Unit → DM Unit, (dumpNode h (h.size + 1) d >>= f) [] = f () (dumpDocContent (h.at' d)) from fun f => by
    have : dumpNode h (h.size + 1) d [] = .ok () (dumpDocContent (h.at' d)) := by
      unfold dumpNode
      simp only [hk, emit_run, List.nil_append]
    rw [bind_run this]]
  rw [forChain_run C.chain_eq]
  have hpos : 0 < h.size := Nat.lt_of_le_of_lt (Nat.zero_le _) (C.alloc t (by simp))
  obtain ⟨k, hks⟩ : ∃ k, h.size = k + 1 := ⟨h.size - 1, by omega⟩
  have d2 : x2.depth ≤ h.size := by
    obtain ⟨T, s, e⟩ := holds_shows x2 C (a ++ [t]) c (by simp) T2 (plainTop_dumpable h2)
    have := s.depth_le (List.range h.size) List.nodup_range (fun i hi => List.mem_range.2 (s.alloc i hi))
    rw [← e]
    simpa using this
  have d1 := misc_depth E h1 rfl
  rw [forM_append_run _ a (t :: c) _ _ (dumpTop_run (h.size + 1) x1 a T1 (plainTop_dumpable h1) (by omega) _)]
  rw [forM_cons_run, bind_run (by rw [hks]; exact hy k _), emit_run]
  simp only
  rw [dumpTop_run (h.size + 1) x2 c T2 (plainTop_dumpable h2) (by omega)]
  simp

/-- the XML declaration written for a document. -/
theorem dump_xmlDecl (n : Node) (hv : n.version = [] ∨ Version n.version) (he : n.encoding = [] ∨ Utf8Name n.encoding) :
    ∃ t, dumpDocContent n = t ++ [10] ∧ XmlDecl t (writtenVersion n) n.encoding (writtenStandalone n) := by
  obtain ⟨t, ht, a, b, c, k1, k2, k3, k4, k5⟩ := dumpDoc_xmlDecl n (hv.imp_right version_num) (he.imp_right utf8_encName)
  refine ⟨t, ht, a, b, c, k1, ?_, k3, ?_, k5⟩
  · unfold writtenVersion
    split
    · exact ⟨b!"0", by decide, by decide, rfl⟩
    · exact hv.resolve_left ‹_›
  · rcases k4 with k4 | ⟨k4, k6⟩
    · exact Or.inl k4
    · rcases he with he | he
      · obtain ⟨c, t, e, _⟩ := k4
        rw [he] at e
        cases e
      · exact Or.inr ⟨he, k6⟩

/-- declarations add nothing to the tree. -/
theorem steps_decls (s : Partial) : ∀ (ns : List Decl), (∀ d ∈ ns, ∀ b, d ≠ .comment b) → (∀ d ∈ ns, ∀ a b, d ≠ .pi a b) → s.steps (ns.flatMap Decl.events) = some s
  | [], _, _ => rfl
  | d :: ns, hc, hp => by
    rw [List.flatMap_cons, steps_append]
    have ih := steps_decls s ns (fun x hx => hc x (by simp [hx])) (fun x hx => hp x (by simp [hx]))
    have : s.steps d.events = some s := by
      cases d with
      | entity p n l v => cases p <;> rfl
      | element => rfl
      | attlist n as => 
        show s.steps (as.map _) = _
        induction as with
        | nil => rfl
        | cons a as ih2 => exact ih2 (fun x hx b => by rcases List.mem_cons.1 hx with rfl | hx; nofun; exact hc x (by simp [hx]) b)
                             (fun x hx b c => by rcases List.mem_cons.1 hx with rfl | hx; nofun; exact hp x (by simp [hx]) b c)
      | comment b => exact absurd rfl (hc _ (by simp) b)
      | pi a b => exact absurd rfl (hp _ (by simp) a b)
    rw [this]
    exact ih

/-- what is written is a well-formed document with the same tree. -/
theorem dtd_document {x1 x2 : XTree} (h1 : PlainTop E true x1) (h2 : PlainDoc E x2) (nd : Node) (hv : nd.version = [] ∨ Version nd.version)
    (he : nd.encoding = [] ∨ Utf8Name nd.encoding) {n y : List Nat} {ns : List Decl} (hy : DoctypeText E n ns y) (hl : ∀ c ∈ y, Legal c)
    (hc : ∀ d ∈ ns, ∀ b, d ≠ .comment b) (hp : ∀ d ∈ ns, ∀ a b, d ≠ .pi a b) :
    ∃ t evs, encodeRunes t = dumpDocContent nd ++ (writtenTop x1 ++ (encodeRunes y ++ 10 :: writtenTop x2)) ∧
      DtdDocument E t (writtenVersion nd) nd.encoding (writtenStandalone nd) ns evs ∧
      treeOf (evs.filter notCData) = some (x1.append (.node (.dtd (encodeRunes n) [] []) .nil x2)) ∧ ∀ ev ∈ evs, notCData ev = true := by
  obtain ⟨m1, e1, a1, a2, a3, a4, a5⟩ := misc_src h1 rfl
  obtain ⟨m2, root, m3, e2, e3, e4, used, b1, b2, b3, b4, b5, b6, b7⟩ := top_src h2.1 rfl h2.2
  obtain ⟨d, hd1, hd2⟩ := dump_xmlDecl nd hv he
  have hda := xmlDecl_ascii hd2
  have hcd : ∀ ev ∈ [Ev.setDocumentLocator, .startDocument] ++ (e1 ++ ((.internalSubset (encodeRunes n) [] [] :: (ns.flatMap Decl.events ++
      [.externalSubset (encodeRunes n) [] []])) ++ (e2 ++ (e3 ++ (e4 ++ [.endDocument]))))), notCData ev = true := by
    intro ev hev
    simp only [List.mem_append, List.mem_cons, List.not_mem_nil, or_false] at hev
    have hb : ∀ ev, ev ∈ e2 ∨ ev ∈ e3 ∨ ev ∈ e4 → notCData ev = true := fun ev h => b6 ev (by simpa using h)
    rcases hev with (rfl | rfl) | hev | (rfl | hev | rfl) | hev | hev | hev | rfl
    · rfl
    · rfl
    · exact a4 ev hev
    · rfl
    · obtain ⟨d, hd, hev⟩ := List.mem_flatMap.1 hev
      cases d with
      | entity p n l v => cases p <;> (simp [Decl.events] at hev; rcases hev with rfl | rfl <;> rfl)
      | attlist n as => obtain ⟨a, _, rfl⟩ := List.mem_map.1 hev; rfl
      | element => simp [Decl.events] at hev; subst hev; rfl
      | comment => simp [Decl.events] at hev; subst hev; rfl
      | pi => simp [Decl.events] at hev; subst hev; rfl
    · rfl
    · exact hb ev (.inl hev)
    · exact hb ev (.inr (.inl hev))
    · exact hb ev (.inr (.inr hev))
    · rfl
  refine ⟨d ++ ((10 :: m1) ++ (y ++ ((10 :: m2) ++ (root ++ m3)))), _, ?_,
    ⟨d, 10 :: m1, n, y, 10 :: m2, root, m3, e1, e2, e3, e4, used, rfl, ⟨[], d, rfl, Or.inl rfl, Or.inl hd2⟩, .space (by decide) a1, hy, .space (by decide) b1, b2, b3, ?_, rfl⟩, ?_, hcd⟩
  · rw [encodeRunes_append, encodeRunes_ascii d hda, encodeRunes_append, encodeRunes_cons, encodeRunes_append, List.cons_append, encodeRunes_cons, b4, a2, hd1]
    simp [encodeRune]
  · intro c hc
    simp only [List.mem_append, List.mem_cons] at hc
    have hb : ∀ c, c ∈ m2 ∨ c ∈ root ∨ c ∈ m3 → Legal c := fun c h => b5 c (by simpa using h)
    rcases hc with hc | (rfl | hc) | hc | (rfl | hc) | hc | hc
    · exact xmlDecl_legal hd2 c hc
    · decide
    · exact a3 c hc
    · exact hl c hc
    · decide
    · exact hb c (.inl hc)
    · exact hb c (.inr (.inl hc))
    · exact hb c (.inr (.inr hc))
  · rw [List.filter_eq_self.2 hcd]
    unfold treeOf
    have : Partial.steps ⟨[], .nil⟩ ([Ev.setDocumentLocator, .startDocument] ++ (e1 ++ ((.internalSubset (encodeRunes n) [] [] :: (ns.flatMap Decl.events ++
      [.externalSubset (encodeRunes n) [] []])) ++ (e2 ++ (e3 ++ (e4 ++ [.endDocument])))))) =
        some ⟨[], x1.append (.node (.dtd (encodeRunes n) [] []) .nil x2)⟩ := by
      rw [steps_append]
      show Partial.steps ⟨[], .nil⟩ _ = _
      rw [steps_append, a5]
      show Partial.steps ⟨[], x1⟩ _ = _
      rw [steps_append]
      have hdt : Partial.steps ⟨[], x1⟩ (.internalSubset (encodeRunes n) [] [] :: (ns.flatMap Decl.events ++ [.externalSubset (encodeRunes n) [] []])) =
          some ⟨[], x1.snoc (.dtd (encodeRunes n) [] []) .nil⟩ := by
        show Partial.steps ⟨[], x1.snoc (.dtd (encodeRunes n) [] []) .nil⟩ _ = _
        rw [steps_append, steps_decls _ ns hc hp]
        rfl
      rw [hdt]
      show Partial.steps ⟨[], x1.snoc (.dtd (encodeRunes n) [] []) .nil⟩ _ = _
      rw [show e2 ++ (e3 ++ (e4 ++ [Ev.endDocument])) = (e2 ++ (e3 ++ e4)) ++ [.endDocument] by simp, steps_append, b7]
      show some _ = _
      rw [XTree.snoc_append]
    rw [this]

/-! ### values that stay as they are -/

theorem atts_local {used : List (Bytes × Bytes)} {t : List Nat} {as : List AttrD} {dd : List (Bytes × Bytes)} (h : Atts E used t as dd) :
    ∀ p n v, .parsed p n v ∈ as → 58 ∉ n := by
  induction h with
  | nil => intro p n v ha; cases ha
  | attr _ _ hq _ _ _ _ _ _ _ ih =>
    intro p n v ha
    rcases List.mem_cons.1 ha with ha | ha
    · cases ha
      intro hc
      exact (hq.1.chars 58 ((mem_encodeRunes_ascii _ _ (by decide)).1 hc)).2 rfl
    · exact ih p n v ha
  | decl _ _ _ _ _ _ _ _ _ _ _ _ _ _ _ ih => exact ih
  | dflt => intro p n v ha; cases ha

theorem src_local {b : Bool} {scope used used' : List (Bytes × Bytes)} {t : List Nat} {evs : List Ev} (h : Src E b scope used t evs used') :
    ∀ l p u ns as, .startElement l p u ns as ∈ evs → ∀ p n v, .parsed p n v ∈ as → 58 ∉ n := by
  induction h with
  | empty _ ha _ _ => intro l p u ns as hm; simp at hm; obtain ⟨_, _, _, _, rfl⟩ := hm; exact atts_local E ha
  | full _ ha _ _ _ _ ih =>
    intro l p u ns as hm
    simp at hm
    rcases hm with ⟨_, _, _, _, rfl⟩ | hm
    · exact atts_local E ha
    · exact ih _ _ _ _ _ hm
  | nil => intro l p u ns as hm; cases hm
  | element _ _ ih1 ih2 =>
    intro l p u ns as hm
    rcases List.mem_append.1 hm with hm | hm
    · exact ih1 _ _ _ _ _ hm
    · exact ih2 _ _ _ _ _ hm
  | text _ _ _ ih => intro l p u ns as hm; simp at hm; exact ih _ _ _ _ _ hm
  | ref _ _ _ _ ih => intro l p u ns as hm; simp at hm; exact ih _ _ _ _ _ hm
  | comment _ _ ih => intro l p u ns as hm; simp at hm; exact ih _ _ _ _ _ hm
  | pi _ _ ih => intro l p u ns as hm; simp at hm; exact ih _ _ _ _ _ hm
  | cdata _ _ ih => intro l p u ns as hm; simp at hm; exact ih _ _ _ _ _ hm

/-- the condition of `Settled` on one node. -/
def SettledData (ds : List Decl) : XData → Prop
  | .elem l _ _ nsd as => (∀ q n v, (qualified q n, v) ∈ as → 58 ∉ n → tokenised ds l n = true → unwords (words [] v) = v) ∧
      (∀ p u, (p, u) ∈ nsd → tokenised ds l (if p = [] then b!"xmlns" else p) = false)
  | _ => True

theorem settled_node {ds : List Decl} {d : XData} {k r : XTree} : Settled ds (.node d k r) ↔ SettledData ds d ∧ Settled ds k ∧ Settled ds r := by
  cases d <;> simp [Settled, SettledData]

theorem settled_snoc {ds : List Decl} {d : XData} {c : XTree} : ∀ {k : XTree}, Settled ds (k.snoc d c) ↔ Settled ds k ∧ SettledData ds d ∧ Settled ds c
  | .nil => by rw [XTree.snoc, settled_node]; simp [Settled]
  | .node d0 k0 r => by
    rw [XTree.snoc, settled_node, settled_node, settled_snoc (k := r)]
    constructor
    · rintro ⟨a, b, c, d, e⟩; exact ⟨⟨a, b, c⟩, d, e⟩
    · rintro ⟨⟨a, b, c⟩, d, e⟩; exact ⟨a, b, c, d, e⟩

theorem settled_addText {ds : List Decl} {b : Bytes} : ∀ {k : XTree}, Settled ds (k.addText b) ↔ Settled ds k
  | .nil => by simp [XTree.addText, Settled]
  | .node d k .nil => by
    cases d with
    | text b0 => simp [XTree.addText, Settled]
    | _ => simp [XTree.addText, settled_node, Settled, SettledData]
  | .node d k (.node d' k' r') => by
    rw [XTree.addText_node _ _ _ _ (by simp), settled_node, settled_node, settled_addText (k := .node d' k' r')]

/-- everything read so far is settled. -/
def SettledPart (ds : List Decl) (s : Partial) : Prop := (∀ x ∈ s.inner, SettledData ds x.1 ∧ Settled ds x.2) ∧ Settled ds s.top

/-- the element a start tag opens. -/
def startData : Ev → XData
  | .startElement l p u ns as => .elem l p u (ns.filterMap id) (givenAttrs as)
  | _ => .text []

theorem settled_add {ds : List Decl} {s : Partial} {d : XData} {k : XTree} : SettledPart ds (s.add d k) ↔ SettledPart ds s ∧ SettledData ds d ∧ Settled ds k := by
  unfold SettledPart Partial.add
  cases hs : s.inner with
  | nil => simp only [settled_snoc]; simp [hs]
  | cons x r =>
    simp only [List.forall_mem_cons, settled_snoc]
    constructor
    · rintro ⟨⟨⟨a, b, c, d⟩, e⟩, f⟩; exact ⟨⟨⟨⟨a, b⟩, e⟩, f⟩, c, d⟩
    · rintro ⟨⟨⟨⟨a, b⟩, e⟩, f⟩, c, d⟩; exact ⟨⟨⟨a, b, c, d⟩, e⟩, f⟩

theorem settled_step {ds : List Decl} {s s' : Partial} {ev : Ev} (h : s.step ev = some s') : SettledPart ds s' ↔ SettledPart ds s ∧ SettledData ds (startData ev) := by
  cases ev with
  | startElement l p u ns as =>
    cases h
    unfold SettledPart
    simp only [List.forall_mem_cons, startData, Settled]
    constructor
    · rintro ⟨⟨⟨a, _⟩, b⟩, c⟩; exact ⟨⟨b, c⟩, a⟩
    · rintro ⟨⟨b, c⟩, a⟩; exact ⟨⟨⟨a, trivial⟩, b⟩, c⟩
  | endElement l p u =>
    unfold Partial.step at h
    simp only at h
    cases hs : s.inner with
    | nil => rw [hs] at h; cases h
    | cons x r =>
      rw [hs] at h
      cases h
      rw [settled_add]
      unfold SettledPart
      rw [hs]
      simp only [List.forall_mem_cons, startData, SettledData]
      constructor
      · rintro ⟨⟨a, b⟩, c, d⟩; exact ⟨⟨⟨⟨c, d⟩, a⟩, b⟩, trivial⟩
      · rintro ⟨⟨⟨⟨c, d⟩, a⟩, b⟩, _⟩; exact ⟨⟨a, b⟩, c, d⟩
  | characters b =>
    unfold Partial.step at h
    simp only at h
    cases hs : s.inner with
    | nil => rw [hs] at h; cases h
    | cons x r =>
      rw [hs] at h
      cases h
      unfold SettledPart
      rw [hs]
      simp only [List.forall_mem_cons, startData, SettledData, settled_addText, and_true]
  | ignorable b =>
    unfold Partial.step at h
    simp only at h
    cases hs : s.inner with
    | nil => rw [hs] at h; cases h
    | cons x r =>
      rw [hs] at h
      cases h
      unfold SettledPart
      rw [hs]
      simp only [List.forall_mem_cons, startData, SettledData, settled_addText, and_true]
  | cdata b =>
    unfold Partial.step at h
    simp only at h
    cases hs : s.inner with
    | nil => rw [hs] at h; cases h
    | cons x r =>
      rw [hs] at h
      cases h
      unfold SettledPart
      rw [hs]
      simp only [List.forall_mem_cons, startData, SettledData, settled_addText, and_true]
  | comment b => cases h; rw [settled_add]; simp [startData, SettledData, Settled]
  | pi t d => cases h; rw [settled_add]; simp [startData, SettledData, Settled]
  | internalSubset n e u =>
    unfold Partial.step at h
    simp only at h
    cases hs : s.inner with
    | nil => rw [hs] at h; cases h; rw [settled_add]; simp [startData, SettledData, Settled]
    | cons x r => rw [hs] at h; cases h
  | reference n =>
    unfold Partial.step at h
    simp only at h
    cases hs : s.inner with
    | nil => rw [hs] at h; cases h
    | cons x r => rw [hs] at h; cases h; rw [settled_add]; simp [startData, SettledData, Settled]
  | _ => cases h; simp [startData, SettledData]

theorem settled_steps {ds : List Decl} : ∀ {evs : List Ev} {s s' : Partial}, s.steps evs = some s' →
    (SettledPart ds s' ↔ SettledPart ds s ∧ ∀ ev ∈ evs, SettledData ds (startData ev))
  | [], s, s', h => by cases h; simp
  | ev :: evs, s, s', h => by
    rw [Partial.steps] at h
    cases hs : s.step ev with
    | none => rw [hs] at h; cases h
    | some s1 =>
      rw [hs] at h
      rw [settled_steps (evs := evs) h, settled_step hs, List.forall_mem_cons, and_assoc]

theorem settled_tree {ds : List Decl} {evs : List Ev} {x : XTree} (h : treeOf evs = some x) :
    Settled ds x ↔ ∀ ev ∈ evs, SettledData ds (startData ev) := by
  unfold treeOf at h
  split at h
  · rename_i t ht
    cases h
    have := settled_steps (ds := ds) ht
    simpa [SettledPart, Settled] using this
  · cases h

theorem mem_givenAttrs : ∀ {as : List AttrD} {p n v : Bytes}, .parsed p n v ∈ as → (qualified p n, v) ∈ givenAttrs as
  | .dflt i :: as, p, n, v, h => by
    rcases List.mem_cons.1 h with h | h
    · cases h
    · exact mem_givenAttrs (as := as) h
  | .parsed p' n' v' :: as, p, n, v, h => by
    rcases List.mem_cons.1 h with h | h
    · cases h
      exact List.mem_cons_self
    · exact List.mem_cons_of_mem _ (mem_givenAttrs h)

/-- the events of a settled tree are reported as they are. -/
theorem settled_declared {t v e : List Nat} {sd : Int} {ds : List Decl} {evs : List Ev} (h : DtdDocument E t v e sd ds evs)
    (hs : ∀ ev ∈ evs, SettledData ds (startData ev)) :
    (∀ ev ∈ evs, Worded (tokenised ds) ev) ∧ evs.map (declared (tokenised ds) (fun _ _ => [])) = evs := by
  obtain ⟨root, e3, used, hroot, key⟩ := document_starts h
  have hloc : ∀ l p u ns as, .startElement l p u ns as ∈ evs → ∀ q n v, .parsed q n v ∈ as → tokenised ds l n = true → unwords (words [] v) = v := by
    intro l p u ns as hev q n v ha
    exact (hs _ hev).1 q n v (mem_givenAttrs ha) (src_local E hroot _ _ _ _ _ (key _ _ _ _ _ hev) q n v ha)
  constructor
  · intro ev hev
    cases ev with
    | startElement l p u ns as =>
      refine ⟨fun q n v ha ht => ?_, fun q u' hm => (hs _ hev).2 q u' ?_⟩
      · have he := hloc l p u ns as hev q n v ha ht
        by_cases hv : v = []
        · exact .inl hv
        · right
          rw [← he]
          exact unwords_space (words_proper v [] (by simp)) (by rw [he]; exact hv)
      · exact List.mem_filterMap.2 ⟨_, hm, rfl⟩
    | _ => trivial
  · conv => rhs; rw [← List.map_id evs]
    refine List.map_congr_left (fun ev hev => ?_)
    cases ev with
    | startElement l p u ns as =>
      simp only [declared, List.append_nil, id]
      congr 1
      conv => rhs; rw [← List.map_id as]
      refine List.map_congr_left (fun a ha => ?_)
      cases a with
      | dflt i => rfl
      | parsed q n v =>
        simp only [tokenValue, id]
        split
        · rw [hloc l p u ns as hev q n v ha ‹_›]
        · rfl
    | _ => rfl

end
end Helium
