import Verif.Lemmas.TbDoctype
import Verif.Lemmas.AttDoc
import Verif.Props.Tree
import Verif.Props.Atts
import Verif.Spec.DtdTree
/-! What `Parse` returns for documents with a document type declaration (C66). -/
namespace Helium
open Spec

/-! ### events with and without attributes supplied -/

theorem defaultAttrs_dflt (E : Env) (df : List (Bytes × List (Bytes × Nat))) (p l : Bytes) : ∀ a ∈ defaultAttrs E df p l, ∃ i, a = .dflt i := by
  intro a ha
  unfold defaultAttrs at ha
  simp only at ha
  split at ha
  · obtain ⟨q, _, rfl⟩ := List.mem_map.1 ha
    exact ⟨_, rfl⟩
  · cases ha

theorem declared_step {tok : Bytes → Bytes → Bool} {dfl : Bytes → Bytes → List AttrD} (hd : ∀ p l, ∀ a ∈ dfl p l, ∃ i, a = .dflt i) (s : Partial) (ev : Ev) :
    s.step (declared tok dfl ev) = s.step (declared tok (fun _ _ => []) ev) := by
  cases ev with
  | startElement l p u ns as =>
    simp only [declared, Partial.step]
    rw [givenAttrs_dflt (hd p l), List.append_nil]
  | _ => rfl

theorem declared_steps {tok : Bytes → Bytes → Bool} {dfl : Bytes → Bytes → List AttrD} (hd : ∀ p l, ∀ a ∈ dfl p l, ∃ i, a = .dflt i) :
    ∀ (evs : List Ev) (s : Partial), s.steps (evs.map (declared tok dfl)) = s.steps (evs.map (declared tok (fun _ _ => [])))
  | [], s => rfl
  | ev :: evs, s => by
    show (s.step (declared tok dfl ev)).bind _ = (s.step (declared tok (fun _ _ => []) ev)).bind _
    rw [declared_step hd]
    cases s.step (declared tok (fun _ _ => []) ev) with
    | none => rfl
    | some s' => exact declared_steps hd evs s'

theorem declared_filter {tok : Bytes → Bytes → Bool} {dfl : Bytes → Bytes → List AttrD} {f : Ev → Bool} (hf : ∀ ev, f (declared tok dfl ev) = f ev) (evs : List Ev) :
    (evs.map (declared tok dfl)).filter f = (evs.filter f).map (declared tok dfl) := by
  rw [List.filter_map]
  congr 1
  exact List.filter_congr (fun ev _ => hf ev)

theorem declared_treeOf {tok : Bytes → Bytes → Bool} {dfl : Bytes → Bytes → List AttrD} (hd : ∀ p l, ∀ a ∈ dfl p l, ∃ i, a = .dflt i) (evs : List Ev) :
    treeOf ((evs.map (declared tok dfl)).filter notCData) = treeOf ((evs.map (declared tok (fun _ _ => []))).filter notCData) := by
  rw [declared_filter (fun ev => by cases ev <;> rfl), declared_filter (fun ev => by cases ev <;> rfl)]
  unfold treeOf
  rw [declared_steps hd]

theorem declared_decls {tok : Bytes → Bytes → Bool} {dfl : Bytes → Bytes → List AttrD} (evs : List Ev) :
    (evs.map (declared tok dfl)).filter isDecl = evs.filter isDecl := by
  induction evs with
  | nil => rfl
  | cons ev evs ih => cases ev <;> simp_all [declared, isDecl, List.filter_cons]

theorem declared_noPI {tok : Bytes → Bytes → Bool} {dfl : Bytes → Bytes → List AttrD} : ∀ (b : Bool) (evs : List Ev),
    noPIInside b (evs.map (declared tok dfl)) = noPIInside b evs
  | _, [] => rfl
  | b, ev :: evs => by
    cases ev <;> simp only [List.map_cons, declared, noPIInside, declared_noPI _ evs]

theorem plainEv_noPI : ∀ (b : Bool) (evs : List Ev), noPIInside b (evs.map plainEv) = noPIInside b evs
  | _, [] => rfl
  | b, ev :: evs => by
    cases ev with
    | ignorable d =>
      simp only [List.map_cons, plainEv]
      split <;> simp only [noPIInside, plainEv_noPI _ evs]
    | _ => simp only [List.map_cons, plainEv, noPIInside, plainEv_noPI _ evs]

theorem plainEv_decls (evs : List Ev) : (evs.map plainEv).filter isDecl = evs.filter isDecl := by
  induction evs with
  | nil => rfl
  | cons ev evs ih =>
    cases ev with
    | ignorable d =>
      simp only [List.map_cons, plainEv]
      split <;> simp_all [isDecl, List.filter_cons]
    | _ => simp_all [plainEv, isDecl, List.filter_cons]

/-- events outside of a document type declaration. -/
def OffDtd : Ev → Prop
  | .internalSubset .. | .externalSubset .. | .reference .. => False
  | _ => True

theorem misc_calm {E : Env} {t : List Nat} {evs : List Ev} (h : Misc E t evs) : ∀ ev ∈ evs, OffDtd ev := by
  induction h with
  | nil => simp
  | space _ _ ih => exact ih
  | comment _ _ ih => intro ev hev; rcases List.mem_cons.1 hev with rfl | hev; trivial; exact ih ev hev
  | pi _ _ ih => intro ev hev; rcases List.mem_cons.1 hev with rfl | hev; trivial; exact ih ev hev

theorem src_calm {E : Env} {elem : Bool} {scope used used' : List (Bytes × Bytes)} {t : List Nat} {evs : List Ev}
    (h : Src E elem scope used t evs used') : ∀ ev ∈ evs, OffDtd ev := by
  induction h with
  | empty => intro ev hev; simp at hev; rcases hev with rfl | rfl <;> trivial
  | full _ _ _ _ _ _ ih =>
    intro ev hev
    rcases List.mem_cons.1 hev with rfl | hev
    · trivial
    · rcases List.mem_append.1 hev with hev | hev
      · exact ih ev hev
      · rw [List.mem_singleton] at hev; subst hev; trivial
  | nil => simp
  | element _ _ ih1 ih2 => intro ev hev; rcases List.mem_append.1 hev with hev | hev; exact ih1 ev hev; exact ih2 ev hev
  | text _ _ _ ih => intro ev hev; rcases List.mem_cons.1 hev with rfl | hev; trivial; exact ih ev hev
  | ref _ _ _ _ ih => intro ev hev; rcases List.mem_cons.1 hev with rfl | hev; trivial; exact ih ev hev
  | comment _ _ ih => intro ev hev; rcases List.mem_cons.1 hev with rfl | hev; trivial; exact ih ev hev
  | pi _ _ ih => intro ev hev; rcases List.mem_cons.1 hev with rfl | hev; trivial; exact ih ev hev
  | cdata _ _ ih => intro ev hev; rcases List.mem_cons.1 hev with rfl | hev; trivial; exact ih ev hev

theorem noPI_calm {l r : List Ev} (h : ∀ ev ∈ l, OffDtd ev) : noPIInside false (l ++ r) = noPIInside false r := by
  induction l with
  | nil => rfl
  | cons ev l ih =>
    have h1 := h ev (by simp)
    have h2 := ih (fun x hx => h x (by simp [hx]))
    cases ev <;> first | exact h1.elim | (simp only [List.cons_append, noPIInside, h2, Bool.not_false, Bool.true_and])

theorem noPI_decls {l r : List Ev} (h : ∀ ev ∈ l, OffDtd ev) (hp : ∀ n d, .pi n d ∉ l) : noPIInside true (l ++ r) = noPIInside true r := by
  induction l with
  | nil => rfl
  | cons ev l ih =>
    have h1 := h ev (by simp)
    have h2 := ih (fun x hx => h x (by simp [hx])) (fun n d hm => hp n d (by simp [hm]))
    cases ev with
    | pi n d => exact absurd (by simp) (hp n d)
    | _ => first | exact h1.elim | (simp only [List.cons_append, noPIInside, h2])

theorem decl_calm (d : Decl) : ∀ ev ∈ Decl.events d, OffDtd ev := by
  intro ev hev
  cases d with
  | entity p n l v => cases p <;> (simp [Decl.events] at hev; rcases hev with rfl | rfl <;> trivial)
  | attlist n as => obtain ⟨a, _, rfl⟩ := List.mem_map.1 hev; trivial
  | element => simp [Decl.events] at hev; subst hev; trivial
  | comment => simp [Decl.events] at hev; subst hev; trivial
  | pi => simp [Decl.events] at hev; subst hev; trivial

theorem decls_noPI {ds : List Decl} (h : ∀ n b, .pi n b ∉ ds) : ∀ n b, .pi n b ∉ ds.flatMap Decl.events := by
  intro n b hm
  obtain ⟨d, hd, hm⟩ := List.mem_flatMap.1 hm
  cases d with
  | entity p n l v => cases p <;> simp [Decl.events] at hm
  | attlist n as => obtain ⟨a, _, h⟩ := List.mem_map.1 hm; cases h
  | element => simp [Decl.events] at hm
  | comment => simp [Decl.events] at hm
  | pi => exact h _ _ hd

/-- what the events of a document with a document type declaration are like. -/
theorem dtdDocument_events {E : Env} {t v e : List Nat} {sd : Int} {ds : List Decl} {evs : List Ev} (h : DtdDocument E t v e sd ds evs) (hp : ∀ n b, .pi n b ∉ ds) :
    (∀ n, .reference n ∉ evs) ∧ noPIInside false evs = true ∧ ∃ ev ∈ evs, IsDoctype ev := by
  obtain ⟨h0, m1, n, dt, m2, root, m3, e1, e2, e3, e4, used, _, _, hm1, _, hm2, hroot, hm3, _, rfl⟩ := h
  have c1 := misc_calm hm1
  have c2 := misc_calm hm2
  have c3 := src_calm hroot
  have c4 := misc_calm hm3
  have c5 : ∀ ev ∈ ds.flatMap Decl.events, OffDtd ev := fun ev hev => by
    obtain ⟨d, _, hm⟩ := List.mem_flatMap.1 hev
    exact decl_calm d ev hm
  refine ⟨?_, ?_, ⟨.internalSubset (encodeRunes n) [] [], by simp, trivial⟩⟩
  · intro m hm
    have hd := fun x => c5 (.reference m) x
    have h1 := fun x => c1 (.reference m) x
    have h2 := fun x => c2 (.reference m) x
    have h3 := fun x => c3 (.reference m) x
    have h4 := fun x => c4 (.reference m) x
    simp only [OffDtd, imp_false] at hd h1 h2 h3 h4
    simp only [List.mem_append, List.mem_cons, List.not_mem_nil, h1, h2, h3, h4, hd, or_false, false_or, reduceCtorEq] at hm
  · have cs : ∀ ev ∈ ([.setDocumentLocator, .startDocument] : List Ev), OffDtd ev := by
      intro ev hev; simp at hev; rcases hev with rfl | rfl <;> trivial
    rw [noPI_calm cs, noPI_calm c1]
    show noPIInside true (_ ++ _) = true
    rw [List.append_assoc, noPI_decls c5 (decls_noPI hp)]
    show noPIInside false (e2 ++ _) = true
    rw [noPI_calm c2, noPI_calm c3, noPI_calm c4]
    rfl

theorem nodup_inj {α β : Type} {f : α → β} : ∀ {l : List α}, (l.map f).Nodup → ∀ a ∈ l, ∀ b ∈ l, f a = f b → a = b
  | [], _, a, ha, _, _, _ => by cases ha
  | x :: l, h, a, ha, b, hb, e => by
    rw [List.map_cons, List.nodup_cons] at h
    rcases List.mem_cons.1 ha with rfl | ha <;> rcases List.mem_cons.1 hb with rfl | hb
    · rfl
    · exact absurd (List.mem_map.2 ⟨b, hb, e.symm⟩) h.1
    · exact absurd (List.mem_map.2 ⟨a, ‹_›, e⟩) h.1
    · exact nodup_inj h.2 a ha b hb e

/-! ### the nodes for the declarations -/

theorem misc_noDecl {E : Env} {t : List Nat} {evs : List Ev} (h : Misc E t evs) : ∀ ev ∈ evs, isDecl ev = false := by
  induction h with
  | nil => simp
  | space _ _ ih => exact ih
  | comment _ _ ih => intro ev hev; rcases List.mem_cons.1 hev with rfl | hev; rfl; exact ih ev hev
  | pi _ _ ih => intro ev hev; rcases List.mem_cons.1 hev with rfl | hev; rfl; exact ih ev hev

theorem src_noDecl {E : Env} {elem : Bool} {scope used used' : List (Bytes × Bytes)} {t : List Nat} {evs : List Ev}
    (h : Src E elem scope used t evs used') : ∀ ev ∈ evs, isDecl ev = false := by
  induction h with
  | empty => intro ev hev; simp at hev; rcases hev with rfl | rfl <;> rfl
  | full _ _ _ _ _ _ ih =>
    intro ev hev
    rcases List.mem_cons.1 hev with rfl | hev
    · rfl
    · rcases List.mem_append.1 hev with hev | hev
      · exact ih ev hev
      · rw [List.mem_singleton] at hev; subst hev; rfl
  | nil => simp
  | element _ _ ih1 ih2 => intro ev hev; rcases List.mem_append.1 hev with hev | hev; exact ih1 ev hev; exact ih2 ev hev
  | text _ _ _ ih => intro ev hev; rcases List.mem_cons.1 hev with rfl | hev; rfl; exact ih ev hev
  | ref _ _ _ _ ih => intro ev hev; rcases List.mem_cons.1 hev with rfl | hev; rfl; exact ih ev hev
  | comment _ _ ih => intro ev hev; rcases List.mem_cons.1 hev with rfl | hev; rfl; exact ih ev hev
  | pi _ _ ih => intro ev hev; rcases List.mem_cons.1 hev with rfl | hev; rfl; exact ih ev hev
  | cdata _ _ ih => intro ev hev; rcases List.mem_cons.1 hev with rfl | hev; rfl; exact ih ev hev

theorem filter_none {α : Type} {f : α → Bool} {l : List α} (h : ∀ x ∈ l, f x = false) : l.filter f = [] :=
  List.filter_eq_nil_iff.2 (fun x hx => by rw [h x hx]; simp)

/-- the declarations reported for a document. -/
theorem dtdDocument_decls {E : Env} {t v e : List Nat} {sd : Int} {ds : List Decl} {evs : List Ev} (h : DtdDocument E t v e sd ds evs) :
    evs.filter isDecl = (ds.flatMap Decl.events).filter isDecl := by
  obtain ⟨h0, m1, n, dt, m2, root, m3, e1, e2, e3, e4, used, _, _, hm1, _, hm2, hroot, hm3, _, rfl⟩ := h
  simp only [List.filter_append, List.filter_cons, filter_none (misc_noDecl hm1), filter_none (misc_noDecl hm2), filter_none (misc_noDecl hm3),
    filter_none (src_noDecl hroot), isDecl, Bool.false_eq_true, if_false, List.filter_nil, List.nil_append, List.append_nil]

theorem holdsNodes_atts {h : Heap} {n : Bytes} {r : List Ev} {ns : List Decl} : ∀ (as : List AttDef) (m : List Nat),
    HoldsDecls h m (as.map (fun a => .attributeDecl n a.name a.typ a.deflt a.value a.names) ++ r) → (∀ m' ⊆ m, HoldsDecls h m' r → HoldsNodes h m' ns) →
    HoldsNodes h m (as.map (fun a => .attlist n [a]) ++ ns)
  | [], m, H, hr => hr m (fun _ h => h) H
  | a :: as, [], H, _ => H.elim
  | a :: as, i :: m, H, hr => ⟨H.1, holdsNodes_atts as m H.2 (fun m' hm => hr m' (fun x hx => by simp [hm hx]))⟩

theorem holdsNodes_of {h : Heap} : ∀ (ds : List Decl) (m : List Nat), HoldsDecls h m ((ds.flatMap Decl.events).filter isDecl) →
    (∀ i ∈ m, (h.at' i).kind = .entity → ∀ p n l w, .entity p n l w ∈ ds → (h.at' i).name = n → (h.at' i).entType = (if p then 4 else 1) → (h.at' i).orig = l) →
    HoldsNodes h m (nodesOf ds)
  | [], [], _, _ => trivial
  | [], i :: m, H, _ => H.elim
  | .element n ty ec :: ds, m, H, ho => by
    simp only [List.flatMap_cons, Decl.events, List.filter_append, List.filter_cons, isDecl, if_true, List.filter_nil, List.cons_append, List.nil_append] at H
    cases m with
    | nil => exact H.elim
    | cons i m => exact ⟨H.1, holdsNodes_of ds m H.2 (fun i hi hk p n l w hd => ho i (by simp [hi]) hk p n l w (by simp [hd]))⟩
  | .entity p n l w :: ds, m, H, ho => by
    have H : HoldsDecls h m (.entityDecl n (if p then 4 else 1) [] [] w :: (ds.flatMap Decl.events).filter isDecl) := by
      cases p <;> simpa [List.flatMap_cons, Decl.events, List.filter_append, List.filter_cons, isDecl] using H
    cases m with
    | nil => exact H.elim
    | cons i m =>
      exact ⟨⟨H.1, ho i (by simp) H.1.1 p n l w (by simp) H.1.2.1 H.1.2.2.1⟩,
        holdsNodes_of ds m H.2 (fun i hi hk p n l w hd => ho i (by simp [hi]) hk p n l w (by simp [hd]))⟩
  | .attlist n as :: ds, m, H, ho => by
    have e : ((Decl.attlist n as :: ds).flatMap Decl.events).filter isDecl =
        as.map (fun a => .attributeDecl n a.name a.typ a.deflt a.value a.names) ++ (ds.flatMap Decl.events).filter isDecl := by
      rw [List.flatMap_cons, List.filter_append]
      congr 1
      exact List.filter_eq_self.2 (fun ev hev => by obtain ⟨a, _, rfl⟩ := List.mem_map.1 hev; rfl)
    rw [e] at H
    exact holdsNodes_atts as m H (fun m' hm H' => holdsNodes_of ds m' H' (fun i hi hk p n l w hd => ho i (hm hi) hk p n l w (by simp [hd])))
  | .comment b :: ds, m, H, ho => by
    simp only [List.flatMap_cons, Decl.events, List.filter_append, List.filter_cons, isDecl, Bool.false_eq_true, if_false, List.filter_nil, List.nil_append] at H
    exact holdsNodes_of ds m H (fun i hi hk p n l w hd => ho i hi hk p n l w (by simp [hd]))
  | .pi a b :: ds, m, H, ho => by
    simp only [List.flatMap_cons, Decl.events, List.filter_append, List.filter_cons, isDecl, Bool.false_eq_true, if_false, List.filter_nil, List.nil_append] at H
    exact holdsNodes_of ds m H (fun i hi hk p n l w hd => ho i hi hk p n l w (by simp [hd]))

theorem entityNames_unique : ∀ {ds : List Decl}, (entityNames ds).Nodup → ∀ {p n l w l' w'}, Decl.entity p n l w ∈ ds → .entity p n l' w' ∈ ds → l = l' ∧ w = w'
  | [], _, _, _, _, _, _, _, h, _ => by cases h
  | d :: ds, hn, p, n, l, w, l', w', h1, h2 => by
    have key : ∀ {l w}, Decl.entity p n l w ∈ ds → (p, n) ∈ entityNames ds := by
      intro l w h
      clear hn h1 h2
      induction ds with
      | nil => cases h
      | cons d ds ih =>
        rcases List.mem_cons.1 h with rfl | h
        · simp [entityNames]
        · have := ih h
          cases d <;> simp [entityNames, this]
    cases d with
    | entity p0 n0 l0 w0 =>
      simp only [entityNames, List.nodup_cons] at hn
      rcases List.mem_cons.1 h1 with f1 | f1 <;> rcases List.mem_cons.1 h2 with f2 | f2
      · cases f1; cases f2; exact ⟨rfl, rfl⟩
      · cases f1; exact absurd (key f2) hn.1
      · cases f2; exact absurd (key f1) hn.1
      · exact entityNames_unique hn.2 f1 f2
    | _ =>
      simp only [entityNames, List.mem_cons, reduceCtorEq, false_or] at hn h1 h2
      exact entityNames_unique hn h1 h2

theorem nodesOf_ne : ∀ {ds : List Decl}, nodesOf ds ≠ [] → ds.flatMap elKeys ≠ [] ∨ ds.flatMap atKeys ≠ [] ∨ ds.flatMap entsOf ≠ []
  | [], h => absurd rfl h
  | .element n ty ec :: ds, _ => .inl (by simp [elKeys])
  | .entity p n l w :: ds, _ => .inr (.inr (by simp [entsOf]))
  | .attlist n as :: ds, h => by
    cases as with
    | cons a as => exact .inr (.inl (by simp [atKeys]))
    | nil =>
      have := nodesOf_ne (ds := ds) (by simpa [nodesOf] using h)
      simpa [List.flatMap_cons, elKeys, atKeys, entsOf] using this
  | .comment b :: ds, h => by
    have := nodesOf_ne (ds := ds) (by simpa [nodesOf] using h)
    simpa [List.flatMap_cons, elKeys, atKeys, entsOf] using this
  | .pi a b :: ds, h => by
    have := nodesOf_ne (ds := ds) (by simpa [nodesOf] using h)
    simpa [List.flatMap_cons, elKeys, atKeys, entsOf] using this

/-! ### C66 -/

/-- C66: `Parse` accepts every document with a document type declaration built from the productions in Spec/Decl.lean, and the document returned holds
the tree of the text and the declarations. -/
def C66_statement : Prop :=
  ∀ (E : Env) (t v e : List Nat) (sd : Int) (ds : List Decl) (evs : List Ev), DtdDocument E t v e sd ds evs → ∀ fuel, (∀ d ∈ ds, d.Short fuel) →
    (encodeRunes t).length + 1 < fuel →
    ∃ d heap tr x, parse E fuel (encodeRunes t) = .done (some d) none heap tr ∧
      treeOf ((evs.map (declared (tokenised ds) (fun _ _ => []))).filter notCData) = some x ∧ HoldsDoc heap d x ∧ HoldsSubset heap d (evs.filter isDecl)

/-- C66 for the declarations of `Declarable`: `Parse` returns a document that holds exactly the tree of the text (CDATA sections
left out; values of attributes of other types than CDATA with single spaces; no default attributes), with the version, encoding and standalone status of
the XML declaration, and a document type declaration that holds the declarations in order, one node for each thing declared (with its literal, if no
entity is declared twice); the entities have the name, literal and value of their declarations. Missing: what `Declarable` excludes, values made of spaces only (`Worded`). -/
theorem C66_partial (E : Env) {t v e : List Nat} {sd : Int} {ds : List Decl} {evs : List Ev} (h : DtdDocument E t v e sd ds evs)
    (hD : Declarable ds) (hw : ∀ ev ∈ evs, Worded (tokenised ds) ev) (fuel : Nat) (hsh : ∀ d ∈ ds, d.Short fuel) (hf : (encodeRunes t).length + 1 < fuel) :
    ∃ d heap tr x dfl, parse E fuel (encodeRunes t) = .done (some d) none heap tr ∧ tr.map (fun x => plainEv x.1) = evs.map (declared (tokenised ds) dfl) ∧
      (∀ p l, ∀ a ∈ dfl p l, ∃ i, a = .dflt i) ∧
      treeOf ((evs.map (declared (tokenised ds) (fun _ _ => []))).filter notCData) = some x ∧ HoldsDoc heap d x ∧ HoldsSubset heap d (evs.filter isDecl) ∧
      (heap.at' d).version = v ∧ (heap.at' d).encoding = e ∧ (heap.at' d).standalone = sd ∧
      (∀ i, i < heap.size → (heap.at' i).kind = .entity → ∃ p n l w, .entity p n l w ∈ ds ∧
        (heap.at' i).name = n ∧ (heap.at' i).entType = (if p then 4 else 1) ∧ (heap.at' i).orig = l ∧ (heap.at' i).content = w) ∧
      ((entityNames ds).Nodup → HoldsDtd heap d (nodesOf ds)) := by
  have hlen := encodeRunes_len t
  have hinj := nodup_inj hD.attributes
  have ht : ∀ x ∈ attDefs ds, x.2.typ ≠ 0 := by
    obtain ⟨h0, m1, n, dt, m2, root, m3, e1, e2, e3, e4, used, _, _, hm1, hdt, hm2, hroot, hm3, _, _⟩ := h
    intro x hx
    obtain ⟨as, h1, h2⟩ := attDefs_mem hx
    exact (doctype_OK hdt hsh _ h1 x.2 h2).typed
  have htok : ∀ l p u ns as, .startElement l p u ns as ∈ evs → ∀ a, tokOf ((typeTab [] (attDefs ds)).filter (fun p => p.2 != 1)) l a = tokenised ds l a :=
    fun l p u ns as hm a => tokOf_tokenised (fun x hx => (hD.attributeColon x hx).1) ht (fun x hx y hy hk => by rw [hinj x hx y hy hk])
      (document_colon h l p u ns as hm) a
  obtain ⟨s, h1, ⟨sp, df, h2, rfl, hL⟩, _⟩ := dtdDocument_run (treeBuilder_willing_noEnt fuel ⟨v, e, sd, 0⟩) h () fuel fuel
    (fun n dt hdt => treeBuilder_ready E fuel _ (encodeRunes n) (doctype_fit hdt hD hsh) (doctype_OK hdt hsh) hD.elKeys hD.atKeys)
    (fun sp df c hR ev hev => by
      rw [hR.1]
      exact worded_congr (fun l p u ns as he a => (htok l p u ns as (he ▸ hev) a).symm) (hw ev hev))
    ⟨⟨rfl, rfl⟩, fun i hi => absurd hi (Nat.not_lt_zero i)⟩ (by omega) hf
  rw [declared_congr htok] at h2
  have hp : parse E fuel (encodeRunes t) = .done s.hc.doc none s.hc.heap s.trace := by
    unfold parse parserParse
    rw [h1]
  have h2' : (s.trace.map (·.1)).map plainEv = evs.map (declared (tokenised ds) (defaultAttrs E df)) := by rw [← h2, List.map_map]; rfl
  obtain ⟨q1, q2, q3⟩ := dtdDocument_events h hD.noPI
  have hdoc : ∃ ev ∈ s.trace.map (·.1), IsDoctype ev := by
    obtain ⟨ev, hev, hi⟩ := q3
    have : declared (tokenised ds) (defaultAttrs E df) ev ∈ (s.trace.map (·.1)).map plainEv := by rw [h2']; exact List.mem_map.2 ⟨ev, hev, rfl⟩
    obtain ⟨y, hy, hye⟩ := List.mem_map.1 this
    refine ⟨y, hy, ?_⟩
    cases ev with
    | internalSubset a b c =>
      cases y with
      | ignorable d =>
        simp only [plainEv, declared] at hye
        split at hye <;> cases hye
      | internalSubset => trivial
      | _ => cases hye
    | _ => exact hi.elim
  have href : ∀ n, .reference n ∉ s.trace.map (·.1) := by
    intro n hm
    have : plainEv (.reference n) ∈ evs.map (declared (tokenised ds) (defaultAttrs E df)) := by rw [← h2']; exact List.mem_map.2 ⟨_, hm, rfl⟩
    obtain ⟨ev, hev, he⟩ := List.mem_map.1 this
    cases ev with
    | reference m => cases he; exact q1 _ hev
    | _ => cases he
  obtain ⟨d, x, k1, k2, k3, k4, _⟩ := C45_tree_doctype_partial E fuel fuel fuel () (encodeRunes t) hp (Or.inr href)
    (by rw [← plainEv_noPI, h2', declared_noPI]; exact q2)
  obtain ⟨dn, t', l1, l2, l3⟩ := hL
  have : d = dn := by rw [l1] at k1; cases k1; rfl
  subst this
  rw [l1] at hp
  refine ⟨d, s.hc.heap, s.trace, x, defaultAttrs E df, hp, h2, defaultAttrs_dflt E df, ?_, k3, ?_, l3.doc.1, l3.doc.2.1, l3.doc.2.2, ?_, ?_⟩
  · rw [← declared_treeOf (defaultAttrs_dflt E df), ← h2', plainEv_treeOf]
    exact k2
  · have := k4 hdoc
    rw [← plainEv_decls, h2', declared_decls] at this
    exact this
  · intro i hi hk
    obtain ⟨y, hy, y1, y2, y3, y4⟩ := l3.ents i hi hk
    obtain ⟨dd, hdd, hy⟩ := List.mem_flatMap.1 hy
    cases dd with
    | entity p n l w =>
      rw [show entsOf (.entity p n l w) = [(p, n, l, w)] from rfl, List.mem_singleton] at hy
      subst hy
      exact ⟨p, n, l, w, hdd, y1, y2, y3, y4⟩
    | _ => cases hy
  · intro hnd
    have hsub := k4 hdoc
    rw [← plainEv_decls, h2', declared_decls, dtdDocument_decls h] at hsub
    obtain ⟨t, m, ks, g1, g2, g3, g4, g5, g6, g7⟩ := hsub
    have : t' = t := by rw [l2] at g1; cases g1; rfl
    subst this
    refine ⟨t', m, ks, g1, g2, g3, g4, g5, g6, holdsNodes_of ds m g7 ?_, fun hne hc => ?_⟩
    · intro i hi hk p n l w hd hn ht
      obtain ⟨y, hy, y1, y2, y3, y4⟩ := l3.ents i (g6.alloc i hi) hk
      obtain ⟨dd, hdd, hy⟩ := List.mem_flatMap.1 hy
      cases dd with
      | entity p' n' l' w' =>
        rw [show entsOf (.entity p' n' l' w') = [(p', n', l', w')] from rfl, List.mem_singleton] at hy
        subst hy
        have hp' : p' = p := by
          rw [ht] at y2
          cases p <;> cases p' <;> first | rfl | cases y2
        have hn' : n' = n := y1.symm.trans hn
        subst hp' hn'
        rw [y3]
        exact (entityNames_unique hnd hdd hd).1
      | _ => cases hy
    · rcases nodesOf_ne hne with h | h | h
      · exact l3.full.1 h hc.2.1
      · exact l3.full.2.1 h hc.2.2.2
      · exact (l3.full.2.2 h).elim (fun x => x hc.1) (fun x => x hc.2.2.1)

end Helium
namespace Helium
open Spec
/-! ### documents of this kind -/

example : ∃ d heap tr x dfl, parse env0 100 (encodeRunes sampleAtt) = .done (some d) none heap tr ∧
    tr.map (fun x => plainEv x.1) = [.setDocumentLocator, .startDocument, .internalSubset b!"a" [] [], .attributeDecl b!"a" b!"b" 1 1 b!"x" [],
      .attributeDecl b!"a" b!"c" 2 3 [] [], .externalSubset b!"a" [] [], .startElement b!"a" [] [] [] (.parsed [] b!"c" b!"y z" :: dfl), .endElement b!"a" [] [],
      .endDocument] ∧ x = .node (.dtd b!"a" [] []) .nil (.node (.elem b!"a" [] [] [] [(b!"c", b!"y z")]) .nil .nil) ∧ HoldsDoc heap d x ∧
    HoldsSubset heap d [.attributeDecl b!"a" b!"b" 1 1 b!"x" [], .attributeDecl b!"a" b!"c" 2 3 [] []] := by
  obtain ⟨d, heap, tr, x, dfl, h1, h2, _, h3, h4, h5, _⟩ := C66_partial env0 sample_att
    ⟨by decide, by decide, by decide, by decide, by decide, by simp⟩ sample_worded 100
    (by intro d hd; rw [List.mem_singleton] at hd; subst hd; simp [Decl.Short]) (by decide)
  exact ⟨d, heap, tr, x, dfl [] b!"a", h1, h2, (Option.some.inj h3).symm, h4, h5⟩

example := C66_partial env0 sample_dtd ⟨by decide, by decide, by decide, by decide, by decide, by simp⟩
    (by intro ev hev; simp at hev; rcases hev with rfl | rfl | rfl | rfl | rfl | rfl | rfl | rfl | rfl | rfl | rfl | rfl <;> first | trivial | simp [Worded])
    300 (by intro d hd; simp at hd; rcases hd with rfl | rfl | rfl <;> simp [Decl.Short]) (by decide)

/-! ### witnesses -/

/-- `<!ATTLIST a b CDATA #IMPLIED><!ATTLIST a b CDATA #IMPLIED>` -/
theorem sample_twice : SubsetText env0 [.attlist b!"a" [⟨b!"b", 1, 3, [], []⟩], .attlist b!"a" [⟨b!"b", 1, 3, [], []⟩]]
    b!"<!ATTLIST a b CDATA #IMPLIED><!ATTLIST a b CDATA #IMPLIED>" := by
  have h : DeclText env0 (.attlist b!"a" [⟨b!"b", 1, 3, [], []⟩]) b!"<!ATTLIST a b CDATA #IMPLIED>" :=
    .attlist (n := b!"a") ⟨[32], [32], _, by decide, by decide, by decide, by decide, letter_name (by decide) (by decide),
      .one (n := b!"b") (w1 := [32]) (w2 := [32]) (w3 := []) (letter_name (by decide) (by decide)) (by decide) (by decide) .cdata (by decide) (by decide)
        .implied (by decide), rfl⟩
  exact .cons (ws := []) (by decide) h (.cons (ws := []) (by decide) h (.nil (ws := []) (by decide)))

/-- no document without an error. -/
def ParseRes.noDoc : ParseRes → Bool
  | .done (some _) none _ _ => false
  | _ => true

theorem C66_twice_rejected : (parse env0 100 b!"<!DOCTYPE a [<!ATTLIST a b CDATA #IMPLIED><!ATTLIST a b CDATA #IMPLIED>]><a b=\"y\"/>").noDoc = true := by
  decide +kernel

/-- **C66 is false**: a document that declares the attribute `b` twice, which XML allows, is rejected. -/
theorem C66_refuted : ¬ C66_statement := by
  intro h
  have hv : Value 34 b!"y" b!"y" := .char (by decide) (by decide) (by decide) (by decide) (by decide) .nil
  have hd := attSample sample_twice (n := 98) (q := 34) (by decide) (by decide) hv (by decide)
  obtain ⟨d, heap, tr, x, h1, _⟩ := h env0 _ _ _ _ _ _ hd 100 (by intro d hd; simp at hd; rcases hd with rfl | rfl; simp [Decl.Short]) (by decide)
  have := C66_twice_rejected
  rw [show parse env0 100 b!"<!DOCTYPE a [<!ATTLIST a b CDATA #IMPLIED><!ATTLIST a b CDATA #IMPLIED>]><a b=\"y\"/>" = .done (some d) none heap tr from h1] at this
  cases this

/-- two declarations of the same element type are refused as well (XML takes that for a matter of validity). -/
theorem C66_element_twice_rejected : (parse env0 100 b!"<!DOCTYPE a [<!ELEMENT a ANY><!ELEMENT a ANY>]><a/>").noDoc = true := by decide +kernel

end Helium
