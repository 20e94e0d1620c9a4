import Verif.Lemmas.DtdDoc
/-! Documents with attribute list declarations. -/
namespace Helium
open Spec

section
variable {E : Env}

theorem typeText_pos {typ : Nat} {ns : List Bytes} {t : List Nat} (h : TypeText E typ ns t) : typ ≠ 0 := by
  cases h <;> simp

theorem defaultText_kind {typ d : Nat} {v : Bytes} {u : List Nat} (h : DefaultText typ d v u) : d = 1 ∨ d = 2 ∨ d = 3 ∨ d = 4 := by
  cases h <;> simp

theorem attDefs_kind {as : List AttDef} {t : List Nat} (h : AttDefs E as t) :
    ∀ a ∈ as, (a.deflt = 1 ∨ a.deflt = 2 ∨ a.deflt = 3 ∨ a.deflt = 4) ∧ a.typ ≠ 0 := by
  induction h with
  | one _ _ _ ht _ _ hd _ => intro a ha; rw [List.mem_singleton] at ha; subst ha; exact ⟨defaultText_kind hd, typeText_pos ht⟩
  | more _ _ _ ht _ _ hd _ _ _ ih =>
    intro a ha
    rcases List.mem_cons.1 ha with rfl | ha
    · exact ⟨defaultText_kind hd, typeText_pos ht⟩
    · exact ih a ha

theorem decl_OK {d : Decl} {t : List Nat} (h : DeclText E d t) {snl : Nat} (hs : d.Short snl) : Decl.OK snl d := by
  have hp := decl_spelled h
  cases h with
  | attlist h =>
    obtain ⟨w1, w2, r, _, _, _, _, _, hx, _⟩ := h
    intro a ha
    exact ⟨hp a ha, hs a ha, (attDefs_kind hx a ha).1, (attDefs_kind hx a ha).2⟩
  | _ => trivial

theorem doctype_OK {n : List Nat} {ds : List Decl} {t : List Nat} (h : DoctypeText E n ds t) {snl : Nat} (hs : ∀ d ∈ ds, d.Short snl) :
    ∀ d ∈ ds, Decl.OK snl d := by
  have sub : ∀ {ds t}, SubsetText E ds t → (∀ d ∈ ds, d.Short snl) → ∀ d ∈ ds, Decl.OK snl d := by
    intro ds t h
    induction h with
    | nil => intro _ d hd; cases hd
    | cons _ hd _ ih =>
      intro hs x hx
      rcases List.mem_cons.1 hx with rfl | hx
      · exact decl_OK hd (hs _ (by simp))
      · exact ih (fun d hd => hs d (by simp [hd])) x hx
  cases h with
  | plain => intro d hd; cases hd
  | subset _ _ _ _ _ h => exact sub h hs

theorem attDefs_mem {ds : List Decl} {x : Bytes × AttDef} (h : x ∈ attDefs ds) : ∃ as, .attlist x.1 as ∈ ds ∧ x.2 ∈ as := by
  unfold attDefs at h
  obtain ⟨d, hd, hx⟩ := List.mem_flatMap.1 h
  cases d with
  | attlist n as =>
    obtain ⟨a, ha, rfl⟩ := List.mem_map.1 hx
    exact ⟨as, hd, ha⟩
  | _ => cases hx

theorem local_colon {b : Bool} {scope used used' : List (Bytes × Bytes)} {t : List Nat} {evs : List Ev} (h : Src E b scope used t evs used') :
    ∀ l p u ns as, .startElement l p u ns as ∈ evs → 58 ∉ l := by
  have nc : ∀ {n p l : List Nat}, QName E n p l → 58 ∉ encodeRunes l := fun h hc =>
    (h.1.chars 58 ((mem_encodeRunes_ascii _ _ (by decide)).1 hc)).2 rfl
  induction h with
  | empty hq _ _ _ => intro l p u ns as hm; simp at hm; obtain ⟨rfl, _⟩ := hm; exact nc hq
  | full hq _ _ _ _ _ ih =>
    intro l p u ns as hm
    simp at hm
    rcases hm with ⟨rfl, _⟩ | hm
    · exact nc hq
    · exact ih _ _ _ _ _ hm
  | nil => intro l p u ns as hm; cases hm
  | element _ _ ih1 ih2 =>
    intro l p u ns as hm
    rcases List.mem_append.1 hm with hm | hm
    · exact ih1 _ _ _ _ _ hm
    · exact ih2 _ _ _ _ _ hm
  | text _ _ _ ih => intro l p u ns as hm; simp at hm; exact ih _ _ _ _ _ hm
  | ref _ _ _ _ ih => intro l p u ns as hm; simp at hm; exact ih _ _ _ _ _ hm
  | comment _ _ ih => intro l p u ns as hm; simp at hm; exact ih _ _ _ _ _ hm
  | pi _ _ ih => intro l p u ns as hm; simp at hm; exact ih _ _ _ _ _ hm
  | cdata _ _ ih => intro l p u ns as hm; simp at hm; exact ih _ _ _ _ _ hm

theorem misc_starts {t : List Nat} {evs : List Ev} (h : Misc E t evs) : ∀ l p u ns as, .startElement l p u ns as ∉ evs := by
  induction h with
  | nil => intro l p u ns as hm; cases hm
  | space _ _ ih => exact ih
  | comment _ _ ih => intro l p u ns as hm; simp at hm; exact ih _ _ _ _ _ hm
  | pi _ _ ih => intro l p u ns as hm; simp at hm; exact ih _ _ _ _ _ hm

theorem doctype_starts (n : Bytes) (ds : List Decl) : ∀ l p u ns as, .startElement l p u ns as ∉ doctypeEvents n ds := by
  intro l p u ns as hm
  rcases List.mem_cons.1 hm with hm | hm
  · cases hm
  · rcases List.mem_append.1 hm with hm | hm
    · obtain ⟨d, _, hd⟩ := List.mem_flatMap.1 hm
      cases d with
      | entity p n l v => cases p <;> simp [Decl.events] at hd
      | attlist n as => obtain ⟨a, _, h⟩ := List.mem_map.1 hd; cases h
      | _ => simp [Decl.events] at hd
    · simp at hm

/-- the start tags of a document are those of its root element. -/
theorem document_starts {t v e : List Nat} {sd : Int} {ds : List Decl} {evs : List Ev} (h : DtdDocument E t v e sd ds evs) :
    ∃ root e3 used, Src E true [] [] root e3 used ∧ ∀ l p u ns as, .startElement l p u ns as ∈ evs → .startElement l p u ns as ∈ e3 := by
  obtain ⟨h0, m1, n, dt, m2, root, m3, e1, e2, e3, e4, used, _, _, hm1, _, hm2, hroot, hm3, _, rfl⟩ := h
  refine ⟨root, e3, used, hroot, fun l p u ns as hm => ?_⟩
  have h1 := misc_starts hm1 l p u ns as
  have h2 := misc_starts hm2 l p u ns as
  have h3 := misc_starts hm3 l p u ns as
  have h4 := doctype_starts (encodeRunes n) ds l p u ns as
  unfold doctypeEvents at h4
  rcases List.mem_append.1 hm with hm | hm
  · simp at hm
  rcases List.mem_append.1 hm with hm | hm
  · exact absurd hm h1
  rcases List.mem_append.1 hm with hm | hm
  · exact absurd hm h4
  rcases List.mem_append.1 hm with hm | hm
  · exact absurd hm h2
  rcases List.mem_append.1 hm with hm | hm
  · exact hm
  rcases List.mem_append.1 hm with hm | hm
  · exact absurd hm h3
  · simp at hm

theorem document_colon {t v e : List Nat} {sd : Int} {ds : List Decl} {evs : List Ev} (h : DtdDocument E t v e sd ds evs) :
    ∀ l p u ns as, .startElement l p u ns as ∈ evs → 58 ∉ l := by
  obtain ⟨root, e3, used, hroot, key⟩ := document_starts h
  intro l p u ns as hm
  exact local_colon hroot _ _ _ _ _ (key _ _ _ _ _ hm)

/-- `declared` looks at the types of the attributes of the elements in the document only. -/
theorem declared_congr {tok tok' : Bytes → Bytes → Bool} {dfl : Bytes → Bytes → List AttrD} {evs : List Ev}
    (h : ∀ l p u ns as, .startElement l p u ns as ∈ evs → ∀ a, tok l a = tok' l a) : evs.map (declared tok dfl) = evs.map (declared tok' dfl) := by
  refine List.map_congr_left (fun ev hev => ?_)
  cases ev with
  | startElement l p u ns as =>
    have : tok l = tok' l := funext (h l p u ns as hev)
    simp only [declared, this]
  | _ => rfl

theorem worded_congr {tok tok' : Bytes → Bytes → Bool} {ev : Ev} (h : ∀ l p u ns as, ev = .startElement l p u ns as → ∀ a, tok l a = tok' l a)
    (hw : Worded tok ev) : Worded tok' ev := by
  cases ev with
  | startElement l p u ns as =>
    have : tok l = tok' l := funext (h l p u ns as rfl)
    simpa only [Worded, this] using hw
  | _ => trivial

theorem givens_defaults (ds : List Decl) (e : Bytes) : givens (attDefs ds) e = (defaults ds e).filter (fun x => x.value ≠ []) := by
  unfold givens defaults binding
  rw [List.filter_map, List.filter_filter]
  congr 1
  refine List.filter_congr (fun x _ => ?_)
  unfold given
  simp only [Function.comp]
  rcases x with ⟨a, n, typ, d, v, ns⟩
  cases v <;> cases h1 : (a == e) <;> cases h2 : (d == 1) <;> cases h3 : (d == 4) <;> simp [h1, h2, h3, bne, Bool.and_comm]

theorem defaultAttrs_supplied {h : Heap} {df : List (Bytes × List (Bytes × Nat))} {want : List AttDef} {p l : Bytes}
    (hp : Pairs (fun x q => q.1 = x.name ∧ DefNode h q.2 x) want ((mapGet df (qualified p l)).getD [])) : SuppliedBy h want (defaultAttrs E df p l) := by
  refine ⟨((mapGet df (qualified p l)).getD []).map (·.2), ?_, hp.map (·.2) (fun x q h => h.2.carries)⟩
  unfold defaultAttrs
  have : (if p ≠ [] then p ++ 58 :: l else l) = qualified p l := by
    unfold qualified
    by_cases h : p = [] <;> simp [h]
  simp only [this]
  cases mapGet df (qualified p l) with
  | none => exact .refl _
  | some m => exact (E.order_perm _).map _

variable {σ : Type} {H : Handler σ}

/-- documents with attribute list declarations. -/
theorem attDocument_run (hH : Takes H) (hK : KeepsHeap H) {t v e : List Nat} {sd : Int} {ds : List Decl} {evs : List Ev} (h : DtdDocument E t v e sd ds evs)
    (hc : ∀ x ∈ attDefs ds, 58 ∉ x.1) (hs : ∀ x ∈ attDefs ds, ∀ y ∈ attDefs ds, x.1 = y.1 → x.2.name = y.2.name → x.2.typ = y.2.typ)
    (hw : ∀ ev ∈ evs, Worded (tokenised ds) ev) (usr : σ) (fuel snl : Nat) (hf : t.length ≤ fuel) (hsh : ∀ d ∈ ds, d.Short snl) :
    ∃ doc heap tr dfl, parserParse E H usr fuel snl (encodeRunes t) = .done doc none heap tr ∧
      tr.map (fun x => plainEv x.1) = evs.map (declared (tokenised ds) dfl) ∧
      ∀ p l, SuppliedBy heap ((defaults ds (qualified p l)).filter (fun x => x.value ≠ [])) (dfl p l) := by
  have ht : ∀ x ∈ attDefs ds, x.2.typ ≠ 0 := by
    obtain ⟨h0, m1, n, dt, m2, root, m3, e1, e2, e3, e4, used, _, _, hm1, hdt, hm2, hroot, hm3, _, _⟩ := h
    intro x hx
    obtain ⟨as, h1, h2⟩ := attDefs_mem hx
    exact (doctype_OK hdt hsh _ h1 x.2 h2).typed
  have htok : ∀ l p u ns as, .startElement l p u ns as ∈ evs → ∀ a, tokOf ((typeTab [] (attDefs ds)).filter (fun p => p.2 != 1)) l a = tokenised ds l a :=
    fun l p u ns as hm a => tokOf_tokenised hc ht (fun x hx y hy hk => by
      simp only [attKey, Prod.mk.injEq] at hk
      exact hs x hx y hy hk.1 hk.2) (document_colon h l p u ns as hm) a
  obtain ⟨s, h1, ⟨sp, df, h2, rfl, h3⟩, _⟩ := dtdDocument_run (B := (encodeRunes t).length + 2) (willing_of_takes hH _ _) h usr fuel snl
    (fun n dt hdt => ready_of_keeps E hH hK _ _ _ _ (fun d hd => ⟨doctype_spelled hdt d hd, hsh d hd⟩) (doctype_OK hdt hsh) hc)
    (fun sp df c hR ev hev => by
      rw [hR.1]
      exact worded_congr (fun l p u ns as he a => (htok l p u ns as (he ▸ hev) a).symm) (hw ev hev)) trivial hf (by omega)
  refine ⟨s.hc.doc, s.hc.heap, s.trace, defaultAttrs E df, ?_, ?_, fun p l => ?_⟩
  · unfold parserParse
    rw [h1]
  · rw [h2]
    exact declared_congr htok
  · rw [← givens_defaults]
    exact defaultAttrs_supplied (h3 (qualified p l))

end
end Helium
