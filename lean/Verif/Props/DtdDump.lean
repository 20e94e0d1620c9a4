import Verif.Lemmas.DtdDocDump
import Verif.Props.TreeDtd
/-! Serialising documents with a document type declaration and reading them back (C67). -/
namespace Helium
open Spec

/-! ### declarations, one for each node -/

theorem nodes_self {h : Heap} : ∀ {m : List Nat} {ns : List Decl}, HoldsNodes h m ns → nodesOf ns = ns
  | [], [], _ => rfl
  | [], d :: ns, H => H.elim
  | i :: m, [], H => H.elim
  | i :: m, d :: ns, H => by
    have ih := nodes_self H.2
    have H1 := H.1
    cases d with
    | element => simp [nodesOf, ih]
    | entity => simp [nodesOf, ih]
    | attlist n as =>
      cases as with
      | nil => exact H1.elim
      | cons a as =>
        cases as with
        | nil => simp [nodesOf, ih]
        | cons => exact H1.elim
    | comment => exact H1.elim
    | pi => exact H1.elim

theorem nodes_only {h : Heap} : ∀ {m : List Nat} {ns : List Decl}, HoldsNodes h m ns → (∀ d ∈ ns, ∀ b, d ≠ .comment b) ∧ ∀ d ∈ ns, ∀ a b, d ≠ .pi a b
  | [], [], _ => by simp
  | [], d :: ns, H => H.elim
  | i :: m, [], H => H.elim
  | i :: m, d :: ns, H => by
    obtain ⟨h1, h2⟩ := nodes_only H.2
    have H1 := H.1
    refine ⟨fun x hx b e => ?_, fun x hx a b e => ?_⟩ <;> rcases List.mem_cons.1 hx with rfl | hx
    · subst e; exact H1.elim
    · exact h1 x hx b e
    · subst e; exact H1.elim
    · exact h2 x hx a b e

theorem mem_elementNames {n : Bytes} {ty : Nat} {ec : EC} : ∀ {ds : List Decl}, .element n ty ec ∈ ds → n ∈ elementNames ds
  | d :: ds, h => by
    rcases List.mem_cons.1 h with rfl | h
    · simp [elementNames]
    · have := mem_elementNames h
      cases d <;> simp [elementNames, this]

theorem declarable_joined {ds : List Decl} (h : Declarable ds) : ∀ d ∈ ds, Joined d := by
  intro d hd
  cases d with
  | element n ty ec => exact h.elementColon n (mem_elementNames hd)
  | attlist n as =>
    intro a ha
    exact (h.attributeColon (n, a) (List.mem_flatMap.2 ⟨_, hd, List.mem_map.2 ⟨a, ha, rfl⟩⟩)).2
  | _ => trivial

theorem attDefs_append (a b : List Decl) : attDefs (a ++ b) = attDefs a ++ attDefs b := by simp [attDefs]

theorem attDefs_single (n : Bytes) : ∀ (as : List AttDef), attDefs (as.map (fun a => .attlist n [a])) = as.map (fun a => (n, a))
  | [] => rfl
  | a :: as => by
    rw [List.map_cons, attDefs_cons, attDefs_single n as]
    rfl

theorem attDefs_nodes : ∀ (ds : List Decl), attDefs (nodesOf ds) = attDefs ds
  | [] => rfl
  | .attlist n as :: ds => by rw [nodesOf, attDefs_append, attDefs_nodes ds, attDefs_single, attDefs_cons]; simp [attDefs]
  | .comment _ :: ds => by rw [nodesOf, attDefs_nodes ds, attDefs_cons]; rfl
  | .pi _ _ :: ds => by rw [nodesOf, attDefs_nodes ds, attDefs_cons]; rfl
  | .element _ _ _ :: ds => by rw [nodesOf, attDefs_cons, attDefs_nodes ds, ← attDefs_cons]; all_goals nofun
  | .entity _ _ _ _ :: ds => by rw [nodesOf, attDefs_cons, attDefs_nodes ds, ← attDefs_cons]; all_goals nofun

theorem tokenised_nodes (ds : List Decl) (e a : Bytes) : tokenised (nodesOf ds) e a = tokenised ds e a := by
  unfold tokenised binding
  rw [attDefs_nodes]

theorem elementNames_atts (n : Bytes) (ds : List Decl) : ∀ (as : List AttDef), elementNames (as.map (fun a => .attlist n [a]) ++ ds) = elementNames ds
  | [] => rfl
  | _ :: as => elementNames_atts n ds as

theorem entityNames_atts (n : Bytes) (ds : List Decl) : ∀ (as : List AttDef), entityNames (as.map (fun a => .attlist n [a]) ++ ds) = entityNames ds
  | [] => rfl
  | _ :: as => entityNames_atts n ds as

theorem elementNames_nodes : ∀ (ds : List Decl), elementNames (nodesOf ds) = elementNames ds
  | [] => rfl
  | .attlist n as :: ds => by rw [nodesOf, elementNames_atts, elementNames_nodes ds]; rfl
  | .comment _ :: ds => elementNames_nodes ds
  | .pi _ _ :: ds => elementNames_nodes ds
  | .element n _ _ :: ds => congrArg (n :: ·) (elementNames_nodes ds)
  | .entity _ _ _ _ :: ds => elementNames_nodes ds

theorem entityNames_nodes : ∀ (ds : List Decl), entityNames (nodesOf ds) = entityNames ds
  | [] => rfl
  | .attlist n as :: ds => by rw [nodesOf, entityNames_atts, entityNames_nodes ds]; rfl
  | .comment _ :: ds => entityNames_nodes ds
  | .pi _ _ :: ds => entityNames_nodes ds
  | .element _ _ _ :: ds => entityNames_nodes ds
  | .entity p n _ _ :: ds => congrArg ((p, n) :: ·) (entityNames_nodes ds)

theorem mem_nodes : ∀ {ds : List Decl} {x : Decl}, x ∈ nodesOf ds →
    x ∈ ds ∧ (∀ a b, x ≠ .pi a b) ∧ (∀ n as, x ≠ .attlist n as) ∨ ∃ n as a, .attlist n as ∈ ds ∧ a ∈ as ∧ x = .attlist n [a]
  | .attlist n as :: ds, x, h => by
    rcases List.mem_append.1 h with h | h
    · obtain ⟨a, ha, rfl⟩ := List.mem_map.1 h
      exact .inr ⟨n, as, a, by simp, ha, rfl⟩
    · rcases mem_nodes h with ⟨h1, h2⟩ | ⟨n, as, a, h1, h2⟩
      · exact .inl ⟨by simp [h1], h2⟩
      · exact .inr ⟨n, as, a, by simp [h1], h2⟩
  | .comment _ :: ds, x, h => by
    rcases mem_nodes (ds := ds) h with ⟨h1, h2⟩ | ⟨n, as, a, h1, h2⟩
    · exact .inl ⟨by simp [h1], h2⟩
    · exact .inr ⟨n, as, a, by simp [h1], h2⟩
  | .pi _ _ :: ds, x, h => by
    rcases mem_nodes (ds := ds) h with ⟨h1, h2⟩ | ⟨n, as, a, h1, h2⟩
    · exact .inl ⟨by simp [h1], h2⟩
    · exact .inr ⟨n, as, a, by simp [h1], h2⟩
  | .element n ty ec :: ds, x, h => by
    rcases List.mem_cons.1 h with rfl | h
    · exact .inl ⟨by simp, nofun, nofun⟩
    · rcases mem_nodes (ds := ds) h with ⟨h1, h2⟩ | ⟨n, as, a, h1, h2⟩
      · exact .inl ⟨by simp [h1], h2⟩
      · exact .inr ⟨n, as, a, by simp [h1], h2⟩
  | .entity p n l w :: ds, x, h => by
    rcases List.mem_cons.1 h with rfl | h
    · exact .inl ⟨by simp, nofun, nofun⟩
    · rcases mem_nodes (ds := ds) h with ⟨h1, h2⟩ | ⟨n, as, a, h1, h2⟩
      · exact .inl ⟨by simp [h1], h2⟩
      · exact .inr ⟨n, as, a, by simp [h1], h2⟩

theorem declarable_nodes {ds : List Decl} (h : Declarable ds) : Declarable (nodesOf ds) where
  elements := by rw [elementNames_nodes]; exact h.elements
  attributes := by rw [attDefs_nodes]; exact h.attributes
  elementColon := by rw [elementNames_nodes]; exact h.elementColon
  attributeColon := by rw [attDefs_nodes]; exact h.attributeColon
  ids := by rw [attDefs_nodes]; exact h.ids
  noPI := by
    intro n b hm
    rcases mem_nodes hm with ⟨_, h2, _⟩ | ⟨_, _, _, _, _, h2⟩
    · exact h2 _ _ rfl
    · cases h2

theorem survives_nodes {ds : List Decl} (h : ∀ d ∈ ds, d.Survives) : ∀ d ∈ nodesOf ds, d.Survives := by
  intro d hd
  rcases mem_nodes hd with ⟨h1, _⟩ | ⟨n, as, a, h1, h2, rfl⟩
  · exact h d h1
  · intro x hx
    rw [List.mem_singleton] at hx
    subst hx
    exact h _ h1 x h2

theorem subset_text {E : Env} {ds : List Decl} {t : List Nat} (h : SubsetText E ds t) : ∀ d ∈ ds, ∃ t, DeclText E d t := by
  induction h with
  | nil => simp
  | cons _ hd _ ih =>
    intro d hm
    rcases List.mem_cons.1 hm with rfl | hm
    · exact ⟨_, hd⟩
    · exact ih d hm

theorem doctype_text {E : Env} {n t : List Nat} {ds : List Decl} (h : DoctypeText E n ds t) : Name E n ∧ ∀ d ∈ ds, ∃ t, DeclText E d t := by
  cases h with
  | plain h1 => exact ⟨h1, by simp⟩
  | subset h1 _ _ _ _ h2 => exact ⟨h1, subset_text h2⟩

theorem text_nodes {E : Env} {ds : List Decl} (h : ∀ d ∈ ds, ∃ t, DeclText E d t) : ∀ d ∈ nodesOf ds, ∃ t, DeclText E d t := by
  intro d hd
  rcases mem_nodes hd with ⟨h1, _⟩ | ⟨n, as, a, h1, h2, rfl⟩
  · exact h d h1
  · obtain ⟨t, ht⟩ := h _ h1
    cases ht with
    | attlist ht =>
      obtain ⟨_, _, _, _, _, _, _, hn, has, _⟩ := ht
      obtain ⟨m, t, u, k1, k2, k3, k4⟩ := attDefs_parts E has a h2
      exact ⟨_, attDef_alone E hn k1 k2 k3 k4⟩

/-! ### C67 -/

/-- C67: a parsed document with a document type declaration survives serialisation: what is written is read back as a document with the same tree and
the same declarations. Processing instructions are left out, they come out as `<></>`. -/
def C67_statement : Prop :=
  ∀ (E : Env) (fuel : Nat) (input : Bytes) (d : Nat) (h : Heap) (tr : List (Ev × HOut)) (x : XTree) (ns : List Decl),
    parse E fuel input = .done (some d) none h tr → HoldsDoc h d x → NoPI x → HoldsDtd h d ns →
    ∃ out, xmlString h d = .ok () out ∧ ∃ fuel' d' h' tr', parse E fuel' out = .done (some d') none h' tr' ∧ HoldsDoc h' d' x ∧ HoldsDtd h' d' ns

/-- what is written for a document with a document type declaration, for every heap that holds the same. -/
theorem dtd_written (E : Env) {x1 x2 : XTree} (h1 : PlainTop E true x1) (h2 : PlainDoc E x2) {n : List Nat} (hn : Name E n) {ns : List Decl}
    (ht : ∀ d ∈ ns, ∃ t, DeclText E d t) (hD : Declarable ns) (hs : ∀ d ∈ ns, d.Survives) {h : Heap} {d : Nat}
    (H : HoldsDoc h d (x1.append (.node (.dtd (encodeRunes n) [] []) .nil x2))) (D : HoldsDtd h d ns) :
    ∃ y, DoctypeText E n ns y ∧ (∀ c ∈ y, Legal c) ∧ (∀ d ∈ ns, d.Short (encodeRunes y).length) ∧
      xmlString h d = .ok () (dumpDocContent (h.at' d) ++ (writtenTop x1 ++ (encodeRunes y ++ 10 :: writtenTop x2))) ∧
      ∀ h' d', HoldsDoc h' d' (x1.append (.node (.dtd (encodeRunes n) [] []) .nil x2)) → HoldsDtd h' d' ns → ns ≠ [] →
        xmlString h' d' = .ok () (dumpDocContent (h'.at' d') ++ (writtenTop x1 ++ (encodeRunes y ++ 10 :: writtenTop x2))) := by
  obtain ⟨a, t, c, b, g1, g2, g3, g4, g5⟩ := doc_split E h1 h2.1 H D
  obtain ⟨y, k1, k2, k3, k4⟩ := doctype_dump E hn g5 ht hs (declarable_joined hD) g4
  refine ⟨y, k1, k2, k3, xmlString_dtd E H.1 h1 h2.1 g1 g2 g3 (fun f o => k4 h t f o g4), ?_⟩
  intro h' d' H' D' hne
  obtain ⟨a', t', c', b', g1', g2', g3', g4', g5'⟩ := doc_split E h1 h2.1 H' D'
  have hb : b' = b := by rw [g5 hne, g5' hne]
  subst hb
  exact xmlString_dtd E H'.1 h1 h2.1 g1' g2' g3' (fun f o => k4 h' t' f o g4')

/-- C67 for comments, elements, attributes, text and a document type declaration without external identifier whose declarations are among those of
`Declarable` and `Survives`: whatever built the document, what is written is read back with the same tree, the same declarations, and the version,
encoding and standalone status written. Missing: what these exclude; entities declared twice; attribute values that would be read differently because
of a declaration that the document does not follow (`Settled`). -/
theorem C67_partial (E : Env) {x1 x2 : XTree} (h1 : PlainTop E true x1) (h2 : PlainDoc E x2) {n : List Nat} (hn : Name E n) {ns : List Decl}
    (ht : ∀ d ∈ ns, ∃ t, DeclText E d t) (hD : Declarable ns) (hE : (entityNames ns).Nodup) (hs : ∀ d ∈ ns, d.Survives) {h : Heap} {d : Nat} {x : XTree}
    (hx : x = x1.append (.node (.dtd (encodeRunes n) [] []) .nil x2)) (hset : Settled ns x) (H : HoldsDoc h d x) (D : HoldsDtd h d ns)
    (hv : (h.at' d).version = [] ∨ Version (h.at' d).version) (he : (h.at' d).encoding = [] ∨ Utf8Name (h.at' d).encoding) :
    ∃ out, xmlString h d = .ok () out ∧ ∀ fuel, out.length + 1 < fuel →
      ∃ d' heap' tr, parse E fuel out = .done (some d') none heap' tr ∧ HoldsDoc heap' d' x ∧ HoldsDtd heap' d' ns ∧
        (heap'.at' d').version = writtenVersion (h.at' d) ∧ (heap'.at' d').encoding = (h.at' d).encoding ∧
        (heap'.at' d').standalone = writtenStandalone (h.at' d) ∧ (ns ≠ [] → xmlString heap' d' = .ok () out) := by
  subst hx
  have D0 := D
  obtain ⟨_, m, _, _, _, _, _, _, _, HN, _⟩ := D0
  obtain ⟨hc, hp⟩ := nodes_only HN
  obtain ⟨y, k1, k2, k3, k4, k5⟩ := dtd_written E h1 h2 hn ht hD hs H D
  obtain ⟨t, evs, e1, e2, e3, e4⟩ := dtd_document E h1 h2 (h.at' d) hv he k1 k2 hc hp
  refine ⟨_, k4, fun fuel hf => ?_⟩
  have hlen : (encodeRunes y).length < fuel := by
    simp only [List.length_append, List.length_cons] at hf
    omega
  rw [← e1] at hf ⊢
  have hev := (settled_tree e3).1 hset
  rw [List.filter_eq_self.2 e4] at hev
  obtain ⟨w1, w2⟩ := settled_declared E e2 hev
  obtain ⟨d', heap', tr, x, dfl, q1, _, _, q4, q5, _, q7, q8, q9, _, q11⟩ := C66_partial E e2 hD w1 fuel
    (fun d hd => decl_short_mono (k3 d hd) (Nat.le_of_lt hlen)) hf
  rw [w2, e3] at q4
  cases q4
  have hd' : HoldsDtd heap' d' ns := by rw [← nodes_self HN]; exact q11 hE
  refine ⟨d', heap', tr, q1, q5, hd', q7, q8, q9, fun hne => ?_⟩
  rw [k5 heap' d' q5 hd' hne, e1]
  have : dumpDocContent (heap'.at' d') = dumpDocContent (h.at' d) := by
    unfold dumpDocContent
    rw [q7, q8, q9]
    unfold writtenVersion writtenStandalone
    by_cases g1 : (h.at' d).version = [] <;> by_cases g2 : (h.at' d).standalone = 0 <;> by_cases g3 : (h.at' d).standalone = 1 <;> simp [g1, g2, g3]
  rw [this]

/-! ### what is parsed is settled -/

theorem append_colon {a b c d : Bytes} (hb : 58 ∉ b) (hd : 58 ∉ d) (h : a ++ 58 :: b = c ++ 58 :: d) : b = d := by
  induction a generalizing c with
  | nil =>
    cases c with
    | nil => simpa using h
    | cons x c =>
      simp at h
      exact absurd (by rw [h.2]; simp) hb
  | cons y a ih =>
    cases c with
    | nil =>
      simp at h
      exact absurd (by rw [← h.2]; simp) hd
    | cons x c =>
      simp at h
      exact ih h.2

theorem qualified_inj {p q a b : Bytes} (ha : 58 ∉ a) (hb : 58 ∉ b) (h : qualified p a = qualified q b) : a = b := by
  unfold qualified at h
  split at h <;> split at h
  · exact h
  · subst h; simp at ha
  · subst h; simp at hb
  · exact append_colon ha hb h

theorem givenAttrs_mem : ∀ {as : List AttrD} {n v : Bytes}, (n, v) ∈ givenAttrs as → ∃ p l, .parsed p l v ∈ as ∧ n = qualified p l
  | [], n, v, h => by cases h
  | .dflt i :: as, n, v, h => by
    obtain ⟨p, l, h1, h2⟩ := givenAttrs_mem (as := as) h
    exact ⟨p, l, by simp [h1], h2⟩
  | .parsed p' l' v' :: as, n, v, h => by
    rcases List.mem_cons.1 h with h | h
    · cases h
      exact ⟨p', l', by simp, rfl⟩
    · obtain ⟨p, l, h1, h2⟩ := givenAttrs_mem (as := as) h
      exact ⟨p, l, by simp [h1], h2⟩

/-- the tree of a document in which every value follows its declaration is settled. -/
theorem parsed_settled (E : Env) {t v e : List Nat} {sd : Int} {ds : List Decl} {evs : List Ev} (h : DtdDocument E t v e sd ds evs)
    (hw : ∀ ev ∈ evs, Worded (tokenised ds) ev) {x : XTree}
    (hx : treeOf ((evs.map (declared (tokenised ds) (fun _ _ => []))).filter notCData) = some x) : Settled (nodesOf ds) x := by
  obtain ⟨root, e3, used, hroot, key⟩ := document_starts h
  rw [settled_tree hx]
  intro ev hev
  obtain ⟨ev0, he0, rfl⟩ := List.mem_map.1 (List.mem_filter.1 hev).1
  cases ev0 with
  | startElement l p u ns as =>
    have hloc := src_local E hroot _ _ _ _ _ (key _ _ _ _ _ he0)
    simp only [declared, List.append_nil, startData]
    refine ⟨fun q n v hm hn ht => ?_, fun q u' hm => ?_⟩
    · rw [tokenised_nodes] at ht
      obtain ⟨p', l', g1, g2⟩ := givenAttrs_mem hm
      obtain ⟨a, ha, ga⟩ := List.mem_map.1 g1
      cases a with
      | dflt i => cases ga
      | parsed p0 l0 v0 =>
        simp only [tokenValue] at ga
        cases ga
        have := hloc _ _ _ ha
        rw [qualified_inj hn this g2] at ht
        rw [if_pos ht, words_settled]
    · rw [tokenised_nodes]
      obtain ⟨a, ha, ga⟩ := List.mem_filterMap.1 hm
      subst ga
      exact (hw _ he0).2 q u' ha
  | _ => trivial

/-- text to tree to text and back: a document with a document type declaration is read, serialised and read again; the second document holds the same
tree and declarations as the first, and (if anything is declared) is serialised to the same bytes. -/
theorem C67_text_partial (E : Env) {t v e : List Nat} {sd : Int} {ds : List Decl} {evs : List Ev} (h : DtdDocument E t v e sd ds evs)
    (hD : Declarable ds) (hE : (entityNames ds).Nodup) (hw : ∀ ev ∈ evs, Worded (tokenised ds) ev) (hs : ∀ d ∈ ds, d.Survives)
    {x1 x2 : XTree} {n : List Nat} (hx : treeOf ((evs.map (declared (tokenised ds) (fun _ _ => []))).filter notCData) =
      some (x1.append (.node (.dtd (encodeRunes n) [] []) .nil x2)))
    (hn : Name E n) (h1 : PlainTop E true x1) (h2 : PlainDoc E x2) (hv : v = [] ∨ Version v) (he : e = [] ∨ Utf8Name e)
    (fuel : Nat) (hsh : ∀ d ∈ ds, d.Short fuel) (hf : (encodeRunes t).length + 1 < fuel) :
    ∃ d heap tr out, parse E fuel (encodeRunes t) = .done (some d) none heap tr ∧ xmlString heap d = .ok () out ∧ HoldsDtd heap d (nodesOf ds) ∧
      ∀ fuel', out.length + 1 < fuel' → ∃ d' heap' tr', parse E fuel' out = .done (some d') none heap' tr' ∧
        HoldsDoc heap' d' (x1.append (.node (.dtd (encodeRunes n) [] []) .nil x2)) ∧ HoldsDtd heap' d' (nodesOf ds) ∧
        (nodesOf ds ≠ [] → xmlString heap' d' = .ok () out) := by
  obtain ⟨d, heap, tr, x, dfl, q1, _, _, q4, q5, _, q7, q8, q9, _, q11⟩ := C66_partial E h hD hw fuel hsh hf
  have hset := parsed_settled E h hw q4
  rw [hx] at q4
  cases q4
  have htext : ∀ d ∈ ds, ∃ t, DeclText E d t := by
    obtain ⟨_, _, _, _, _, _, _, _, _, _, _, _, _, _, _, hdt, _⟩ := h
    exact (doctype_text hdt).2
  obtain ⟨out, k1, k2⟩ := C67_partial E h1 h2 hn (text_nodes htext) (declarable_nodes hD) (by rw [entityNames_nodes]; exact hE) (survives_nodes hs)
    rfl hset q5 (q11 hE) (by rw [q7]; exact hv) (by rw [q8]; exact he)
  refine ⟨d, heap, tr, out, q1, k1, q11 hE, fun fuel' hf' => ?_⟩
  obtain ⟨d', heap', tr', g1, g2, g3, _, _, _, g7⟩ := k2 fuel' hf'
  exact ⟨d', heap', tr', g1, g2, g3, g7⟩

/-! ### a document of this kind -/

/-- the element `<a c="v"/>`. -/
theorem rootSample_plain {v : List Nat} (hv : ∀ c ∈ v, Legal c) : PlainDoc env0 (.node (.elem b!"a" [] [] [] [(b!"c", reported v)]) .nil .nil) := by
  have nc : ∀ c, 97 ≤ c → c ≤ 122 → NCName env0 [c] := fun c h1 h2 =>
    ascii_ncname rfl ⟨h1, h2⟩ (by intro x hx; simp at hx; omega) (by simp)
  refine ⟨.root (.elem (n := b!"a") (p := []) (l := b!"a") (ds := []) (u := []) ⟨⟨nc 97 (by decide) (by decide), Or.inl ⟨rfl, rfl⟩⟩, by decide⟩ (Or.inl (by simp)) ?_ (by simp)
    (Or.inl ⟨rfl, rfl, by simp⟩) .nil .nil) .nil, by simp [allDecls]⟩
  intro a ha
  rw [List.mem_singleton] at ha
  subst ha
  exact ⟨b!"c", [], b!"c", v, ⟨⟨nc 99 (by decide) (by decide), Or.inl ⟨rfl, rfl⟩⟩, by decide⟩, by decide, by decide, hv, rfl⟩

/-- `<!DOCTYPE a [<!ATTLIST a b CDATA "x" c ID #IMPLIED>]><a c=' y  z'/>` is read, serialised and read again. -/
example := C67_text_partial env0 sample_att ⟨by decide, by decide, by decide, by decide, by decide, by simp⟩ (by decide) sample_worded
  (by intro d hd; rw [List.mem_singleton] at hd; subst hd; simp [Decl.Survives, AttDef.Survives])
  (x1 := .nil) (n := b!"a") (x2 := .node (.elem b!"a" [] [] [] [(b!"c", b!"y z")]) .nil .nil) rfl (letter_name (by decide) (by decide)) .nil
  (rootSample_plain (v := b!"y z") (by decide)) (.inl rfl) (.inl rfl) 100
  (by intro d hd; rw [List.mem_singleton] at hd; subst hd; simp [Decl.Short]) (by decide)

/-! ### witnesses -/

/-- what is written for the result of a parse, if it is a document without an error. -/
def ParseRes.written : ParseRes → Option Bytes
  | .done (some d) none h _ => match xmlString h d with
    | .ok _ o => some o
    | _ => none
  | _ => none

/-- `<!ATTLIST a b ENTITIES #IMPLIED>` -/
theorem sample_entities : SubsetText env0 [.attlist b!"a" [⟨b!"b", 6, 3, [], []⟩]] b!"<!ATTLIST a b ENTITIES #IMPLIED>" := by
  have h : DeclText env0 (.attlist b!"a" [⟨b!"b", 6, 3, [], []⟩]) b!"<!ATTLIST a b ENTITIES #IMPLIED>" :=
    .attlist (n := b!"a") ⟨[32], [32], _, by decide, by decide, by decide, by decide, letter_name (by decide) (by decide),
      .one (n := b!"b") (w1 := [32]) (w2 := [32]) (w3 := []) (letter_name (by decide) (by decide)) (by decide) (by decide) .entities (by decide) (by decide)
        .implied (by decide), rfl⟩
  exact .cons (ws := []) (by decide) h (.nil (ws := []) (by decide))

theorem C67_entities : (parse env0 100 b!"<!DOCTYPE a [<!ATTLIST a b ENTITIES #IMPLIED>]><a c=\"y\"/>").written = none := by decide +kernel

/-- **C67 is false**: the serialiser does not know the attribute type ENTITIES. -/
theorem C67_refuted : ¬ C67_statement := by
  intro hs
  have hv : Value 34 b!"y" b!"y" := .char (by decide) (by decide) (by decide) (by decide) (by decide) .nil
  have hd := attSample sample_entities (n := 99) (q := 34) (by decide) (by decide) hv (by decide)
  obtain ⟨d, heap, tr, x, dfl, h1, _, _, h4, h5, _, _, _, _, _, h11⟩ := C66_partial env0 hd ⟨by decide, by decide, by decide, by decide, by decide, by simp⟩
    (by
      intro ev hev
      simp only [List.flatMap_cons, List.flatMap_nil, Decl.events, List.map_cons, List.map_nil, List.cons_append, List.nil_append, List.append_nil, List.mem_cons, List.not_mem_nil,
        or_false] at hev
      rcases hev with rfl | rfl | rfl | rfl | rfl | rfl | rfl | rfl
      case inr.inr.inr.inr.inr.inl =>
        refine ⟨fun p n v hm ht => ?_, by simp⟩
        rw [List.mem_singleton] at hm
        cases hm
        revert ht
        decide
      all_goals trivial) 100
    (by intro d hd; rw [List.mem_singleton] at hd; subst hd; simp [Decl.Short]) (by decide)
  have h4 : some (XTree.node (.dtd b!"a" [] []) .nil (.node (.elem b!"a" [] [] [] [(b!"c", b!"y")]) .nil .nil)) = some x := h4
  cases h4
  obtain ⟨out, ho, _⟩ := hs env0 100 _ d heap tr _ _ h1 h5 ⟨trivial, trivial, trivial⟩ (h11 (by decide))
  have := C67_entities
  rw [show parse env0 100 b!"<!DOCTYPE a [<!ATTLIST a b ENTITIES #IMPLIED>]><a c=\"y\"/>" = .done (some d) none heap tr from h1] at this
  simp only [ParseRes.written, ho] at this
  cases this

/-- default values are written without escaping: `<` comes out as it is, and what is written is rejected. -/
theorem C67_default_unescaped :
    (parse env0 100 b!"<!DOCTYPE a [<!ATTLIST a b CDATA 'x&lt;y'>]><a/>").written =
      some b!"<?xml version=\"1.0\"?>\n<!DOCTYPE a [\n<!ATTLIST a b CDATA \"x<y\">\n]>\n<a/>\n" ∧
    (parse env0 100 b!"<?xml version=\"1.0\"?>\n<!DOCTYPE a [\n<!ATTLIST a b CDATA \"x<y\">\n]>\n<a/>\n").noDoc = true := by
  constructor <;> decide +kernel

/-- an empty default value is not written at all, and what is written is rejected. -/
theorem C67_default_empty :
    (parse env0 100 b!"<!DOCTYPE a [<!ATTLIST a b CDATA ''>]><a/>").written =
      some b!"<?xml version=\"1.0\"?>\n<!DOCTYPE a [\n<!ATTLIST a b CDATA>\n]>\n<a/>\n" ∧
    (parse env0 100 b!"<?xml version=\"1.0\"?>\n<!DOCTYPE a [\n<!ATTLIST a b CDATA>\n]>\n<a/>\n").noDoc = true := by
  constructor <;> decide +kernel

/-- a comment of the internal subset is written behind the document type declaration. -/
theorem C67_comment_moves : (parse env0 100 b!"<!DOCTYPE a [<!--c--><!ELEMENT a ANY>]><a/>").written =
    some b!"<?xml version=\"1.0\"?>\n<!DOCTYPE a [\n<!ELEMENT a ANY>\n]>\n<!--c-->\n<a/>\n" := by decide +kernel

end Helium
