import Verif.Spec.Writable
import Verif.Props.Dump
import Verif.Lemmas.Accept
/-! The tree of a well-formed document can be written and read back, the known losses apart. -/
namespace Helium
open Spec

/-! ### line ends -/

theorem noLoneCR_tail {c : Nat} {t : List Nat} (h : NoLoneCR (c :: t)) : NoLoneCR t := by
  intro a b e
  exact h (c :: a) b (by rw [e]; rfl)

theorem unixLines_noCR : ∀ {b : List Nat}, NoLoneCR b → 13 ∉ unixLines b
  | [], _ => by simp [unixLines]
  | [c], h => by
    have hc : c ≠ 13 := by
      rintro rfl
      have := h [] [] rfl
      cases this
    rw [unixLines_eq, replaceCRLF_cons (by simp)]
    simp [replaceCRLF, Ne.symm hc]
  | c :: d :: t, h => by
    by_cases hc : c = 13
    · subst hc
      have hd : d = 10 := by
        have := h [] (d :: t) rfl
        simpa using this
      subst hd
      have ih := unixLines_noCR (noLoneCR_tail (noLoneCR_tail h))
      rw [unixLines]
      simp [ih]
    · have ih := unixLines_noCR (noLoneCR_tail h)
      rw [unixLines_eq] at ih ⊢
      rw [replaceCRLF_cons (by simp [hc])]
      simp only [List.mem_cons, not_or]
      exact ⟨Ne.symm hc, ih⟩

theorem unixLines_hyphen : ∀ {b : List Nat}, [45, 45] <:+: unixLines b ++ [45] → [45, 45] <:+: b ++ [45]
  | [], h => by simpa [unixLines] using h
  | [c], h => by
    rw [unixLines_eq, replaceCRLF_cons (by simp)] at h
    simpa [replaceCRLF] using h
  | c :: d :: t, h => by
    by_cases hc : c = 13 ∧ d = 10
    · obtain ⟨rfl, rfl⟩ := hc
      rw [unixLines, List.cons_append, List.infix_cons_iff] at h
      rcases h with h | h
      · obtain ⟨u, h⟩ := h; cases h
      · have := unixLines_hyphen h
        rw [List.cons_append, List.cons_append, List.infix_cons_iff, List.infix_cons_iff]
        exact .inr (.inr this)
    · have e : unixLines (c :: d :: t) = c :: unixLines (d :: t) := by
        rw [unixLines_eq, unixLines_eq, replaceCRLF_cons]
        rintro ⟨rfl, h⟩
        simp_all
      rw [e, List.cons_append, List.infix_cons_iff] at h
      rw [List.cons_append, List.infix_cons_iff]
      rcases h with h | h
      · left
        obtain ⟨u, hu⟩ := h
        obtain ⟨rfl, hv⟩ := List.cons.inj hu
        clear hu
        replace hv : 45 :: u = unixLines (d :: t) ++ [45] := hv
        have hd : d = 45 := by
          cases t with
          | nil =>
            rw [unixLines_eq, replaceCRLF_cons (by simp)] at hv
            exact (List.cons.inj hv).1.symm
          | cons x t =>
            by_cases hx : d = 13 ∧ x = 10
            · obtain ⟨rfl, rfl⟩ := hx
              rw [unixLines] at hv
              cases hv
            · rw [unixLines_eq, replaceCRLF_cons (by rintro ⟨rfl, h⟩; simp_all)] at hv
              exact (List.cons.inj hv).1.symm
        subst hd
        exact ⟨t ++ [45], rfl⟩
      · exact .inr (unixLines_hyphen h)

theorem unixLines_comment {b : List Nat} (h : CommentText b) : CommentText (unixLines b) ∧ 13 ∉ unixLines b :=
  ⟨⟨fun c hc => h.legal c (unixLines_mem hc), fun hh => h.hyphen (unixLines_hyphen hh), noLoneCR_of (unixLines_noCR h.cr)⟩, unixLines_noCR h.cr⟩

theorem unixLines_ne {l : List Nat} (h : l ≠ []) : unixLines l ≠ [] := by
  unfold unixLines
  split <;> simp_all

/-! ### trees as they are read -/

variable {E : Env}

/-- a namespace name as it is read. -/
def ToldUri (w : List Nat) : Prop := w ≠ [] ∧ (∀ c ∈ w, Legal c) ∧ 38 ∉ w

/-- a declaration of a prefix as it is read. -/
def ToldDecl (E : Env) (d : Bytes × Bytes) : Prop :=
  ∃ p w, NCName E p ∧ (∀ c ∈ p, Legal c) ∧ encodeRunes p ≠ b!"xml" ∧ encodeRunes p ≠ b!"xmlns" ∧ ToldUri w ∧ E.urlOk (encodeRunes w) = true ∧
    encodeRunes w ≠ b!"http://www.w3.org/2000/xmlns/" ∧ d = (encodeRunes p, encodeRunes w)

/-- the declarations of a tag as they are read. -/
def ToldDecls (E : Env) (ds : List (Bytes × Bytes)) : Prop :=
  ∃ ds' z, (∀ d ∈ ds', ToldDecl E d) ∧ ds = ds' ++ z ∧ (z = [] ∨ ∃ w, ToldUri w ∧ z = [([], encodeRunes w)])

/-- trees inside an element as they are read. -/
inductive Told (E : Env) : List (Bytes × Bytes) → List (Bytes × Bytes) → XTree → Prop
  | nil {scope used} : Told E scope used .nil
  | elem {scope used n p l u ds as k r} : PlainName E n p l → ToldDecls E ds → (∀ a ∈ as, PlainAttr E a) → (as.map (·.1)).Nodup →
      Bound (scope ++ ds) (used ++ ds) (encodeRunes p) u → Told E (scope ++ ds) (used ++ ds) k → Told E scope (used ++ ds ++ allDecls k) r →
      Told E scope used (.node (.elem (encodeRunes l) (encodeRunes p) u ds as) k r)
  | text {scope used w r} : w ≠ [] → (∀ c ∈ w, Legal c) → ¬ StartsWithText r → Told E scope used r → Told E scope used (.node (.text (encodeRunes w)) .nil r)
  | comment {scope used b r} : CommentText b → 13 ∉ b → Told E scope used r → Told E scope used (.node (.comment (encodeRunes b)) .nil r)
  | pi {scope used t d r} : Told E scope used r → Told E scope used (.node (.pi t d) .nil r)

theorem atts_told {used ds : List (Bytes × Bytes)} {a : List Nat} {as : List AttrD} (h : Atts E used a as ds) (hl : ∀ c ∈ a, Legal c)
    (hn : (used.map (·.1)).Nodup) : ToldDecls E ds ∧ (∀ x ∈ givenAttrs as, PlainAttr E x) ∧ ((used ++ ds).map (·.1)).Nodup := by
  induction h with
  | nil => exact ⟨⟨[], [], by simp, rfl, .inl rfl⟩, by simp [givenAttrs], by simpa using hn⟩
  | @attr used ws n p l w1 w2 q v w r as ds _ _ hq h1 h2 _ _ _ hv _ ih =>
    obtain ⟨i1, i2, i3⟩ := ih (fun c hc => hl c (by simp [hc])) hn
    refine ⟨i1, ?_, i3⟩
    intro x hx
    rcases List.mem_cons.1 hx with rfl | hx
    · refine ⟨n, p, l, w, ⟨hq, fun c hc => hl c (by simp [hc])⟩, h1, h2, value_legal hv, ?_⟩
      rcases hq.2 with ⟨rfl, rfl⟩ | ⟨hp, rfl⟩
      · simp [encodeRunes]
      · rw [if_neg (encodeRunes_ne (ncname_ne hp)), encodeRunes_append, encodeRunes_cons]
        rfl
    · exact i2 x hx
  | @decl used ws p w1 w2 q v w r as ds _ _ hp h1 h2 _ _ _ hv h3 h4 h5 h6 h7 _ ih =>
    have hn' : ((used ++ [(encodeRunes p, encodeRunes w)]).map (·.1)).Nodup := by
      rw [List.map_append, List.nodup_append]
      refine ⟨hn, by simp, ?_⟩
      intro a ha b hb e
      simp at hb
      subst hb
      subst e
      exact h7 ha
    obtain ⟨⟨ds', z, i1, rfl, i4⟩, i2, i3⟩ := ih (fun c hc => hl c (by simp [hc])) hn'
    refine ⟨⟨(encodeRunes p, encodeRunes w) :: ds', z, ?_, rfl, i4⟩, i2, by simpa using i3⟩
    intro d hd
    rcases List.mem_cons.1 hd with rfl | hd
    · exact ⟨p, w, hp, fun c hc => hl c (by simp [hc]), h1, h2, ⟨h3, value_legal hv, h4⟩, h5, h6, rfl⟩
    · exact i1 d hd
  | @dflt used ws w1 w2 q v w _ _ _ _ _ hv h3 h4 h7 =>
    refine ⟨⟨[], _, by simp, rfl, .inr ⟨w, ⟨h3, value_legal hv, h4⟩, rfl⟩⟩, by simp [givenAttrs], ?_⟩
    rw [List.map_append, List.nodup_append]
    refine ⟨hn, by simp, ?_⟩
    intro a ha b hb e
    simp at hb
    subst hb
    subst e
    exact h7 ha

theorem startsWithText_snoc {d : XData} {k : XTree} (hd : ∀ b, d ≠ .text b) : ∀ {r : XTree}, ¬ StartsWithText r → ¬ StartsWithText (r.snoc d k)
  | .nil, _ => by
    cases d with
    | text b => exact absurd rfl (hd b)
    | _ => exact id
  | .node (.text b) _ _, h => absurd trivial h
  | .node (.elem ..) _ _, _ => id
  | .node (.comment _) _ _, _ => id
  | .node (.pi ..) _ _, _ => id
  | .node (.dtd ..) _ _, _ => id
  | .node (.ref _) _ _, _ => id

theorem told_snoc {d : XData} {k : XTree} (hd : ∀ b, d ≠ .text b) {scope used : List (Bytes × Bytes)} {acc : XTree} (h : Told E scope used acc)
    (hk : Told E scope (used ++ allDecls acc) (.node d k .nil)) : Told E scope used (acc.snoc d k) := by
  induction h with
  | nil => simpa [allDecls, XTree.snoc] using hk
  | elem h1 h2 h3 h4 h5 h6 _ _ ih => exact .elem h1 h2 h3 h4 h5 h6 (ih (by simpa [allDecls] using hk))
  | text h1 h2 h3 _ ih => exact .text h1 h2 (startsWithText_snoc hd h3) (ih hk)
  | comment h1 h2 _ ih => exact .comment h1 h2 (ih hk)
  | pi _ ih => exact .pi (ih hk)

theorem allDecls_snoc (d : XData) (k : XTree) : ∀ acc : XTree, allDecls (acc.snoc d k) = allDecls acc ++ allDecls (.node d k .nil)
  | .nil => rfl
  | .node d0 k0 r => by
    have ih := allDecls_snoc d k r
    cases d0 <;> simp [XTree.snoc, allDecls, ih]

theorem allDecls_addText (b : Bytes) : ∀ acc : XTree, allDecls (acc.addText b) = allDecls acc
  | .nil => rfl
  | .node d0 k0 .nil => by cases d0 <;> simp [XTree.addText, allDecls]
  | .node d0 k0 (.node d1 k1 r) => by
    have ih := allDecls_addText b (.node d1 k1 r)
    rw [XTree.addText_node _ _ _ _ (by simp)]
    cases d0 <;> simp only [allDecls] <;> rw [ih]

theorem allDecls_append : ∀ a b : XTree, allDecls (a.append b) = allDecls a ++ allDecls b
  | .nil, _ => rfl
  | .node d k r, b => by
    have ih := allDecls_append r b
    cases d <;> simp [XTree.append, allDecls, ih]

theorem startsWithText_addText {b : Bytes} : ∀ {r : XTree}, r ≠ .nil → ¬ StartsWithText r → ¬ StartsWithText (r.addText b)
  | .nil, h, _ => absurd rfl h
  | .node (.text b) _ _, _, h => absurd trivial h
  | .node (.elem ..) _ _, _, _ => by simp [XTree.addText, StartsWithText]
  | .node (.comment _) _ _, _, _ => by simp [XTree.addText, StartsWithText]
  | .node (.pi ..) _ _, _, _ => by simp [XTree.addText, StartsWithText]
  | .node (.dtd ..) _ _, _, _ => by simp [XTree.addText, StartsWithText]
  | .node (.ref _) _ _, _, _ => by simp [XTree.addText, StartsWithText]

theorem told_addText {w : List Nat} (hw : w ≠ []) (hl : ∀ c ∈ w, Legal c) {scope used : List (Bytes × Bytes)} {acc : XTree} (h : Told E scope used acc) :
    Told E scope used (acc.addText (encodeRunes w)) := by
  induction h with
  | nil => exact .text hw hl id .nil
  | elem h1 h2 h3 h4 h5 h6 _ ih => 
    rw [show ∀ d k r b, (∀ x, d ≠ XData.text x) → (XTree.node d k r).addText b = .node d k (r.addText b) from fun d k r b hd => by
      rw [XTree.addText]; intro b0 e _; exact hd b0 e]
    · exact .elem h1 h2 h3 h4 h5 h6 ‹_›
    · simp
  | @text scope used w0 r h1 h2 h3 h4 ih =>
    cases r with
    | nil =>
      show Told E scope used (.node (.text (encodeRunes w0 ++ encodeRunes w)) .nil .nil)
      rw [← encodeRunes_append]
      refine .text (by simp [h1]) ?_ id .nil
      intro c hc
      rcases List.mem_append.1 hc with hc | hc
      · exact h2 c hc
      · exact hl c hc
    | node d1 k1 r =>
      rw [XTree.addText_node _ _ _ _ (by simp)]
      exact .text h1 h2 (startsWithText_addText (by simp) h3) ih
  | comment h1 h2 _ ih => simp only [XTree.addText]; exact .comment h1 h2 ih
  | pi _ ih => simp only [XTree.addText]; exact .pi ih

/-- what `Src` says about the tree. -/
def SrcTold (E : Env) (scope used : List (Bytes × Bytes)) (evs : List Ev) (used' : List (Bytes × Bytes)) : Bool → Prop
  | true => ∃ l p u ds as k, Told E scope used (.node (.elem l p u ds as) k .nil) ∧ used' = used ++ (ds ++ allDecls k) ∧
      ∀ s : Partial, s.steps (evs.filter notCData) = some (s.add (.elem l p u ds as) k)
  | false => ∀ u0 acc, used = u0 ++ allDecls acc → Told E scope u0 acc → ∃ acc', Told E scope u0 acc' ∧ used' = u0 ++ allDecls acc' ∧
      ∀ d r top, Partial.steps ⟨(d, acc) :: r, top⟩ (evs.filter notCData) = some ⟨(d, acc') :: r, top⟩

theorem filterMap_some (ds : List (Bytes × Bytes)) : (ds.map some).filterMap id = ds := by
  induction ds with
  | nil => rfl
  | cons d ds ih => simp

theorem src_told {b : Bool} {scope used used' : List (Bytes × Bytes)} {t : List Nat} {evs : List Ev} (h : Src E b scope used t evs used')
    (hl : ∀ c ∈ t, Legal c) (hn : (used.map (·.1)).Nodup) : (used'.map (·.1)).Nodup ∧ SrcTold E scope used evs used' b := by
  induction h with
  | @empty scope used n p l a as ds u h1 h2 h3 h4 =>
    obtain ⟨k1, k2, k3⟩ := atts_told h2 (fun c hc => hl c (by simp [hc])) hn
    refine ⟨k3, _, _, u, ds, givenAttrs as, .nil, .elem ⟨h1, fun c hc => hl c (by simp [hc])⟩ k1 k2 h3 h4 .nil .nil, by simp [allDecls], ?_⟩
    intro s
    simp only [List.filter, notCData, Partial.steps, Partial.step, Option.bind, filterMap_some]
  | @full scope used n p l a as ds u k evs used' h1 h2 h3 h4 _ _ ih =>
    obtain ⟨k1, k2, k3⟩ := atts_told h2 (fun c hc => hl c (by simp [hc])) hn
    obtain ⟨i1, i2⟩ := ih (fun c hc => hl c (by simp [hc])) k3
    obtain ⟨acc, j1, rfl, j3⟩ := i2 (used ++ ds) .nil (by simp [allDecls]) .nil
    refine ⟨i1, _, _, u, ds, givenAttrs as, acc, .elem ⟨h1, fun c hc => hl c (by simp [hc])⟩ k1 k2 h3 h4 j1 .nil, by simp, ?_⟩
    intro s
    have e : (Ev.startElement (encodeRunes l) (encodeRunes p) u (ds.map some) as :: (evs ++ [.endElement (encodeRunes l) (encodeRunes p) u])).filter notCData =
        .startElement (encodeRunes l) (encodeRunes p) u (ds.map some) as :: (evs.filter notCData ++ [.endElement (encodeRunes l) (encodeRunes p) u]) := by
      simp [List.filter, notCData]
    rw [e, Partial.steps]
    simp only [Partial.step, Option.bind, filterMap_some]
    rw [steps_append, j3]
    rfl
  | @nil scope used => exact ⟨hn, fun u0 acc h1 h2 => ⟨acc, h2, h1, fun _ _ _ => rfl⟩⟩
  | @element scope used t evs used1 r evs' used2 _ _ ih1 ih2 =>
    obtain ⟨i1, l, p, u, ds, as, k, i2, i3, i4⟩ := ih1 (fun c hc => hl c (by simp [hc])) hn
    obtain ⟨j1, j2⟩ := ih2 (fun c hc => hl c (by simp [hc])) i1
    refine ⟨j1, ?_⟩
    intro u0 acc e ha
    subst e
    obtain ⟨acc', m1, m2, m3⟩ := j2 u0 (acc.snoc (.elem l p u ds as) k) (by rw [i3, allDecls_snoc]; simp [allDecls]) (told_snoc (by simp) ha i2)
    refine ⟨acc', m1, m2, ?_⟩
    intro d r top
    rw [List.filter_append, steps_append, i4]
    exact m3 d r top
  | @text scope used l r evs used' h1 _ _ ih =>
    obtain ⟨j1, j2⟩ := ih (fun c hc => hl c (by simp [hc])) hn
    refine ⟨j1, ?_⟩
    intro u0 acc e ha
    obtain ⟨acc', m1, m2, m3⟩ := j2 u0 (acc.addText (encodeRunes (unixLines l))) (by rw [allDecls_addText]; exact e)
      (told_addText (unixLines_ne h1.ne) (fun c hc => (h1.legal c (unixLines_mem hc)).1) ha)
    exact ⟨acc', m1, m2, fun d r top => m3 d r top⟩
  | @ref scope used b v r evs used' _ _ hv _ ih =>
    obtain ⟨j1, j2⟩ := ih (fun c hc => hl c (by simp [hc])) hn
    refine ⟨j1, ?_⟩
    intro u0 acc e ha
    obtain ⟨acc', m1, m2, m3⟩ := j2 u0 (acc.addText (encodeRunes [v])) (by rw [allDecls_addText]; exact e)
      (told_addText (by simp) (fun c hc => by obtain rfl := List.mem_singleton.1 hc; exact hv) ha)
    exact ⟨acc', m1, m2, fun d r top => m3 d r top⟩
  | @comment scope used b r evs used' h1 _ ih =>
    obtain ⟨j1, j2⟩ := ih (fun c hc => hl c (by simp [hc])) hn
    refine ⟨j1, ?_⟩
    intro u0 acc e ha
    obtain ⟨c1, c2⟩ := unixLines_comment h1
    obtain ⟨acc', m1, m2, m3⟩ := j2 u0 (acc.snoc (.comment (encodeRunes (unixLines b))) .nil) (by rw [allDecls_snoc]; simpa [allDecls] using e)
      (told_snoc (by simp) ha (.comment c1 c2 .nil))
    exact ⟨acc', m1, m2, fun d r top => m3 d r top⟩
  | @pi scope used t n d r evs used' h1 _ ih =>
    obtain ⟨j1, j2⟩ := ih (fun c hc => hl c (by simp [hc])) hn
    refine ⟨j1, ?_⟩
    intro u0 acc e ha
    obtain ⟨acc', m1, m2, m3⟩ := j2 u0 (acc.snoc (.pi (encodeRunes n) (encodeRunes d)) .nil) (by rw [allDecls_snoc]; simpa [allDecls] using e)
      (told_snoc (by simp) ha (.pi .nil))
    exact ⟨acc', m1, m2, fun d r top => m3 d r top⟩
  | @cdata scope used l r evs used' h1 _ ih =>
    obtain ⟨j1, j2⟩ := ih (fun c hc => hl c (by simp [hc])) hn
    exact ⟨j1, j2⟩

/-- comments and processing instructions. -/
inductive Leaves : XTree → Prop
  | nil : Leaves .nil
  | comment {b r} : CommentText b → 13 ∉ b → Leaves r → Leaves (.node (.comment (encodeRunes b)) .nil r)
  | pi {t d r} : Leaves r → Leaves (.node (.pi t d) .nil r)

theorem misc_told {t : List Nat} {evs : List Ev} (h : Misc E t evs) : ∃ f, Leaves f ∧
    ∀ top, Partial.steps ⟨[], top⟩ (evs.filter notCData) = some ⟨[], top.append f⟩ := by
  induction h with
  | nil => exact ⟨.nil, .nil, fun top => by rw [XTree.append_nil]; rfl⟩
  | space _ _ ih => exact ih
  | @comment b r evs h1 _ ih =>
    obtain ⟨f, i1, i2⟩ := ih
    obtain ⟨c1, c2⟩ := unixLines_comment h1
    refine ⟨_, .comment c1 c2 i1, fun top => ?_⟩
    rw [← XTree.snoc_append]
    exact i2 _
  | @pi t n d r evs _ _ ih =>
    obtain ⟨f, i1, i2⟩ := ih
    refine ⟨.node (.pi (encodeRunes n) (encodeRunes d)) .nil f, .pi i1, fun top => ?_⟩
    rw [← XTree.snoc_append]
    exact i2 _

/-! ### the known losses -/

theorem toldUri_plain {w : List Nat} (h : ToldUri w) (hw : WritableUri (encodeRunes w)) : PlainUri w := by
  have m : ∀ x, x < 128 → x ∉ encodeRunes w → x ∉ w := fun x hx hn hm => hn ((mem_encodeRunes_ascii w x hx).2 hm)
  obtain ⟨h1, h2, h3⟩ := h
  obtain ⟨w1, w2, w3, w4, w5⟩ := hw
  refine ⟨h1, fun c hc => ⟨h2 c hc, fun e => h3 (e ▸ hc), fun e => m 60 (by decide) w1 (e ▸ hc), fun e => ?_⟩, w5.imp (m 34 (by decide)) (m 39 (by decide))⟩
  rcases e with rfl | rfl | rfl | rfl
  · rfl
  all_goals first | exact absurd hc (m _ (by decide) w2) | exact absurd hc (m _ (by decide) w3) | exact absurd hc (m _ (by decide) w4)

theorem toldDecl_plain {d : Bytes × Bytes} (h : ToldDecl E d) (hw : WritableUri d.2) : PlainDecl E d := by
  obtain ⟨p, w, h1, h2, h3, h4, h5, h6, h7, rfl⟩ := h
  exact ⟨p, w, h1, h2, h3, h4, toldUri_plain h5 hw, h6, h7, rfl⟩

theorem toldDecls_plain {ds as : List (Bytes × Bytes)} (h : ToldDecls E ds) (hw : ∀ x ∈ ds, WritableUri x.2) (ha : [] ∈ ds.map (·.1) → as = []) :
    PlainDecls E ds as := by
  obtain ⟨ds', z, h1, rfl, h2⟩ := h
  rcases h2 with rfl | ⟨w, h2, rfl⟩
  · exact .inl fun d hd => toldDecl_plain (h1 d (by simpa using hd)) (hw d hd)
  · exact .inr ⟨ha (by simp), ds', w, fun d hd => toldDecl_plain (h1 d hd) (hw d (by simp [hd])), toldUri_plain h2 (hw ([], encodeRunes w) (by simp)), rfl⟩

theorem told_plain {scope used : List (Bytes × Bytes)} {x : XTree} (h : Told E scope used x) (hw : x.Writable) : Spec.Plain E scope used x := by
  induction h with
  | nil => exact .nil
  | elem h1 h2 h3 h4 h5 _ _ ih1 ih2 =>
    obtain ⟨⟨w1, w2⟩, w3, w4⟩ := hw
    exact .elem h1 (toldDecls_plain h2 w1 w2) h3 h4 h5 (ih1 w3) (ih2 w4)
  | @text scope used w r h1 h2 h3 _ ih =>
    exact .text h1 h2 (fun e => hw.1 (by rw [e]; rfl)) h3 (ih hw.2.2)
  | comment h1 h2 _ ih => exact .comment h1 h2 (ih hw.2.2)
  | pi => exact hw.1.elim

theorem leaves_plain {f : XTree} (h : Leaves f) (hw : f.Writable) : PlainTop E true f := by
  induction h with
  | nil => exact .nil
  | comment h1 h2 _ ih => exact .comment h1 h2 (ih hw.2.2)
  | pi => exact hw.1.elim

theorem leaves_decls {f : XTree} (h : Leaves f) : allDecls f = [] := by
  induction h with
  | nil => rfl
  | comment _ _ _ ih => exact ih
  | pi _ ih => exact ih

/-- the tree of a well-formed document, the known losses apart, is one that survives. -/
theorem document_plain {t v e : List Nat} {sd : Int} {evs : List Ev} (h : Document E t v e sd evs) {x : XTree}
    (hx : treeOf (evs.filter notCData) = some x) (hw : x.Writable) : PlainDoc E x := by
  obtain ⟨h0, m1, root, m2, e1, e2, e3, used, rfl, _, k1, k2, k3, kl, rfl⟩ := h
  obtain ⟨f1, l1, s1⟩ := misc_told k1
  obtain ⟨f3, l3, s3⟩ := misc_told k3
  obtain ⟨hn, l, p, u, ds, as, k, t2, rfl, s2⟩ := src_told k2 (fun c hc => kl c (by simp [hc])) (by simp)
  have e : x = f1.append (.node (.elem l p u ds as) k f3) := by
    unfold treeOf at hx
    have : Partial.steps ⟨[], .nil⟩ (([Ev.setDocumentLocator, .startDocument] ++ (e1 ++ (e2 ++ (e3 ++ [Ev.endDocument])))).filter notCData) =
        some ⟨[], f1.append (.node (.elem l p u ds as) k f3)⟩ := by
      rw [List.filter_append, steps_append]
      show Partial.steps ⟨[], .nil⟩ _ = _
      rw [List.filter_append, steps_append, s1]
      show Partial.steps ⟨[], _⟩ _ = _
      rw [List.filter_append, steps_append, s2]
      show Partial.steps ⟨[], (XTree.append .nil f1).snoc (.elem l p u ds as) k⟩ _ = _
      rw [List.filter_append, steps_append, s3]
      show some (Partial.mk [] _) = _
      rw [XTree.snoc_append]
      rfl
    rw [this] at hx
    exact (Option.some.inj hx).symm
  subst e
  refine ⟨?_, ?_⟩
  · clear s1 hx
    induction l1 with
    | nil => exact .root (told_plain t2 ⟨hw.1, hw.2.1, trivial⟩) (leaves_plain l3 hw.2.2)
    | comment h1 h2 _ ih => exact .comment h1 h2 (ih hw.2.2)
    | pi => exact hw.1.elim
  · rw [allDecls_append, leaves_decls l1]
    simpa [allDecls, leaves_decls l3] using hn

end Helium
