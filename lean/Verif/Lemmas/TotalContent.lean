import Verif.Lemmas.TotalLex
import Verif.Lemmas.TreeLogic
/-! Total correctness: tags, content, elements. -/
namespace Helium
open Spec
section
variable {σ : Type} {α β : Type} {E : Env} {H : Handler σ} {pn : Bool} {B : Nat} {F : HC σ → Prop} {G : Nat → HC σ → Prop}

/-- the state is still good, after `k` characters, and `nodes` are the open elements. -/
structure Next (pn : Bool) (E : Env) (G : Nat → HC σ → Prop) (B k : Nat) (nodes : List EInfo) (s s' : St σ) : Prop where
  good : Good pn E G B s'
  nodes : s'.nodes = nodes
  len : s'.cur.length + k ≤ s.cur.length

theorem Same.next {k : Nat} {s s' : St σ} (hs : Good pn E G B s) (h : Same G s s') (hl : s'.cur.length + k ≤ s.cur.length) :
    Next pn E G B k s.nodes s s' := ⟨hs.same h, h.nodes, hl⟩

theorem Settles.next {k : Nat} {p : P σ α} (h : Settles E pn B G k p) {s : St σ} (hs : Good pn E G B s) :
    Tot pn (p s) (fun _ s' => Next pn E G B k s.nodes s s') (fun _ => True) :=
  (h s hs).mono (fun _ _ h => h.1.next hs h.2) (fun _ h => h)

/-! ### start tags -/

theorem uniqueLookup_mem {ns : List (Bytes × Bytes)} {p : Bytes} {x : Bytes × Bytes} (h : uniqueLookup ns p = some x) : x ∈ ns := by
  unfold uniqueLookup at h
  exact List.mem_reverse.1 (List.mem_of_find?_eq_some h)

theorem nsPush_mem {ns : List (Bytes × Bytes)} {p u : Bytes} {x : Bytes × Bytes} (h : x ∈ nsPush ns p u) : x ∈ ns ∨ x = (p, u) := by
  unfold nsPush uniquePush at h
  split at h
  · exact Or.inl h
  · rcases List.mem_append.1 h with h | h
    · exact Or.inl h
    · exact Or.inr (by simpa using h)

/-- declaring a prefix that is not there yet makes the table longer. -/
theorem nsPush_grows {ns : List (Bytes × Bytes)} {p u : Bytes} (h : ∀ x ∈ ns, x.2 ≠ []) (hl : nsLookup ns p = []) :
    (nsPush ns p u).length = ns.length + 1 := by
  unfold nsPush uniquePush
  unfold nsLookup at hl
  cases hu : uniqueLookup ns p with
  | some x =>
    rw [hu] at hl
    exact absurd hl (h x (uniqueLookup_mem hu))
  | none => simp

theorem nsDeclCheck_none {ns : List (Bytes × Bytes)} {a v : Bytes} (h : nsDeclCheck E ns a v = none) : v ≠ [] ∧ nsLookup ns a = [] := by
  unfold nsDeclCheck at h
  split at h
  · split at h <;> cases h
  · split at h
    · cases h
    · split at h
      · cases h
      · split at h
        · cases h
        · rename_i hv
          split at h
          · cases h
          · split at h
            · cases h
            · rename_i hl
              exact ⟨hv, Classical.not_not.1 hl⟩

theorem Still.afterNs : Still pn E G B 0 (afterNs E : P σ Bool) := by
  unfold Helium.afterNs
  have := Still.needBlanks (σ := σ) (pn := pn) (E := E) (G := G) (B := B)
  still

theorem nsList_some {ns : List (Bytes × Bytes)} {n : Nat} (h : n ≤ ns.length) : ∀ x ∈ nsList ns n, x ≠ none := by
  unfold nsList nsPeek
  intro x hx
  rcases List.mem_append.1 hx with hx | hx
  · obtain ⟨y, -, rfl⟩ := List.mem_map.1 hx
    simp
  · rw [List.mem_replicate] at hx
    exfalso
    apply hx.1
    unfold stackPeek
    split
    · rw [List.length_drop]; omega
    · omega

theorem attrsLoop_tot (hH : Sturdy pn B H F G) (loc : Bytes) : ∀ (fuel : Nat) (s : St σ) (nb : Nat) (as : List AttrD), Good pn E G B s → s.cur.length < fuel →
    (∀ a ∈ as, ShortAttr B a) → (pn = false → nb ≤ s.ns.length) →
    Tot pn (attrsLoop E H loc fuel nb as s)
      (fun x s' => Next pn E G B 0 s.nodes s s' ∧ (∀ a ∈ x.2, ShortAttr B a) ∧ (pn = false → x.1 ≤ s'.ns.length)) (fun _ => True)
  | 0, s, _, _, _, h, _, _ => absurd h (Nat.not_lt_zero _)
  | fuel + 1, s, nb, as, hs, hf, has, hnb => by
    have ret : ∀ (t : St σ), Same G s t →
        Next pn E G B 0 s.nodes s t ∧ (∀ a ∈ as, ShortAttr B a) ∧ (pn = false → nb ≤ t.ns.length) := fun t ht =>
      ⟨ht.next hs (by have := ht.cur.length_le; omega), has, fun hp => by rw [ht.ns]; exact hnb hp⟩
    have again : ∀ (t : St σ) (nb' : Nat) (as' : List AttrD), Good pn E G B t → t.nodes = s.nodes → t.cur.length < s.cur.length → (∀ a ∈ as', ShortAttr B a) →
        (pn = false → nb' ≤ t.ns.length) → Tot pn (attrsLoop E H loc fuel nb' as' t)
      (fun x s' => Next pn E G B 0 s.nodes s s' ∧ (∀ a ∈ x.2, ShortAttr B a) ∧ (pn = false → x.1 ≤ s'.ns.length)) (fun _ => True) := by
      intro t nb' as' ht hn hl h1 h2
      refine (attrsLoop_tot hH loc fuel t nb' as' ht (by omega) h1 h2).mono (fun x s' h => ⟨⟨h.1.good, h.1.nodes.trans hn, ?_⟩, h.2⟩) (fun _ h => h)
      have := h.1.len
      omega
    have push : ∀ (a : Bytes × Bytes × Bytes), GoodVal B a.2.2 → ∀ x ∈ as ++ [AttrD.parsed a.2.1 a.1 a.2.2], ShortAttr B x := by
      rintro a ⟨w, h1, h2, h3⟩ x hx
      rcases List.mem_append.1 hx with hx | hx
      · exact has x hx
      · rw [List.mem_singleton] at hx
        subst hx
        exact ⟨a.2.1, a.1, w, by rw [h1], h2, h3⟩
    -- after a declaration has been stored
    have stored : ∀ (t : St σ) (p u : Bytes), Good pn E G B t → (pn = false → u ≠ []) → Good pn E G B { t with ns := nsPush t.ns p u } := by
      intro t p u ht hu
      refine ⟨ht.safe, ht.sub, ht.special, ht.dflt, ht.hc, fun hp x hx => ?_, ht.len⟩
      rcases nsPush_mem hx with hx | hx
      · exact ht.ns hp x hx
      · subst hx; exact hu hp
    rw [attrsLoop]
    refine Tot.bind (Still.skipBlanks s hs).any ?_
    rintro _ t0 ⟨h0, -⟩
    refine Tot.bind (Still.consume b!">" t0 (hs.same h0)).any ?_
    rintro b t1 ⟨h1, -⟩
    have h01 := h0.trans h1
    split
    · exact ret t1 h01
    · rw [hasPrefix_bind]
      split
      · exact ret t1 h01
      · refine Tot.bind (parseAttribute_tot hH loc t1 (hs.same h01)).wrap ?_
        rintro a t2 ⟨⟨h2, h2l⟩, hv, hx⟩
        have h02 := h01.trans h2
        have hl2 : t2.cur.length < s.cur.length := by have := h01.cur.length_le; omega
        have hg := hs.same h02
        split
        · rename_i hxm
          have hpn : pn = true := by
            cases hp : pn with
            | true => rfl
            | false => exact absurd hxm (hx hp)
          have hnp : ∀ {P : Prop}, pn = false → P := fun hp => by rw [hpn] at hp; cases hp
          rw [modify_bind]
          refine Tot.bind (Still.afterNs _ (stored t2 [] a.2.2 hg (fun hp => hnp hp))).any ?_
          rintro c t3 ⟨h3, h3l⟩
          have hg3 := (stored t2 [] a.2.2 hg (fun hp => hnp hp)).same h3
          have hn3 : t3.nodes = s.nodes := h3.nodes.trans h02.nodes
          have hl3 : t3.cur.length < s.cur.length := by have : t3.cur.length ≤ t2.cur.length := h3.cur.length_le; omega
          split
          · exact again t3 _ _ hg3 hn3 hl3 (push a hv) (fun hp => hnp hp)
          · exact again t3 _ _ hg3 hn3 hl3 has (fun hp => hnp hp)
        · split
          · rw [get_bind]
            rcases hchk : nsDeclCheck E t2.ns a.1 a.2.2 with _ | _ | e
            rotate_left
            · refine Tot.bind (Still.afterNs t2 hg).any ?_
              rintro c t3 ⟨h3, h3l⟩
              have h03 := h02.trans h3
              exact again t3 _ _ (hs.same h03) h03.nodes (by omega) has (fun hp => by rw [h03.ns]; exact hnb hp)
            · trivial
            · obtain ⟨hu, hlk⟩ := nsDeclCheck_none hchk
              simp only
              rw [modify_bind]
              have hgs := stored t2 a.1 a.2.2 hg (fun _ => hu)
              refine Tot.bind (Still.afterNs _ hgs).any ?_
              rintro c t3 ⟨h3, h3l⟩
              have hl3 : t3.cur.length < s.cur.length := by have : t3.cur.length ≤ t2.cur.length := h3.cur.length_le; omega
              refine again t3 _ _ (hgs.same h3) (h3.nodes.trans h02.nodes) hl3 has (fun hp => ?_)
              rw [h3.ns]
              show nb + 1 ≤ (nsPush t2.ns a.1 a.2.2).length
              rw [nsPush_grows (hg.ns hp) hlk, h02.ns]
              have := hnb hp
              omega
          · exact again t2 _ _ hg h02.nodes hl2 (push a hv) (fun hp => by rw [h02.ns]; exact hnb hp)

theorem parseStartTag_tot (hH : Sturdy pn B H F G) (s : St σ) (hs : Good pn E G B s) :
    Tot pn (parseStartTag E H s) (fun _ s' => ∃ e, Next pn E G B 1 (s.nodes ++ [e]) s s') (fun _ => True) := by
  unfold parseStartTag
  rw [peek_bind]
  by_cases h60 : s.cur.getD 0 E.eof = 60
  case neg =>
    rw [show (s.cur.getD 0 E.eof == 60) = false from by simpa using h60]
    trivial
  obtain ⟨r, hr⟩ := peek_cons h60 (by decide)
  rw [need_bind (by simpa using h60), adv_bind, show s.cur.drop 1 = r by rw [hr]; rfl]
  have h1 : Same G s { s with cur := r } := Same.cut s (by rw [hr]; exact List.suffix_cons _ _)
  refine Tot.bind ((Still.parseQName _ (hs.same h1)).orElse.any) ?_
  rintro q t ⟨h2, h2l⟩
  have hl : t.cur.length + 1 ≤ s.cur.length := by have := h1.cur.length_le; omega
  have h3 := h1.trans h2
  refine Tot.bind (R := fun _ t' => t' = t) ?_ ?_
  · unfold M.need
    split
    · rfl
    · trivial
  rintro _ t' rfl
  rw [rest_bind]
  refine Tot.bind (attrsLoop_tot hH q.1 _ t' 0 [] (hs.same h3) (Nat.lt_succ_self _) (by simp) (fun _ => Nat.zero_le _)) ?_
  rintro na u ⟨hu, has, hnb⟩
  rw [get_bind]
  have hd : ∀ a ∈ na.2 ++ defaultAttrs E u.attsDefault q.2 q.1, TagAttr B u.hc.heap a := by
    intro a ha
    rcases List.mem_append.1 ha with ha | ha
    · exact Or.inl (has a ha)
    · exact Or.inr (defaultAttrs_marked E (hu.good.dflt _ _ hu.good.hc) ha)
  show Tot pn ((if q.2 ≠ [] ∧ nsLookup u.ns q.2 = [] then M.cerr .mNamespaceNotFound else do
    cb H (.startElement q.1 q.2 (nsLookup u.ns q.2) (nsList u.ns na.1) (na.2 ++ defaultAttrs E u.attsDefault q.2 q.1))
    M.modify (fun s => { s with nodes := s.nodes ++ [⟨q.1, q.2, nsLookup u.ns q.2⟩] }) : P σ Unit) u) _ _
  split
  · trivial
  · refine Tot.bind (cb_tot (hH.start hu.good.sub hu.good.hc hd (fun hp => nsList_some (hnb hp)))) ?_
    rintro _ v ⟨c, tr, rfl, hG⟩
    refine ⟨⟨q.1, q.2, nsLookup u.ns q.2⟩, ⟨hu.good.safe, hu.good.sub, hu.good.special, hu.good.dflt, ?_, hu.good.ns, hu.good.len⟩, ?_, ?_⟩
    · show G (u.nodes ++ [_]).length c
      simpa using hG
    · show u.nodes ++ [_] = s.nodes ++ [_]
      rw [hu.nodes, h3.nodes]
    · have := hu.len
      show u.cur.length + 1 ≤ s.cur.length
      omega

/-! ### end tags -/

theorem parseEndTag_tot (hH : Sturdy pn B H F G) (s : St σ) (hs : Good pn E G B s) {ns : List EInfo} {e : EInfo} (hn : s.nodes = ns ++ [e]) :
    Tot pn (parseEndTag E H s) (fun _ s' => Next pn E G B 0 ns s s') (fun _ => True) := by
  have hlast : ∀ {t : St σ}, Same G s t → t.nodes.getLast? = some e := fun ht => by rw [ht.nodes, hn]; simp
  have fin : ∀ (t : St σ), Same G s t → Tot pn ((do
      let s ← M.get
      let e ← M.deref s.nodes.getLast?
      cb H (.endElement e.loc e.pfx e.uri)
      M.modify (fun s => { s with nodes := s.nodes.dropLast }) : P σ Unit) t) (fun _ s' => Next pn E G B 0 ns s s') (fun _ => True) := by
    intro t ht
    have hg := hs.same ht
    rw [get_bind, hlast ht, deref_bind]
    have hlen : t.nodes.length = ns.length + 1 := by rw [ht.nodes, hn]; simp
    have hG := hg.hc
    rw [hlen] at hG
    refine Tot.bind (cb_tot (hH.stop hg.sub hG)) ?_
    rintro _ v ⟨c, tr, rfl, hG⟩
    refine ⟨⟨hg.safe, hg.sub, hg.special, hg.dflt, ?_, hg.ns, hg.len⟩, ?_, ht.cur.length_le⟩
    · show G t.nodes.dropLast.length c
      rw [ht.nodes, hn, List.dropLast_concat]
      exact hG
    · show t.nodes.dropLast = ns
      rw [ht.nodes, hn, List.dropLast_concat]
  unfold parseEndTag
  refine Tot.bind (Still.consume b!"/>" s hs).any ?_
  rintro b t ⟨h1, -⟩
  split
  · exact fin t h1
  · refine Tot.bind (Still.consume b!"</" t (hs.same h1)).any ?_
    rintro b t2 ⟨h2, -⟩
    have h02 := h1.trans h2
    split
    · rw [get_bind, hlast h02, deref_bind]
      refine Tot.bind (Still.consume _ t2 (hs.same h02)).any ?_
      rintro b t3 ⟨h3, -⟩
      have h03 := h02.trans h3
      split
      · rw [peek_bind]
        refine Tot.bind (Still.need _ _ t3 (hs.same h03)).any ?_
        rintro _ t4 ⟨h4, -⟩
        rw [adv_bind]
        exact fin _ ((h03.trans h4).trans (Same.cut t4 (List.drop_suffix 1 _)))
      · trivial
    · trivial

/-! ### content -/

theorem parseReference_tot (hH : Sturdy pn B H F G) (body : P σ Unit) (s : St σ) (hs : Good pn E G B s) (hn : s.nodes ≠ []) :
    Tot pn (parseReference E H body s) (fun _ s' => Next pn E G B 1 s.nodes s s') (fun _ => True) := by
  have fin : ∀ (b : Bytes) (u : St σ), Same G s u → u.cur.length + 1 ≤ s.cur.length →
      Tot pn (cb H (.characters b) u) (fun _ s' => Next pn E G B 1 s.nodes s s') (fun _ => True) := by
    intro b u hu hl
    have hgu := hs.same hu
    obtain ⟨n, hn'⟩ : ∃ n, u.nodes.length = n + 1 := by
      rw [hu.nodes]
      cases hsn : s.nodes with
      | nil => exact absurd hsn hn
      | cons a b => exact ⟨b.length, rfl⟩
    have hG := hgu.hc
    rw [hn'] at hG
    refine (cb_same (G := G) ?_).mono (fun _ t h => (hu.trans h.1).next hs (by rw [h.2]; exact hl)) (fun _ h => h)
    rw [hn']
    exact hH.text hgu.sub hG
  unfold parseReference
  rw [peek_bind]
  by_cases h38 : s.cur.getD 0 E.eof = 38
  case neg =>
    rw [show (s.cur.getD 0 E.eof == 38) = false from by simpa using h38]
    trivial
  rw [need_bind (by simpa using h38), peekN_bind]
  split
  · refine Tot.bind (Still.parseCharRef s hs).wrap.any ?_
    rintro v t ⟨h1, h1l⟩
    exact fin _ t h1 (by omega)
  · refine Tot.bind (parseEntityRef_tot hH s hs).wrap ?_
    rintro e t ⟨h1, h1l, p, rfl⟩
    rw [get_bind]
    have h6 : (ERef.pre p).name t.hc.heap = [] ∨ (ERef.pre p).typ t.hc.heap = 6 := Or.inr rfl
    simp only [if_pos h6]
    split
    · exact h1.next hs h1l
    · exact fin _ t h1 h1l

/-- what is asked of the body of an element, for inputs shorter than `n`. -/
def BodyTot (pn : Bool) (E : Env) (G : Nat → HC σ → Prop) (B n : Nat) (body : P σ Unit) : Prop :=
  ∀ s : St σ, Good pn E G B s → s.nodes ≠ [] → s.cur.length < n → Tot pn (body s) (fun _ s' => Next pn E G B 0 s.nodes s s') (fun _ => True)

theorem Next.trans {j k : Nat} {s t u : St σ} {n m : List EInfo} (h : Next pn E G B j n s t) (h' : Next pn E G B k m t u) : Next pn E G B (j + k) m s u :=
  ⟨h'.good, h'.nodes, by have := h.len; have := h'.len; omega⟩

theorem parseElementW_tot (hH : Sturdy pn B H F G) {n : Nat} {body : P σ Unit} (hb : BodyTot pn E G B n body) (s : St σ) (hs : Good pn E G B s)
    (hl : s.cur.length < n + 1) :
    Tot pn (parseElementW E H body s) (fun _ s' => Next pn E G B 1 s.nodes s s') (fun _ => True) := by
  unfold parseElementW
  refine Tot.bind (parseStartTag_tot hH s hs).wrap ?_
  rintro _ t ⟨e, h1⟩
  have fin : ∀ u : St σ, Next pn E G B 1 (s.nodes ++ [e]) s u →
      Tot pn (M.wrap (parseEndTag E H) u) (fun _ s' => Next pn E G B 1 s.nodes s s') (fun _ => True) := fun u hu =>
    (parseEndTag_tot hH u hu.good hu.nodes).wrap.mono (fun _ _ h => hu.trans h) (fun _ h => h)
  rw [hasPrefix_bind]
  split
  · exact fin t h1
  · refine Tot.bind (hb t h1.good (by rw [h1.nodes]; simp) (by have := h1.len; omega)).wrap ?_
    rintro _ u hu
    exact fin u (by rw [← h1.nodes]; exact h1.trans hu)

theorem contentStep_tot (hH : Sturdy pn B H F G) {n : Nat} {body : P σ Unit} (hb : BodyTot pn E G B n body) (s : St σ) (hs : Good pn E G B s)
    (hn : s.nodes ≠ []) (hl : s.cur.length < n + 1) :
    Tot pn (contentStep E H body s) (fun _ s' => Next pn E G B 1 s.nodes s s') (fun _ => True) := by
  unfold contentStep
  rw [hasPrefix_bind]
  split
  · exact ((Settles.parsePI hH).weak (by decide)).wrap.next hs
  rw [hasPrefix_bind]
  split
  · exact (parseCDSect_tot hH s hs hn).wrap.mono (fun _ _ h => h.1.next hs h.2) (fun _ h => h)
  rw [hasPrefix_bind]
  split
  · exact ((Settles.parseComment hH).weak (by decide)).wrap.next hs
  rw [hasPrefix_bind]
  split
  · exact (parseElementW_tot hH hb s hs hl).wrap
  rw [hasPrefix_bind]
  split
  · exact (parseReference_tot hH body s hs hn).wrap
  · exact (parseCharData_tot hH false s hs hn (Or.inl rfl)).mono (fun _ _ h => h.1.next hs h.2) (fun _ h => h)

/-- content is read to its end when the budget exceeds the length of the input. -/
theorem parseContent_tot (hH : Sturdy pn B H F G) : ∀ n, BodyTot pn E G B n (parseContent E H n)
  | 0 => fun _ _ _ h => absurd h (Nat.not_lt_zero _)
  | n + 1 => by
    intro s hs hn hl
    rw [parseContent, isDone_bind]
    split
    · exact (Same.refl s).next hs (Nat.le_refl _)
    rw [hasPrefix_bind]
    split
    · exact (Same.refl s).next hs (Nat.le_refl _)
    refine Tot.bind (contentStep_tot hH (parseContent_tot hH n) s hs hn hl) ?_
    intro _ t ht
    refine (parseContent_tot hH n t ht.good (by rw [ht.nodes]; exact hn) (by have := ht.len; omega)).mono (fun _ u hu => ?_) (fun _ h => h)
    have := ht.trans hu
    exact ⟨this.good, this.nodes.trans ht.nodes, by have := this.len; omega⟩

theorem parseTail_tot (hH : Sturdy pn B H F G) (fuel : Nat) (s : St σ) (hs : Good pn E G B s) (hn : s.nodes = []) (hl : s.cur.length < fuel + 1) :
    Tot pn (parseTail E H fuel s) (fun _ _ => True) (fun _ => True) := by
  unfold parseTail
  refine Tot.bind (Still.skipBlanks s hs).any ?_
  rintro _ t ⟨h1, h1l⟩
  rw [peek_bind]
  refine Tot.bind (Still.need _ _ t (hs.same h1)).any ?_
  rintro _ t1 ⟨h2, h2l⟩
  have h02 := h1.trans h2
  unfold parseElement
  refine Tot.bind (parseElementW_tot hH (parseContent_tot hH fuel) t1 (hs.same h02) (by omega)).wrap ?_
  intro _ t2 h3
  refine Tot.bind (parseMisc_tot hH t2 h3.good).wrap ?_
  intro _ t3 h4
  rw [isDone_bind]
  have hg := h3.good.same h4
  refine Tot.bind (Still.need _ _ t3 hg).any ?_
  rintro _ t4 ⟨h5, -⟩
  have hg4 := hg.same h5
  have hG := hg4.hc
  rw [h5.nodes, h4.nodes, h3.nodes, h02.nodes, hn] at hG
  exact (cb_tot (Q := fun _ => True) ⟨hH.endDoc hG, fun _ => trivial⟩).mono (fun _ _ _ => trivial) (fun _ h => h)

end
end Helium
