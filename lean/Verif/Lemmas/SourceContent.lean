import Verif.Lemmas.SourceRun
/-! Running the parser on the text of a well-formed document: tags, character data, content. -/
namespace Helium
open Spec
section
variable {σ : Type} (E : Env) (H : Handler σ)

/-! ### namespace declarations seen so far -/

/-- each prefix once, no URI empty. -/
def NsOK (ns : List (Bytes × Bytes)) : Prop := (ns.map (·.1)).Nodup ∧ ∀ x ∈ ns, x.2 ≠ []

theorem encodeRunes_ne {w : List Nat} (h : w ≠ []) : encodeRunes w ≠ [] := by
  cases w with
  | nil => exact absurd rfl h
  | cons x w =>
    rw [encodeRunes_cons]
    exact fun hc => encodeRune_ne_nil _ (List.append_eq_nil_iff.1 hc).1

theorem atts_ns {used : List (Bytes × Bytes)} {a : List Nat} {as : List AttrD} {ds : List (Bytes × Bytes)} (h : Atts E used a as ds)
    (hu : NsOK used) : NsOK (used ++ ds) := by
  induction h with
  | nil => simpa using hu
  | attr _ _ _ _ _ _ _ _ _ _ ih => exact ih hu
  | @decl used ws p w1 w2 q v w r as ds h1 h2 h3 h4 h5 h6 h7 h8 h9 h10 h11 h12 h13 h14 h15 ih =>
    have := ih ⟨by
      rw [List.map_append, List.nodup_append]
      refine ⟨hu.1, by simp, ?_⟩
      intro x hx y hy e
      simp at hy
      subst e
      subst hy
      exact h14 hx, by
      intro x hx
      rcases List.mem_append.1 hx with hx | hx
      · exact hu.2 x hx
      · simp at hx
        subst hx
        exact encodeRunes_ne h10⟩
    simpa using this
  | @dflt used ws w1 w2 q v w h1 h2 h6 h7 h8 h9 h10 h11 h14 =>
    refine ⟨?_, ?_⟩
    · rw [List.map_append, List.nodup_append]
      refine ⟨hu.1, by simp, ?_⟩
      intro x hx y hy e
      simp at hy
      subst e
      subst hy
      exact h14 hx
    · intro x hx
      rcases List.mem_append.1 hx with hx | hx
      · exact hu.2 x hx
      · simp at hx
        subst hx
        exact encodeRunes_ne h10

theorem nsList_run (used ds : List (Bytes × Bytes)) : nsList (used ++ ds) ds.length = ds.map some := by
  have h : nsPeek (used ++ ds) ds.length = ds := by
    unfold nsPeek stackPeek
    cases used with
    | nil => simp
    | cons x used =>
      rw [if_pos (by simp; omega), List.length_append, Nat.add_sub_cancel, List.drop_left]
  unfold nsList
  simp only [h]
  simp

theorem bound_lookup {scope ns : List (Bytes × Bytes)} {p u : Bytes} (h : Bound scope ns p u) (hs : ∀ x ∈ scope, x ∈ ns) (hn : NsOK ns) :
    nsLookup ns p = u ∧ ¬ (p ≠ [] ∧ u = []) := by
  rcases h with ⟨rfl, rfl, h2⟩ | h2
  · exact ⟨nsLookup_none h2, by simp⟩
  · exact ⟨nsLookup_some hn.1 (hs _ h2), fun hc => hn.2 _ (hs _ h2) hc.2⟩

/-! ### tags -/

theorem tag_head {used : List (Bytes × Bytes)} {a : List Nat} {as : List AttrD} {ds : List (Bytes × Bytes)} (h : Atts E used a as ds)
    {tail out : List Nat} (ht : TagEnd tail out) : ∀ c, (a ++ tail).head? = some c → c ≠ 0 ∧ ¬ NameChar E c := by
  intro c hc
  cases a with
  | nil => exact (ht.head E c hc).2
  | cons x a =>
    cases hc
    exact ws_notName E (atts_head E h _ rfl)

theorem qname_run {n p l r : List Nat} (hn : QName E n p l) (hr : ∀ c, r.head? = some c → c ≠ 0 ∧ ¬ NameChar E c) (s : St σ)
    (hs : s.cur = n ++ r) : parseQName E s = .ok (encodeRunes l, encodeRunes p) { s with cur := r } := by
  rcases hn with ⟨hl, ⟨rfl, rfl⟩ | ⟨hp, rfl⟩⟩
  · exact parseQName_run E hl hr s hs
  · exact parseQName_run_prefixed E hp hl (fun c hc => ⟨(hr c hc).1, fun h => absurd h (hr c hc).2⟩) s (by rw [hs]; simp)

theorem qname_local_ne {n p l : List Nat} (hn : QName E n p l) : encodeRunes l ≠ [] := by
  obtain ⟨c, t, rfl, _⟩ := hn.1.start
  exact encodeRunes_ne (by simp)

theorem parseStartTag_run {n p l a tail out : List Nat} {scope used ds : List (Bytes × Bytes)} {as : List AttrD} {u : Bytes} (hn : QName E n p l)
    (ha : Atts E used a as ds) (hb : Bound (scope ++ ds) (used ++ ds) (encodeRunes p) u) (hsc : ∀ x ∈ scope, x ∈ used) (hu : NsOK used) (ht : TagEnd tail out)
    (s : St σ) (hs : s.cur = 60 :: (n ++ (a ++ tail))) (hns : s.ns = used) {sp : List (Bytes × Nat)}
    {df : List (Bytes × List (Bytes × Nat))} (hsp : s.attsSpecial = sp) (hd : s.attsDefault = df)
    (hW : Worded (tokOf sp) (.startElement (encodeRunes l) (encodeRunes p) u (ds.map some) as)) :
    parseStartTag E H s = (do
      cb H (declared (tokOf sp) (defaultAttrs E df) (.startElement (encodeRunes l) (encodeRunes p) u (ds.map some) as))
      M.modify (fun s => { s with nodes := s.nodes ++ [⟨encodeRunes l, encodeRunes p, u⟩] }) : P σ Unit)
      { s with cur := out, ns := used ++ ds } := by
  unfold parseStartTag
  run
  rw [hs, need_bind (by rfl)]
  run
  rw [hs]
  simp only [List.drop_succ_cons, List.drop_zero]
  have h1 := qname_run E hn (tag_head E ha ht) { s with cur := n ++ (a ++ tail) } rfl
  have h2 : M.orElse (parseQName E) .mLocalNameEmpty { s with cur := n ++ (a ++ tail) } = _ := orElse_run h1
  rw [bind_run h2]
  rw [need_bind (by simpa using qname_local_ne E hn)]
  run
  have h3 := attrsLoop_run E H (encodeRunes l) ht ha ((a ++ tail).length + 1) 0 [] { s with cur := a ++ tail } (by simp; omega) rfl hns hsp
    hW.1 (fun p u hm => hW.2 p u (List.mem_map.2 ⟨_, hm, rfl⟩))
  rw [bind_run h3]
  run
  have h5 := bound_lookup hb (ns := used ++ ds) (by
    intro x hx
    rcases List.mem_append.1 hx with hx | hx
    · exact List.mem_append.2 (Or.inl (hsc x hx))
    · exact List.mem_append.2 (Or.inr hx)) (atts_ns E ha hu)
  simp only [hd, h5.1, if_neg h5.2, List.nil_append, Nat.zero_add, nsList_run]
  rfl

theorem ncname_scalar {n : List Nat} (h : NCName E n) : ∀ c ∈ n, isScalar c := fun c hc => nameChar_scalar E (h.chars c hc).1

theorem qname_encode {n p l : List Nat} (hn : QName E n p l) (u : Bytes) :
    decodeRunes (EInfo.name ⟨encodeRunes l, encodeRunes p, u⟩) = n := by
  unfold EInfo.name
  rcases hn with ⟨hl, ⟨rfl, rfl⟩ | ⟨hp, rfl⟩⟩
  · simp [decodeRunes_encodeRunes _ (ncname_scalar E hl)]
  · have h1 : encodeRunes p ≠ [] := by
      obtain ⟨c, t, rfl, _⟩ := hp.start
      exact encodeRunes_ne (by simp)
    simp only [if_pos h1]
    have h2 : encodeRunes p ++ 58 :: encodeRunes l = encodeRunes (p ++ 58 :: l) := by
      rw [encodeRunes_append, encodeRunes_cons, encodeRune_ascii 58 (by decide)]; rfl
    rw [h2, decodeRunes_encodeRunes]
    intro c hc
    rcases List.mem_append.1 hc with hc | hc
    · exact ncname_scalar E hp c hc
    · rcases List.mem_cons.1 hc with rfl | hc
      · unfold isScalar; omega
      · exact ncname_scalar E hl c hc

theorem parseEndTag_run {n p l w : List Nat} {u : Bytes} {ns : List EInfo} (hn : QName E n p l) (s : St σ)
    (hs : s.cur = b!"</" ++ (n ++ 62 :: w)) (hk : s.nodes = ns ++ [⟨encodeRunes l, encodeRunes p, u⟩]) :
    parseEndTag E H s = (do
      cb H (.endElement (encodeRunes l) (encodeRunes p) u)
      M.modify (fun s => { s with nodes := s.nodes.dropLast }) : P σ Unit) { s with cur := w } := by
  have hl : s.nodes.getLast? = some ⟨encodeRunes l, encodeRunes p, u⟩ := by rw [hk]; simp
  unfold parseEndTag
  rw [bind_run (consume_run_false (l := b!"/>") (by rintro ⟨z, hz⟩; rw [hs] at hz; simp at hz))]
  simp only [Bool.false_eq_true, if_false]
  rw [bind_run (consume_run (l := b!"</") hs)]
  simp only [if_true]
  run
  rw [hl, deref_bind, qname_encode E hn]
  rw [bind_run (consume_run (l := n) (r := 62 :: w) rfl)]
  simp only [if_true]
  run
  rw [need_bind (by rfl)]
  run
  rw [hl, deref_bind]
  rfl

theorem parseEndTag_run_empty {p l w : List Nat} {u : Bytes} {ns : List EInfo} (s : St σ)
    (hs : s.cur = b!"/>" ++ w) (hk : s.nodes = ns ++ [⟨encodeRunes l, encodeRunes p, u⟩]) :
    parseEndTag E H s = (do
      cb H (.endElement (encodeRunes l) (encodeRunes p) u)
      M.modify (fun s => { s with nodes := s.nodes.dropLast }) : P σ Unit) { s with cur := w } := by
  have hl : s.nodes.getLast? = some ⟨encodeRunes l, encodeRunes p, u⟩ := by rw [hk]; simp
  unfold parseEndTag
  rw [bind_run (consume_run (l := b!"/>") hs)]
  simp only [if_true]
  run
  rw [hl, deref_bind]

/-! ### character data -/

theorem unixLines_eq : ∀ l : List Nat, unixLines l = replaceCRLF l
  | [] => by simp [unixLines, replaceCRLF]
  | [c] => by unfold unixLines replaceCRLF; split <;> simp_all [unixLines, replaceCRLF]
  | c :: d :: t => by
    have h1 := unixLines_eq t
    have h2 := unixLines_eq (d :: t)
    by_cases h : c = 13 ∧ d = 10
    · obtain ⟨rfl, rfl⟩ := h
      simp [unixLines, replaceCRLF, h1]
    · have e1 : unixLines (c :: d :: t) = c :: unixLines (d :: t) := by
        rw [unixLines]
        intro t' a b; cases b; exact h ⟨a, rfl⟩
      have e2 : replaceCRLF (c :: d :: t) = c :: replaceCRLF (d :: t) := by
        rw [replaceCRLF]
        intro t' a b; cases b; exact h ⟨a, rfl⟩
      rw [e1, e2, h2]

theorem areBlanks_run (str : Bytes) (s : St σ) : ∃ b, areBlanks E str s = .ok b s ∧ (b = true → (decodeRunes str).all isBlank = true) := by
  unfold areBlanks
  by_cases h : (decodeRunes str).all isBlank = true
  · rw [if_pos h, get_bind]
    cases s.nodes.getLast? with
    | none => exact ⟨false, rfl, fun _ => h⟩
    | some e =>
      cases s.hc.doc with
      | none => exact ⟨_, rfl, fun _ => h⟩
      | some d => exact ⟨_, rfl, fun _ => h⟩
  · rw [if_neg h]
    exact ⟨false, rfl, fun hb => by cases hb⟩

theorem parseCharData_raw {l r : List Nat} (hne : l ≠ []) (hleg : ∀ c ∈ l, Legal c ∧ c ≠ 60 ∧ c ≠ 38) (hend : ¬ b!"]]>" <:+: l)
    (hr : ∀ c, r.head? = some c → c = 60 ∨ c = 38) (s : St σ) (hs : s.cur = l ++ r) :
    ∃ ev, (ev = .characters (encodeRunes (unixLines l)) ∨ ev = .ignorable (encodeRunes (unixLines l))) ∧
      plainEv ev = .characters (encodeRunes (unixLines l)) ∧ parseCharData E H false s = cb H ev { s with cur := r } := by
  have h1 := cdScan_run_text E.eof r hr l (fun c hc => ⟨(hleg c hc).1.isChar, (hleg c hc).2⟩) hend
  have h2 : replaceCRLF (encodeRunes l) = encodeRunes (unixLines l) := by
    rw [replaceCRLF_encodeRunes, unixLines_eq]
  obtain ⟨b, h3, h4⟩ := areBlanks_run E (encodeRunes (unixLines l)) { s with cur := r }
  have h5 : parseCharData E H false s = (if b then cb H (.ignorable (encodeRunes (unixLines l)))
      else cb H (.characters (encodeRunes (unixLines l)))) { s with cur := r } := by
    unfold parseCharData
    run
    rw [hs, h1]
    obtain ⟨c, t, rfl⟩ := List.exists_cons_of_ne_nil hne
    simp only [Bool.false_eq_true, if_false]
    run
    rw [hs, List.drop_left, h2]
    rw [bind_run h3]
    cases b <;> rfl
  cases b with
  | false => exact ⟨_, Or.inl rfl, rfl, h5⟩
  | true =>
    refine ⟨_, Or.inr rfl, ?_, h5⟩
    have h6 := h4 rfl
    rw [decodeRunes_encodeRunes] at h6
    · have h7 : encodeRunes (unixLines l) = unixLines l := by
        apply encodeRunes_ascii
        intro c hc
        have := (isBlank_iff c).1 (List.all_eq_true.1 h6 c hc)
        unfold Ws at this
        omega
      rw [h7]
      refine if_pos ?_
      rw [List.all_eq_true]
      intro c hc
      have := (isBlank_iff c).1 (List.all_eq_true.1 h6 c hc)
      unfold Ws at this
      simp
      omega
    · intro c hc
      rw [unixLines_eq] at hc
      exact ((hleg c (mem_replaceCRLF _ _ hc)).1).scalar

theorem parseCharData_run {l r : List Nat} (hl : Spec.CharData l) (hr : ∀ c, r.head? = some c → c = 60 ∨ c = 38) (s : St σ) (hs : s.cur = l ++ r) :
    ∃ ev, (ev = .characters (encodeRunes (unixLines l)) ∨ ev = .ignorable (encodeRunes (unixLines l))) ∧
      plainEv ev = .characters (encodeRunes (unixLines l)) ∧ parseCharData E H false s = cb H ev { s with cur := r } :=
  parseCharData_raw E H hl.ne hl.legal hl.noEnd hr s hs

/-! ### content -/

/-- from `s` the parser went to `s'` by reporting `evs`, all taken by the handler. -/
def Went (G : Nat → HC σ → Prop) (n : Nat) (w : List Nat) (ns : List (Bytes × Bytes)) (nodes : List EInfo) (evs : List Ev) (s s' : St σ) :
    Prop :=
  ∃ tr hc, s' = { s with cur := w, ns := ns, nodes := nodes, hc := hc, trace := s.trace ++ tr } ∧ tr.map (fun x => plainEv x.1) = evs ∧
    (∀ x ∈ tr, Took x.2) ∧ G n hc

variable {E H} {G : Nat → HC σ → Prop}

theorem Went.trans {n m : Nat} {w1 w2 : List Nat} {ns1 ns2 : List (Bytes × Bytes)} {k1 k2 : List EInfo} {e1 e2 : List Ev} {s s1 s2 : St σ}
    (h1 : Went G n w1 ns1 k1 e1 s s1) (h2 : Went G m w2 ns2 k2 e2 s1 s2) : Went G m w2 ns2 k2 (e1 ++ e2) s s2 := by
  obtain ⟨t1, c1, rfl, rfl, a1, _⟩ := h1
  obtain ⟨t2, c2, rfl, rfl, a2, g2⟩ := h2
  refine ⟨t1 ++ t2, c2, by simp, by simp, ?_, g2⟩
  intro x hx
  rcases List.mem_append.1 hx with hx | hx
  · exact a1 x hx
  · exact a2 x hx

theorem cb_took {ev : Ev} {s : St σ} {n : Nat} (h : Took (H s.view ev s.hc).1 ∧ G n (H s.view ev s.hc).2) :
    ∃ s', cb H ev s = .ok () s' ∧ Went G n s.cur s.ns s.nodes [plainEv ev] s s' := by
  refine ⟨cbSt H ev s, ?_, [(ev, (H s.view ev s.hc).1)], (H s.view ev s.hc).2, rfl, rfl, by simpa using h.1, h.2⟩
  unfold cb callback
  rcases h.1 with h1 | h1 <;> simp only [Bind.bind, M.bind, h1] <;> simp [cbSt, h1, Pure.pure, M.pure]

/-- the bound on attribute values. -/
theorem ref_len {b : List Nat} {v : Nat} (h : refValue b = some v) : 2 ≤ b.length ∧ (v = 38 → 3 ≤ b.length) := by
  unfold refValue at h
  split at h
  · rename_i hb; subst hb; cases h; simp
  · split at h
    · rename_i hb; subst hb; cases h; simp
    · split at h
      · rename_i hb; subst hb; cases h; simp
      · split at h
        · rename_i hb; subst hb; cases h; simp
        · split at h
          · rename_i hb; subst hb; cases h; simp
          · split at h
            · rename_i d _ _ _ _ _
              match d, h with
              | [], h => cases h
              | [c], h =>
                refine ⟨by simp, ?_⟩
                rintro rfl
                by_cases hc : c = 120
                · subst hc; cases h
                · have h : digitsVal 10 decDigit 0 [c] = some 38 := by
                    rw [charRefNum] at h
                    · exact h
                    all_goals simp [hc]
                  unfold digitsVal digitsVal decDigit at h
                  split at h <;> simp at h
                  rename_i hd
                  split at hd <;> simp at hd
                  omega
              | c :: d :: t, _ => simp
            · cases h

theorem encodeRune_len (v : Nat) : (encodeRune v).length ≤ 4 ∧ 1 ≤ (encodeRune v).length := by
  unfold encodeRune
  repeat' split
  all_goals simp

theorem encodeRunes_len (l : List Nat) : l.length ≤ (encodeRunes l).length := by
  induction l with
  | nil => simp
  | cons c l ih =>
    rw [encodeRunes_cons, List.length_append, List.length_cons]
    have := encodeRune_len c
    omega

theorem value_short {q : Nat} {l w : List Nat} (h : Value q l w) : (reported w).length ≤ (encodeRunes l).length := by
  induction h with
  | nil => simp [reported]
  | @char c l w h1 h2 h3 h4 h5 h6 ih =>
    rw [reported_cons, encodeRunes_cons, List.length_append, List.length_append]
    by_cases hw : Ws c
    · rw [if_pos hw, if_neg (by decide)]
      have := encodeRune_len c
      have : (encodeRune 32).length = 1 := rfl
      omega
    · rw [if_neg hw, if_neg h3]
      omega
  | @ref b v l w h1 h2 h3 h4 ih =>
    have := ref_len h1
    have h5 := encodeRune_len v
    have h6 := encodeRunes_len b
    rw [reported_cons, encodeRunes_cons, encodeRunes_append, encodeRunes_cons, List.length_append, List.length_append, List.length_append,
      List.length_append, encodeRune_ascii 38 (by decide), encodeRune_ascii 59 (by decide)]
    split
    · rename_i hv
      have h7 : b!"&#38;".length = 5 := rfl
      have := this.2 hv
      simp only [List.length_singleton]
      omega
    · simp only [List.length_singleton]
      omega

theorem value_legal {q : Nat} {l w : List Nat} (h : Value q l w) : ∀ c ∈ w, Legal c := by
  induction h with
  | nil => simp
  | @char c l w h1 h2 h3 h4 h5 h6 ih =>
    intro x hx
    rcases List.mem_cons.1 hx with rfl | hx
    · split
      · decide
      · exact h1
    · exact ih x hx
  | @ref b v l w h1 h2 h3 h4 ih =>
    intro x hx
    rcases List.mem_cons.1 hx with rfl | hx
    · exact h3
    · exact ih x hx

theorem atts_short {used : List (Bytes × Bytes)} {a : List Nat} {as : List AttrD} {ds : List (Bytes × Bytes)} (h : Atts E used a as ds) {B : Nat}
    (hB : (encodeRunes a).length + 1 < B) : ∀ x ∈ as, ShortAttr B x := by
  induction h with
  | nil => simp
  | @attr used ws n p l w1 w2 q v w r as ds h1 h2 h3 h4 h5 h6 h7 h8 h9 h10 ih =>
    simp only [encodeRunes_append, encodeRunes_cons, List.length_append] at hB
    intro x hx
    rcases List.mem_cons.1 hx with rfl | hx
    · have := value_short h9
      exact ⟨_, _, _, rfl, value_legal h9, by omega⟩
    · exact ih (by omega) x hx
  | @decl used ws p w1 w2 q v w r as ds h1 h2 h3 h4 h5 h6 h7 h8 h9 h10 h11 h12 h13 h14 h15 ih =>
    simp only [encodeRunes_append, encodeRunes_cons, List.length_append] at hB
    exact ih (by omega)
  | dflt => simp

theorem unwords_cons_length (w : Bytes) (ws : List Bytes) : (unwords (w :: ws)).length ≤ w.length + (unwords ws).length + 1 := by
  cases ws with
  | nil => simp [unwords]
  | cons x xs => simp [unwords]; omega

theorem words_length : ∀ l cur : Bytes, (unwords (words cur l)).length ≤ cur.length + l.length
  | [], [] => by simp [words, unwords]
  | [], a :: cur => by simp [words, unwords]
  | c :: l, cur => by
    have h1 := words_length l []
    have h2 := words_length l (c :: cur)
    have h3 := unwords_cons_length cur.reverse (words [] l)
    simp only [List.length_cons, List.length_nil, List.length_reverse] at h1 h2 h3 ⊢
    cases cur with
    | nil => simp only [words]; split <;> simp only [List.length_nil] at * <;> omega
    | cons a cur => simp only [words]; split <;> simp only [List.length_cons] at * <;> omega

theorem words_sub : ∀ (l cur : Bytes), ∀ w ∈ words cur l, ∀ c ∈ w, c ∈ cur ∨ c ∈ l
  | [], [] => by simp [words]
  | [], a :: cur => by
    intro w hw c hc
    simp only [words, List.mem_singleton] at hw
    subst hw
    exact Or.inl (List.mem_reverse.1 hc)
  | d :: l, cur => by
    intro w hw c hc
    have h1 : w ∈ words [] l → c ∈ cur ∨ c ∈ d :: l := fun h => by
      rcases words_sub l [] w h c hc with h | h
      · cases h
      · exact Or.inr (List.mem_cons_of_mem _ h)
    have h2 : w ∈ words (d :: cur) l → c ∈ cur ∨ c ∈ d :: l := fun h => by
      rcases words_sub l _ w h c hc with h | h
      · rcases List.mem_cons.1 h with rfl | h
        · exact Or.inr (List.mem_cons_self ..)
        · exact Or.inl h
      · exact Or.inr (List.mem_cons_of_mem _ h)
    cases cur with
    | nil =>
      simp only [words] at hw
      split at hw
      · exact h1 hw
      · exact h2 hw
    | cons a cur =>
      simp only [words] at hw
      split at hw
      · rcases List.mem_cons.1 hw with rfl | hw
        · exact Or.inl (List.mem_reverse.1 hc)
        · exact h1 hw
      · exact h2 hw

theorem unwords_sub : ∀ (ws : List Bytes), ∀ c ∈ unwords ws, c = 32 ∨ ∃ w ∈ ws, c ∈ w
  | [], c, h => by simp [unwords] at h
  | [w], c, h => Or.inr ⟨w, by simp, by simpa [unwords] using h⟩
  | w :: x :: ws, c, h => by
    simp only [unwords, List.mem_append, List.mem_cons] at h
    rcases h with h | h | h
    · exact Or.inr ⟨w, by simp, h⟩
    · exact Or.inl h
    · rcases unwords_sub (x :: ws) c h with h | ⟨y, hy, h⟩
      · exact Or.inl h
      · exact Or.inr ⟨y, List.mem_cons_of_mem _ hy, h⟩

theorem tokenValue_short {B : Nat} {a : AttrD} (tok : Bytes → Bool) (h : ShortAttr B a) : ShortAttr B (tokenValue tok a) := by
  obtain ⟨p, l, w, rfl, h1, h2⟩ := h
  unfold tokenValue
  cases ht : tok l with
  | false => exact ⟨p, l, w, by simp [ht], h1, h2⟩
  | true =>
    have h3 := words_length (reported w) []
    refine ⟨p, l, unwords (words [] w), by simp [ht, reported_unwords], ?_, by rw [← reported_unwords]; simp at h3; omega⟩
    intro c hc
    rcases unwords_sub _ c hc with rfl | ⟨x, hx, hcx⟩
    · decide
    · rcases words_sub _ _ x hx c hcx with h | h
      · cases h
      · exact h1 c h

theorem givenAttrs_token (tok : Bytes → Bool) : ∀ as : List AttrD, (givenAttrs (as.map (tokenValue tok))).map (·.1) = (givenAttrs as).map (·.1)
  | [] => rfl
  | .parsed p l v :: as => by
    have := givenAttrs_token tok as
    simp only [List.map_cons, tokenValue, givenAttrs, this]
  | .dflt i :: as => givenAttrs_token tok as

/-- the handler takes a start tag with the attributes `dfl` supplies. -/
def Supplied (B : Nat) (H : Handler σ) (G : Nat → HC σ → Prop) (dfl : Bytes → Bytes → List AttrD) : Prop :=
  ∀ {n v c l p u as} {ds : List (Bytes × Bytes)}, v.inSubset = 0 → G n c → ((givenAttrs as).map (·.1)).Nodup → (∀ a ∈ as, ShortAttr B a) →
    Took (H v (.startElement l p u (ds.map some) (as ++ dfl p l)) c).1 ∧ G (n + 1) (H v (.startElement l p u (ds.map some) (as ++ dfl p l)) c).2

theorem Spec.Willing.supplied {B : Nat} {D : HV} {F : HC σ → Prop} (W : Willing B D H F G) : Supplied B H G (defaultAttrs E []) := by
  intro n v c l p u as ds h1 h2 h3 h4
  have : as ++ defaultAttrs E [] p l = as := by rw [show defaultAttrs E [] p l = [] from rfl, List.append_nil]
  rw [this]
  exact W.start h1 h2 h3 h4

variable {sp : List (Bytes × Nat)} {df : List (Bytes × List (Bytes × Nat))}

/-- the parser on an element, and on the content of an element. -/
def Runs (E : Env) (H : Handler σ) (G : Nat → HC σ → Prop) (B : Nat) (sp : List (Bytes × Nat)) (df : List (Bytes × List (Bytes × Nat))) (elem : Bool) (scope used : List (Bytes × Bytes)) (t : List Nat) (evs : List Ev)
    (used' : List (Bytes × Bytes)) : Prop :=
  ∀ (fuel n : Nat) (w : List Nat) (s : St σ), t.length + (if elem then 0 else 1) ≤ fuel → s.cur = t ++ w → s.ns = used → NsOK used →
    (∀ x ∈ scope, x ∈ used) → (encodeRunes t).length + 1 < B → s.inSubset = 0 → s.attsSpecial = sp → s.attsDefault = df → G n s.hc →
    (∀ ev ∈ evs, Worded (tokOf sp) ev) →
    (elem = false → 0 < n ∧ (w = [] ∨ ∃ r, w = b!"</" ++ r)) →
    NsOK used' ∧ (∀ x ∈ used, x ∈ used') ∧ ∃ s', (if elem then parseElementW E H (parseContent E H fuel) else parseContent E H fuel) s = .ok () s' ∧
      Went G n w used' s.nodes (evs.map (declared (tokOf sp) (defaultAttrs E df))) s s'

theorem startTag_went {B : Nat} (W : Supplied B H G (defaultAttrs E df)) {n : Nat} {nm p l a tail out : List Nat} {scope used ds : List (Bytes × Bytes)}
    {as : List AttrD} {u : Bytes} (hn : QName E nm p l) (ha : Atts E used a as ds) (hd : ((givenAttrs as).map (·.1)).Nodup)
    (hb : Bound (scope ++ ds) (used ++ ds) (encodeRunes p) u) (hsc : ∀ x ∈ scope, x ∈ used) (hu : NsOK used) (ht : TagEnd tail out)
    (s : St σ) (hs : s.cur = 60 :: (nm ++ (a ++ tail))) (hns : s.ns = used) (hsp : s.attsSpecial = sp) (hdf : s.attsDefault = df)
    (hi : s.inSubset = 0) (hB : (encodeRunes a).length + 1 < B) (hg : G n s.hc)
    (hW : Worded (tokOf sp) (.startElement (encodeRunes l) (encodeRunes p) u (ds.map some) as)) :
    ∃ s', parseStartTag E H s = .ok () s' ∧
      Went G (n + 1) out (used ++ ds) (s.nodes ++ [⟨encodeRunes l, encodeRunes p, u⟩])
        [declared (tokOf sp) (defaultAttrs E df) (.startElement (encodeRunes l) (encodeRunes p) u (ds.map some) as)] s s' := by
  rw [parseStartTag_run E H hn ha hb hsc hu ht s hs hns hsp hdf hW]
  obtain ⟨s1, h1, tr, hc, rfl, h2⟩ := cb_took (H := H) (G := G)
    (ev := declared (tokOf sp) (defaultAttrs E df) (.startElement (encodeRunes l) (encodeRunes p) u (ds.map some) as))
    (s := { s with cur := out, ns := used ++ ds }) (W hi hg (by rw [givenAttrs_token]; exact hd) (by
      intro x hx
      obtain ⟨y, hy, rfl⟩ := List.mem_map.1 hx
      exact tokenValue_short _ (atts_short ha hB y hy)))
  rw [bind_run h1]
  exact ⟨_, rfl, tr, hc, rfl, h2⟩

theorem end_went {B : Nat} {D : HV} {F : HC σ → Prop} (W : Willing B D H F G) {n : Nat} {w : List Nat} {x : EInfo} {ks : List EInfo} (s : St σ)
    (he : parseEndTag E H s = (do cb H (.endElement x.loc x.pfx x.uri); M.modify (fun s => { s with nodes := s.nodes.dropLast }) : P σ Unit)
      { s with cur := w }) (hk : s.nodes = ks ++ [x]) (hi : s.inSubset = 0) (hg : G (n + 1) s.hc) :
    ∃ s', parseEndTag E H s = .ok () s' ∧ Went G n w s.ns ks [.endElement x.loc x.pfx x.uri] s s' := by
  rw [he]
  obtain ⟨s1, h1, tr, hc, rfl, h2⟩ := cb_took (H := H) (G := G) (ev := .endElement x.loc x.pfx x.uri) (s := { s with cur := w }) (W.stop hi hg)
  rw [bind_run h1]
  exact ⟨_, rfl, tr, hc, by simp [hk], h2⟩

theorem content_step {fuel : Nat} {s s1 : St σ} (h0 : s.cur ≠ []) (h1 : (b!"</").isPrefixOf s.cur = false)
    (h2 : contentStep E H (parseContent E H fuel) s = .ok () s1) : parseContent E H (fuel + 1) s = parseContent E H fuel s1 := by
  rw [parseContent]
  run
  have h3 : s.cur.isEmpty = false := by
    cases hc : s.cur with
    | nil => exact absurd hc h0
    | cons => rfl
  rw [h3, h1]
  simp only [Bool.false_eq_true, if_false]
  rw [bind_run h2]

theorem wrap_eq {p : P σ Unit} {s s' : St σ} {q : P σ Unit} {t : St σ} (h : p s = q t) (h1 : q t = .ok () s') : M.wrap p s = .ok () s' :=
  wrap_run (h.trans h1)

theorem pi_run (E : Env) (H : Handler σ) {t n d w : List Nat} (h : PIText E t n d) (s : St σ) (hs : s.cur = b!"<?" ++ (t ++ (b!"?>" ++ w))) :
    parsePI E H s = cb H (.pi (encodeRunes n) (encodeRunes d)) { s with cur := w } := by
  obtain ⟨ht, ⟨rfl, rfl⟩ | ⟨ws, h1, h2, rfl, h3, h4, h5⟩⟩ := h
  · exact parsePI_run_empty E H ⟨ht.name, ht.notXml, ht.colon⟩ s hs
  · exact parsePI_run E H ⟨ht.name, ht.notXml, ht.colon⟩ h1 h2 h4 (fun c hc => (h3 c hc).isChar) h5 s (by rw [hs]; simp)

theorem content_cons {B : Nat} {scope used1 used2 : List (Bytes × Bytes)} {t r : List Nat} {evs evs' : List Ev} {fuel m : Nat} {w : List Nat} {s s1 : St σ}
    (hne : t ≠ []) (h1 : (b!"</").isPrefixOf (t ++ (r ++ w)) = false) (hs : s.cur = t ++ r ++ w)
    (h2 : ∀ fuel', fuel = fuel' + 1 → contentStep E H (parseContent E H fuel') s = .ok () s1)
    (w1 : Went G m (r ++ w) used1 s.nodes (evs.map (declared (tokOf sp) (defaultAttrs E df))) s s1) (ih : Runs E H G B sp df false scope used1 r evs' used2) (hf : (t ++ r).length + 1 ≤ fuel) (hu : NsOK used1)
    (hsc : ∀ x ∈ scope, x ∈ used1) (hB : (encodeRunes (t ++ r)).length + 1 < B) (hi : s.inSubset = 0) (hsp : s.attsSpecial = sp)
    (hdf : s.attsDefault = df) (hW : ∀ ev ∈ evs ++ evs', Worded (tokOf sp) ev) (hw : 0 < m ∧ (w = [] ∨ ∃ r, w = b!"</" ++ r)) :
    NsOK used2 ∧ (∀ x ∈ used1, x ∈ used2) ∧ ∃ s', parseContent E H fuel s = .ok () s' ∧ Went G m w used2 s.nodes ((evs ++ evs').map (declared (tokOf sp) (defaultAttrs E df))) s s' := by
  cases fuel with
  | zero => simp at hf
  | succ fuel =>
    rw [encodeRunes_append, List.length_append] at hB
    obtain ⟨tr, hc, hs1, _, _, hg1⟩ := id w1
    have hl : t.length ≠ 0 := fun h => hne (List.length_eq_zero_iff.1 h)
    obtain ⟨hu', hsub, s2, e2, w2⟩ := ih fuel m w s1 (by simp at hf ⊢; omega) (by rw [hs1]) (by rw [hs1]) hu hsc (by omega) (by rw [hs1]; exact hi)
      (by rw [hs1]; exact hsp) (by rw [hs1]; exact hdf) (by rw [hs1]; exact hg1)
      (fun ev hev => hW ev (List.mem_append.2 (Or.inr hev))) (fun _ => hw)
    simp only [Bool.false_eq_true, if_false] at e2
    refine ⟨hu', hsub, s2, ?_, ?_⟩
    · rw [content_step (by rw [hs]; simp [hne]) (by rw [hs, List.append_assoc]; exact h1) (h2 fuel rfl)]
      exact e2
    · have h3 : s1.nodes = s.nodes := by rw [hs1]
      rw [h3] at w2
      rw [List.map_append]
      exact w1.trans w2

theorem src_elem_head {elem : Bool} {scope used used' : List (Bytes × Bytes)} {t : List Nat} {evs : List Ev}
    (h : Src E elem scope used t evs used') (he : elem = true) : ∃ c t', t = 60 :: c :: t' ∧ c ≠ 47 ∧ c ≠ 63 ∧ c ≠ 33 := by
  have key : ∀ {n p l}, QName E n p l → ∃ c t', n = c :: t' ∧ c ≠ 47 ∧ c ≠ 63 ∧ c ≠ 33 := by
    have h1 : ∀ {n}, NCName E n → ∃ c t', n = c :: t' ∧ c ≠ 47 ∧ c ≠ 63 ∧ c ≠ 33 := by
      intro n h
      obtain ⟨c, t, rfl, hc⟩ := h.start
      refine ⟨c, t, rfl, ?_⟩
      have h2 : ∀ x, x < 65 → ¬ (E.isLetter x = true) := by
        intro x hx h3
        rw [E.letter_ascii x (by omega)] at h3
        simp at h3
        omega
      rcases hc with hc | hc
      · have : 65 ≤ c := by
          apply Classical.byContradiction
          intro h4
          exact h2 c (by omega) hc
        omega
      · omega
    rintro n p l ⟨hl, ⟨rfl, rfl⟩ | ⟨hp, rfl⟩⟩
    · exact h1 hl
    · obtain ⟨c, t, rfl, h⟩ := h1 hp
      exact ⟨c, t ++ 58 :: l, rfl, h⟩
  cases h with
  | empty hn =>
    obtain ⟨c, t, rfl, h⟩ := key hn
    exact ⟨c, _, rfl, h⟩
  | full hn =>
    obtain ⟨c, t, rfl, h⟩ := key hn
    exact ⟨c, _, rfl, h⟩
  | _ => cases he

theorem src_run {B : Nat} {D : HV} {F : HC σ → Prop} (W : Willing B D H F G) (WS : Supplied B H G (defaultAttrs E df)) {elem : Bool} {scope used used' : List (Bytes × Bytes)} {t : List Nat} {evs : List Ev}
    (h : Src E elem scope used t evs used') : Runs E H G B sp df elem scope used t evs used' := by
  induction h with
  | @empty scope used n p l a as ds u hn ha hd hb =>
    intro fuel m w s hf hs hns hu hsc hB hi hsp hdf hg hW _
    refine ⟨atts_ns E ha hu, fun x hx => List.mem_append.2 (Or.inl hx), ?_⟩
    simp only [if_true]
    simp only [encodeRunes_append, encodeRunes_cons, List.length_append] at hB
    obtain ⟨s1, e1, w1⟩ := startTag_went WS hn ha hd hb hsc hu (tail := b!"/>" ++ w) (out := b!"/>" ++ w) (Or.inr ⟨rfl, w, rfl⟩) s
      (by rw [hs]; simp) hns hsp hdf hi (by omega) hg (hW _ (by simp))
    obtain ⟨tr, hc, hs1, _, _, hg1⟩ := id w1
    obtain ⟨s2, e2, w2⟩ := end_went (E := E) W (n := m) (w := w) (x := ⟨encodeRunes l, encodeRunes p, u⟩) (ks := s.nodes) s1
      (parseEndTag_run_empty E H s1 (by rw [hs1]) (by rw [hs1])) (by rw [hs1]) (by rw [hs1]; exact hi) (by rw [hs1]; exact hg1)
    refine ⟨s2, ?_, ?_⟩
    · unfold parseElementW
      rw [bind_run (wrap_run e1)]
      run
      have : (b!"/>").isPrefixOf s1.cur = true := by rw [hs1]; rfl
      rw [this]
      simp only [if_true]
      exact (wrap_run e2)
    · have := w1.trans w2
      have h3 : s1.ns = used ++ ds := by rw [hs1]
      rw [h3] at this
      exact this
  | @full scope used n p l a as ds u k evs used' hn ha hd hb hk hsl ih =>
    intro fuel m w s hf hs hns hu hsc hB hi hsp hdf hg hW _
    simp only [if_true]
    simp only [encodeRunes_append, encodeRunes_cons, List.length_append] at hB
    obtain ⟨s1, e1, w1⟩ := startTag_went WS hn ha hd hb hsc hu (tail := 62 :: (k ++ (b!"</" ++ (n ++ 62 :: w)))) (out := k ++ (b!"</" ++ (n ++ 62 :: w))) (Or.inl rfl) s
      (by rw [hs]; simp) hns hsp hdf hi (by omega) hg (hW _ (by simp))
    obtain ⟨tr, hc, hs1, _, _, hg1⟩ := id w1
    obtain ⟨hu', hsub, s2, e2, w2⟩ := ih fuel (m + 1) (b!"</" ++ (n ++ 62 :: w)) s1 (by simp at hf ⊢; omega) (by rw [hs1]) (by rw [hs1])
      (atts_ns E ha hu) (by
        intro x hx
        rcases List.mem_append.1 hx with hx | hx
        · exact List.mem_append.2 (Or.inl (hsc x hx))
        · exact List.mem_append.2 (Or.inr hx)) (by omega) (by rw [hs1]; exact hi) (by rw [hs1]; exact hsp) (by rw [hs1]; exact hdf)
      (by rw [hs1]; exact hg1) (fun ev hev => hW ev (by simp [hev])) (fun _ => ⟨by omega, Or.inr ⟨_, rfl⟩⟩)
    obtain ⟨tr2, hc2, hs2, _, _, hg2⟩ := id w2
    have hk2 : s2.nodes = s.nodes ++ [⟨encodeRunes l, encodeRunes p, u⟩] := by rw [hs2, hs1]
    obtain ⟨s3, e3, w3⟩ := end_went (E := E) W (n := m) (w := w) (x := ⟨encodeRunes l, encodeRunes p, u⟩) (ks := s.nodes) s2
      (parseEndTag_run E H hn s2 (by rw [hs2]) hk2) hk2 (by rw [hs2, hs1]; exact hi) (by rw [hs2]; exact hg2)
    refine ⟨hu', fun x hx => hsub x (List.mem_append.2 (Or.inl hx)), s3, ?_, ?_⟩
    · unfold parseElementW
      rw [bind_run (wrap_run e1)]
      run
      have : (b!"/>").isPrefixOf s1.cur = false := by
        rw [hs1]
        match k, hsl with
        | [], _ => rfl
        | [c], _ => simp [List.isPrefixOf]
        | c :: d :: k, hsl =>
          by_cases hc : 47 = c ∧ 62 = d
          · exact absurd ⟨k, by rw [← hc.1, ← hc.2]; rfl⟩ hsl
          · simp [List.isPrefixOf]
            omega
      rw [this]
      simp only [Bool.false_eq_true, if_false] at e2 ⊢
      rw [bind_run (wrap_run e2)]
      exact (wrap_run e3)
    · have := (w1.trans w2).trans w3
      have h3 : s2.ns = used' := by rw [hs2]
      rw [h3] at this
      simpa [declared] using this
  | @nil scope used =>
    intro fuel m w s hf hs hns hu hsc hB hi hsp hdf hg hW hw
    refine ⟨hu, fun x hx => hx, s, ?_, [], s.hc, ?_, rfl, by simp, hg⟩
    · simp only [Bool.false_eq_true, if_false] at hf ⊢
      cases fuel with
      | zero => simp at hf
      | succ fuel =>
        rw [parseContent]
        run
        rw [hs]
        rcases (hw rfl).2 with rfl | ⟨r, rfl⟩
        · rfl
        · rfl
    · subst hns
      simp at hs
      simp [← hs]
  | @element scope used t evs used1 r evs' used2 h1 h2 ih1 ih2 =>
    intro fuel m w s hf hs hns hu hsc hB hi hsp hdf hg hW hw
    simp only [Bool.false_eq_true, if_false] at hf ⊢
    obtain ⟨c, t', ht, c1, c2, c3⟩ := src_elem_head h1 rfl
    rw [encodeRunes_append, List.length_append] at hB
    cases fuel with
    | zero => simp at hf
    | succ fuel =>
      obtain ⟨hu', hsub, s1, e1, w1⟩ := ih1 fuel m (r ++ w) s (by simp at hf ⊢; omega) (by rw [hs]; simp) hns hu hsc (by omega) hi hsp hdf hg
        (fun ev hev => hW ev (by simp [hev])) (fun he => by cases he)
      simp only [if_true] at e1
      have h3 := content_cons (E := E) (H := H) (B := B) (t := t) (fuel := fuel + 1) (s1 := s1) (by rw [ht]; simp) (by rw [ht]; simp [List.isPrefixOf]; omega) hs (by
        intro fuel' hfe
        cases hfe
        unfold contentStep
        run
        have p1 : (b!"<?").isPrefixOf s.cur = false := by rw [hs, ht]; simp [List.isPrefixOf]; omega
        have p2 : (b!"<![CDATA[").isPrefixOf s.cur = false := by rw [hs, ht]; simp [List.isPrefixOf]; omega
        have p3 : (b!"<!--").isPrefixOf s.cur = false := by rw [hs, ht]; simp [List.isPrefixOf]; omega
        have p4 : (b!"<").isPrefixOf s.cur = true := by rw [hs, ht]; rfl
        rw [p1, p2, p3, p4]
        simp only [Bool.false_eq_true, if_false, if_true]
        exact wrap_run e1) w1 ih2 hf hu' (fun x hx => hsub x (hsc x hx)) (by rw [encodeRunes_append, List.length_append]; omega) hi hsp hdf hW (hw rfl)
      exact ⟨h3.1, fun x hx => h3.2.1 x (hsub x hx), h3.2.2⟩
  | @text scope used l r evs used' hl hr hk ih =>
    intro fuel m w s hf hs hns hu hsc hB hi hsp hdf hg hW hw
    simp only [Bool.false_eq_true, if_false] at hf ⊢
    obtain ⟨c, l', rfl⟩ := List.exists_cons_of_ne_nil hl.ne
    have hc := (hl.legal c (by simp)).2
    obtain ⟨ev, hev, hpl, hrun⟩ := parseCharData_run E H hl (r := r ++ w) (by
      intro x hx
      cases r with
      | nil =>
        rcases (hw rfl).2 with rfl | ⟨r, rfl⟩
        · cases hx
        · cases hx; exact Or.inl rfl
      | cons y r => cases hx; exact hr _ rfl) s (by rw [hs]; simp)
    obtain ⟨m, rfl⟩ : ∃ k, m = k + 1 := ⟨m - 1, by have := (hw rfl).1; omega⟩
    obtain ⟨s1, e1, w1⟩ := cb_took (H := H) (G := G) (n := m + 1) (ev := ev) (s := { s with cur := r ++ w }) (by
      rcases hev with rfl | rfl
      · exact W.text hi hg
      · exact W.blank hi hg)
    rw [hpl] at w1
    refine content_cons (E := E) (H := H) (B := B) (t := c :: l') (evs := [_]) (s1 := s1) (by simp) (by simp [List.isPrefixOf, Ne.symm hc.1]) hs (fun fuel' _ => ?_) (hns ▸ w1) ih hf hu hsc hB hi hsp hdf hW (hw rfl)
    have p : ∀ x, (60 :: x).isPrefixOf s.cur = false := by intro x; rw [hs]; simp [List.isPrefixOf, Ne.symm hc.1]
    have p4 : (b!"&").isPrefixOf s.cur = false := by rw [hs]; simp [List.isPrefixOf, Ne.symm hc.2]
    unfold contentStep
    run
    simp only [p, p4, Bool.false_eq_true, if_false]
    exact hrun.trans e1
  | @ref scope used b v r evs used' hb h59 hv hk ih =>
    intro fuel m w s hf hs hns hu hsc hB hi hsp hdf hg hW hw
    simp only [Bool.false_eq_true, if_false] at hf ⊢
    obtain ⟨m, rfl⟩ : ∃ k, m = k + 1 := ⟨m - 1, by have := (hw rfl).1; omega⟩
    obtain ⟨s1, e1, w1⟩ := cb_took (H := H) (G := G) (n := m + 1) (ev := .characters (encodeRunes [v])) (s := { s with cur := r ++ w }) (W.text hi hg)
    have ht : 38 :: (b ++ 59 :: r) = (38 :: (b ++ [59])) ++ r := by simp
    rw [ht] at hf hs hB
    refine content_cons (E := E) (H := H) (B := B) (t := 38 :: (b ++ [59])) (evs := [_]) (s1 := s1) (by simp) (by simp [List.isPrefixOf]) hs (fun fuel' _ => ?_) (hns ▸ w1) ih hf hu hsc hB hi hsp hdf hW (hw rfl)
    have p : ∀ x, (60 :: x).isPrefixOf s.cur = false := by intro x; rw [hs]; simp [List.isPrefixOf]
    have p4 : (b!"&").isPrefixOf s.cur = true := by rw [hs]; rfl
    unfold contentStep
    run
    simp only [p, p4, Bool.false_eq_true, if_false, if_true]
    exact wrap_eq (parseReference_run E H _ hb hv s (by rw [hs]; simp)) e1
  | @comment scope used b r evs used' hb hk ih =>
    intro fuel m w s hf hs hns hu hsc hB hi hsp hdf hg hW hw
    simp only [Bool.false_eq_true, if_false] at hf ⊢
    obtain ⟨s1, e1, w1⟩ := cb_took (H := H) (G := G) (n := m) (ev := .comment (encodeRunes (unixLines b))) (s := { s with cur := r ++ w }) (W.comment hi hg)
    have ht : b!"<!--" ++ (b ++ (b!"-->" ++ r)) = (b!"<!--" ++ (b ++ b!"-->")) ++ r := by simp
    rw [ht] at hf hs hB
    refine content_cons (E := E) (H := H) (B := B) (t := b!"<!--" ++ (b ++ b!"-->")) (evs := [_]) (s1 := s1) (by simp) (by simp [List.isPrefixOf]) hs (fun fuel' _ => ?_) (hns ▸ w1) ih hf hu hsc hB hi hsp hdf hW (hw rfl)
    have p1 : (b!"<?").isPrefixOf s.cur = false := by rw [hs]; simp [List.isPrefixOf]
    have p2 : (b!"<![CDATA[").isPrefixOf s.cur = false := by rw [hs]; simp [List.isPrefixOf]
    have p3 : (b!"<!--").isPrefixOf s.cur = true := by rw [hs]; rfl
    unfold contentStep
    run
    simp only [p1, p2, p3, Bool.false_eq_true, if_false, if_true]
    have := parseComment_run H (w := r ++ w) (fun c hc => (hb.legal c hc).isChar) hb.hyphen s (by rw [hs]; simp)
    rw [replaceCRLF_encodeRunes, ← unixLines_eq] at this
    exact wrap_eq this e1
  | @pi scope used t n d r evs used' ht0 hk ih =>
    intro fuel m w s hf hs hns hu hsc hB hi hsp hdf hg hW hw
    simp only [Bool.false_eq_true, if_false] at hf ⊢
    obtain ⟨s1, e1, w1⟩ := cb_took (H := H) (G := G) (n := m) (ev := .pi (encodeRunes n) (encodeRunes d)) (s := { s with cur := r ++ w }) (W.pi hi hg)
    have ht : b!"<?" ++ (t ++ (b!"?>" ++ r)) = (b!"<?" ++ (t ++ b!"?>")) ++ r := by simp
    rw [ht] at hf hs hB
    refine content_cons (E := E) (H := H) (B := B) (t := b!"<?" ++ (t ++ b!"?>")) (evs := [_]) (s1 := s1) (by simp) (by simp [List.isPrefixOf]) hs (fun fuel' _ => ?_) (hns ▸ w1) ih hf hu hsc hB hi hsp hdf hW (hw rfl)
    have p1 : (b!"<?").isPrefixOf s.cur = true := by rw [hs]; rfl
    unfold contentStep
    run
    simp only [p1, if_true]
    exact wrap_eq (pi_run E H ht0 s (by rw [hs]; simp)) e1
  | @cdata scope used l r evs used' hl hk ih =>
    intro fuel m w s hf hs hns hu hsc hB hi hsp hdf hg hW hw
    simp only [Bool.false_eq_true, if_false] at hf ⊢
    obtain ⟨m, rfl⟩ : ∃ k, m = k + 1 := ⟨m - 1, by have := (hw rfl).1; omega⟩
    obtain ⟨s1, e1, tr, hc, rfl, w1⟩ := cb_took (H := H) (G := G) (n := m + 1) (ev := .cdata (encodeRunes (unixLines l))) (s := { s with cur := b!"]]>" ++ (r ++ w) }) (W.cdata hi hg)
    have ht : b!"<![CDATA[" ++ (l ++ (b!"]]>" ++ r)) = (b!"<![CDATA[" ++ (l ++ b!"]]>")) ++ r := by simp
    rw [ht] at hf hs hB
    refine content_cons (E := E) (H := H) (B := B) (t := b!"<![CDATA[" ++ (l ++ b!"]]>")) (evs := [_]) (s1 := { s with cur := r ++ w, hc := hc, trace := s.trace ++ tr }) (by simp) (by simp [List.isPrefixOf]) hs
      (fun fuel' _ => ?_) (hns ▸ ⟨tr, hc, rfl, w1⟩) ih hf hu hsc hB hi hsp hdf hW (hw rfl)
    have p1 : (b!"<?").isPrefixOf s.cur = false := by rw [hs]; simp [List.isPrefixOf]
    have p2 : (b!"<![CDATA[").isPrefixOf s.cur = true := by rw [hs]; rfl
    unfold contentStep
    run
    simp only [p1, p2, Bool.false_eq_true, if_false, if_true]
    apply wrap_run
    rw [parseCDSect_run E H hl.ne (fun c hc => by have := (hl.legal c hc).1; unfold XmlChar at this; omega) hl.noEnd s (w := r ++ w) (by rw [hs]; simp)]
    rw [replaceCRLF_encodeRunes, ← unixLines_eq]
    rw [bind_run (wrap_run e1)]
    rw [bind_run (consume_run (l := b!"]]>") (r := r ++ w) rfl)]
    rfl

end
end Helium
