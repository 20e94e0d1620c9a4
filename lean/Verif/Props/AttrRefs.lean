import Verif.Props.Values
import Verif.Props.Writes
/-! # References in attribute values (C77) -/
namespace Helium
open Spec

theorem woven_internal {σ : Type} {E : Env} {tf fuel snl : Nat} {usr : σ} {input : Bytes} {doc : Option Nat} {err : Option Err} {h : Heap}
    {tr pre suf : List (Ev × HOut)} (hr : parserParse E (treeBuilder tf) usr fuel snl input = .done doc err h tr) (hev : tr = pre ++ suf)
    {v : Bytes} (hv : Woven E pre v) : ∃ ps : List Piece, v = ps.flatMap Piece.text ∧ ∀ x ∈ ps, x.Internal E pre := by
  obtain ⟨ps, h1, h2⟩ := hv
  refine ⟨ps, h1, fun x hx => ?_⟩
  have hok := h2 x hx
  cases x with
  | chr c => exact hok
  | ref m =>
    obtain ⟨hm, t, pu, sy, c, o', hd, ht⟩ := hok
    have hdecl : DeclOK (.entityDecl (encodeRunes m) t pu sy c) :=
      C72_reported E (treeBuilder tf) usr fuel snl input hr _ (List.mem_map.2 ⟨(_, o'), by rw [hev]; exact List.mem_append_left _ hd, rfl⟩)
    obtain ⟨h3, rfl, rfl, h4⟩ := hdecl
    have : t = 1 := by omega
    subst this
    exact ⟨hm, fun hc => h4 ((mem_encodeRunes_ascii _ 58 (by decide)).2 hc), c, o', hd⟩

/-- **C77**, what holds: whatever the document contains and however the parse ends, the value of every attribute written in a start tag is
handed over as a sequence of legal characters, with `&` written `&#38;`, and references. Each reference names a general entity, without colon,
whose declaration as an internal entity has been reported before the tag. Missing for the full claim: that the text of the entity has no `<`
(`C77_refuted`). -/
theorem C77_references_partial {σ : Type} (E : Env) (tf fuel snl : Nat) (usr : σ) (input : Bytes) {doc : Option Nat} {err : Option Err} {h : Heap}
    {tr pre suf : List (Ev × HOut)} (hr : parserParse E (treeBuilder tf) usr fuel snl input = .done doc err h tr)
    {l p u : Bytes} {ns : List (Option (Bytes × Bytes))} {as : List AttrD} {o : HOut} (hev : tr = pre ++ (.startElement l p u ns as, o) :: suf)
    {q n v : Bytes} (ha : .parsed q n v ∈ as) : ∃ ps : List Piece, v = ps.flatMap Piece.text ∧ ∀ x ∈ ps, x.Internal E pre :=
  woven_internal hr hev (soundTrace_parse E hr pre _ o suf hev v ⟨q, n, ha⟩)

/-- **C77**, the same for the default value in the declaration of an attribute: the entities have been declared before the attribute, as XML
demands (4.1, Entity Declared). Missing as above. -/
theorem C77_defaults_partial {σ : Type} (E : Env) (tf fuel snl : Nat) (usr : σ) (input : Bytes) {doc : Option Nat} {err : Option Err} {h : Heap}
    {tr pre suf : List (Ev × HOut)} (hr : parserParse E (treeBuilder tf) usr fuel snl input = .done doc err h tr)
    {el a v : Bytes} {t d : Nat} {es : List Bytes} {o : HOut} (hev : tr = pre ++ (.attributeDecl el a t d v es, o) :: suf) :
    ∃ ps : List Piece, v = ps.flatMap Piece.text ∧ ∀ x ∈ ps, x.Internal E pre :=
  woven_internal hr hev (soundTrace_parse E hr pre _ o suf hev v rfl)

/-! ### the pieces of a value are determined by it -/

/-- the characters of a piece. -/
def Piece.runes : Piece → List Nat
  | .chr c => if c = 38 then b!"&#38;" else [c]
  | .ref n => 38 :: (n ++ [59])

theorem piece_runes (p : Piece) : p.text = encodeRunes (Piece.runes p) := by
  cases p with
  | chr c =>
    show heldAs c = encodeRunes (if c = 38 then b!"&#38;" else [c])
    unfold heldAs
    split
    · rfl
    · simp [encodeRunes]
  | ref n =>
    show 38 :: (encodeRunes n ++ [59]) = encodeRunes (38 :: (n ++ [59]))
    rw [encodeRunes_cons, encodeRunes_append]
    rfl

theorem pieces_runes (ps : List Piece) : ps.flatMap Piece.text = encodeRunes (ps.flatMap Piece.runes) := by
  induction ps with
  | nil => rfl
  | cons p ps ih => rw [List.flatMap_cons, List.flatMap_cons, encodeRunes_append, ih, piece_runes]

/-- legal characters, and names as they can be written in a reference. -/
def Piece.Wf (E : Env) : Piece → Prop
  | .chr c => Legal c
  | .ref n => LooseName E n

theorem looseName_chars (E : Env) {n : List Nat} (h : LooseName E n) : ∀ c ∈ n, NameChar E c := by
  obtain ⟨c, t, rfl, h1, h2⟩ := h
  intro x hx
  rcases List.mem_cons.1 hx with rfl | hx
  · rcases h1 with h1 | h1 | h1
    · exact .inl h1
    · exact .inr (.inr (.inr (.inr (.inl h1))))
    · exact .inr (.inr (.inr (.inr (.inr h1))))
  · exact h2 x hx

theorem looseName_plain (E : Env) {n : List Nat} (h : LooseName E n) : 59 ∉ n ∧ n.head? ≠ some 35 := by
  have key : ∀ c, NameChar E c → c ≠ 59 ∧ c ≠ 35 := by
    intro c hc
    rcases hc with hc | hc | hc | hc | hc | hc
    · by_cases h128 : c < 128
      · rw [E.letter_ascii c h128] at hc; simp at hc; omega
      · omega
    · by_cases h128 : c < 128
      · rw [E.digit_ascii c h128] at hc; simp at hc; omega
      · omega
    all_goals omega
  have hc := looseName_chars E h
  refine ⟨fun hm => (key _ (hc _ hm)).1 rfl, ?_⟩
  intro hh
  cases n with
  | nil => cases hh
  | cons c t => cases hh; exact (key _ (hc 35 (by simp))).2 rfl

theorem pieces_scalar (E : Env) {ps : List Piece} (h : ∀ p ∈ ps, Piece.Wf E p) : ∀ c ∈ ps.flatMap Piece.runes, isScalar c := by
  intro c hc
  obtain ⟨p, hp, hc⟩ := List.mem_flatMap.1 hc
  have hw := h p hp
  cases p with
  | chr d =>
    have hc : c ∈ (if d = 38 then b!"&#38;" else [d]) := hc
    split at hc
    · have : ∀ c ∈ (b!"&#38;" : List Nat), isScalar c := by decide
      exact this c hc
    · rw [List.mem_singleton] at hc
      subst hc
      obtain ⟨hx, _⟩ : Legal c := hw
      unfold XmlChar at hx
      unfold isScalar
      omega
  | ref n =>
    have hc : c ∈ 38 :: (n ++ [59]) := hc
    simp only [List.mem_cons, List.mem_append, List.not_mem_nil, or_false] at hc
    rcases hc with rfl | hc | rfl
    · decide
    · exact nameChar_scalar E (looseName_chars E hw c hc)
    · decide

theorem split_semicolon : ∀ {a b x y : List Nat}, 59 ∉ a → 59 ∉ b → a ++ 59 :: x = b ++ 59 :: y → a = b ∧ x = y
  | [], [], _, _, _, _, h => by simpa using h
  | [], b :: bs, _, _, _, hb, h => by
    injection h with h _
    exact absurd (by simp [h]) hb
  | a :: as, [], _, _, ha, _, h => by
    injection h with h _
    exact absurd (by simp [h]) ha
  | a :: as, b :: bs, x, y, ha, hb, h => by
    injection h with h1 h2
    obtain ⟨h3, h4⟩ := split_semicolon (fun hm => ha (List.mem_cons_of_mem _ hm)) (fun hm => hb (List.mem_cons_of_mem _ hm)) h2
    exact ⟨by rw [h1, h3], h4⟩

theorem runes_inj (E : Env) : ∀ {ps qs : List Piece}, (∀ p ∈ ps, Piece.Wf E p) → (∀ p ∈ qs, Piece.Wf E p) →
    ps.flatMap Piece.runes = qs.flatMap Piece.runes → ps = qs := by
  have hne : ∀ p : Piece, ∃ c t, Piece.runes p = c :: t := by
    intro p
    cases p with
    | chr c =>
      show ∃ d t, (if c = 38 then b!"&#38;" else [c]) = d :: t
      split <;> exact ⟨_, _, rfl⟩
    | ref n => exact ⟨_, _, rfl⟩
  intro ps
  induction ps with
  | nil =>
    intro qs _ _ h
    cases qs with
    | nil => rfl
    | cons q qs =>
      obtain ⟨c, t, hq⟩ := hne q
      rw [List.flatMap_cons, hq] at h
      cases h
  | cons p ps ih =>
    intro qs hp hq h
    cases qs with
    | nil =>
      obtain ⟨c, t, hp⟩ := hne p
      rw [List.flatMap_cons, hp] at h
      cases h
    | cons q qs =>
      rw [List.flatMap_cons, List.flatMap_cons] at h
      have hp' : ∀ x ∈ ps, Piece.Wf E x := fun x hx => hp x (List.mem_cons_of_mem _ hx)
      have hq' : ∀ x ∈ qs, Piece.Wf E x := fun x hx => hq x (List.mem_cons_of_mem _ hx)
      have hwp := hp p (by simp)
      have hwq := hq q (by simp)
      have fin : p = q ∧ ps.flatMap Piece.runes = qs.flatMap Piece.runes := by
        generalize ps.flatMap Piece.runes = x at h ⊢
        generalize qs.flatMap Piece.runes = y at h ⊢
        cases p with
        | chr c =>
          have h : (if c = 38 then b!"&#38;" else [c]) ++ x = Piece.runes q ++ y := h
          cases q with
          | chr d =>
            have h : (if c = 38 then b!"&#38;" else [c]) ++ x = (if d = 38 then b!"&#38;" else [d]) ++ y := h
            split at h <;> split at h
            · rename_i h1 h2
              exact ⟨by rw [h1, h2], List.append_cancel_left h⟩
            · rename_i h1 h2
              injection h with h3 _
              exact absurd h3.symm h2
            · rename_i h1 h2
              injection h with h3 _
              exact absurd h3 h1
            · injection h with h3 h4
              exact ⟨by rw [h3], h4⟩
          | ref n =>
            have h : (if c = 38 then b!"&#38;" else [c]) ++ x = 38 :: (n ++ [59]) ++ y := h
            split at h
            · injection h with _ h
              have hn := looseName_plain E hwq
              cases n with
              | nil => obtain ⟨_, _, e, _⟩ := hwq; cases e
              | cons a n =>
                injection h with h _
                exact absurd (by rw [← h]; rfl) hn.2
            · rename_i h1
              injection h with h _
              exact absurd h h1
        | ref m =>
          have h : 38 :: (m ++ [59]) ++ x = Piece.runes q ++ y := h
          cases q with
          | chr d =>
            have h : 38 :: (m ++ [59]) ++ x = (if d = 38 then b!"&#38;" else [d]) ++ y := h
            split at h
            · injection h with _ h
              have hn := looseName_plain E hwp
              cases m with
              | nil => obtain ⟨_, _, e, _⟩ := hwp; cases e
              | cons a n =>
                injection h with h _
                exact absurd (by rw [h]; rfl) hn.2
            · rename_i h1
              injection h with h _
              exact absurd h.symm h1
          | ref n =>
            have h : 38 :: (m ++ [59]) ++ x = 38 :: (n ++ [59]) ++ y := h
            injection h with _ h
            have h : (m ++ [59]) ++ x = (n ++ [59]) ++ y := h
            rw [List.append_assoc, List.append_assoc] at h
            obtain ⟨h1, h2⟩ := split_semicolon (looseName_plain E hwp).1 (looseName_plain E hwq).1 h
            exact ⟨by rw [h1], h2⟩
      rw [fin.1, ih hp' hq' fin.2]

theorem Piece.Internal.wf {E : Env} {tr : List (Ev × HOut)} {p : Piece} (h : p.Internal E tr) : Piece.Wf E p := by
  cases p with
  | chr c => exact h
  | ref n => exact h.1

/-- **C77**, reading: what characters and references a value handed over is made of can be told from the value. -/
theorem C77_reading (E : Env) {ps qs : List Piece} {tr tr' : List (Ev × HOut)} (hp : ∀ p ∈ ps, p.Internal E tr) (hq : ∀ p ∈ qs, p.Internal E tr')
    (h : ps.flatMap Piece.text = qs.flatMap Piece.text) : ps = qs := by
  have hp := fun p hx => Piece.Internal.wf (hp p hx)
  have hq := fun p hx => Piece.Internal.wf (hq p hx)
  rw [pieces_runes, pieces_runes] at h
  exact runes_inj E hp hq (encodeRunes_injective (pieces_scalar E hp) (pieces_scalar E hq) h)

/-! ### cases -/

/-- a tokenised value with references to a declared entity and to predefined ones: the hypotheses of `C77_references_partial` hold, and the
pieces are the characters and references written. -/
theorem C77_sample : ∃ doc h tr pre suf o, parserParse env0 (treeBuilder 60) () 60 60
      b!"<!DOCTYPE a [<!ENTITY e 'x'><!ATTLIST a b NMTOKENS #IMPLIED>]><a b=' &e;  y&amp; z' c='&#38;e;'/>" = .done doc none h tr ∧
    tr = pre ++ (.startElement b!"a" [] [] [] [.parsed [] b!"b" b!"&e; y&#38; z", .parsed [] b!"c" b!"&#38;e;"], o) :: suf ∧
    [Piece.ref b!"e", .chr 32, .chr 121, .chr 38, .chr 32, .chr 122].flatMap Piece.text = b!"&e; y&#38; z" ∧
    [Piece.chr 38, .chr 101, .chr 59].flatMap Piece.text = b!"&#38;e;" := by
  have hv : (parserParse env0 (treeBuilder 60) () 60 60
      b!"<!DOCTYPE a [<!ENTITY e 'x'><!ATTLIST a b NMTOKENS #IMPLIED>]><a b=' &e;  y&amp; z' c='&#38;e;'/>").view =
    some (true, none, [.setDocumentLocator, .startDocument, .internalSubset b!"a" [] [], .entityDecl b!"e" 1 [] [] b!"x", .getEntity b!"e",
      .attributeDecl b!"a" b!"b" 8 3 [] [], .externalSubset b!"a" [] [], .getEntity b!"e",
      .startElement b!"a" [] [] [] [.parsed [] b!"b" b!"&e; y&#38; z", .parsed [] b!"c" b!"&#38;e;"], .endElement b!"a" [] [], .endDocument]) := by
    decide +kernel
  obtain ⟨doc, h, tr, h1, h2⟩ := ParseRes.of_view hv
  have hm : .startElement b!"a" [] [] [] [.parsed [] b!"b" b!"&e; y&#38; z", .parsed [] b!"c" b!"&#38;e;"] ∈ tr.map (·.1) := by rw [h2]; simp
  obtain ⟨⟨ev, o⟩, hx, he⟩ := List.mem_map.1 hm
  cases he
  obtain ⟨pre, suf, h3⟩ := List.append_of_mem hx
  exact ⟨doc, h, tr, pre, suf, o, h1, h3, by decide, by decide⟩

/-- a declaration with a reference in the default value of a tokenised attribute. -/
theorem C77_sample_default : ∃ doc h tr pre suf o, parserParse env0 (treeBuilder 60) () 60 60
      b!"<!DOCTYPE a [<!ENTITY e 'x'><!ATTLIST a b NMTOKENS ' &e;  y&amp; '>]><a/>" = .done doc none h tr ∧
    tr = pre ++ (.attributeDecl b!"a" b!"b" 8 1 b!"&e; y&#38;" [], o) :: suf ∧
    [Piece.ref b!"e", .chr 32, .chr 121, .chr 38].flatMap Piece.text = b!"&e; y&#38;" := by
  have hv : (parserParse env0 (treeBuilder 60) () 60 60 b!"<!DOCTYPE a [<!ENTITY e 'x'><!ATTLIST a b NMTOKENS ' &e;  y&amp; '>]><a/>").view =
    some (true, none, [.setDocumentLocator, .startDocument, .internalSubset b!"a" [] [], .entityDecl b!"e" 1 [] [] b!"x", .getEntity b!"e",
      .getEntity b!"e", .attributeDecl b!"a" b!"b" 8 1 b!"&e; y&#38;" [], .externalSubset b!"a" [] [],
      .startElement b!"a" [] [] [] [.dflt 4], .endElement b!"a" [] [], .endDocument]) := by
    decide +kernel
  obtain ⟨doc, h, tr, h1, h2⟩ := ParseRes.of_view hv
  have hm : .attributeDecl b!"a" b!"b" 8 1 b!"&e; y&#38;" [] ∈ tr.map (·.1) := by rw [h2]; simp
  obtain ⟨⟨ev, o⟩, hx, he⟩ := List.mem_map.1 hm
  cases he
  obtain ⟨pre, suf, h3⟩ := List.append_of_mem hx
  exact ⟨doc, h, tr, pre, suf, o, h1, h3, by decide⟩

/-- **C77** fails in full: a value with a reference to an entity whose text has a `<` is accepted. -/
theorem C77_refuted : ¬ ∀ (input : Bytes) (doc : Option Nat) (h : Heap) (tr pre suf : List (Ev × HOut)) (l p u : Bytes)
    (ns : List (Option (Bytes × Bytes))) (as : List AttrD) (o : HOut) (q n v : Bytes),
    parserParse env0 (treeBuilder 60) () 60 60 input = .done doc none h tr → tr = pre ++ (.startElement l p u ns as, o) :: suf → .parsed q n v ∈ as →
    ∃ ps : List Piece, v = ps.flatMap Piece.text ∧ ∀ x ∈ ps, x.Internal env0 pre ∧ x.Tame pre := by
  intro H
  have hv : (parserParse env0 (treeBuilder 60) () 60 60 b!"<!DOCTYPE a [<!ENTITY e '&#60;'>]><a b='&e;'/>").view =
    some (true, none, [.setDocumentLocator, .startDocument, .internalSubset b!"a" [] [], .entityDecl b!"e" 1 [] [] b!"<", .getEntity b!"e",
      .externalSubset b!"a" [] [], .getEntity b!"e", .startElement b!"a" [] [] [] [.parsed [] b!"b" b!"&e;"], .endElement b!"a" [] [],
      .endDocument]) := by decide +kernel
  obtain ⟨doc, h, tr, h1, h2⟩ := ParseRes.of_view hv
  have hm : .startElement b!"a" [] [] [] [.parsed [] b!"b" b!"&e;"] ∈ tr.map (·.1) := by rw [h2]; simp
  obtain ⟨⟨ev, o⟩, hx, he⟩ := List.mem_map.1 hm
  cases he
  obtain ⟨pre, suf, h3⟩ := List.append_of_mem hx
  obtain ⟨ps, k1, k2⟩ := H _ doc h tr pre suf _ _ _ _ _ o [] b!"b" b!"&e;" h1 h3 (by simp)
  obtain ⟨qs, k3, k4⟩ := C77_references_partial env0 60 60 60 () _ h1 h3 (q := []) (n := b!"b") (v := b!"&e;") (by simp)
  have hps : ps = [.ref b!"e"] := by
    have hw : ∀ p ∈ ps, Piece.Wf env0 p := fun p hp => Piece.Internal.wf (k2 p hp).1
    have he : ∀ p ∈ [Piece.ref b!"e"], Piece.Wf env0 p := by
      intro p hp
      rw [List.mem_singleton] at hp
      subst hp
      exact ⟨101, [], rfl, .inl (by decide), by simp⟩
    have k5 : [Piece.ref b!"e"].flatMap Piece.text = ps.flatMap Piece.text := by rw [← k1]; rfl
    rw [pieces_runes, pieces_runes] at k5
    exact (runes_inj env0 he hw (encodeRunes_injective (pieces_scalar env0 he) (pieces_scalar env0 hw) k5)).symm
  subst hps
  obtain ⟨hi, ht⟩ := k2 (.ref b!"e") (by simp)
  obtain ⟨_, _, txt, o', hd⟩ := hi
  have hn : 60 ∉ txt := ht 1 [] [] txt o' hd
  have hmem : Ev.entityDecl b!"e" 1 [] [] txt ∈ tr.map (·.1) := by
    rw [h3]
    exact List.mem_map.2 ⟨(_, o'), List.mem_append_left _ hd, rfl⟩
  rw [h2] at hmem
  simp at hmem
  rw [hmem] at hn
  exact hn (by decide)

end Helium
