import Verif.Spec.DtdTree
import Verif.Lemmas.DumpSrc
import Verif.Lemmas.ContentDump
import Verif.Lemmas.EntityRun
import Verif.Lemmas.DeclEvents
import Verif.Lemmas.AttTab
/-! What the serialiser writes for a declaration is a declaration of the same thing. -/
namespace Helium
open Spec

section
variable (E : Env)

/-! ### legal characters -/

theorem nameChar_legal {c : Nat} (h : NameChar E c) : Legal c := by
  have h1 := nameChar_range E h
  have h2 := nameChar_scalar E h
  unfold isScalar at h2
  have h3 : c < 128 ∨ (c ≠ 0xFFFE ∧ c ≠ 0xFFFF) := by
    rcases h with h | h | h | h | h | h
    · exact .inr (E.letter_char c h)
    · exact .inr (E.digit_char c h)
    all_goals exact .inl (by omega)
  have h4 : 32 ≤ c := by
    rcases h with h | h | h | h | h | h
    · refine Decidable.byContradiction fun hc => ?_
      rw [E.letter_ascii c (by omega)] at h
      simp at h
      omega
    · refine Decidable.byContradiction fun hc => ?_
      rw [E.digit_ascii c (by omega)] at h
      simp at h
      omega
    all_goals omega
  unfold Legal XmlChar
  omega

theorem name_legal {n : List Nat} (h : Name E n) : ∀ c ∈ n, Legal c := fun c hc => nameChar_legal E (h.chars c hc)

theorem blank_legal {ws : List Nat} (h : Blank ws) : ∀ c ∈ ws, Legal c := by
  intro c hc
  rcases h c hc with rfl | rfl | rfl | rfl <;> decide

theorem legal_append {a b : List Nat} (h1 : ∀ c ∈ a, Legal c) (h2 : ∀ c ∈ b, Legal c) : ∀ c ∈ a ++ b, Legal c := by
  intro c hc; rcases List.mem_append.1 hc with h | h
  · exact h1 c h
  · exact h2 c h

theorem legal_cons {a : Nat} {b : List Nat} (h1 : Legal a) (h2 : ∀ c ∈ b, Legal c) : ∀ c ∈ a :: b, Legal c := by
  intro c hc; rcases List.mem_cons.1 hc with rfl | h
  · exact h1
  · exact h2 c h

theorem occ_legal {o : Nat} {m : List Nat} (h : OccMark o m) : ∀ c ∈ m, Legal c := by cases h <;> decide

theorem sep_legal (b : Bool) : Legal (sepChar b) := by cases b <;> decide

theorem model_legal {k : CK} {d : Nat} {e : EC} {x : List Nat} (h : ModelText E k d e x) : ∀ c ∈ x, Legal c := by
  induction h with
  | name hn ho => exact legal_append (name_legal E hn.1) (occ_legal ho)
  | paren _ hw _ ih => exact legal_cons (by decide) (legal_append (blank_legal hw) (legal_append ih (by decide)))
  | parenOpt _ hw _ _ ih => exact legal_cons (by decide) (legal_append (blank_legal hw) (legal_append ih (by decide)))
  | last _ hw ih => exact legal_append ih (blank_legal hw)
  | more _ h1 h2 _ ih1 ih2 => exact legal_append ih1 (legal_append (blank_legal h1) (legal_cons (sep_legal _) (legal_append (blank_legal h2) ih2)))
  | single hn ho hw => exact legal_append (name_legal E hn.1) (legal_append (occ_legal ho) (blank_legal hw))
  | several hn ho h1 h2 _ ih =>
    exact legal_append (name_legal E hn.1) (legal_append (occ_legal ho) (legal_append (blank_legal h1) (legal_cons (sep_legal _) (legal_append (blank_legal h2) ih))))

theorem spec_legal {typ : Nat} {e : EC} {x : List Nat} (h : SpecText E typ e x) : ∀ c ∈ x, Legal c := by
  cases h with
  | empty => decide
  | any => decide
  | pcdata hw => exact legal_cons (by decide) (legal_append (blank_legal hw) (by decide))
  | pcdataStar hw => exact legal_cons (by decide) (legal_append (blank_legal hw) (by decide))
  | mixed h0 h1 h2 hn => exact legal_cons (by decide) (legal_append (blank_legal h0) (legal_append (by decide) (legal_append (blank_legal h1)
      (legal_append (name_legal E hn.1) (legal_append (blank_legal h2) (by decide))))))
  | children hw hx => exact legal_cons (by decide) (legal_append (blank_legal hw) (legal_append (model_legal E hx) (by decide)))
  | childrenOpt hw hx => exact legal_cons (by decide) (legal_append (blank_legal hw) (legal_append (model_legal E hx) (by decide)))

/-! ### names -/

/-- a prefix and the rest, written with a colon between them, are the name they come from. -/
theorem splitColon_written {n : Bytes} (h : n.head? ≠ some 58) : (if (splitColon n).1 ≠ [] then (splitColon n).1 ++ [58] else []) ++ (splitColon n).2 = n := by
  rcases splitColon_join n with ⟨h1, h2⟩ | h1
  · rw [if_neg (by simp [h1])]
    exact h2.symm
  · by_cases hp : (splitColon n).1 = []
    · exfalso
      apply h
      rw [h1, hp]
      rfl
    · rw [if_pos hp]
      conv => rhs; rw [h1]
      simp

/-! ### entity values -/

theorem charRef_legal {d : List Nat} {x : Nat} (h : charRefNum d = some x) : ∀ c ∈ d, Legal c := by
  intro c hc
  have := charRef_chars h c hc
  unfold Legal XmlChar
  omega

theorem entValue_legal {q : Nat} {l v : List Nat} (h : EntValue E q l v) : ∀ c ∈ l, Legal c := by
  induction h with
  | nil => simp
  | char hc _ _ _ _ _ ih => exact legal_cons hc ih
  | ref _ hn _ ih => exact legal_cons (by decide) (legal_append hn (legal_cons (by decide) ih))
  | charRef hd _ _ ih => exact legal_cons (by decide) (legal_cons (by decide) (legal_append (charRef_legal hd) (legal_cons (by decide) ih)))

/-- the quotes do not occur in the value. -/
theorem entValue_quote {q : Nat} {l v : List Nat} (hq : q = 34 ∨ q = 39) (h : EntValue E q l v) : q ∉ l := by
  induction h with
  | nil => simp
  | char _ hc _ _ _ _ ih =>
    intro hm
    rcases List.mem_cons.1 hm with e | hm
    · exact hc e.symm
    · exact ih hm
  | @ref n l v hn _ _ ih =>
    intro hm
    simp only [List.mem_cons, List.mem_append] at hm
    rcases hm with e | hm | e | hm
    · omega
    · rcases hn.chars q hm with h | h | h
      · have := letter_range E h
        rw [E.letter_ascii q (by omega)] at h
        rcases hq with rfl | rfl <;> simp at h
      · rw [E.digit_ascii q (by omega)] at h
        rcases hq with rfl | rfl <;> simp at h
      · omega
    · omega
    · exact ih hm
  | charRef hd _ _ ih =>
    intro hm
    simp only [List.mem_cons, List.mem_append] at hm
    rcases hm with e | e | hm | e | hm
    · omega
    · omega
    · have := charRef_chars hd q hm; omega
    · omega
    · exact ih hm

/-- the value may stand between other quotes, too. -/
theorem entValue_other {q q' : Nat} {l v : List Nat} (h : EntValue E q l v) (hq : q' ∉ l) : EntValue E q' l v := by
  induction h with
  | nil => exact .nil
  | char h1 h2 h3 h4 h5 _ ih => exact .char h1 (fun e => hq (by simp [e])) h3 h4 h5 (ih (fun hm => hq (by simp [hm])))
  | ref h1 h2 _ ih => exact .ref h1 h2 (ih (fun hm => hq (by simp [hm])))
  | charRef h1 h2 _ ih => exact .charRef h1 h2 (ih (fun hm => hq (by simp [hm])))

/-! ### default values -/

/-- the text of a value as reported. -/
def repText (w : List Nat) : List Nat := w.flatMap (fun c => if c = 38 then [38, 35, 51, 56, 59] else [c])

theorem repText_enc (w : List Nat) : encodeRunes (repText w) = reported w := rfl

theorem repText_legal {w : List Nat} (h : ∀ c ∈ w, Legal c) : ∀ c ∈ repText w, Legal c := by
  intro c hc
  obtain ⟨x, hx, hc⟩ := List.mem_flatMap.1 hc
  split at hc
  · exact (by decide : ∀ c ∈ [38, 35, 51, 56, 59], Legal c) c hc
  · rw [List.mem_singleton] at hc; subst hc; exact h _ hx

theorem mem_repText {w : List Nat} {c : Nat} (h : c ∈ w) (hc : c ≠ 38) : c ∈ repText w :=
  List.mem_flatMap.2 ⟨c, h, by rw [if_neg hc]; simp⟩

theorem repText_value {q : Nat} : ∀ {w : List Nat}, (∀ c ∈ w, Legal c ∧ c ≠ 60 ∧ c ≠ 9 ∧ c ≠ 10 ∧ c ≠ 13 ∧ (c = 38 ∨ c ≠ q)) → Value q (repText w) w
  | [], _ => .nil
  | c :: w, h => by
    obtain ⟨h1, h2, h3, h4, h5, h6⟩ := h c (by simp)
    have ih := repText_value (q := q) (w := w) (fun x hx => h x (by simp [hx]))
    unfold repText at ih ⊢
    rw [List.flatMap_cons]
    by_cases hc : c = 38
    · subst hc
      exact Value.ref (b := b!"#38") (by decide) (by decide) (by decide) ih
    · rw [if_neg hc]
      have := Value.char (q := q) h1 (h6.resolve_left hc) hc h2 h5 ih
      by_cases hw : Ws c
      · rw [if_pos hw] at this
        have : c = 32 := by unfold Ws at hw; omega
        subst this
        assumption
      · rw [if_neg hw] at this
        exact this

theorem words_join : ∀ (ws : List Bytes), (∀ w ∈ ws, w ≠ [] ∧ 32 ∉ w) → words [] (unwords ws) = ws
  | [], _ => rfl
  | [w], h => by
    obtain ⟨h1, h2⟩ := h w (by simp)
    have := words_run w [] [] h2
    rw [List.append_nil, List.append_nil] at this
    show words [] w = _
    rw [this]
    cases hr : w.reverse with
    | nil => simp at hr; exact absurd hr h1
    | cons a b => rw [words]; · rw [← hr, List.reverse_reverse]
                  · simp
  | w :: w' :: ws, h => by
    obtain ⟨h1, h2⟩ := h w (by simp)
    have ih := words_join (w' :: ws) (fun x hx => h x (by simp [hx]))
    show words [] (w ++ 32 :: unwords (w' :: ws)) = _
    rw [words_run w [] _ h2, List.append_nil]
    cases hr : w.reverse with
    | nil => simp at hr; exact absurd hr h1
    | cons a b =>
      rw [words, if_pos rfl, ih, ← hr, List.reverse_reverse]
      simp

theorem words_proper : ∀ (l cur : Bytes), 32 ∉ cur → ∀ w ∈ words cur l, w ≠ [] ∧ 32 ∉ w
  | [], [], _, w, hw => by cases hw
  | [], a :: cur, hc, w, hw => by
    rw [words, List.mem_singleton] at hw
    · subst hw
      exact ⟨by simp, fun hm => hc (List.mem_reverse.1 hm)⟩
    · simp
  | c :: l, [], hc, w, hw => by
    rw [words] at hw
    split at hw
    · exact words_proper l [] (by simp) w hw
    · exact words_proper l [c] (by simp; omega) w hw
  | c :: l, a :: cur, hc, w, hw => by
    rw [words] at hw
    · split at hw
      · rcases List.mem_cons.1 hw with rfl | hw
        · exact ⟨by simp, fun hm => hc (List.mem_reverse.1 hm)⟩
        · exact words_proper l [] (by simp) w hw
      · refine words_proper l (c :: a :: cur) ?_ w hw
        intro hm
        rcases List.mem_cons.1 hm with e | hm
        · exact absurd e.symm ‹_›
        · exact hc hm
    · simp

theorem words_settled (w : Bytes) : words [] (unwords (words [] w)) = words [] w := words_join _ (words_proper w [] (by simp))

theorem unwords_space {ws : List Bytes} (h : ∀ w ∈ ws, w ≠ [] ∧ 32 ∉ w) (hne : unwords ws ≠ []) : ∃ c ∈ unwords ws, c ≠ 32 := by
  cases ws with
  | nil => exact absurd rfl hne
  | cons w ws =>
    obtain ⟨h1, h2⟩ := h w (by simp)
    cases w with
    | nil => exact absurd rfl h1
    | cons c w =>
      refine ⟨c, ?_, fun e => h2 (by simp [e])⟩
      cases ws <;> simp [unwords]

/-- the default value as it is written. -/
theorem default_value {typ q : Nat} {l w : List Nat} (hv : Value q l w) (hne : defaultValue typ w ≠ []) (hq : 34 ∉ defaultValue typ w ∨ 39 ∉ defaultValue typ w)
    (hc : ∀ c ∈ defaultValue typ w, c ≠ 60 ∧ c ≠ 9 ∧ c ≠ 10 ∧ c ≠ 13) :
    ∃ q' l' w', (q' = 34 ∨ q' = 39) ∧ Value q' l' w' ∧ (typ = 1 ∨ w' = [] ∨ ∃ c ∈ w', c ≠ 32) ∧ defaultValue typ w' = defaultValue typ w ∧
      (∀ c ∈ l', Legal c) ∧ encodeRunes l' = defaultValue typ w ∧ dumpQuotedString (defaultValue typ w) = q' :: (encodeRunes l' ++ [q']) := by
  have hwl := value_legal hv
  generalize hW : (if typ = 1 then w else unwords (words [] w)) = W at *
  have hdef : defaultValue typ w = encodeRunes (repText W) := by unfold defaultValue; rw [hW]; rfl
  have hWl : ∀ c ∈ W, Legal c := by
    rw [← hW]
    split
    · exact hwl
    · exact unwords_legal _ (words_legal [] w (by simp) hwl)
  rw [hdef] at hne hq hc ⊢
  have hasc : ∀ a, a < 128 → (a ∈ encodeRunes (repText W) ↔ a ∈ repText W) := fun a ha => mem_encodeRunes_ascii _ a ha
  obtain ⟨q', q1, q2, q3⟩ := quoted_plain (w := repText W) (by rwa [hasc 34 (by decide), hasc 39 (by decide)] at hq)
  refine ⟨q', repText W, W, q1, repText_value ?_, ?_, ?_, repText_legal hWl, rfl, q3⟩
  · intro c hm
    refine ⟨hWl c hm, ?_⟩
    by_cases h38 : c = 38
    · exact ⟨by omega, by omega, by omega, by omega, .inl h38⟩
    · have hm' := mem_repText hm h38
      have key : ∀ a, a < 128 → (a ≠ 60 ∧ a ≠ 9 ∧ a ≠ 10 ∧ a ≠ 13) ∨ c ≠ a := by
        intro a ha
        by_cases e : c = a
        · subst e; exact .inl (hc c ((hasc c ha).2 hm'))
        · exact .inr e
      refine ⟨?_, ?_, ?_, ?_, .inr (fun e => q2 (e ▸ hm'))⟩
      · have := key 60 (by decide); omega
      · have := key 9 (by decide); omega
      · have := key 10 (by decide); omega
      · have := key 13 (by decide); omega
  · by_cases ht : typ = 1
    · exact .inl ht
    · rw [if_neg ht] at hW
      subst hW
      refine .inr (.inr (unwords_space (words_proper w [] (by simp)) ?_))
      intro e
      rw [e] at hne
      exact hne rfl
  · unfold defaultValue
    rw [show encodeRunes (repText W) = reported W from rfl]
    split
    · rfl
    · rename_i ht
      rw [if_neg ht] at hW
      rw [← hW, words_settled]

/-! ### declarations -/

theorem names_dump : ∀ {ns : List (List Nat)} {t : List Nat}, NamesText E ns t →
    ∃ y, NamesText E ns y ∧ (∀ c ∈ y, Legal c) ∧ dumpEnumeration (ns.map encodeRunes) = encodeRunes y := by
  intro ns t h
  induction h with
  | @one n ws hn _ =>
    refine ⟨n ++ ([] ++ [41]), .one hn (by decide), legal_append (name_legal E hn) (by decide), ?_⟩
    rw [encodeRunes_append]
    rfl
  | @more n ws w2 ns t hn _ _ ht ih =>
    obtain ⟨y, h1, h2, h3⟩ := ih
    refine ⟨n ++ ([32] ++ 124 :: ([32] ++ y)), .more hn (by decide) (by decide) h1,
      legal_append (name_legal E hn) (legal_append (by decide) (legal_cons (by decide) (legal_append (by decide) h2))), ?_⟩
    have hne : ns.map encodeRunes ≠ [] := by cases ht <;> simp
    rw [List.map_cons, dumpEnumeration, h3]
    · simp only [encodeRunes_append, encodeRunes_cons, List.append_assoc]
      rfl
    · exact hne

theorem type_dump {typ : Nat} {ns : List Bytes} {t : List Nat} (h : TypeText E typ ns t) (h6 : typ ≠ 6) :
    ∃ y, TypeText E typ ns y ∧ (∀ c ∈ y, Legal c) ∧ ∀ x : Node, x.atype = typ → x.tree = ns → attrTypeText x = some (32 :: encodeRunes y) := by
  cases h with
  | @«notation» w1 w2 ns t h1 h2 h3 h4 =>
    obtain ⟨y, k1, k2, k3⟩ := names_dump E h4
    refine ⟨b!"NOTATION" ++ ([32] ++ 40 :: ([] ++ y)), .«notation» (by simp) (by decide) (by decide) k1,
      legal_append (by decide) (legal_append (by decide) (legal_cons (by decide) k2)), ?_⟩
    intro x e1 e2
    unfold attrTypeText
    rw [e1, e2, k3]
    simp only [encodeRunes_append, encodeRunes_cons, List.append_assoc]
    rfl
  | cdata => exact ⟨_, .cdata, by decide, fun x e _ => by unfold attrTypeText; rw [e]; rfl⟩
  | id => exact ⟨_, .id, by decide, fun x e _ => by unfold attrTypeText; rw [e]; rfl⟩
  | idref => exact ⟨_, .idref, by decide, fun x e _ => by unfold attrTypeText; rw [e]; rfl⟩
  | idrefs => exact ⟨_, .idrefs, by decide, fun x e _ => by unfold attrTypeText; rw [e]; rfl⟩
  | entity => exact ⟨_, .entity, by decide, fun x e _ => by unfold attrTypeText; rw [e]; rfl⟩
  | entities => exact absurd rfl h6
  | nmtoken => exact ⟨_, .nmtoken, by decide, fun x e _ => by unfold attrTypeText; rw [e]; rfl⟩
  | nmtokens => exact ⟨_, .nmtokens, by decide, fun x e _ => by unfold attrTypeText; rw [e]; rfl⟩

theorem default_dump {typ d : Nat} {v : Bytes} {t : List Nat} (h : DefaultText typ d v t) (hne : d = 1 ∨ d = 4 → v ≠ []) (hq : 34 ∉ v ∨ 39 ∉ v)
    (hc : ∀ c ∈ v, c ≠ 60 ∧ c ≠ 9 ∧ c ≠ 10 ∧ c ≠ 13) :
    ∃ y, DefaultText typ d v y ∧ (∀ c ∈ y, Legal c) ∧ v.length ≤ (encodeRunes y).length ∧
      ∀ x : Node, x.defType = d → x.defValue = v → ∃ a, attrDefaultText x = some a ∧
        a ++ (if v ≠ [] then 32 :: dumpQuotedString v else []) = 32 :: encodeRunes y := by
  cases h with
  | required =>
    exact ⟨_, .required, by decide, by simp, fun x e _ => ⟨b!" #REQUIRED", by unfold attrDefaultText; rw [e]; rfl, rfl⟩⟩
  | implied =>
    exact ⟨_, .implied, by decide, by simp, fun x e _ => ⟨b!" #IMPLIED", by unfold attrDefaultText; rw [e]; rfl, rfl⟩⟩
  | @fixed ws q l w h1 h2 h3 h4 h5 =>
    obtain ⟨q', l', w', k1, k2, k3, k4, k5, k6, k7⟩ := default_value h4 (hne (.inr rfl)) hq hc
    have hql : Legal q' := by rcases k1 with rfl | rfl <;> decide
    have hqe : encodeRune q' = [q'] := by rcases k1 with rfl | rfl <;> rfl
    refine ⟨b!"#FIXED" ++ ([32] ++ q' :: (l' ++ [q'])), ?_, legal_append (by decide) (legal_append (by decide) (legal_cons hql (legal_append k5 (by simp [hql])))), ?_, ?_⟩
    · have := DefaultText.fixed (typ := typ) (ws := [32]) (by simp) (by decide) k1 k2 k3
      rw [k4] at this
      exact this
    · simp only [encodeRunes_append, encodeRunes_cons, k6, List.length_append]
      omega
    · intro x e _
      refine ⟨b!" #FIXED", by unfold attrDefaultText; rw [e]; rfl, ?_⟩
      rw [if_pos (hne (.inr rfl)), k7]
      simp only [encodeRunes_append, encodeRunes_cons, hqe, k6, List.append_assoc]
      rfl
  | @value q l w h3 h4 h5 =>
    obtain ⟨q', l', w', k1, k2, k3, k4, k5, k6, k7⟩ := default_value h4 (hne (.inl rfl)) hq hc
    have hql : Legal q' := by rcases k1 with rfl | rfl <;> decide
    have hqe : encodeRune q' = [q'] := by rcases k1 with rfl | rfl <;> rfl
    refine ⟨q' :: (l' ++ [q']), ?_, legal_cons hql (legal_append k5 (by simp [hql])), ?_, ?_⟩
    · have := DefaultText.value (typ := typ) k1 k2 k3
      rw [k4] at this
      exact this
    · simp only [encodeRunes_append, encodeRunes_cons, k6, List.length_append]
      omega
    · intro x e _
      refine ⟨[], by unfold attrDefaultText; rw [e]; rfl, ?_⟩
      rw [if_pos (hne (.inl rfl)), k7]
      simp only [encodeRunes_append, encodeRunes_cons, hqe, k6, List.append_assoc]
      rfl

/-- the parts of each attribute definition. -/
theorem attDefs_parts {as : List AttDef} {r : List Nat} (h : AttDefs E as r) : ∀ a ∈ as, ∃ n t u, Name E n ∧ TypeText E a.typ a.names t ∧
    DefaultText a.typ a.deflt a.value u ∧ a.name = encodeRunes n := by
  induction h with
  | one h1 _ _ h2 _ _ h3 _ =>
    intro a ha
    rw [List.mem_singleton] at ha
    subst ha
    exact ⟨_, _, _, h1, h2, h3, rfl⟩
  | more h1 _ _ h2 _ _ h3 _ _ _ ih =>
    intro a ha
    rcases List.mem_cons.1 ha with rfl | ha
    · exact ⟨_, _, _, h1, h2, h3, rfl⟩
    · exact ih a ha

/-- what is said of one attribute can be said in a declaration of its own. -/
theorem attDef_alone {n : List Nat} {a : AttDef} {m t u : List Nat} (hn : Name E n) (h1 : Name E m) (h2 : TypeText E a.typ a.names t)
    (h3 : DefaultText a.typ a.deflt a.value u) (ha : a.name = encodeRunes m) :
    DeclText E (.attlist (encodeRunes n) [a]) (b!"<!ATTLIST" ++ ([32] ++ (n ++ ([32] ++ (m ++ ([32] ++ (t ++ ([32] ++ (u ++ ([] ++ [62])))))))))) := by
  have := AttDefs.one (E := E) (w1 := [32]) (w2 := [32]) (w3 := []) h1 (by simp) (by decide) h2 (by simp) (by decide) h3 (by decide)
  refine .attlist ⟨[32], [32], _, by simp, by decide, by simp, by decide, hn, ?_, rfl⟩
  rw [← ha] at this
  exact this

/-- the name of a declaration that has to be put together again does not begin with a colon. -/
def Joined : Decl → Prop
  | .element n _ _ => n.head? ≠ some 58
  | .attlist _ as => ∀ a ∈ as, a.name.head? ≠ some 58
  | _ => True

/-- what is written for a declaration. -/
theorem decl_dumps {d : Decl} {t : List Nat} (h : DeclText E d t) (hs : d.Survives) (hj : Joined d) {h0 : Heap} {i0 : Nat} (h0 : HoldsNode h0 i0 d) :
    ∃ y, DeclText E d y ∧ (∀ c ∈ y, Legal c) ∧ d.Short (encodeRunes y).length ∧
      ∀ h i f o, HoldsNode h i d → dumpNode h (f + 1) i o = .ok () (o ++ encodeRunes (y ++ [10])) := by
  cases h with
  | @element n typ e t h =>
    obtain ⟨_, _, _, x, _, _, _, _, _, hname, hx, _⟩ := h
    obtain ⟨y, h1, _, h3⟩ := spec_dumps E hx hs
    refine ⟨b!"<!ELEMENT" ++ ([32] ++ (n ++ ([32] ++ (y ++ ([] ++ [62]))))), .element ⟨[32], [32], [], y, by decide, by decide, by decide, by decide, by decide, hname, h1, rfl⟩,
      legal_append (by decide) (legal_append (by decide) (legal_append (name_legal E hname) (legal_append (by decide) (legal_append (spec_legal E h1) (by decide))))), trivial, ?_⟩
    intro h i f o ⟨k1, k2, k3, k4⟩
    unfold dumpNode
    simp only [k1]
    rw [h3 _ k3 k4]
    unfold dumpElementDeclPrologue
    have e1 := splitColon_written hj
    rw [← k2] at e1
    simp only at e1
    rw [List.append_assoc _ _ (h.at' i).name, e1]
    simp only [encodeRunes_append, List.append_assoc, List.nil_append]
    rfl
  | @entity p n l v t h =>
    obtain ⟨_, _, _, _, q, _, _, _, _, _, _, _, hname, hcol, hq, hv, _⟩ := h
    have hqn := entValue_quote E hq hv
    obtain ⟨q', q1, q2, q3⟩ := quoted_plain (w := l) (by rcases hq with rfl | rfl; exact .inl hqn; exact .inr hqn)
    have hql : Legal q' := by rcases q1 with rfl | rfl <;> decide
    have hqe : encodeRune q' = [q'] := by rcases q1 with rfl | rfl <;> rfl
    have hpl : ∀ c ∈ (if p = true then 37 :: [32] else []), Legal c := by cases p <;> decide
    refine ⟨b!"<!ENTITY" ++ ([32] ++ ((if p then 37 :: [32] else []) ++ (n ++ ([32] ++ (q' :: (l ++ (q' :: ([] ++ [62])))))))),
      .entity ⟨[32], [32], [32], [], q', by simp, by decide, by simp, by decide, by simp, by decide, by decide, hname, hcol, q1, entValue_other E hv q2, rfl⟩,
      legal_append (by decide) (legal_append (by decide) (legal_append hpl (legal_append (name_legal E hname) (legal_append (by decide) (legal_cons hql
        (legal_append (entValue_legal E hv) (legal_cons hql (by decide)))))))), trivial, ?_⟩
    intro h i f o ⟨⟨k1, k2, k3, _, _, k4⟩, k5⟩
    have htext : dumpEntityText (h.at' i) = q' :: (encodeRunes l ++ [q']) := by
      unfold dumpEntityText
      rw [k5, k4]
      by_cases hl : encodeRunes l = []
      · rw [if_neg (by simpa using hl)]
        have hl' := encodeRunes_eq_nil' hl
        subst hl'
        cases hv
        exact q3
      · rw [if_pos hl, q3]
    unfold dumpNode
    simp only [k1]
    unfold dumpEntityDecl
    rw [k3, htext, k2]
    cases p with
    | false =>
      rw [if_pos (by rfl), emit_run]
      simp only [encodeRunes_append, encodeRunes_cons, hqe, List.append_assoc, Bool.false_eq_true, if_false]
      simp
      rfl
    | true =>
      rw [if_neg (by decide), if_neg (by decide), if_pos (by rfl), emit_run]
      simp only [encodeRunes_append, encodeRunes_cons, hqe, List.append_assoc, if_true]
      simp
      rfl
  | @attlist n as t h =>
    obtain ⟨_, _, r, _, _, _, _, hname, has, _⟩ := h
    cases as with
    | nil => exact h0.elim
    | cons a as =>
      cases as with
      | cons b as => exact h0.elim
      | nil =>
        obtain ⟨m, t, u, p1, p2, p3, p4⟩ := attDefs_parts E has a (by simp)
        obtain ⟨s1, s2, s3, s4⟩ := hs a (by simp)
        obtain ⟨ty, t1, t2, t3⟩ := type_dump E p2 s1
        obtain ⟨dy, d1, d2, d3, d4⟩ := default_dump p3 s2 s3 s4
        refine ⟨_, attDef_alone E hname p1 t1 d1 p4, ?_, ?_, ?_⟩
        · exact legal_append (by decide) (legal_append (by decide) (legal_append (name_legal E hname) (legal_append (by decide) (legal_append (name_legal E p1)
            (legal_append (by decide) (legal_append t2 (legal_append (by decide) (legal_append d2 (by decide)))))))))
        · intro b hb
          rw [List.mem_singleton] at hb
          subst hb
          simp only [encodeRunes_append, List.length_append]
          have : (encodeRunes b!"<!ATTLIST").length = 9 := rfl
          omega
        · intro h i f o ⟨k1, k2, k3, k4, k5, k6, k7⟩
          obtain ⟨da, g1, g2⟩ := d4 _ k5 k6
          unfold dumpNode
          simp only [k1]
          unfold dumpAttributeDecl
          rw [emit_bind, t3 _ k4 k7]
          simp only
          rw [emit_bind, g1]
          simp only
          rw [emit_run, k6, g2, k2]
          have e1 := splitColon_written (hj a (by simp))
          rw [← k3] at e1
          simp only at e1
          rw [List.append_assoc _ _ (h.at' i).name, e1, p4]
          simp only [encodeRunes_append, encodeRunes_cons, List.append_assoc, List.cons_append, List.nil_append]
          rfl
  | comment => exact h0.elim
  | pi => exact h0.elim

end
end Helium
