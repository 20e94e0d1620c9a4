import Verif.Spec.Plain
import Verif.Lemmas.DumpRun
import Verif.Lemmas.EscapeRead
import Verif.Lemmas.SourceRun
import Verif.Lemmas.TbWilling
import Verif.Lemmas.SourceContent
/-! What the serialiser writes for a plain tree is a well-formed source of the same tree. -/
namespace Helium
open Spec

/-! ### escaped characters -/

/-- a character as escaped in text. -/
def escT (c : Nat) : List Nat := escRunes (textEsc false) (c, (encodeRune c).length)
/-- a character as escaped in an attribute value. -/
def escA (c : Nat) : List Nat := escRunes attrEsc (c, (encodeRune c).length)

theorem escapeText_runes (w : List Nat) (h : ∀ c ∈ w, isScalar c) : escapeText false (encodeRunes w) = encodeRunes (w.flatMap escT) := by
  unfold escapeText
  rw [escLoop_eq _ (textEsc_ok false), decodeSteps_encodeRunes w h _ (Nat.le_refl _), List.flatMap_map]
  rfl

theorem escapeAttr_runes (w : List Nat) (h : ∀ c ∈ w, isScalar c) : escapeAttrValue (encodeRunes w) = encodeRunes (w.flatMap escA) := by
  unfold escapeAttrValue
  rw [escLoop_eq _ attrEsc_ok, decodeSteps_encodeRunes w h _ (Nat.le_refl _), List.flatMap_map]
  rfl

/-- the runes are a reference to `c`. -/
def IsRef (t : List Nat) (c : Nat) : Prop := ∃ b, t = 38 :: (b ++ [59]) ∧ refValue b = some c ∧ 59 ∉ b ∧ ∀ x ∈ b, Legal x ∧ x ≠ 62

theorem isRef_hex (r : Nat) (h : r < 0xE0) : IsRef (hexRef r) r := by
  obtain ⟨h1, h2⟩ := hexBody_val r h
  exact ⟨_, hexRef_eq r, h2, h1, by revert r; decide +kernel⟩

theorem escT_cases (c : Nat) (h : Legal c) : (escT c = [c] ∧ c ≠ 38 ∧ c ≠ 60 ∧ c ≠ 62 ∧ c ≠ 13) ∨ IsRef (escT c) c := by
  have hr := range_of_xmlChar h.1
  have hne := h.2
  unfold escT escRunes textEsc
  simp only
  by_cases h38 : c = 38
  · subst h38; exact Or.inr ⟨b!"amp", rfl, by decide, by decide, by decide⟩
  by_cases h60 : c = 60
  · subst h60; exact Or.inr ⟨b!"lt", rfl, by decide, by decide, by decide⟩
  by_cases h62 : c = 62
  · subst h62; exact Or.inr ⟨b!"gt", rfl, by decide, by decide, by decide⟩
  by_cases h10 : c = 10
  · subst h10; exact Or.inl ⟨rfl, by decide⟩
  by_cases h13 : c = 13
  · subst h13; exact Or.inr ⟨b!"#13", rfl, by decide, by decide, by decide⟩
  simp only [h38, h60, h62, h10, h13, if_false]
  by_cases hE : ¬(c = 9 ∨ (0x20 ≤ c ∧ c < 0x80)) ∧ c < 0xE0
  · rw [if_pos hE]
    right
    have h1 : hexRef c ≠ [0xEF, 0xBF, 0xBD] := by simp [hexRef]
    simp only [h1, if_false]
    exact isRef_hex c hE.2
  · rw [if_neg hE, if_neg (by rw [hr]; simp [hne])]
    exact Or.inl ⟨rfl, h38, h60, h62, h13⟩

theorem escA_cases (c : Nat) (h : Legal c) : (escA c = [c] ∧ c ≠ 34 ∧ c ≠ 38 ∧ c ≠ 60 ∧ c ≠ 13 ∧ (Ws c → c = 32)) ∨ IsRef (escA c) c := by
  have hr := range_of_xmlChar h.1
  have hne := h.2
  unfold escA escRunes attrEsc
  simp only
  by_cases h34 : c = 34
  · subst h34; exact Or.inr ⟨b!"#34", rfl, by decide, by decide, by decide⟩
  by_cases h38 : c = 38
  · subst h38; exact Or.inr ⟨b!"amp", rfl, by decide, by decide, by decide⟩
  by_cases h60 : c = 60
  · subst h60; exact Or.inr ⟨b!"lt", rfl, by decide, by decide, by decide⟩
  by_cases h62 : c = 62
  · subst h62; exact Or.inr ⟨b!"gt", rfl, by decide, by decide, by decide⟩
  by_cases h10 : c = 10
  · subst h10; exact Or.inr ⟨b!"#10", rfl, by decide, by decide, by decide⟩
  by_cases h13 : c = 13
  · subst h13; exact Or.inr ⟨b!"#13", rfl, by decide, by decide, by decide⟩
  by_cases h9 : c = 9
  · subst h9; exact Or.inr ⟨b!"#9", rfl, by decide, by decide, by decide⟩
  simp only [h34, h38, h60, h62, h10, h13, h9, if_false]
  by_cases hE : ¬(0x20 ≤ c ∧ c < 0x80) ∧ c < 0xE0
  · rw [if_pos hE]
    right
    have h1 : hexRef c ≠ [0xEF, 0xBF, 0xBD] := by simp [hexRef]
    simp only [h1, if_false]
    exact isRef_hex c hE.2
  · rw [if_neg hE, if_neg (by rw [hr]; simp [hne])]
    exact Or.inl ⟨rfl, h34, h38, h60, h13, fun hw => by unfold Ws at hw; omega⟩

theorem isRef_legal {t : List Nat} {c : Nat} (h : IsRef t c) : ∀ x ∈ t, Legal x ∧ x ≠ 62 := by
  obtain ⟨b, rfl, _, _, hb⟩ := h
  intro x hx
  simp only [List.mem_cons, List.mem_append, List.not_mem_nil, or_false] at hx
  rcases hx with rfl | hx | rfl
  · decide
  · exact hb x hx
  · decide

theorem escT_legal (w : List Nat) (h : ∀ c ∈ w, Legal c) : ∀ x ∈ w.flatMap escT, Legal x ∧ x ≠ 62 := by
  intro x hx
  obtain ⟨c, hc, hx⟩ := List.mem_flatMap.1 hx
  rcases escT_cases c (h c hc) with ⟨e, _, _, h62, _⟩ | hr
  · rw [e] at hx
    simp only [List.mem_singleton] at hx
    subst hx
    exact ⟨h _ hc, h62⟩
  · exact isRef_legal hr x hx

theorem escA_legal (w : List Nat) (h : ∀ c ∈ w, Legal c) : ∀ x ∈ w.flatMap escA, Legal x := by
  intro x hx
  obtain ⟨c, hc, hx⟩ := List.mem_flatMap.1 hx
  rcases escA_cases c (h c hc) with ⟨e, _⟩ | hr
  · rw [e] at hx
    simp only [List.mem_singleton] at hx
    subst hx
    exact h _ hc
  · exact (isRef_legal hr x hx).1

theorem escA_value (w : List Nat) (h : ∀ c ∈ w, Legal c) : Value 34 (w.flatMap escA) w := by
  induction w with
  | nil => exact .nil
  | cons c w ih =>
    have hv := ih (fun x hx => h x (by simp [hx]))
    rw [List.flatMap_cons]
    rcases escA_cases c (h c (by simp)) with ⟨e, h1, h2, h3, h4, h5⟩ | ⟨b, e, h1, h2, _⟩
    · rw [e]
      have := Value.char (h c (by simp)) h1 h2 h3 h4 hv
      by_cases hw : Ws c
      · rw [if_pos hw] at this
        rw [h5 hw] at this ⊢
        exact this
      · rw [if_neg hw] at this
        exact this
    · rw [e, List.cons_append, List.append_assoc]
      exact Value.ref h1 h2 (h c (by simp)) hv

/-! ### text -/

variable {E : Env}

theorem unixLines_id (l : List Nat) (h : 13 ∉ l) : unixLines l = l := by
  induction l with
  | nil => rfl
  | cons c t ih =>
    have hc : c ≠ 13 := fun e => h (by simp [e])
    rw [unixLines]
    · rw [ih (fun hm => h (by simp [hm]))]
    · intro t' e _
      exact hc e

/-- a run of characters that need no escape. -/
theorem charData_of {l : List Nat} (hne : l ≠ []) (h : ∀ c ∈ l, Legal c ∧ c ≠ 38 ∧ c ≠ 60 ∧ c ≠ 62 ∧ c ≠ 13) : Spec.CharData l where
  ne := hne
  legal c hc := ⟨(h c hc).1, (h c hc).2.2.1, (h c hc).2.1⟩
  noEnd := by
    rintro ⟨a, b, e⟩
    exact (h 62 (by rw [← e]; simp)).2.2.2.1 rfl
  cr := by
    intro a b e
    exact absurd rfl (h 13 (by rw [e]; simp)).2.2.2.2

/-- the longest beginning that needs no escape. -/
theorem split_run : ∀ w : List Nat, (∀ c ∈ w, Legal c) → ∃ a b, w = a ++ b ∧ (∀ x ∈ a, escT x = [x] ∧ x ≠ 38 ∧ x ≠ 60 ∧ x ≠ 62 ∧ x ≠ 13) ∧
    (∀ x, b.head? = some x → IsRef (escT x) x)
  | [], _ => ⟨[], [], rfl, by simp, by simp⟩
  | c :: w, hw => by
    rcases escT_cases c (hw c (by simp)) with hc | hr
    · obtain ⟨a, b, e1, h1, h2⟩ := split_run w (fun x hx => hw x (by simp [hx]))
      refine ⟨c :: a, b, by rw [e1]; rfl, ?_, h2⟩
      intro x hx
      rcases List.mem_cons.1 hx with rfl | hx
      · exact hc
      · exact h1 x hx
    · exact ⟨[], c :: w, rfl, by simp, by intro x hx; cases hx; exact hr⟩

theorem flatMap_run : ∀ a : List Nat, (∀ x ∈ a, escT x = [x]) → a.flatMap escT = a
  | [], _ => rfl
  | c :: a, h => by rw [List.flatMap_cons, h c (by simp), flatMap_run a (fun x hx => h x (by simp [hx]))]; rfl

theorem text_src {scope used used' : List (Bytes × Bytes)} {r : List Nat} {evs : List Ev} (hr : Src E false scope used r evs used')
    (hh : ∀ c, r.head? = some c → c = 60) : ∀ (n : Nat) (w : List Nat), w.length ≤ n → (∀ c ∈ w, Legal c) →
    ∃ chs : List Bytes, Src E false scope used (w.flatMap escT ++ r) (chs.map Ev.characters ++ evs) used' ∧ chs.flatten = encodeRunes w ∧
      (w ≠ [] → chs ≠ [])
  | n, [], _, _ => ⟨[], hr, rfl, fun h => absurd rfl h⟩
  | 0, c :: w, hn, _ => by simp at hn
  | n + 1, c :: w, hn, h => by
    obtain ⟨a, b, e, h1, h2⟩ := split_run (c :: w) h
    cases a with
    | nil =>
      obtain ⟨b', e', k1, k2, _⟩ := h2 c (by rw [show b = c :: w from e.symm]; rfl)
      obtain ⟨chs, s1, s2, _⟩ := text_src hr hh n w (by simp at hn; omega) (fun x hx => h x (by simp [hx]))
      refine ⟨encodeRunes [c] :: chs, ?_, ?_, by simp⟩
      · rw [List.flatMap_cons, e', List.append_assoc, List.cons_append, List.append_assoc]
        exact Src.ref k1 k2 (h c (by simp)) s1
      · rw [List.flatten_cons, s2, encodeRunes_cons c w]
        simp [encodeRunes]
    | cons x a =>
      have hlen : b.length ≤ n := by
        have := congrArg List.length e
        simp at this hn
        omega
      have hb : ∀ c ∈ b, Legal c := fun y hy => h y (by rw [e]; simp [hy])
      obtain ⟨chs, s1, s2, _⟩ := text_src hr hh n b hlen hb
      refine ⟨encodeRunes (x :: a) :: chs, ?_, ?_, by simp⟩
      · rw [e, List.flatMap_append, flatMap_run (x :: a) (fun y hy => (h1 y hy).1), List.append_assoc]
        have hcd : Spec.CharData (x :: a) := charData_of (by simp) (fun y hy => ⟨h y (by rw [e]; exact List.mem_append_left _ hy), (h1 y hy).2⟩)
        have := Src.text hcd (r := b.flatMap escT ++ r) ?_ s1
        · rw [unixLines_id _ (fun hm => (h1 13 hm).2.2.2.2 rfl)] at this
          exact this
        · intro y hy
          cases b with
          | nil => exact Or.inl (hh y hy)
          | cons z b =>
            obtain ⟨b', e', _⟩ := h2 z rfl
            rw [List.flatMap_cons, e'] at hy
            cases hy
            exact Or.inr rfl
      · rw [List.flatten_cons, s2, e, encodeRunes_append]

/-! ### start tags -/

theorem ncname_ne {p : List Nat} (h : NCName E p) : p ≠ [] := by
  obtain ⟨c, r, e, _⟩ := h.1
  rw [e]
  simp

theorem QName.enc {n p l : List Nat} (h : QName E n p l) : encodeRunes n = (if encodeRunes p = [] then encodeRunes l else encodeRunes p ++ 58 :: encodeRunes l) := by
  obtain ⟨_, ⟨rfl, rfl⟩ | ⟨hp, rfl⟩⟩ := h
  · rfl
  · rw [if_neg (encodeRunes_ne (ncname_ne hp)), encodeRunes_append, encodeRunes_cons]
    rfl

theorem attrs_src : ∀ (as : List (Bytes × Bytes)) (used : List (Bytes × Bytes)), (∀ a ∈ as, PlainAttr E a) →
    ∃ t ats, Atts E used t ats [] ∧ givenAttrs ats = as ∧ encodeRunes t = as.flatMap writeAttr ∧ ∀ c ∈ t, Legal c
  | [], used, _ => ⟨[], [], .nil (by simp [Blank]), rfl, rfl, by simp⟩
  | a :: as, used, h => by
    obtain ⟨t, ats, h1, h2, h3, h4⟩ := attrs_src as used (fun x hx => h x (by simp [hx]))
    obtain ⟨n, p, l, w, ⟨hn, hnl⟩, hp1, hp2, hw, rfl⟩ := h a (by simp)
    refine ⟨_, _, .attr (ws := [32]) (w1 := []) (w2 := []) (q := 34) (by simp) (by decide) hn hp1 hp2 (by decide) (by decide) (Or.inl rfl)
      (escA_value w hw) h1, ?_, ?_, ?_⟩
    · rw [givenAttrs, h2, ← QName.enc hn]
    · rw [List.flatMap_cons, writeAttr, (reported_stands hw).meant_eq, escapeAttr_runes w (fun c hc => (hw c hc).scalar), ← h3]
      simp only [List.cons_append, List.nil_append, encodeRunes_cons, encodeRunes_append, List.append_assoc]
      rfl
    · intro c hc
      simp only [List.cons_append, List.nil_append, List.mem_cons, List.mem_append] at hc
      rcases hc with rfl | hc | rfl | rfl | hc | rfl | hc
      · decide
      · exact hnl c hc
      · decide
      · decide
      · exact escA_legal w hw c hc
      · decide
      · exact h4 c hc

theorem value_plain {q : Nat} : ∀ (w : List Nat), (∀ c ∈ w, Legal c ∧ c ≠ 38 ∧ c ≠ 60 ∧ (Ws c → c = 32)) → q ∉ w → Value q w w
  | [], _, _ => .nil
  | c :: w, h, hq => by
    obtain ⟨h1, h2, h3, h4⟩ := h c (by simp)
    have h13 : c ≠ 13 := by
      rintro rfl
      exact absurd (h4 (by decide)) (by decide)
    have := Value.char (q := q) h1 (fun e => hq (by simp [e])) h2 h3 h13 (value_plain w (fun x hx => h x (by simp [hx])) (fun hm => hq (by simp [hm])))
    by_cases hw : Ws c
    · rw [if_pos hw] at this
      rw [h4 hw] at this ⊢
      exact this
    · rw [if_neg hw] at this
      exact this

theorem quoted_plain {w : List Nat} (h : 34 ∉ w ∨ 39 ∉ w) : ∃ q, (q = 34 ∨ q = 39) ∧ q ∉ w ∧ dumpQuotedString (encodeRunes w) = q :: (encodeRunes w ++ [q]) := by
  unfold dumpQuotedString
  by_cases h34 : 34 ∈ w
  · have h39 : 39 ∉ w := h.resolve_left (fun h => h h34)
    refine ⟨39, Or.inr rfl, h39, ?_⟩
    rw [if_neg, if_pos]
    · rw [List.all_eq_true]
      intro x hx
      simp only [bne_iff_ne]
      rintro rfl
      exact h39 ((mem_encodeRunes_ascii w 39 (by decide)).1 hx)
    · intro hall
      have := List.all_eq_true.1 hall 34 ((mem_encodeRunes_ascii w 34 (by decide)).2 h34)
      simp at this
  · refine ⟨34, Or.inl rfl, h34, ?_⟩
    rw [if_pos]
    rw [List.all_eq_true]
    intro x hx
    simp only [bne_iff_ne]
    rintro rfl
    exact h34 ((mem_encodeRunes_ascii w 34 (by decide)).1 hx)

theorem decls_src' {as z : List (Bytes × Bytes)} (hz : ∀ used : List (Bytes × Bytes), ((used ++ z).map (·.1)).Nodup →
      ∃ t ats, Atts E used t ats z ∧ givenAttrs ats = as ∧ encodeRunes t = z.flatMap dumpNs ++ as.flatMap writeAttr ∧ ∀ c ∈ t, Legal c) :
    ∀ (ds : List (Bytes × Bytes)) (used : List (Bytes × Bytes)), (∀ d ∈ ds, PlainDecl E d) → ((used ++ (ds ++ z)).map (·.1)).Nodup →
    ∃ t ats, Atts E used t ats (ds ++ z) ∧ givenAttrs ats = as ∧ encodeRunes t = (ds ++ z).flatMap dumpNs ++ as.flatMap writeAttr ∧ ∀ c ∈ t, Legal c
  | [], used, _, hnd => hz used hnd
  | d :: ds, used, h, hnd => by
    obtain ⟨t, ats, h1, h2, h3, h4⟩ := decls_src' hz ds (used ++ [d]) (fun x hx => h x (by simp [hx])) (by simpa using hnd)
    obtain ⟨p, w, hp, hpl, hp1, hp2, ⟨hw0, hw, hq⟩, hu1, hu2, rfl⟩ := h d (by simp)
    obtain ⟨q, q1, q2, q3⟩ := quoted_plain hq
    have hnu : encodeRunes p ∉ used.map (·.1) := by
      intro hm
      rw [List.map_append, List.nodup_append] at hnd
      exact hnd.2.2 _ hm (encodeRunes p) (by simp) rfl
    refine ⟨_, _, .decl (ws := [32]) (w1 := []) (w2 := []) (q := q) (by simp) (by decide) hp hp1 hp2 (by decide) (by decide) q1
      (value_plain w hw q2) hw0 (fun hm => (hw 38 hm).2.1 rfl) hu1 hu2 hnu h1, h2, ?_, ?_⟩
    · have hq' : encodeRune q = [q] := by rcases q1 with rfl | rfl <;> rfl
      rw [List.cons_append (bs := z), List.flatMap_cons, dumpNs, if_neg (encodeRunes_ne hw0), if_neg (encodeRunes_ne (ncname_ne hp)), q3]
      simp only [List.cons_append, List.nil_append, encodeRunes_cons, encodeRunes_append, List.append_assoc, hq', h3]
      rfl
    · intro c hc
      simp only [List.cons_append, List.nil_append, List.mem_cons, List.mem_append] at hc
      have hql : Legal q := by rcases q1 with rfl | rfl <;> decide
      rcases hc with rfl | rfl | rfl | rfl | rfl | rfl | rfl | hc | rfl | rfl | hc | rfl | hc
      all_goals first | decide | exact hpl c hc | exact hql | exact (hw c hc).1 | exact h4 c hc

theorem decls_src {as ds : List (Bytes × Bytes)} (ha : ∀ a ∈ as, PlainAttr E a) (used : List (Bytes × Bytes)) (hd : PlainDecls E ds as)
    (hnd : ((used ++ ds).map (·.1)).Nodup) :
    ∃ t ats, Atts E used t ats ds ∧ givenAttrs ats = as ∧ encodeRunes t = ds.flatMap dumpNs ++ as.flatMap writeAttr ∧ ∀ c ∈ t, Legal c := by
  rcases hd with hd | ⟨rfl, ds', w, hd, ⟨hw0, hw, hq⟩, rfl⟩
  · have := decls_src' (z := []) (fun used _ => attrs_src as used ha) ds used hd (by simpa using hnd)
    simpa using this
  · refine decls_src' (fun used hnd => ?_) ds' used hd hnd
    obtain ⟨q, q1, q2, q3⟩ := quoted_plain hq
    have hnu : [] ∉ used.map (·.1) := by
      intro hm
      rw [List.map_append, List.nodup_append] at hnd
      exact hnd.2.2 _ hm [] (by simp) rfl
    refine ⟨_, _, .dflt (ws := [32]) (w1 := []) (w2 := []) (q := q) (by simp) (by decide) (by decide) (by decide) q1
      (value_plain w hw q2) hw0 (fun hm => (hw 38 hm).2.1 rfl) hnu, rfl, ?_, ?_⟩
    · have hq' : encodeRune q = [q] := by rcases q1 with rfl | rfl <;> rfl
      rw [List.flatMap_cons, dumpNs, if_neg (encodeRunes_ne hw0), if_pos rfl, q3]
      simp only [List.cons_append, List.nil_append, encodeRunes_cons, encodeRunes_append, List.append_assoc, hq']
      rfl
    · intro c hc
      simp only [List.cons_append, List.nil_append, List.mem_cons, List.mem_append, List.not_mem_nil, or_false] at hc
      have hql : Legal q := by rcases q1 with rfl | rfl <;> decide
      rcases hc with rfl | rfl | rfl | rfl | rfl | rfl | rfl | rfl | hc | rfl
      all_goals first | decide | exact hql | exact (hw c hc).1

theorem decls_uri {ds as : List (Bytes × Bytes)} (hd : PlainDecls E ds as) : ∀ d ∈ ds, d.2 ≠ [] := by
  have one : ∀ d, PlainDecl E d → d.2 ≠ [] := by
    rintro d ⟨_, w, _, _, _, _, hw, _, _, rfl⟩
    exact encodeRunes_ne hw.1
  rcases hd with hd | ⟨_, ds', w, hd, hw, rfl⟩
  · exact fun d h => one d (hd d h)
  · intro d h
    rcases List.mem_append.1 h with h | h
    · exact one d (hd d h)
    · rw [List.mem_singleton] at h
      subst h
      exact encodeRunes_ne hw.1

/-! ### trees -/

namespace Spec.XTree

/-- two lists of trees, one after the other. -/
def append : XTree → XTree → XTree
  | .nil, y => y
  | .node d k r, y => .node d k (r.append y)

/-- the last tree is not a text. -/
def Closed (k : XTree) : Prop := ∀ b, k.addText b = k.snoc (.text b) .nil

theorem append_nil : ∀ k : XTree, k.append .nil = k
  | .nil => rfl
  | .node d k r => by rw [append, append_nil r]

theorem snoc_append : ∀ (k : XTree) (d : XData) (c r : XTree), (k.snoc d c).append r = k.append (.node d c r)
  | .nil, _, _, _ => rfl
  | .node d0 k0 r0, d, c, r => by rw [snoc, append, append, snoc_append r0]

theorem snoc_ne : ∀ (k : XTree) (d : XData) (c : XTree), k.snoc d c ≠ .nil
  | .nil, _, _ => by simp [snoc]
  | .node _ _ _, _, _ => by simp [snoc]

theorem addText_node (d : XData) (k r : XTree) (b : Bytes) (h : r ≠ .nil) : (XTree.node d k r).addText b = .node d k (r.addText b) := by
  rw [addText]
  intro b0 _ e
  exact h e

theorem closed_snoc {d : XData} (hd : ∀ b, d ≠ .text b) (c : XTree) : ∀ k : XTree, (k.snoc d c).Closed
  | .nil => by
    intro b
    show (XTree.node d c .nil).addText b = _
    rw [addText]
    · rfl
    · intro b0 e _
      exact hd b0 e
  | .node d0 k0 r => by
    intro b
    rw [snoc, addText_node _ _ _ _ (snoc_ne r d c), closed_snoc hd c r b]
    rfl

theorem addText_snoc : ∀ (k : XTree) (a b : Bytes), (k.snoc (.text a) .nil).addText b = k.snoc (.text (a ++ b)) .nil
  | .nil, a, b => rfl
  | .node d0 k0 r, a, b => by rw [snoc, addText_node _ _ _ _ (snoc_ne _ _ _), addText_snoc r]; rfl

end Spec.XTree

theorem steps_append (a b : List Ev) : ∀ s : Partial, s.steps (a ++ b) = (s.steps a).bind (fun s => s.steps b) := by
  induction a with
  | nil => intro s; rfl
  | cons ev a ih =>
    intro s
    rw [List.cons_append, Partial.steps, Partial.steps]
    cases s.step ev with
    | none => rfl
    | some s' => exact ih s'

theorem steps_texts (d : XData) (rest : List (XData × XTree)) (top : XTree) : ∀ (chs : List Bytes) (k : XTree) (a : Bytes),
    Partial.steps ⟨(d, k.snoc (.text a) .nil) :: rest, top⟩ (chs.map Ev.characters) = some ⟨(d, k.snoc (.text (a ++ chs.flatten)) .nil) :: rest, top⟩
  | [], k, a => by simp [Partial.steps]
  | b :: chs, k, a => by
    have := steps_texts d rest top chs k (a ++ b)
    rw [List.map_cons, Partial.steps]
    show Partial.steps ⟨(d, (k.snoc (.text a) .nil).addText b) :: rest, top⟩ _ = _
    rw [XTree.addText_snoc, this]
    simp

/-- the result of writing a list of trees: a text, its events, and what it has to fulfil. -/
structure Wrote (E : Env) (scope used : List (Bytes × Bytes)) (x : XTree) (t : List Nat) (evs : List Ev) : Prop where
  src : Src E false scope used t evs (used ++ allDecls x)
  enc : encodeRunes t = written x
  legal : ∀ c ∈ t, Legal c
  head : ¬ StartsWithText x → ∀ c, t.head? = some c → c = 60
  slash : ¬ b!"/>" <+: t
  cdata : ∀ ev ∈ evs, notCData ev = true
  steps : ∀ (d : XData) (k : XTree) rest top, (StartsWithText x → k.Closed) →
    Partial.steps ⟨(d, k) :: rest, top⟩ evs = some ⟨(d, k.append x) :: rest, top⟩

/-- the same for a single element. -/
structure WroteElem (E : Env) (scope used : List (Bytes × Bytes)) (d : XData) (k : XTree) (t : List Nat) (evs : List Ev) : Prop where
  src : Src E true scope used t evs (used ++ allDecls (.node d k .nil))
  enc : encodeRunes t = written (.node d k .nil)
  legal : ∀ c ∈ t, Legal c
  head : t.head? = some 60
  cdata : ∀ ev ∈ evs, notCData ev = true
  steps : ∀ s : Partial, s.steps evs = some (s.add d k)

theorem elem_src {scope used ds as : List (Bytes × Bytes)} {n p l : List Nat} {u : Bytes} {k : XTree} {tk : List Nat} {ek : List Ev}
    (hn : PlainName E n p l) (hds : PlainDecls E ds as) (has : ∀ a ∈ as, PlainAttr E a) (hnd : (as.map (·.1)).Nodup)
    (hb : Bound (scope ++ ds) (used ++ ds) (encodeRunes p) u) (hsc : ∀ d ∈ scope ++ ds, d.2 ≠ []) (hu : ((used ++ ds).map (·.1)).Nodup)
    (hk : Wrote E (scope ++ ds) (used ++ ds) k tk ek) :
    ∃ t evs, WroteElem E scope used (.elem (encodeRunes l) (encodeRunes p) u ds as) k t evs := by
  obtain ⟨ta, ats, a1, a2, a3, a4⟩ := decls_src has used hds hu
  have hname : tagName (encodeRunes l) (encodeRunes p) u = encodeRunes n := by
    rw [QName.enc hn.1]
    unfold tagName
    by_cases h1 : encodeRunes p = []
    · rw [if_neg (fun h => h.2 h1), if_pos h1]
    · have h2 := hb.resolve_left (fun h => h1 h.1)
      rw [if_pos ⟨hsc _ h2, h1⟩, if_neg h1]
  have hfm : (ds.map some).filterMap id = ds := by
    rw [List.filterMap_map]
    simp
  have hstep : ∀ s : Partial, s.step (.startElement (encodeRunes l) (encodeRunes p) u (ds.map some) ats) =
      some { s with inner := (.elem (encodeRunes l) (encodeRunes p) u ds as, .nil) :: s.inner } := by
    intro s
    simp only [Partial.step, hfm, a2]
  by_cases hkn : k = .nil
  · subst hkn
    refine ⟨60 :: (n ++ (ta ++ b!"/>")),
      [.startElement (encodeRunes l) (encodeRunes p) u (ds.map some) ats, .endElement (encodeRunes l) (encodeRunes p) u], ⟨?_, ?_, ?_, ?_, ?_, ?_⟩⟩
    · have := Src.empty hn.1 a1 (by rw [a2]; exact hnd) hb
      simpa [allDecls] using this
    · simp only [written, if_true, hname, encodeRunes_cons, encodeRunes_append, a3, List.append_assoc, List.append_nil]
      rfl
    · intro c hc
      simp only [List.mem_cons, List.mem_append, List.not_mem_nil, or_false] at hc
      rcases hc with rfl | hc | hc | rfl | rfl
      all_goals first | decide | exact hn.2 c hc | exact a4 c hc
    · rfl
    · intro ev hev
      simp only [List.mem_cons, List.not_mem_nil, or_false] at hev
      rcases hev with rfl | rfl <;> rfl
    · intro s
      rw [Partial.steps, hstep]
      rfl
  · refine ⟨60 :: (n ++ (ta ++ 62 :: (tk ++ (b!"</" ++ (n ++ [62]))))),
      .startElement (encodeRunes l) (encodeRunes p) u (ds.map some) ats :: (ek ++ [.endElement (encodeRunes l) (encodeRunes p) u]),
      ⟨?_, ?_, ?_, ?_, ?_, ?_⟩⟩
    · have := Src.full hn.1 a1 (by rw [a2]; exact hnd) hb hk.src hk.slash
      simpa [allDecls] using this
    · simp only [written, if_neg hkn, hname, encodeRunes_cons, encodeRunes_append, a3, hk.enc, List.append_assoc, List.append_nil]
      rfl
    · intro c hc
      simp only [List.mem_cons, List.mem_append, List.not_mem_nil, or_false] at hc
      rcases hc with rfl | hc | hc | rfl | hc | (rfl | rfl) | hc | rfl
      all_goals first | decide | exact hn.2 c hc | exact a4 c hc | exact hk.legal c hc
    · rfl
    · intro ev hev
      simp only [List.mem_cons, List.mem_append, List.not_mem_nil, or_false] at hev
      rcases hev with rfl | hev | rfl
      · rfl
      · exact hk.cdata ev hev
      · rfl
    · intro s
      rw [Partial.steps, hstep]
      simp only [Option.bind_some]
      rw [steps_append, hk.steps _ _ _ _ (fun _ b => rfl)]
      rfl

theorem plain_src {scope used : List (Bytes × Bytes)} {x : XTree} (hx : Spec.Plain E scope used x) :
    (∀ d ∈ scope, d.2 ≠ []) → ((used ++ allDecls x).map (·.1)).Nodup → ∃ t evs, Wrote E scope used x t evs := by
  induction hx with
  | nil =>
    intro _ _
    refine ⟨[], [], ?_, rfl, by simp, by simp, by decide, by simp, ?_⟩
    · simpa [allDecls] using Src.nil
    · intro d k rest top _
      rw [XTree.append_nil]
      rfl
  | @elem scope used n p l u ds as k r hn hds has hnd hb _ _ ihk ihr =>
    intro hsc hu
    have hu' : ((used ++ ds ++ allDecls k ++ allDecls r).map (·.1)).Nodup := by simpa [allDecls] using hu
    have hsc' : ∀ d ∈ scope ++ ds, d.2 ≠ [] := by
      intro d hd
      rcases List.mem_append.1 hd with hd | hd
      · exact hsc d hd
      · exact decls_uri hds d hd
    have hu1 : ((used ++ ds ++ allDecls k).map (·.1)).Nodup := by
      rw [List.map_append] at hu'
      exact (List.nodup_append.1 hu').1
    have hu2 : ((used ++ ds).map (·.1)).Nodup := by
      rw [List.map_append] at hu1
      exact (List.nodup_append.1 hu1).1
    obtain ⟨tk, ek, hk⟩ := ihk hsc' hu1
    obtain ⟨t, evs, he⟩ := elem_src hn hds has hnd hb hsc' hu2 hk
    obtain ⟨tr, er, hr⟩ := ihr hsc hu'
    have hne : (t ++ tr).head? = some 60 := by
      rw [List.head?_append, he.head]
      rfl
    refine ⟨t ++ tr, evs ++ er, ?_, ?_, ?_, ?_, ?_, ?_, ?_⟩
    · have := Src.element he.src (r := tr) (evs' := er) (used2 := used ++ ds ++ allDecls k ++ allDecls r) (by simpa [allDecls] using hr.src)
      simpa [allDecls] using this
    · rw [encodeRunes_append, he.enc, hr.enc]
      simp [written]
    · intro c hc
      rcases List.mem_append.1 hc with hc | hc
      · exact he.legal c hc
      · exact hr.legal c hc
    · intro _ c hc
      rw [hne] at hc
      cases hc
      rfl
    · rintro ⟨y, hy⟩
      have := congrArg List.head? hy
      rw [hne] at this
      simp at this
    · intro ev hev
      rcases List.mem_append.1 hev with hev | hev
      · exact he.cdata ev hev
      · exact hr.cdata ev hev
    · intro d k0 rest top _
      rw [steps_append, he.steps]
      simp only [Option.bind_some, Partial.add]
      rw [hr.steps _ _ _ _ (fun _ => XTree.closed_snoc (by simp) _ _), XTree.snoc_append]
  | @text scope used w r hne hw hno hst _ ihr =>
    intro hsc hu
    obtain ⟨tr, er, hr⟩ := ihr hsc (by simpa [allDecls] using hu)
    obtain ⟨chs, c1, c2, c3⟩ := text_src hr.src (hr.head hst) w.length w (Nat.le_refl _) hw
    refine ⟨w.flatMap escT ++ tr, chs.map Ev.characters ++ er, ?_, ?_, ?_, ?_, ?_, ?_, ?_⟩
    · simpa [allDecls] using c1
    · rw [encodeRunes_append, hr.enc, written, escapeText_runes w (fun c hc => (hw c hc).scalar)]
    · intro c hc
      rcases List.mem_append.1 hc with hc | hc
      · exact (escT_legal w hw c hc).1
      · exact hr.legal c hc
    · intro h
      exact absurd trivial h
    · rintro ⟨y, hy⟩
      have hesc : 62 ∉ w.flatMap escT := fun hm => (escT_legal w hw 62 hm).2 rfl
      cases hf : w.flatMap escT with
      | nil =>
        have hw1 : ∀ c ∈ w, escT c = [] := by
          intro c hc
          exact List.flatMap_eq_nil_iff.1 hf c hc
        cases w with
        | nil => exact hne rfl
        | cons c w =>
          have h1 := hw1 c (by simp)
          rcases escT_cases c (hw c (by simp)) with ⟨e, _⟩ | ⟨b, e, _⟩ <;> (rw [h1] at e; cases e)
      | cons c f =>
        rw [hf] at hy hesc
        cases f with
        | nil =>
          have := hr.head hst 62 (by
            simp only [List.cons_append, List.nil_append, List.cons.injEq] at hy
            rw [← hy.2]
            rfl)
          exact absurd this (by decide)
        | cons c2 f =>
          simp only [List.cons_append, List.nil_append, List.cons.injEq] at hy
          exact hesc (by rw [← hy.2.1]; simp)
    · intro ev hev
      rcases List.mem_append.1 hev with hev | hev
      · obtain ⟨b, _, rfl⟩ := List.mem_map.1 hev
        rfl
      · exact hr.cdata ev hev
    · intro d k rest top hcl
      rw [steps_append]
      cases chs with
      | nil => exact absurd rfl (c3 hne)
      | cons b chs =>
        rw [List.map_cons, Partial.steps]
        show ((Partial.steps ⟨(d, k.addText b) :: rest, top⟩ (chs.map Ev.characters)).bind _) = _
        rw [hcl trivial b, steps_texts]
        simp only [Option.bind_some]
        rw [← List.flatten_cons, c2, hr.steps _ _ _ _ (fun h => absurd h hst), XTree.snoc_append]
  | @comment scope used b r hb h13 _ ihr =>
    intro hsc hu
    obtain ⟨tr, er, hr⟩ := ihr hsc (by simpa [allDecls] using hu)
    refine ⟨b!"<!--" ++ (b ++ (b!"-->" ++ tr)), .comment (encodeRunes (unixLines b)) :: er, ?_, ?_, ?_, ?_, ?_, ?_, ?_⟩
    · simpa [allDecls] using Src.comment hb hr.src
    · rw [encodeRunes_append, encodeRunes_append, encodeRunes_append, hr.enc, written]
      simp only [List.append_assoc]
      rfl
    · intro c hc
      simp only [List.mem_cons, List.mem_append, List.not_mem_nil, or_false] at hc
      rcases hc with (rfl | rfl | rfl | rfl) | hc | (rfl | rfl | rfl) | hc
      all_goals first | decide | exact hb.legal c hc | exact hr.legal c hc
    · intro _ c hc
      cases hc
      rfl
    · rintro ⟨y, hy⟩
      simp at hy
    · intro ev hev
      rcases List.mem_cons.1 hev with rfl | hev
      · rfl
      · exact hr.cdata ev hev
    · intro d k0 rest top _
      rw [Partial.steps, unixLines_id b h13]
      simp only [Partial.step, Partial.add, Option.bind_some]
      rw [hr.steps _ _ _ _ (fun _ => XTree.closed_snoc (by simp) _ _), XTree.snoc_append]

/-! ### documents -/

/-- what stands around the root. -/
theorem misc_src {x : XTree} {e : Bool} (hx : PlainTop E e x) (he : true = e) : ∃ t evs, Misc E t evs ∧ encodeRunes t = writtenTop x ∧ (∀ c ∈ t, Legal c) ∧
    (∀ ev ∈ evs, notCData ev = true) ∧ ∀ top, Partial.steps ⟨[], top⟩ evs = some ⟨[], top.append x⟩ := by
  induction hx with
  | nil => exact ⟨[], [], .nil, rfl, by simp, by simp, fun top => by rw [XTree.append_nil]; rfl⟩
  | @comment e b r hb h13 _ ih =>
    obtain ⟨t, evs, h1, h2, h3, h4, h5⟩ := ih he
    refine ⟨b!"<!--" ++ (b ++ (b!"-->" ++ (10 :: t))), _, .comment hb (.space (by decide) h1), ?_, ?_, ?_, ?_⟩
    · simp only [encodeRunes_append, encodeRunes_cons, h2, writtenTop, written, List.append_assoc, List.append_nil]
      rfl
    · intro c hc
      simp only [List.mem_cons, List.mem_append, List.not_mem_nil, or_false] at hc
      rcases hc with (rfl | rfl | rfl | rfl) | hc | (rfl | rfl | rfl) | rfl | hc
      all_goals first | decide | exact hb.legal c hc | exact h3 c hc
    · intro ev hev
      rcases List.mem_cons.1 hev with rfl | hev
      · rfl
      · exact h4 ev hev
    · intro top
      rw [Partial.steps, unixLines_id b h13]
      simp only [Partial.step, Partial.add, Option.bind_some]
      rw [h5, XTree.snoc_append]
  | root => cases he

theorem top_src {x : XTree} {e : Bool} (hx : PlainTop E e x) (he : false = e) (hu : ((allDecls x).map (·.1)).Nodup) : ∃ m1 root m2 e1 e2 e3 used, Misc E m1 e1 ∧
    Src E true [] [] root e2 used ∧ Misc E m2 e3 ∧ encodeRunes (m1 ++ (root ++ m2)) = writtenTop x ∧ (∀ c ∈ m1 ++ (root ++ m2), Legal c) ∧
    (∀ ev ∈ e1 ++ (e2 ++ e3), notCData ev = true) ∧ ∀ top, Partial.steps ⟨[], top⟩ (e1 ++ (e2 ++ e3)) = some ⟨[], top.append x⟩ := by
  induction hx with
  | nil => cases he
  | @comment e b r hb h13 _ ih =>
    obtain ⟨m1, root, m2, e1, e2, e3, used, h1, hs, h2, h3, h4, h5, h6⟩ := ih he (by simpa [allDecls] using hu)
    refine ⟨b!"<!--" ++ (b ++ (b!"-->" ++ (10 :: m1))), root, m2, _, e2, e3, used, .comment hb (.space (by decide) h1), hs, h2, ?_, ?_, ?_, ?_⟩
    · rw [List.append_assoc, List.append_assoc, List.append_assoc, List.cons_append]
      simp only [encodeRunes_append, encodeRunes_cons, writtenTop, written, List.append_assoc, List.append_nil] at h3 ⊢
      rw [h3]
      rfl
    · intro c hc
      have hc' : c ∈ b!"<!--" ∨ c ∈ b ∨ c ∈ b!"-->" ∨ c = 10 ∨ c ∈ m1 ++ (root ++ m2) := by
        simp only [List.mem_cons, List.mem_append, List.not_mem_nil, or_false, or_assoc] at hc ⊢
        exact hc
      clear hc
      rcases hc' with hc | hc | hc | rfl | hc
      · revert hc c; decide
      · exact hb.legal c hc
      · revert hc c; decide
      · decide
      · exact h4 c hc
    · intro ev hev
      rcases List.mem_cons.1 hev with rfl | hev
      · rfl
      · exact h5 ev hev
    · intro top
      rw [List.cons_append, Partial.steps, unixLines_id b h13]
      simp only [Partial.step, Partial.add, Option.bind_some]
      rw [h6, XTree.snoc_append]
  | @root l p u ds as k r hp hr ih =>
    clear ih
    obtain ⟨t2, e3, g1, g2, g3, g4, g5⟩ := misc_src hr rfl
    cases hp with
    | @elem _ _ n p l _ _ _ _ _ hn hds has hnd hb hk _ =>
      have hu' : ((ds ++ allDecls k ++ allDecls r).map (·.1)).Nodup := by simpa [allDecls] using hu
      have hu1 : ((ds ++ allDecls k).map (·.1)).Nodup := by
        rw [List.map_append] at hu'
        exact (List.nodup_append.1 hu').1
      have hu2 : (ds.map (·.1)).Nodup := by
        rw [List.map_append] at hu1
        exact (List.nodup_append.1 hu1).1
      have hsc' : ∀ d ∈ [] ++ ds, d.2 ≠ [] := decls_uri hds
      obtain ⟨tk, ek, hk⟩ := plain_src hk hsc' hu1
      obtain ⟨t, evs, he⟩ := elem_src (scope := []) (used := []) hn hds has hnd hb hsc' hu2 hk
      refine ⟨[], t, 10 :: t2, [], evs, e3, _, .nil, he.src, .space (by decide) g1, ?_, ?_, ?_, ?_⟩
      · rw [List.nil_append, encodeRunes_append, he.enc, encodeRunes_cons, g2]
        rfl
      · intro c hc
        rw [List.nil_append] at hc
        rcases List.mem_append.1 hc with hc | hc
        · exact he.legal c hc
        rcases List.mem_cons.1 hc with rfl | hc
        · decide
        · exact g3 c hc
      · intro ev hev
        rw [List.nil_append] at hev
        rcases List.mem_append.1 hev with hev | hev
        · exact he.cdata ev hev
        · exact g4 ev hev
      · intro top
        rw [List.nil_append, steps_append, he.steps]
        simp only [Option.bind_some, Partial.add]
        rw [g5, XTree.snoc_append]

end Helium
