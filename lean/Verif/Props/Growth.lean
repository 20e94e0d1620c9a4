import Verif.Spec.Growth
import Verif.Props.Accept
import Verif.Props.Refs
/-! How many events a handler is told for an input of a given size (C75). -/
namespace Helium
open Spec

/-- **C75**: the number of events is at most proportional to the size of the input. -/
def C75_statement : Prop :=
  ∃ c : Nat, ∀ (E : Env) (σ : Type) (H : Handler σ) (usr : σ) (fuel snl : Nat) (input : Bytes) (doc : Option Nat) (heap : Heap) (tr : List (Ev × HOut)),
    Narrow E → parserParse E H usr fuel snl input = .done doc none heap tr → told (tr.map (·.1)) ≤ c * (input.length + 1)

/-! ### inputs without entities -/

theorem told_append (a b : List Ev) : told (a ++ b) = told a + told b := by simp [told]

theorem told_cons_le (ev : Ev) (b : List Ev) : told (ev :: b) ≤ told b + 1 := by
  unfold told
  rw [List.filter_cons]
  split <;> simp

theorem told_lookups {l : List Ev} (h : OnlyLookups l) : told l = 0 := by
  unfold told
  rw [List.length_eq_zero_iff, List.filter_eq_nil_iff]
  intro ev hev
  obtain ⟨n, rfl⟩ := h ev hev
  simp [isQuestion]

theorem looseCharRef_length {t : List Nat} {v : Nat} (h : LooseCharRef t v) : 1 ≤ t.length := by
  obtain ⟨ds, n, (⟨rfl, _⟩ | ⟨rfl, _⟩), _⟩ := h <;> simp

theorem looseComment_length {t : List Nat} {ev : Ev} (h : LooseComment t ev) : 1 ≤ t.length := by
  cases h <;> simp

theorem loosePI_length {E : Env} {t : List Nat} {ev : Ev} (h : LoosePI E t ev) : 1 ≤ t.length := by
  cases h; simp

/-- every event of an element takes at least one character of its text. -/
theorem accepted_told {E : Env} {K : List Nat → Bytes → Prop} (hK : ∀ n x, ¬ K n x) {b : Bool} {t : List Nat} {evs : List Ev} (h : Accepted E K b t evs) :
    told evs ≤ t.length := by
  induction h with
  | empty _ _ _ hl _ _ =>
    rw [told_append, told_lookups hl]
    refine Nat.le_trans (Nat.add_le_add_left (Nat.le_trans (told_cons_le _ _) (Nat.add_le_add_right (told_cons_le _ _) 1)) 0) ?_
    simp [told]
    omega
  | full _ _ _ hl _ _ _ ih =>
    rw [told_append, told_lookups hl]
    refine Nat.le_trans (Nat.add_le_add_left (told_cons_le _ _) 0) ?_
    rw [told_append]
    refine Nat.le_trans (Nat.add_le_add_left (Nat.add_le_add_right (Nat.add_le_add ih (told_cons_le _ _)) 1) 0) ?_
    simp [told]
    omega
  | nil => simp [told]
  | element _ _ ih1 ih2 => rw [told_append, List.length_append]; omega
  | text h0 _ _ _ _ ih =>
    refine Nat.le_trans (told_cons_le _ _) ?_
    rw [List.length_append]
    have := List.length_pos_iff.2 h0
    omega
  | charRef h0 _ ih =>
    refine Nat.le_trans (told_cons_le _ _) ?_
    rw [List.length_append]
    have := looseCharRef_length h0
    omega
  | predefined _ _ _ ih =>
    refine Nat.le_trans (told_cons_le _ _) ?_
    simp
    omega
  | entity _ _ h => exact (hK _ _ h).elim
  | comment h0 _ ih =>
    refine Nat.le_trans (told_cons_le _ _) ?_
    rw [List.length_append]
    have := looseComment_length h0
    omega
  | pi h0 _ ih =>
    refine Nat.le_trans (told_cons_le _ _) ?_
    rw [List.length_append]
    have := loosePI_length h0
    omega
  | cdata _ _ ih =>
    refine Nat.le_trans (told_cons_le _ _) ?_
    simp
    omega

theorem looseMisc_told {E : Env} {t : List Nat} {evs : List Ev} (h : LooseMisc E t evs) : told evs ≤ t.length := by
  induction h with
  | nil => simp [told]
  | space _ _ ih => simp; omega
  | comment h0 _ ih =>
    refine Nat.le_trans (told_cons_le _ _) ?_
    rw [List.length_append]
    have := looseComment_length h0
    omega
  | pi h0 _ ih =>
    refine Nat.le_trans (told_cons_le _ _) ?_
    rw [List.length_append]
    have := loosePI_length h0
    omega
  | «open» _ _ =>
    refine Nat.le_trans (told_cons_le _ _) ?_
    simp [told]

/-- **C75 (partial)**: holds, with one event for each character and three more, if there is no document type declaration and the handler answers no
lookup with an entity. Missing: entities (`C75_refuted`), events of declarations, inputs with a NUL character. -/
theorem C75_plain_partial {σ : Type} {E : Env} (hE : Narrow E) {H : Handler σ} {usr : σ} {fuel snl : Nat} {input : Bytes} {doc : Option Nat} {heap : Heap}
    {tr : List (Ev × HOut)} (h : parserParse E H usr fuel snl input = .done doc none heap tr) (h0 : ∀ cs r, r <:+ input → 0 ∉ E.decode cs r)
    (hs : ∀ x ∈ tr, ¬ IsSubset x.1) (ha : ∀ n, ¬ Answered tr n) : told (tr.map (·.1)) ≤ input.length + 3 := by
  obtain ⟨cs, rest, hr, -, hc⟩ := C05_accepted_partial E H usr fuel snl input doc heap tr h
  obtain ⟨pre, root, tail, ep, er, et, e1, e2, e3, e4, -, e5⟩ := hc (h0 cs rest hr)
  have hp : LooseMisc E pre ep := by
    rcases e5 with e5 | ⟨m, dt, m2, f1, f2, n, mid, -, -, -, -, -, rfl⟩
    · exact e5
    · have : Ev.internalSubset (encodeRunes n) [] [] ∈ tr.map (·.1) := by rw [e4]; simp
      obtain ⟨x, hx1, hx2⟩ := List.mem_map.1 this
      exact (hs x hx1 (by rw [hx2]; trivial)).elim
  have b1 := looseMisc_told hp
  have b2 := accepted_told (fun n _ x => ha n x.1) e2
  have b3 := looseMisc_told e3
  have b4 := hE cs rest
  have b5 := hr.length_le
  rw [e1] at b4
  simp only [List.length_append] at b4
  rw [e4]
  simp only [told_append]
  have c1 : told [.setDocumentLocator, .startDocument] = 2 := by decide
  have c2 : told [.endDocument] = 1 := by decide
  omega

theorem env0_narrow : Narrow env0 := by
  intro cs b
  show (decodeRunesAux b.length b).length ≤ _
  generalize b.length = k
  induction k generalizing b with
  | zero => simp [decodeRunesAux]
  | succ k ih =>
    cases b with
    | nil => simp [decodeRunesAux]
    | cons x t => simp only [decodeRunesAux, List.length_cons]; exact Nat.succ_le_succ (ih _)

/-! ### entities: a thousand lines of laughter -/

/-- names `e`, `ee`, `eee`, … -/
def laughName (i : Nat) : List Nat := List.replicate (i + 1) 101

/-- `m` references to `n`. -/
def laughRefs (n : List Nat) : Nat → List Nat
  | 0 => []
  | m + 1 => 38 :: (n ++ 59 :: laughRefs n m)

/-- the text of level `i`: `m` references to the entity of the level below. -/
def laughText (m : Nat) : Nat → List Nat
  | 0 => []
  | i + 1 => laughRefs (laughName i) m

/-- the events of `m` references to an entity with the events `x`. -/
def laughTold (n : Bytes) (x : List Ev) : Nat → List Ev
  | 0 => []
  | m + 1 => .getEntity n :: (x ++ .reference n :: laughTold n x m)

/-- the events of the text of level `i`. -/
def laughEvents (m : Nat) : Nat → List Ev
  | 0 => []
  | i + 1 => laughTold (encodeRunes (laughName i)) (laughEvents m i) m

/-- the declaration of level `i`. -/
def laughDecl (m i : Nat) : Decl := .entity false (encodeRunes (laughName i)) (encodeRunes (laughText m i)) (encodeRunes (laughText m i))

/-- and its text. -/
def laughDeclText (m i : Nat) : List Nat := b!"<!ENTITY" ++ ([32] ++ (laughName i ++ ([32] ++ (39 :: (laughText m i ++ [39, 62])))))

def laughSubset (m : Nat) : List Nat → List Nat
  | [] => []
  | i :: is => laughDeclText m i ++ laughSubset m is

/-- `<!DOCTYPE a [<!ENTITY e ''><!ENTITY ee '&e;&e;'><!ENTITY eee '&ee;&ee;'>]><a>&eee;&eee;</a>` for `m = 2`, `k = 3` -/
def laughDoc (m k : Nat) : List Nat :=
  (b!"<!DOCTYPE" ++ ([32] ++ (b!"a" ++ ([32] ++ 91 :: (laughSubset m (List.range k) ++ 93 :: ([] ++ [62])))))) ++
    (60 :: (b!"a" ++ ([] ++ 62 :: (laughText m k ++ (b!"</" ++ (b!"a" ++ [62]))))))

theorem laughName_char (i : Nat) : ∀ c ∈ laughName i, c = 101 := fun _ h => List.eq_of_mem_replicate h

theorem laughRefs_char (i m : Nat) : ∀ c ∈ laughRefs (laughName i) m, c = 38 ∨ c = 59 ∨ c = 101 := by
  induction m with
  | zero => intro c h; cases h
  | succ m ih =>
    intro c h
    simp only [laughRefs, List.mem_cons, List.mem_append] at h
    rcases h with h | h | h | h
    · exact .inl h
    · exact .inr (.inr (laughName_char i c h))
    · exact .inr (.inl h)
    · exact ih c h

theorem laughText_char (m i : Nat) : ∀ c ∈ laughText m i, c = 38 ∨ c = 59 ∨ c = 101 := by
  cases i with
  | zero => intro c h; cases h
  | succ i => exact laughRefs_char i m

theorem laughName_name (i : Nat) (hi : i < 1000) : Name env0 (laughName i) :=
  letters_name (by simp [laughName, List.replicate_succ]) (fun c h => by rw [laughName_char i c h]; omega) (by simp [laughName]; omega)

theorem laughName_enc (i : Nat) : encodeRunes (laughName i) = laughName i :=
  encodeRunes_ascii _ (fun c h => by rw [laughName_char i c h]; omega)

theorem laughText_enc (m i : Nat) : encodeRunes (laughText m i) = laughText m i :=
  encodeRunes_ascii _ (fun c h => by rcases laughText_char m i c h with rfl | rfl | rfl <;> omega)

theorem laughName_inj {i j : Nat} (h : laughName i = laughName j) : i = j := by
  have := congrArg List.length h
  simp [laughName] at this
  exact this

theorem laugh_table (m : Nat) : ∀ (l : List Nat) (tab : List (Bytes × Bytes)), l.Nodup → (∀ i ∈ l, laughName i ∉ tab.map (·.1)) →
    entityTable tab (l.map (laughDecl m)) = tab ++ l.map (fun i => (laughName i, laughText m i))
  | [], tab, _, _ => by simp [entityTable]
  | i :: l, tab, hn, ht => by
    rw [List.nodup_cons] at hn
    rw [List.map_cons]
    unfold laughDecl
    rw [entityTable, laughName_enc, laughText_enc, if_neg (ht i (by simp))]
    have ih := laugh_table m l (tab ++ [(laughName i, laughText m i)]) hn.2 (fun j hj => by
      rw [List.map_append, List.mem_append]
      rintro (h | h)
      · exact ht j (by simp [hj]) h
      · simp only [List.map_cons, List.map_nil, List.mem_singleton] at h
        exact hn.1 (laughName_inj h ▸ hj))
    unfold laughDecl at ih
    rw [ih]
    simp

theorem laugh_value (q : Nat) (i m : Nat) (hi : i < 1000) : EntValue env0 q (laughRefs (laughName i) m) (laughRefs (laughName i) m) := by
  induction m with
  | zero => exact .nil
  | succ m ih => exact .ref (laughName_name i hi) (fun c h => by rw [laughName_char i c h]; decide) ih

theorem laughText_value (q : Nat) (m i : Nat) (hi : i < 1000) : EntValue env0 q (laughText m i) (laughText m i) := by
  cases i with
  | zero => exact .nil
  | succ i => exact laugh_value q i m (by omega)

theorem laugh_decl (m i : Nat) (hi : i < 1000) : DeclText env0 (laughDecl m i) (laughDeclText m i) :=
  .entity ⟨[32], [32], [32], [], 39, by decide, by decide, by decide, by decide, by decide, by decide, by decide, laughName_name i hi,
    fun h => by have := laughName_char i _ h; omega, .inr rfl, laughText_value 39 m i hi, by simp [laughDeclText]⟩

theorem laugh_subset (m : Nat) : ∀ l : List Nat, (∀ i ∈ l, i < 1000) → SubsetText env0 (l.map (laughDecl m)) (laughSubset m l)
  | [], _ => .nil (ws := []) (by decide)
  | i :: l, h => .cons (ws := []) (by decide) (laugh_decl m i (h i (by simp))) (laugh_subset m l (fun j hj => h j (by simp [hj])))

theorem laugh_refs {ents : List (Bytes × Bytes)} {m i k : Nat} (hi : i < 1000) (hm : (laughName i, laughText m i) ∈ ents)
    (h : ∀ scope used, RefSrc env0 false ents k false scope used (laughText m i) (laughEvents m i) used) (scope used : List (Bytes × Bytes)) : ∀ j,
    RefSrc env0 false ents (k + 1) false scope used (laughRefs (laughName i) j) (laughTold (encodeRunes (laughName i)) (laughEvents m i) j) used
  | 0 => .nil
  | j + 1 => .entity (laughName_name i hi) (by
      rw [laughName_enc]
      intro hx
      have := laughName_char i
      simp only [List.mem_cons, List.not_mem_nil, or_false] at hx
      rcases hx with hx | hx | hx | hx | hx <;> (rw [hx] at this; revert this; decide))
      (by rw [laughName_enc, laughText_enc]; exact hm) (fun c hc => by rcases laughText_char m i c hc with rfl | rfl | rfl <;> decide) (h _ _)
      (laugh_refs hi hm h scope used j)

theorem laugh_src {ents : List (Bytes × Bytes)} {m : Nat} (d : Nat) : ∀ k, k < 1000 → (∀ i, i < k → (laughName i, laughText m i) ∈ ents) →
    ∀ scope used, RefSrc env0 false ents (d + k) false scope used (laughText m k) (laughEvents m k) used
  | 0, _, _, _, _ => .nil
  | k + 1, hk, h, scope, used =>
    laugh_refs (by omega) (h k (by omega)) (laugh_src d k (by omega) (fun i hi => h i (by omega))) scope used m

theorem laughSubset_char (m : Nat) : ∀ l : List Nat, ∀ c ∈ laughSubset m l, c ∈ b!"<!ENTITY e'&;>"
  | [], c, h => by cases h
  | i :: l, c, h => by
    rw [laughSubset, List.mem_append, laughDeclText, List.mem_append] at h
    simp only [List.mem_append (s := [32]), List.mem_append (s := laughName i), List.mem_append (s := laughText m i), List.mem_cons, List.not_mem_nil, or_false] at h
    rcases h with (h | h | h | h | h | h | h | h) | h
    · exact (by decide : ∀ c ∈ b!"<!ENTITY", c ∈ b!"<!ENTITY e'&;>") c (by simpa using h)
    · subst h; decide
    · rw [laughName_char i c h]; decide
    · subst h; decide
    · subst h; decide
    · rcases laughText_char m i c h with rfl | rfl | rfl <;> decide
    · subst h; decide
    · subst h; decide
    · exact laughSubset_char m l c h

theorem laughDoc_char (m k : Nat) : ∀ c ∈ laughDoc m k, c ∈ b!"<!ENTITY e'&;>DOCP[]a/" := by
  intro c h
  simp only [laughDoc, List.mem_append, List.mem_cons, List.not_mem_nil, or_false, false_or] at h
  have sub : ∀ c ∈ b!"<!ENTITY e'&;>", c ∈ b!"<!ENTITY e'&;>DOCP[]a/" := by decide
  have txt : c ∈ laughText m k → c ∈ b!"<!ENTITY e'&;>DOCP[]a/" := fun h => by rcases laughText_char m k c h with rfl | rfl | rfl <;> decide
  have set : c ∈ laughSubset m (List.range k) → c ∈ b!"<!ENTITY e'&;>DOCP[]a/" := fun h => sub c (laughSubset_char m _ c h)
  by_cases h1 : c ∈ laughText m k
  · exact txt h1
  by_cases h2 : c ∈ laughSubset m (List.range k)
  · exact set h2
  simp only [h1, h2, false_or] at h
  simp only [or_assoc] at h
  repeat (rcases h with rfl | h; · decide)

theorem laugh_document (m k : Nat) (hk : k ≤ 20) : RefDocument env0 false 20 (laughDoc m k) [] [] (-2) ((List.range k).map (laughDecl m))
    ([.setDocumentLocator, .startDocument] ++ ([] ++ ((.internalSubset (encodeRunes b!"a") [] [] :: (((List.range k).map (laughDecl m)).flatMap Decl.events ++
      [.externalSubset (encodeRunes b!"a") [] []])) ++ ([] ++ ((.startElement (encodeRunes b!"a") (encodeRunes []) [] ([].map some) [] ::
      (laughEvents m k ++ [.endElement (encodeRunes b!"a") (encodeRunes []) []])) ++ ([] ++ [.endDocument])))))) := by
  have ht := laugh_table m (List.range k) [] List.nodup_range (by simp)
  rw [List.nil_append] at ht
  have src := laugh_src (ents := entityTable [] ((List.range k).map (laughDecl m))) (m := m) (20 - k) k (by omega) (fun i hi => by
    rw [ht]; exact List.mem_map.2 ⟨i, List.mem_range.2 hi, rfl⟩) [] []
  rw [show 20 - k + k = 20 by omega] at src
  have root := RefSrc.full (scope := []) (used := []) (n := b!"a") (p := []) (l := b!"a") (a := []) (as := []) (ds := []) (u := []) (refs_qname (by decide))
    (.nil (ws := []) (by decide)) (by decide) (Or.inl ⟨rfl, rfl, by simp⟩) src (by
      intro hx
      obtain ⟨r, hr⟩ := hx
      have := laughText_char m k 47 (by rw [← hr]; simp)
      omega)
  refine ⟨[], [], b!"a", b!"<!DOCTYPE" ++ ([32] ++ (b!"a" ++ ([32] ++ 91 :: (laughSubset m (List.range k) ++ 93 :: ([] ++ [62]))))), [], _, [], [], [], _, [], _, ?_, ?_, .nil, ?_, .nil, root, .nil, ?_, rfl⟩
  · simp only [List.append_nil, List.nil_append]; rfl
  · exact ⟨[], [], rfl, .inl rfl, .inr ⟨rfl, rfl, rfl, rfl, by
      rintro ⟨r, hr⟩
      have := congrArg (fun l => l.take 2) hr
      simp at this⟩⟩
  · exact .subset (n := b!"a") (w1 := [32]) (w2 := [32]) (w3 := []) (letters_name (by decide) (by decide) (by decide)) (by decide) (by decide) (by decide)
      (by decide) (laugh_subset m _ (fun i hi => by have := List.mem_range.1 hi; omega))
  · exact fun c hc => (by decide : ∀ c ∈ b!"<!ENTITY e'&;>DOCP[]a/", Legal c) c (laughDoc_char m k c hc)

theorem laughRefs_length (i m : Nat) : (laughRefs (laughName i) m).length = m * (i + 3) := by
  induction m with
  | zero => simp [laughRefs]
  | succ m ih =>
    have : (laughName i).length = i + 1 := List.length_replicate
    simp only [laughRefs, List.length_cons, List.length_append, ih, this, Nat.succ_mul]
    omega

theorem laughText_length (m i : Nat) (hi : i ≤ 20) : (laughText m i).length ≤ 22 * m := by
  cases i with
  | zero => simp [laughText]
  | succ i =>
    rw [laughText, laughRefs_length, Nat.mul_comm]
    exact Nat.mul_le_mul_right m (by omega)

theorem laughSubset_length (m : Nat) : ∀ l : List Nat, (∀ i ∈ l, i < 20) → (laughSubset m l).length ≤ l.length * (22 * m + 35)
  | [], _ => by simp [laughSubset]
  | i :: l, h => by
    have h1 := laughSubset_length m l (fun j hj => h j (by simp [hj]))
    have h2 := laughText_length m i (by have := h i (by simp); omega)
    have h3 := h i (by simp)
    have h4 : (laughName i).length = i + 1 := List.length_replicate
    have h5 : (l.length + 1) * (22 * m + 35) = l.length * (22 * m + 35) + (22 * m + 35) := Nat.succ_mul _ _
    simp only [laughSubset, laughDeclText, List.length_append, List.length_cons, List.length_nil, h4]
    omega

theorem laughTold_told (n : Bytes) (x : List Ev) (m : Nat) : told (laughTold n x m) = m * (told x + 1) := by
  induction m with
  | zero => simp [laughTold, told]
  | succ m ih =>
    rw [laughTold, show (Ev.getEntity n :: (x ++ .reference n :: laughTold n x m)) = [.getEntity n] ++ (x ++ ([.reference n] ++ laughTold n x m)) by simp]
    simp only [told_append, ih, Nat.succ_mul]
    have h1 : told [.getEntity n] = 0 := rfl
    have h2 : told [.reference n] = 1 := rfl
    omega

theorem laugh_told (m : Nat) : ∀ k, m ^ k ≤ told (laughEvents m k) + 1
  | 0 => by simp
  | k + 1 => by
    rw [laughEvents, laughTold_told, Nat.pow_succ, Nat.mul_comm]
    exact Nat.le_succ_of_le (Nat.mul_le_mul_left m (laugh_told m k))

/-- nothing limits what entities grow to but the depth of their nesting: for `k` up to 20 an input of some `22 · k · m` bytes makes more than `m ^ k`
events. The handler does nothing but keep the declared entities. -/
theorem C75_laughs (m k : Nat) (hk : k ≤ 20) : ∃ input : Bytes, input.length ≤ (k + 1) * (22 * m + 35) ∧
    ∃ N, ∀ fuel, N ≤ fuel → ∀ snl, ∃ doc hp tr, parserParse env0 tableHandler [] fuel snl input = .done doc none hp tr ∧ m ^ k ≤ told (tr.map (·.1)) := by
  have henc : encodeRunes (laughDoc m k) = laughDoc m k :=
    encodeRunes_ascii _ (fun c hc => (by decide : ∀ c ∈ b!"<!ENTITY e'&;>DOCP[]a/", c < 128) c (laughDoc_char m k c hc))
  refine ⟨encodeRunes (laughDoc m k), ?_, ?_⟩
  · rw [henc]
    have h1 := laughSubset_length m (List.range k) (fun i hi => by have := List.mem_range.1 hi; omega)
    have h2 := laughText_length m k hk
    rw [List.length_range] at h1
    have h3 : (k + 1) * (22 * m + 35) = k * (22 * m + 35) + (22 * m + 35) := Nat.succ_mul _ _
    simp only [laughDoc, List.length_append, List.length_cons, List.length_nil]
    omega
  · obtain ⟨N, hN⟩ := C68_events_partial table_remembers (laugh_document m k hk) (fun d hd => by
      obtain ⟨i, _, rfl⟩ := List.mem_map.1 hd; trivial)
    refine ⟨N, fun fuel hf snl => ?_⟩
    obtain ⟨doc, hp, tr, h1, h2⟩ := hN fuel hf [] snl ⟨rfl, by decide⟩
    refine ⟨doc, hp, tr, h1, ?_⟩
    have hpl : ∀ l : List (Ev × HOut), told (l.map (·.1)) = told (l.map (fun x => plainEv x.1)) := by
      intro l
      unfold told
      induction l with
      | nil => rfl
      | cons x l ih =>
        have hq : isQuestion (plainEv x.1) = isQuestion x.1 := by
          cases x.1 <;> simp only [plainEv]
          split <;> rfl
        simp only [List.map_cons, List.filter_cons, hq]
        split <;> simp [ih]
    rw [hpl, h2]
    have h3 := laugh_told m k
    rw [show (Ev.startElement (encodeRunes b!"a") (encodeRunes []) [] ([].map some) [] :: (laughEvents m k ++ [.endElement (encodeRunes b!"a") (encodeRunes []) []])) =
      [Ev.startElement (encodeRunes b!"a") (encodeRunes []) [] ([].map some) []] ++ (laughEvents m k ++ [.endElement (encodeRunes b!"a") (encodeRunes []) []]) by rfl]
    simp only [told_append]
    have h4 : told [Ev.startElement (encodeRunes b!"a") (encodeRunes []) [] ([].map some) []] = 1 := rfl
    omega

/-- **C75** fails: entities that refer to entities. -/
theorem C75_refuted : ¬ C75_statement := by
  rintro ⟨c, h⟩
  obtain ⟨input, h1, N, hN⟩ := C75_laughs (1000 * (c + 1)) 2 (by omega)
  obtain ⟨doc, hp, tr, h2, h3⟩ := hN N (Nat.le_refl _) 0
  have h4 := h env0 _ tableHandler [] N 0 input doc hp tr env0_narrow h2
  have h5 : c * (input.length + 1) ≤ c * (3 * (22 * (1000 * (c + 1)) + 35) + 1) := Nat.mul_le_mul_left c (by omega)
  have h6 : (1000 * (c + 1)) ^ 2 = (c + 1) * (1000000 * (c + 1)) := by rw [Nat.pow_two, Nat.mul_mul_mul_comm, Nat.mul_left_comm]
  have h7 : c * (3 * (22 * (1000 * (c + 1)) + 35) + 1) ≤ c * (1000000 * (c + 1)) := Nat.mul_le_mul_left c (by omega)
  have h8 : (c + 1) * (1000000 * (c + 1)) = c * (1000000 * (c + 1)) + 1000000 * (c + 1) := by rw [Nat.succ_mul]
  omega

/-- twenty levels of ten references each: a few thousand bytes, a hundred million million million events. -/
example : ∃ input : Bytes, input.length ≤ 5355 ∧ ∃ N, ∀ fuel, N ≤ fuel → ∀ snl, ∃ doc hp tr,
    parserParse env0 tableHandler [] fuel snl input = .done doc none hp tr ∧ 100000000000000000000 ≤ told (tr.map (·.1)) := C75_laughs 10 20 (by omega)

/-- the document of three levels of two references. -/
example : laughDoc 2 3 = b!"<!DOCTYPE a [<!ENTITY e ''><!ENTITY ee '&e;&e;'><!ENTITY eee '&ee;&ee;'>]><a>&eee;&eee;</a>" := by decide

/-- accepted, no document type declaration, no lookup answered with an entity; the number of events. -/
def ParseRes.plainTold : ParseRes → Option Nat
  | .done _ none _ tr => if tr.all (fun x => match x with
      | (.internalSubset .., _) | (.externalSubset .., _) | (_, .ent (some _)) => false
      | _ => true) then some (told (tr.map (·.1))) else none
  | _ => none

theorem ParseRes.of_plainTold {r : ParseRes} {k : Nat} (h : r.plainTold = some k) :
    ∃ doc heap tr, r = .done doc none heap tr ∧ (∀ x ∈ tr, ¬ IsSubset x.1) ∧ (∀ n, ¬ Answered tr n) ∧ told (tr.map (·.1)) = k := by
  match r, h with
  | .done doc none heap tr, h =>
    simp only [ParseRes.plainTold] at h
    split at h
    · rename_i ha
      rw [List.all_eq_true] at ha
      refine ⟨doc, heap, tr, rfl, ?_, ?_, by simpa using h⟩
      · rintro ⟨ev, o⟩ hx hs
        have := ha _ hx
        cases ev <;> first | exact hs | (simp at this)
      · rintro n ⟨e, he⟩
        have := ha _ he
        simp at this
    · cases h

/-- inputs without entities meet the hypotheses of the partial claim; the bound is met. -/
example : ∃ doc heap tr, parserParse env0 nullHandler () 99 9 b!"<a b='c'><d/>t&lt;</a>" = .done doc none heap tr ∧ (∀ x ∈ tr, ¬ IsSubset x.1) ∧
    (∀ n, ¬ Answered tr n) ∧ told (tr.map (·.1)) = 9 := ParseRes.of_plainTold (by decide +kernel)

end Helium
