import Verif.Spec.Words
import Verif.Model.Small
import Verif.Model.Dom
import Verif.Model.TreeBuilder
import Verif.Lemmas.Utf8
import Verif.Spec.Xml
import Mathlib.Tactic.ByContra
/-!
Properties C23 (byte order mark), C24 (encoding names), C34 (content model copies), C40 (options), C41 (stacks),
C43 (attribute value normalisation).
-/
namespace Helium
open Spec

/-! ### C40 options -/

/-- The claim: setting one option never changes whether another one is set. -/
def OptionsIndependent (t : List (String × Opt)) : Prop :=
  ∀ x ∈ t, ∀ y ∈ t, x.1 ≠ y.1 → ∀ p : Opt, optIsSet (optSet p x.2) y.2 = optIsSet p y.2

/-- **C40 refuted in full**: setting ParseXInclude (522) also sets ParseNoEnt (2) and ParseDTDAttr (8). -/
theorem C40_refuted : ¬ OptionsIndependent parseOptions := by
  intro h
  have := h ("ParseXInclude", (1 <<< 9) + 10) (by decide) ("ParseNoEnt", 1 <<< 1) (by decide) (by decide) 0
  revert this; decide

/-- the same for LoadSubsetOption. -/
theorem C40_refuted_loadSubset : ¬ OptionsIndependent loadSubsetOptions := by
  intro h
  have := h ("CompleteAttrs", (1 <<< 1) + 1) (by decide) ("SkipIDs", (1 <<< 2) + 1) (by decide) (by decide) 0
  revert this; decide

theorem optIsSet_optSet (p a b : Opt) : optIsSet (optSet p a) b = (optIsSet p b || optIsSet a b) := by
  unfold optIsSet optSet
  rw [Bool.eq_iff_iff]
  simp only [bne_iff_ne, ne_eq, Bool.or_eq_true]
  have hd : (p ||| a) &&& b = (p &&& b) ||| (a &&& b) := by
    ext i hi; simp [Bool.and_or_distrib_right]
  rw [hd]
  constructor
  · intro h
    by_contra hc
    simp only [not_or, not_not] at hc
    rw [hc.1, hc.2] at h; exact h (by decide)
  · intro h hc
    have : ∀ x y : Opt, x ||| y = 0 → x = 0 ∧ y = 0 := by
      intro x y hxy
      constructor
      · ext i hi
        have := congrArg (fun v => v.getLsbD i) hxy
        simp at this; simpa [BitVec.getElem_eq_testBit_toNat, BitVec.getLsbD] using this.1
      · ext i hi
        have := congrArg (fun v => v.getLsbD i) hxy
        simp at this; simpa [BitVec.getElem_eq_testBit_toNat, BitVec.getLsbD] using this.2
    have := this _ _ hc
    rcases h with h | h
    · exact h this.1
    · exact h this.2

/-- **C40, what holds.** Whatever options are set in whatever order, starting from none: a given option tests as set exactly if
some option that was set shares a bit with it; hence the ten options declared as single bits (the first nine and ParseBigLines)
are independent of each other. Missing: the ten options declared `1<<iota + 10` / `+ 21`, which share bits. -/
theorem C40_options_partial (l : List Opt) (b : Opt) :
    (optIsSet (l.foldl optSet 0) b = l.any (fun a => optIsSet a b)) ∧
    OptionsIndependent (parseOptions.filter (fun o =>
      ["ParseRecover", "ParseNoEnt", "ParseDTDLoad", "ParseDTDAttr", "ParseDTDValid", "ParseNoError", "ParseNoWarning",
       "ParsePedantic", "ParseNoBlanks", "ParseBigLines"].contains o.1)) := by
  constructor
  · suffices ∀ (p : Opt), optIsSet (l.foldl optSet p) b = (optIsSet p b || l.any (fun a => optIsSet a b)) by
      rw [this 0]; simp [optIsSet]
    induction l with
    | nil => intro p; simp
    | cons a t ih => intro p; simp only [List.foldl_cons, ih, optIsSet_optSet, List.any_cons, Bool.or_assoc]
  · intro x hx y hy hne p
    rw [optIsSet_optSet]
    have key : ∀ x ∈ (parseOptions.filter (fun o =>
      ["ParseRecover", "ParseNoEnt", "ParseDTDLoad", "ParseDTDAttr", "ParseDTDValid", "ParseNoError", "ParseNoWarning",
       "ParsePedantic", "ParseNoBlanks", "ParseBigLines"].contains o.1)), ∀ y ∈ (parseOptions.filter (fun o =>
      ["ParseRecover", "ParseNoEnt", "ParseDTDLoad", "ParseDTDAttr", "ParseDTDValid", "ParseNoError", "ParseNoWarning",
       "ParsePedantic", "ParseNoBlanks", "ParseBigLines"].contains o.1)), x.1 ≠ y.1 → optIsSet x.2 y.2 = false := by
      decide +kernel
    rw [key x hx y hy hne, Bool.or_false]

example : (parseOptions.filter (fun o =>
      ["ParseRecover", "ParseNoEnt", "ParseDTDLoad", "ParseDTDAttr", "ParseDTDValid", "ParseNoError", "ParseNoWarning",
       "ParsePedantic", "ParseNoBlanks", "ParseBigLines"].contains o.1)).length = 10 := by decide +kernel

/-! ### C41 stacks -/

/-- an operation on a stack. -/
inductive StackOp (α : Type)
  | push (x : α)
  | pop (n : Int)

/-- a last-in-first-out list: the head is the top. -/
def specOp {α : Type} : List α → StackOp α → List α
  | l, .push x => x :: l
  | l, .pop n => l.drop n.toNat

/-- the modelled stack doing the same. -/
def implOp {α : Type} (grow : Nat → Nat) (z : α) (s : GStack α) : StackOp α → GStack α
  | .push x => gAppend grow z s x
  | .pop n => gPop grow z s n

theorem gAppend_items {α : Type} (grow : Nat → Nat) (z x : α) (s : GStack α) (h : s.len ≤ s.arr.length) :
    (gAppend grow z s x).items = s.items ++ [x] ∧ (gAppend grow z s x).len ≤ (gAppend grow z s x).arr.length := by
  unfold gAppend GStack.items
  split
  · refine ⟨?_, by simp; omega⟩
    simp only
    rw [List.take_set, List.take_add_one]
    rename_i hl
    rw [List.getElem?_eq_getElem hl]
    simp only [Option.toList_some]
    rw [List.set_append_right _ _ (by rw [List.length_take]; omega)]
    simp [Nat.min_eq_left h]
  · have : s.len = s.arr.length := by omega
    refine ⟨?_, ?_⟩
    · simp only
      rw [List.take_append, List.take_take, List.length_take, Nat.min_eq_left h, Nat.add_sub_cancel_left, Nat.min_eq_right (by omega)]
      simp
    · simp; omega

theorem gPopLoop_items {α : Type} (n : Nat) (s : GStack α) (h : s.len ≤ s.arr.length) :
    (gPopLoop n s).items = s.items.take (s.len - n) ∧ (gPopLoop n s).len ≤ (gPopLoop n s).arr.length := by
  induction n generalizing s with
  | zero => simp [gPopLoop, GStack.items, h, List.take_take]
  | succ n ih =>
    unfold gPopLoop
    split
    · rename_i hp
      have := ih (gPopLast s) (by unfold gPopLast; split <;> (try simp only) <;> omega)
      refine ⟨?_, this.2⟩
      rw [this.1]
      unfold gPopLast GStack.items
      rw [if_neg (by omega)]
      simp only [List.take_take]
      congr 1; omega
    · rename_i hp
      have : s.len = 0 := by omega
      simp [GStack.items, this]

theorem implOp_spec {α : Type} (grow : Nat → Nat) (z : α) (s : GStack α) (h : s.len ≤ s.arr.length) (op : StackOp α) :
    (implOp grow z s op).items.reverse = specOp s.items.reverse op ∧
      (implOp grow z s op).len ≤ (implOp grow z s op).arr.length := by
  have hl : s.items.length = s.len := by simp [GStack.items, Nat.min_eq_left h]
  cases op with
  | push x =>
    have := gAppend_items grow z x s h
    simp [implOp, specOp, this.1, this.2]
  | pop n =>
    simp only [implOp, specOp, gPop]
    by_cases hn : n ≤ 0
    · have : n.toNat = 0 := by omega
      simp [hn, this, h]
    · simp only [hn, if_false]
      have hp := gPopLoop_items n.toNat s h
      have hd : s.items.reverse.drop n.toNat = (s.items.take (s.len - n.toNat)).reverse := by
        rw [List.drop_reverse, hl]
      have hq : (gPopLoop n.toNat s).items.reverse = s.items.reverse.drop n.toNat := by rw [hp.1, hd]
      split
      · refine ⟨?_, by simp [gRealloc]; omega⟩
        rw [← hq]
        unfold gRealloc GStack.items
        simp only
        rw [List.take_append, List.take_take, List.length_take]
        simp [Nat.min_eq_left hp.2]
      · exact ⟨hq, hp.2⟩

/-- **C41 (last in, first out).** From the empty stack, after any sequence of pushes and pops, and however the run-time grows
backing arrays, the stack holds exactly what a list used as a LIFO holds; `Peek n` shows the top `n` items (all if
there are fewer), oldest first. -/
theorem C41_stack_lifo {α : Type} (grow : Nat → Nat) (z : α) (ops : List (StackOp α)) :
    let s := ops.foldl (implOp grow z) ⟨[], 0⟩
    let l := ops.foldl specOp []
    s.items.reverse = l ∧ s.len = l.length ∧ ∀ n, gPeek s n = (l.take n).reverse := by
  suffices h : ∀ (s0 : GStack α), s0.len ≤ s0.arr.length →
      let s := ops.foldl (implOp grow z) s0
      s.items.reverse = ops.foldl specOp s0.items.reverse ∧ s.len ≤ s.arr.length by
    have h' := h ⟨[], 0⟩ (by simp)
    simp only [GStack.items, List.take_nil, List.reverse_nil] at h'
    refine ⟨h'.1, ?_, ?_⟩
    · have := congrArg List.length h'.1
      simp only [List.length_reverse, List.length_take, Nat.min_eq_left h'.2] at this
      exact this
    · intro n
      rw [← h'.1]
      generalize hs : ops.foldl (implOp grow z) ⟨[], 0⟩ = s at h' ⊢
      unfold gPeek
      rw [List.take_reverse, List.reverse_reverse, List.length_take, Nat.min_eq_left h'.2]
      split
      · rfl
      · rw [show s.len - n = 0 by omega]; simp
  induction ops with
  | nil => intro s0 h; exact ⟨rfl, h⟩
  | cons op t ih =>
    intro s0 h
    have := implOp_spec grow z s0 h op
    simp only [List.foldl_cons]
    have := ih _ this.2
    rw [(implOp_spec grow z s0 h op).1] at this
    exact this

example : ([.push 1, .push 2, .pop 1, .push 3, .pop (-4), .push 4, .pop 2] : List (StackOp Nat)).foldl specOp [] = [1] := by
  decide

/-- unique stacks: pushes and pops. -/
def uOp {α : Type} (s : List (Bytes × α)) : StackOp (Bytes × α) → List (Bytes × α)
  | .push x => (uniquePush s x).1
  | .pop n => stackPop s n

theorem uniqueLookup_none {α : Type} (s : List (Bytes × α)) (k : Bytes) :
    uniqueLookup s k = none ↔ ∀ x ∈ s, x.1 ≠ k := by
  unfold uniqueLookup
  simp [List.find?_eq_none]

theorem stackPopLoop_eq {α : Type} (n : Nat) (s : List α) : stackPopLoop n s = s.take (s.length - n) := by
  induction n generalizing s with
  | zero => simp [stackPopLoop]
  | succ n ih =>
    unfold stackPopLoop popLast
    split
    · rw [ih, if_neg (by omega), List.take_take, List.length_take]
      congr 1; omega
    · have : s = [] := List.length_eq_zero_iff.mp (by omega)
      simp [this]

theorem stackPop_eq {α : Type} (s : List α) (n : Int) : stackPop s n = s.take (s.length - n.toNat) := by
  unfold stackPop
  split
  · rw [show n.toNat = 0 by omega]; simp
  · exact stackPopLoop_eq _ _

theorem nodup_fst_eq {α : Type} (s : List (Bytes × α)) (hs : (s.map Prod.fst).Nodup) (a b : Bytes × α) (ha : a ∈ s) (hb : b ∈ s)
    (h : a.1 = b.1) : a = b := by
  induction s with
  | nil => cases ha
  | cons x t ih =>
    simp only [List.map_cons, List.nodup_cons] at hs
    rcases List.mem_cons.mp ha with rfl | ha'
    · rcases List.mem_cons.mp hb with rfl | hb'
      · rfl
      · exact absurd (List.mem_map.mpr ⟨b, hb', h.symm⟩) hs.1
    · rcases List.mem_cons.mp hb with rfl | hb'
      · exact absurd (List.mem_map.mpr ⟨a, ha', h⟩ : b.1 ∈ t.map Prod.fst) hs.1
      · exact ih hs.2 ha' hb'

/-- **C41 (uniqueness).** After any sequence of operations on the namespace stack no two entries have the same key, a rejected push
(key present) leaves the stack unchanged, an accepted one puts the entry on top, and lookup finds exactly the entries held. -/
theorem C41_unique_stack {α : Type} (ops : List (StackOp (Bytes × α))) :
    let s := ops.foldl uOp []
    (s.map Prod.fst).Nodup ∧
    (∀ k v, uniqueLookup s k = some (k, v) ↔ (k, v) ∈ s) ∧
    (∀ x, (∃ y ∈ s, y.1 = x.1) → uniquePush s x = (s, false)) ∧
    (∀ x, (∀ y ∈ s, y.1 ≠ x.1) → uniquePush s x = (s ++ [x], true)) := by
  have hnd : ∀ s0 : List (Bytes × α), (s0.map Prod.fst).Nodup → ((ops.foldl uOp s0).map Prod.fst).Nodup := by
    induction ops with
    | nil => exact fun _ h => h
    | cons op t ih =>
      intro s0 h
      refine ih _ ?_
      cases op with
      | push x =>
        simp only [uOp, uniquePush]
        cases hl : uniqueLookup s0 x.1 with
        | some y => exact h
        | none =>
          rw [uniqueLookup_none] at hl
          simp only [List.map_append, List.map_cons, List.map_nil]
          rw [List.nodup_append]
          refine ⟨h, by simp, ?_⟩
          intro a ha b hb hab
          obtain ⟨y, hy, rfl⟩ := List.mem_map.mp ha
          simp at hb; subst hb; exact hl y hy hab
      | pop n =>
        simp only [uOp, stackPop_eq, List.map_take]
        exact h.sublist (List.take_sublist _ _)
  intro s
  have hs : (s.map Prod.fst).Nodup := hnd [] (by simp)
  refine ⟨hs, ?_, ?_, ?_⟩
  · intro k v
    constructor
    · intro h
      have := List.mem_of_find?_eq_some h
      simpa using this
    · intro h
      cases hl : uniqueLookup s k with
      | none => exact absurd rfl ((uniqueLookup_none s k).mp hl _ h)
      | some y =>
        have hy : y ∈ s := by simpa using List.mem_of_find?_eq_some hl
        have hk : y.1 = k := by simpa using List.find?_some hl
        have : y = (k, v) := by
          exact nodup_fst_eq s hs y _ hy h hk
        rw [this]
  · rintro x ⟨y, hy, hk⟩
    unfold uniquePush
    cases hl : uniqueLookup s x.1 with
    | some _ => rfl
    | none => exact absurd hk ((uniqueLookup_none s x.1).mp hl y hy)
  · intro x h
    unfold uniquePush
    rw [(uniqueLookup_none s x.1).mpr h]

example : ([.push (b!"a", 1), .push (b!"b", 2), .push (b!"a", 3), .pop 1] : List (StackOp (Bytes × Nat))).foldl uOp [] =
    [(b!"a", 1)] := by decide

/-! ### C34 -/

/-- **C34.** The copy of a content model equals it (the model value has no sharing, so equality is the claim). -/
theorem C34_copy_content_model (c : EC) : copyEC c = c := by
  have : ∀ c, copyEC c = c ∧ copyEC.copyC2 c = c := by
    intro c
    induction c with
    | nil => exact ⟨rfl, rfl⟩
    | mk t o n p c1 c2 ih1 ih2 =>
      constructor
      · simp [copyEC, ih1.1, ih2.2]
      · simp [copyEC.copyC2, ih1.1, ih2.2]
  exact (this c).1

example : copyEC (.mk 3 1 [] [] (.mk 2 2 b!"a" [] .nil .nil) (.mk 4 3 [] [] (.mk 2 1 b!"b" b!"p" .nil .nil) .nil)) =
    (.mk 3 1 [] [] (.mk 2 2 b!"a" [] .nil .nil) (.mk 4 3 [] [] (.mk 2 1 b!"b" b!"p" .nil .nil) .nil)) := by decide

/-! ### C43 -/

/-- a trailing space survives collapsing. -/
def trail (t : Bytes) : Bytes := if t.getLast? = some 32 then [32] else []

theorem collapseSp_ns (c : Nat) (t : Bytes) (h : c ≠ 32) : collapseSp (c :: t) = c :: collapseSp t := by
  unfold collapseSp; rw [if_pos h]; cases t <;> rfl

theorem dropWhile_nil {p : Nat → Bool} {t : Bytes} (h : t.dropWhile p = []) : ∀ x ∈ t, p x = true := by
  induction t with
  | nil => simp
  | cons c t ih =>
    rw [List.dropWhile_cons] at h
    split at h
    · rename_i hc
      intro x hx
      rcases List.mem_cons.mp hx with rfl | hx
      · exact hc
      · exact ih h x hx
    · cases h

theorem dropWhile_all {p : Nat → Bool} {t : Bytes} (h : ∀ x ∈ t, p x = true) : t.dropWhile p = [] := by
  induction t with
  | nil => rfl
  | cons c t ih =>
    rw [List.dropWhile_cons, if_pos (h c (by simp))]
    exact ih (fun x hx => h x (by simp [hx]))

theorem collapseSp_sp (u : Bytes) : collapseSp (32 :: u) = 32 :: collapseSp (u.dropWhile (· == 32)) := by
  induction u with
  | nil => rfl
  | cons c t ih =>
    by_cases hc : c = 32
    · subst hc
      have : collapseSp (32 :: 32 :: t) = collapseSp (32 :: t) := by simp [collapseSp]
      rw [this, ih]; simp
    · have : collapseSp (32 :: c :: t) = 32 :: collapseSp (c :: t) := by
        rw [collapseSp]
        · simp
        · intro tail h; simp only [List.cons.injEq] at h; exact hc h.1
      rw [this]; simp [hc]

theorem words_sp (u : Bytes) : words [] u = words [] (u.dropWhile (· == 32)) := by
  induction u with
  | nil => rfl
  | cons c t ih =>
    by_cases hc : c = 32
    · subst hc; simpa [words] using ih
    · simp [hc]

theorem words_ne_nil (a : Nat) (l t : Bytes) : words (a :: l) t ≠ [] := by
  induction t generalizing a l with
  | nil => simp [words]
  | cons c t ih =>
    simp only [words]
    split
    · simp
    · exact ih _ _

theorem collapse_words (n : Nat) : ∀ (a : Nat) (l t : Bytes), t.length ≤ n →
    (a :: l).reverse ++ collapseSp t = unwords (words (a :: l) t) ++ trail t := by
  induction n with
  | zero =>
    intro a l t h
    have : t = [] := List.length_eq_zero_iff.mp (by omega)
    subst this; simp [words, collapseSp, unwords, trail]
  | succ n ih =>
    intro a l t h
    cases t with
    | nil => simp [words, collapseSp, unwords, trail]
    | cons c t =>
      simp only [List.length_cons] at h
      by_cases hc : c = 32
      · subst hc
        rw [collapseSp_sp]
        have hw : words (a :: l) (32 :: t) = (a :: l).reverse :: words [] (t.dropWhile (· == 32)) := by
          rw [← words_sp]; simp [words]
        rw [hw]
        have hlen : (t.dropWhile (· == 32)).length ≤ t.length := (List.dropWhile_sublist _).length_le
        have hlast : t.dropWhile (· == 32) ≠ [] → (32 :: t).getLast? = (t.dropWhile (· == 32)).getLast? := by
          intro hne
          obtain ⟨pre, hpre⟩ := List.dropWhile_suffix (l := t) (· == 32)
          conv => lhs; rw [← hpre]
          rw [← List.cons_append, List.getLast?_append]
          cases hq : (t.dropWhile (· == 32)).getLast? with
          | none => exact absurd (List.getLast?_eq_none_iff.mp hq) hne
          | some x => rfl
        have hempty : t.dropWhile (· == 32) = [] → (32 :: t).getLast? = some 32 := by
          intro he
          have hall : ∀ x ∈ t, x = 32 := by
            intro x hx
            have := dropWhile_nil he x hx
            simpa using this
          rw [List.getLast?_eq_some_getLast (by simp)]
          congr 1
          have := List.getLast_mem (l := 32 :: t) (by simp)
          rcases List.mem_cons.mp this with h | h
          · exact h
          · exact hall _ h
        have hhead : ∀ d u, t.dropWhile (· == 32) = d :: u → d ≠ 32 := by
          intro d u he hd
          have := List.head?_dropWhile_not (· == 32) t
          rw [he] at this; simp [hd] at this
        cases hu : t.dropWhile (· == 32) with
        | nil => simp [words, unwords, trail, hempty hu, collapseSp]
        | cons d u =>
          have hd := hhead d u hu
          rw [hu] at hlen hlast
          simp only [List.length_cons] at hlen
          have hi := ih d [] u (by omega)
          have hw1 : words [] (d :: u) = words [d] u := by simp [words, hd]
          have hc1 : collapseSp (d :: u) = d :: collapseSp u := collapseSp_ns _ _ hd
          have ht : trail (32 :: t) = trail u := by
            unfold trail
            rw [hlast (by simp)]
            cases u with
            | nil => simp [hd]
            | cons e u => simp
          rw [hw1, hc1, ht]
          obtain ⟨w, ws, hws⟩ := List.exists_cons_of_ne_nil (words_ne_nil d [] u)
          rw [hws] at hi ⊢
          simp only [List.reverse_cons, List.reverse_nil, List.nil_append, List.singleton_append] at hi
          simp only [unwords]
          rw [hi]; simp
      · have h1 : words (a :: l) (c :: t) = words (c :: a :: l) t := by simp [words, hc]
        have h2 : collapseSp (c :: t) = c :: collapseSp t := collapseSp_ns _ _ hc
        have h3 : trail (c :: t) = trail t := by
          unfold trail
          cases t with
          | nil => simp [hc]
          | cons e u => simp
        rw [h1, h2, h3, ← ih c (a :: l) t (by omega)]
        simp

theorem collapse_total (t : Bytes) (d : Nat) (hd : d ≠ 32) :
    collapseSp (d :: t) = unwords (words [] (d :: t)) ++ trail (d :: t) := by
  have := collapse_words t.length d [] t (Nat.le_refl _)
  have hw1 : words [] (d :: t) = words [d] t := by simp [words, hd]
  have hc1 : collapseSp (d :: t) = d :: collapseSp t := collapseSp_ns _ _ hd
  have h3 : trail (d :: t) = trail t := by
    unfold trail
    cases t with
    | nil => simp [hd]
    | cons e u => simp
  rw [hw1, hc1, h3]; simpa using this

theorem words_mem (acc t : Bytes) (hacc : 32 ∉ acc) : ∀ w ∈ words acc t, w ≠ [] ∧ 32 ∉ w := by
  induction t generalizing acc with
  | nil =>
    cases acc with
    | nil => simp [words]
    | cons a l => intro w hw; simp only [words, List.mem_singleton] at hw; subst hw; exact ⟨by simp, by rwa [List.mem_reverse]⟩
  | cons c t ih =>
    intro w hw
    cases acc with
    | nil =>
      simp only [words] at hw
      split at hw
      · exact ih [] (by simp) w hw
      · rename_i hc; exact ih [c] (by simpa using fun e => hc e.symm) w hw
    | cons a l =>
      simp only [words] at hw
      split at hw
      · rcases List.mem_cons.mp hw with h | h
        · subst h; exact ⟨by simp, by rwa [List.mem_reverse]⟩
        · exact ih [] (by simp) w h
      · rename_i hc
        exact ih (c :: a :: l) (by intro h; rcases List.mem_cons.mp h with h | h; exact hc h.symm; exact hacc h) w hw

theorem unwords_last (ws : List Bytes) (h : ∀ w ∈ ws, w ≠ [] ∧ 32 ∉ w) : (unwords ws).getLast? ≠ some 32 := by
  induction ws with
  | nil => simp [unwords]
  | cons w ws ih =>
    cases ws with
    | nil =>
      simp only [unwords]
      intro hc
      exact (h w (by simp)).2 (List.mem_of_getLast? hc)
    | cons v ws =>
      have hu : unwords (w :: v :: ws) = (w ++ [32]) ++ unwords (v :: ws) := by simp [unwords]
      rw [hu, List.getLast?_append]
      have hne : unwords (v :: ws) ≠ [] := by
        have := (h v (by simp)).1
        cases ws with
        | nil => simpa [unwords] using this
        | cons _ _ => simp [unwords]
      cases hq : (unwords (v :: ws)).getLast? with
      | none => exact absurd (List.getLast?_eq_none_iff.mp hq) hne
      | some x =>
        have := ih (fun w hw => h w (by simp [hw]))
        rw [hq] at this; simpa using this

/-- **C43, what holds.** Normalising a value that contains something other than spaces succeeds and gives its words (maximal
runs of non-space bytes) joined by single spaces; the empty value is left alone. Missing: non-empty values made of
spaces only, where the code panics (`C43_refuted`). -/
theorem C43_normalize_partial {S : Type} (s : Bytes) (st : S) (h : s = [] ∨ ∃ c ∈ s, c ≠ 32) :
    attrNormalizeSpace s st = .ok (unwords (words [] s)) st := by
  rcases h with rfl | ⟨c, hc, hne⟩
  · rfl
  · unfold attrNormalizeSpace
    have hs : s ≠ [] := by rintro rfl; cases hc
    rw [if_neg hs]
    have hdne : s.dropWhile (· == 32) ≠ [] := by
      intro he
      have := dropWhile_nil he c hc
      simp at this; exact hne this
    obtain ⟨d, u, hu⟩ := List.exists_cons_of_ne_nil hdne
    have hd : d ≠ 32 := by
      intro hd
      have := List.head?_dropWhile_not (· == 32) s
      rw [hu] at this; simp [hd] at this
    simp only [hu]
    rw [words_sp, hu, collapse_total u d hd]
    have hwm := words_mem [] (d :: u) (by simp)
    have hl := unwords_last _ hwm
    have hne : unwords (words [] (d :: u)) ≠ [] := by
      have hw1 : words [] (d :: u) = words [d] u := by simp [words, hd]
      obtain ⟨w, ws, hws⟩ := List.exists_cons_of_ne_nil (words_ne_nil d [] u)
      rw [hw1] at hwm ⊢
      rw [hws] at hwm ⊢
      have := (hwm w (by simp)).1
      cases ws with
      | nil => simpa [unwords] using this
      | cons _ _ => simp [unwords]
    generalize unwords (words [] (d :: u)) = w at hl hne
    by_cases ht : (d :: u).getLast? = some 32
    · have : trail (d :: u) = [32] := by simp [trail, ht]
      rw [this]; simp [Pure.pure, M.pure]
    · have : trail (d :: u) = [] := by simp [trail, ht]
      rw [this, List.append_nil]
      cases hq : w.getLast? with
      | none => exact absurd (List.getLast?_eq_none_iff.mp hq) hne
      | some x =>
        rw [hq] at hl
        have hx : x ≠ 32 := fun e => hl (by rw [e])
        simp [hx, Pure.pure, M.pure]

example : ∃ c ∈ b!"  a  b ", c ≠ 32 := ⟨97, by decide, by decide⟩
example : unwords (words [] b!"  a  b ") = b!"a b" := by decide

/-- **C43 refuted in full**: a tokenised attribute whose value is one space makes the normalisation panic. -/
theorem C43_refuted : ¬ ∀ (s : Bytes) (st : Unit), ∃ r, attrNormalizeSpace s st = .ok r st := by
  intro h
  obtain ⟨r, hr⟩ := h [32] ()
  cases hr

/-- **C43, the failing case exactly**: every non-empty value made of spaces only panics. -/
theorem C43_spaces_panic {S : Type} (s : Bytes) (st : S) (hs : s ≠ []) (h : ∀ c ∈ s, c = 32) :
    attrNormalizeSpace s st = .panic := by
  unfold attrNormalizeSpace
  rw [if_neg hs]
  have : s.dropWhile (· == 32) = [] := dropWhile_all (fun x hx => by simp [h x hx])
  simp [this, collapseSp, M.panic]

theorem words_word (w acc : Bytes) (rest : Bytes) (hw : 32 ∉ w) (hr : rest = [] ∨ ∃ r, rest = 32 :: r)
    (hne : acc ≠ [] ∨ w ≠ []) : words acc (w ++ rest) = (acc.reverse ++ w) :: words [] rest := by
  induction w generalizing acc with
  | nil =>
    obtain ⟨a, l, rfl⟩ := List.exists_cons_of_ne_nil (by simpa using hne : acc ≠ [])
    rcases hr with rfl | ⟨r, rfl⟩
    · simp [words]
    · simp [words]
  | cons c t ih =>
    have hc : c ≠ 32 := fun e => hw (by simp [e])
    have ht : 32 ∉ t := fun h => hw (by simp [h])
    have : words acc (c :: t ++ rest) = words (c :: acc) (t ++ rest) := by
      cases acc <;> simp [words, hc]
    rw [this, ih (c :: acc) ht (by simp)]
    simp

theorem words_unwords (ws : List Bytes) (h : ∀ w ∈ ws, w ≠ [] ∧ 32 ∉ w) : words [] (unwords ws) = ws := by
  induction ws with
  | nil => rfl
  | cons w ws ih =>
    cases ws with
    | nil =>
      have := words_word w [] [] (h w (by simp)).2 (Or.inl rfl) (Or.inr (h w (by simp)).1)
      simpa [unwords, words] using this
    | cons v ws =>
      have := words_word w [] (32 :: unwords (v :: ws)) (h w (by simp)).2 (Or.inr ⟨_, rfl⟩) (Or.inr (h w (by simp)).1)
      simp only [unwords]
      rw [this]
      have h2 : words [] (32 :: unwords (v :: ws)) = words [] (unwords (v :: ws)) := by simp [words]
      rw [h2, ih (fun w hw => h w (by simp [hw]))]
      simp

/-- **C43 (idempotence).** Normalising a normalised value changes nothing. -/
theorem C43_idempotent {S : Type} (s r : Bytes) (st : S) (h : attrNormalizeSpace s st = .ok r st) :
    attrNormalizeSpace r st = .ok r st := by
  by_cases hs : s = [] ∨ ∃ c ∈ s, c ≠ 32
  · rw [C43_normalize_partial s st hs] at h
    cases h
    have hw := words_mem [] s (by simp)
    rw [C43_normalize_partial, words_unwords _ hw]
    cases hc : words [] s with
    | nil => left; rfl
    | cons w ws =>
      right
      rw [hc] at hw
      obtain ⟨a, l, hal⟩ := List.exists_cons_of_ne_nil (hw w (by simp)).1
      refine ⟨a, ?_, fun e => (hw w (by simp)).2 (by rw [hal, e]; simp)⟩
      cases ws <;> simp [unwords, hal]
  · simp only [not_or, not_exists, not_and, not_not] at hs
    rw [C43_spaces_panic s st hs.1 hs.2] at h; cases h

example : attrNormalizeSpace b!"  a  b " () = .ok b!"a b" () := by rfl

/-! ### C24 -/

/-- two ASCII strings equal up to letter case. -/
inductive CaseEq : Bytes → Bytes → Prop
  | nil : CaseEq [] []
  | cons {x y : Nat} {a b : Bytes} (h : x = y ∨ (65 ≤ x ∧ x ≤ 90 ∧ y = x + 32) ∨ (65 ≤ y ∧ y ≤ 90 ∧ x = y + 32)) (t : CaseEq a b) :
      CaseEq (x :: a) (y :: b)

theorem CaseEq.lower {a b : Bytes} (h : CaseEq a b) : toLower a = toLower b := by
  induction h with
  | nil => rfl
  | cons hxy _ ih =>
    unfold toLower at ih ⊢
    simp only [List.map_cons, ih]
    congr 1
    rcases hxy with h | h | h
    · rw [h]
    · rw [if_pos (by omega), if_neg (by omega)]; omega
    · rw [if_neg (by omega), if_pos (by omega)]; omega

theorem caseEq_lower (a : Bytes) : CaseEq a (toLower a) := by
  induction a with
  | nil => exact .nil
  | cons c t ih =>
    refine .cons ?_ ih
    simp only
    split <;> omega

/-- the supported names, in lower case, as documented by the switch of encoding.Load. -/
def supportedNames : List Bytes := [
  b!"utf8", b!"utf-8", b!"euc-jp", b!"shift_jis", b!"shift-jis", b!"shiftjis", b!"cp932", b!"jis", b!"iso-2022-jp", b!"big5",
  b!"euc-kr", b!"hz-gb2312", b!"cp437", b!"cp866", b!"iso-8859-10", b!"iso-8859-13", b!"iso-8859-14", b!"iso-8859-15",
  b!"iso-8859-16", b!"iso-8859-2", b!"iso-8859-3", b!"iso-8859-4", b!"iso-8859-5", b!"iso-8859-6", b!"iso-8859-7",
  b!"iso-8859-8", b!"koi8r", b!"koir8u", b!"macintosh", b!"macintoshcyrillic", b!"windows1250", b!"windows1251",
  b!"iso-8859-1", b!"windows1252", b!"windows1253", b!"windows1254", b!"windows1255", b!"windows1256", b!"windows1257",
  b!"windows1258", b!"windows874", b!"xuserdefined"]

theorem mapGet_isSome {α : Type} (m : List (Bytes × α)) (k : Bytes) : (mapGet m k).isSome = true ↔ k ∈ m.map Prod.fst := by
  unfold mapGet
  rw [Option.isSome_map]
  simp [List.find?_isSome]

/-- **C24 (lookup).** Names equal up to letter case load the same encoding; a name loads an encoding iff it is, up to letter
case, one of the supported names; UTF-8 is loaded for both its spellings only. -/
theorem C24_encoding_lookup :
    (∀ a b, CaseEq a b → encLoad a = encLoad b) ∧
    (∀ a, (encLoad a).isSome = true ↔ ∃ n ∈ supportedNames, CaseEq a n) ∧
    (∀ a, encLoad a = some .utf8 ↔ CaseEq a b!"utf8" ∨ CaseEq a b!"utf-8") := by
  have hlow : ∀ n ∈ supportedNames, toLower n = n := by decide +kernel
  refine ⟨fun a b h => by unfold encLoad; rw [h.lower], ?_, ?_⟩
  · intro a
    unfold encLoad
    rw [mapGet_isSome, show encTable.map Prod.fst = supportedNames from rfl]
    constructor
    · intro h; exact ⟨_, h, caseEq_lower a⟩
    · rintro ⟨n, hn, hc⟩
      rw [hc.lower, hlow n hn]; exact hn
  · intro a
    constructor
    · intro h
      unfold encLoad mapGet at h
      obtain ⟨p, hp, hv⟩ := Option.map_eq_some_iff.mp h
      have hm := List.mem_of_find?_eq_some hp
      have hk := List.find?_some hp
      have : ∀ p ∈ encTable, p.2 = .utf8 → p.1 = b!"utf8" ∨ p.1 = b!"utf-8" := by decide +kernel
      have := this p hm hv
      simp only [beq_iff_eq] at hk
      rw [hk] at this
      rcases this with h | h
      · left; rw [← h]; exact caseEq_lower a
      · right; rw [← h]; exact caseEq_lower a
    · intro h
      unfold encLoad
      rcases h with h | h <;> rw [h.lower] <;> decide +kernel

example : CaseEq b!"UtF-8" b!"utf-8" := by
  exact .cons (by omega) (.cons (by omega) (.cons (by omega) (.cons (by omega) (.cons (by omega) .nil))))

/-- **C24 (refusal).** If the XML declaration names an encoding that is not supported, Parse of a document with that declaration
fails: whatever follows the declaration, switching to an unsupported encoding is an error and nothing is decoded. -/
theorem C24_unsupported_refused {σ : Type} (E : Env) (s : St σ) (hn : s.encoding ≠ [])
    (h : ¬ ∃ n ∈ supportedNames, CaseEq s.encoding n) :
    switchEncoding E s = .err (.k .mUnsupportedEncoding) s := by
  have : encLoad s.encoding = none := by
    cases hl : encLoad s.encoding with
    | none => rfl
    | some c => exact absurd ((C24_encoding_lookup.2.1 _).mp (by rw [hl]; rfl)) h
  unfold switchEncoding
  simp [Bind.bind, M.bind, M.get, hn, this, M.raw, M.fail]

end Helium
