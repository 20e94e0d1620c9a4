import Verif.Spec.ModelLang
import Verif.Model.Parser.Dtd
import Verif.Lemmas.Forward
import Verif.Model.StdEnv
import Verif.Model.Parser.Content
import Verif.Props.Content
/-! # The normalisation of content models keeps their meaning (C74) -/
namespace Helium
open Spec

/-! ### sets of sequences -/

theorem Many.one {A : Seqs} {w : List (Bytes × Bytes)} (h : A w) : Many A w := by
  have := Many.more h .none
  rwa [List.append_nil] at this

theorem Many.append {A : Seqs} {x y : List (Bytes × Bytes)} (h : Many A x) (k : Many A y) : Many A (x ++ y) := by
  induction h with
  | none => exact k
  | more h1 _ ih => rw [List.append_assoc]; exact .more h1 ih

theorem Many.bind {A B : Seqs} (hab : ∀ w, A w → Many B w) {w : List (Bytes × Bytes)} (h : Many A w) : Many B w := by
  induction h with
  | none => exact .none
  | more h1 _ ih => exact Many.append (hab _ h1) ih

/-- the same repetitions. -/
def SameMany (A B : Seqs) : Prop := SameSeqs (Many A) (Many B)

theorem SameMany.of {A B : Seqs} (h1 : ∀ w, A w → Many B w) (h2 : ∀ w, B w → Many A w) : SameMany A B := fun _ => ⟨Many.bind h1, Many.bind h2⟩

theorem SameMany.refl (A : Seqs) : SameMany A A := fun _ => Iff.rfl
theorem SameMany.symm {A B : Seqs} (h : SameMany A B) : SameMany B A := fun w => (h w).symm
theorem SameMany.trans {A B C : Seqs} (h : SameMany A B) (k : SameMany B C) : SameMany A C := fun w => (h w).trans (k w)

theorem Repeated.one {A : Seqs} {w : List (Bytes × Bytes)} (o : Nat) (h : A w) : Repeated o A w := by
  unfold Repeated
  split
  · exact .inr h
  · exact Many.one h
  · exact ⟨w, [], h, .none, by simp⟩
  · exact h

theorem Repeated.many {A : Seqs} {w : List (Bytes × Bytes)} {o : Nat} (h : Repeated o A w) : Many A w := by
  unfold Repeated at h
  split at h
  · rcases h with rfl | h
    · exact .none
    · exact Many.one h
  · exact h
  · obtain ⟨x, y, h1, h2, rfl⟩ := h
    exact .more h1 h2
  · exact Many.one h

theorem sameMany_repeated (o : Nat) (A : Seqs) : SameMany (Repeated o A) A := .of (fun _ h => Repeated.many h) (fun _ h => Many.one (Repeated.one o h))

/-- what a node allows, without its mark. -/
def unmarked (t : Nat) (n p : Bytes) (a b : EC) : Seqs := fun w =>
  (t = 1 ∧ w = []) ∨ (t = 2 ∧ w = [(p, n)]) ∨ (t = 3 ∧ ∃ x y, Allowed a x ∧ Allowed b y ∧ w = x ++ y) ∨ (t = 4 ∧ (Allowed a w ∨ Allowed b w))

theorem allowed_mk (t o : Nat) (n p : Bytes) (a b : EC) : Allowed (.mk t o n p a b) = Repeated o (unmarked t n p a b) := rfl

theorem sameMany_mk (t o : Nat) (n p : Bytes) (a b : EC) : SameMany (Allowed (.mk t o n p a b)) (unmarked t n p a b) := sameMany_repeated _ _

theorem sameMany_setOcc (o : Nat) (e : EC) : SameMany (Allowed (e.setOcc o)) (Allowed e) := by
  cases e with
  | nil => exact .refl _
  | mk t o' n p a b => exact (sameMany_mk _ _ _ _ _ _).trans (sameMany_mk _ _ _ _ _ _).symm

theorem sameMany_relax (e : EC) : SameMany (Allowed (relaxOcc e)) (Allowed e) := by
  unfold relaxOcc
  split
  · exact sameMany_setOcc _ _
  · exact .refl _

theorem sameMany_or (n p : Bytes) {a a' b b' : EC} (ha : SameMany (Allowed a) (Allowed a')) (hb : SameMany (Allowed b) (Allowed b')) :
    SameMany (unmarked 4 n p a b) (unmarked 4 n p a' b') := by
  have key : ∀ {a a' b b' : EC}, SameMany (Allowed a) (Allowed a') → SameMany (Allowed b) (Allowed b') → ∀ w, unmarked 4 n p a b w → Many (unmarked 4 n p a' b') w := by
    intro a a' b b' ha hb w h
    rcases h with ⟨h, _⟩ | ⟨h, _⟩ | ⟨h, _⟩ | ⟨_, h | h⟩
    · exact absurd h (by decide)
    · exact absurd h (by decide)
    · exact absurd h (by decide)
    · exact Many.bind (fun w h => Many.one (.inr (.inr (.inr ⟨rfl, .inl h⟩)))) ((ha w).1 (Many.one h))
    · exact Many.bind (fun w h => Many.one (.inr (.inr (.inr ⟨rfl, .inr h⟩)))) ((hb w).1 (Many.one h))
  exact .of (key ha hb) (key ha.symm hb.symm)

theorem sameMany_norm : ∀ (r : Bool) (e : EC), SameMany (Allowed (normOr r e)) (Allowed e)
  | _, .nil => .refl _
  | r, .mk t o n p a b => by
    unfold normOr
    simp only
    split
    · next h =>
      subst h
      exact (sameMany_mk _ _ _ _ _ _).trans ((sameMany_or n p (sameMany_relax a) (sameMany_norm true b)).trans (sameMany_mk _ _ _ _ _ _).symm)
    · exact (sameMany_mk _ _ _ _ _ _).trans (sameMany_mk _ _ _ _ _ _).symm

theorem norm_unfound : ∀ (e : EC) (r : Bool), normFound e = false → (r = true → e.occ ≠ 2 ∧ e.occ ≠ 3) → normOr r e = e
  | .nil, _, _, _ => rfl
  | .mk t o n p a b, r, h, hr => by
    have ho : (if r = true ∧ (o = 2 ∨ o = 3) then 1 else o) = o := if_neg (fun ⟨h1, h2⟩ => by
      have := hr h1
      simp only [EC.occ] at this
      omega)
    unfold normOr
    simp only [ho]
    unfold normFound at h
    by_cases ht : t = 4
    · simp only [ht, if_true, Bool.or_eq_false_iff, beq_eq_false_iff_ne] at h ⊢
      obtain ⟨⟨⟨a2, a3⟩, b2, b3⟩, hb⟩ := h
      rw [norm_unfound b true hb (fun _ => ⟨b2, b3⟩)]
      unfold relaxOcc
      rw [if_neg (by omega)]
    · simp only [ht, if_false]

theorem empty_of_occ {e : EC} (h : e.occ = 2 ∨ e.occ = 3) : Allowed e [] := by
  cases e with
  | nil => simp [EC.occ] at h
  | mk t o n p a b =>
    simp only [EC.occ] at h
    rcases h with rfl | rfl
    · exact .inl rfl
    · exact Many.none

theorem empty_of_found : ∀ {e : EC}, normFound e = true → Allowed e []
  | .nil, h => by cases h
  | .mk t o n p a b, h => by
    unfold normFound at h
    by_cases ht : t = 4
    · subst ht
      simp only [if_true, Bool.or_eq_true, beq_iff_eq] at h
      refine Repeated.one o (.inr (.inr (.inr ⟨rfl, ?_⟩)))
      rcases h with (h | h) | h
      · exact .inl (empty_of_occ h)
      · exact .inr (empty_of_occ h)
      · exact .inr (empty_of_found h)
    · simp [ht] at h

/-! ### the marks of a group -/

theorem repeated_congr {A B : Seqs} (h : SameSeqs A B) (o : Nat) : SameSeqs (Repeated o A) (Repeated o B) := by
  have : A = B := funext fun w => propext (h w)
  rw [this]
  exact fun _ => Iff.rfl

theorem many_many {A : Seqs} : SameSeqs (Many (Many A)) (Many A) := fun _ => ⟨Many.bind (fun _ h => h), Many.one⟩

/-- repeating at least once what may be empty is repeating it. -/
theorem plus_of_empty {A : Seqs} (h : A []) : SameSeqs (Repeated 4 A) (Many A) := fun w =>
  ⟨Repeated.many, fun k => ⟨[], w, h, k, rfl⟩⟩

theorem plus_plus {A : Seqs} : SameSeqs (Repeated 4 (Repeated 4 A)) (Repeated 4 A) := fun w => by
  constructor
  · rintro ⟨x, y, ⟨u, v, h1, h2, rfl⟩, h3, rfl⟩
    exact ⟨u, v ++ y, h1, Many.append h2 (Many.bind (fun _ h => Repeated.many h) h3), by simp⟩
  · exact Repeated.one 4

theorem opt_plus {A : Seqs} : SameSeqs (Repeated 2 (Repeated 4 A)) (Many A) := fun w => by
  constructor
  · rintro (rfl | h)
    · exact .none
    · exact Repeated.many h
  · intro h
    cases h with
    | none => exact .inl rfl
    | more h1 h2 => exact .inr ⟨_, _, h1, h2, rfl⟩

/-- the mark `?` after a group. -/
theorem close_opt {e : EC} (hn : e ≠ .nil) (h : e.occ ≠ 3) : SameSeqs (Allowed (if e.occ = 4 then e.setOcc 3 else e.setOcc 2)) (Repeated 2 (Allowed e)) := by
  cases e with
  | nil => exact absurd rfl hn
  | mk t o n p a b =>
    have h : o ≠ 3 := h
    show SameSeqs (Allowed (if o = 4 then .mk t 3 n p a b else .mk t 2 n p a b)) (Repeated 2 (Allowed (.mk t o n p a b)))
    by_cases ho : o = 4
    · subst ho
      intro w
      rw [if_pos rfl, allowed_mk, allowed_mk]
      exact (opt_plus w).symm
    · rw [if_neg ho]
      intro w
      rw [allowed_mk, allowed_mk]
      by_cases h2 : o = 2
      · subst h2
        exact ⟨.inr, fun k => k.elim .inl id⟩
      · have : Repeated o (unmarked t n p a b) = unmarked t n p a b := by
          unfold Repeated
          split <;> first | rfl | omega
        rw [this]

/-- the mark `+` after a single member. -/
theorem close_plus {e : EC} (hn : e ≠ .nil) (h : e.occ ≠ 3) : SameSeqs (Allowed (e.setOcc (if e.occ = 2 then 3 else 4))) (Repeated 4 (Allowed e)) := by
  cases e with
  | nil => exact absurd rfl hn
  | mk t o n p a b =>
    have h : o ≠ 3 := h
    intro w
    show Repeated (if o = 2 then 3 else 4) (unmarked t n p a b) w ↔ Repeated 4 (Repeated o (unmarked t n p a b)) w
    by_cases ho : o = 2
    · subst ho
      rw [if_pos rfl]
      exact ((plus_of_empty (A := Repeated 2 (unmarked t n p a b)) (.inl rfl) w).trans (sameMany_repeated 2 _ w)).symm
    · rw [if_neg ho]
      by_cases h4 : o = 4
      · subst h4
        exact (plus_plus w).symm
      · have : Repeated o (unmarked t n p a b) = unmarked t n p a b := by
          unfold Repeated
          split <;> first | rfl | omega
        rw [this]

/-- the mark `*` after a group, with the normalisation. -/
theorem close_star {e : EC} (hn : e ≠ .nil) : SameSeqs (Allowed (normOr false (e.setOcc 3))) (Repeated 3 (Allowed e)) := by
  cases e with
  | nil => exact absurd rfl hn
  | mk t o n p a b =>
    intro w
    have k := (sameMany_norm false (.mk t 3 n p a b) w).trans (sameMany_setOcc 3 (.mk t o n p a b) w)
    have e1 : ∃ a' b', normOr false (.mk t 3 n p a b) = .mk t 3 n p a' b' := by
      unfold normOr
      simp only [Bool.false_eq_true, false_and, if_false]
      split
      · exact ⟨_, _, rfl⟩
      · exact ⟨_, _, rfl⟩
    obtain ⟨a', b', e1⟩ := e1
    show Allowed (normOr false (.mk t 3 n p a b)) w ↔ _
    rw [e1] at k ⊢
    exact (many_many w).symm.trans k

theorem sameMany_chain {e e' : EC} (h : SameMany (Allowed e) (Allowed e')) : ∀ {ops : List (Nat × EC)}, (∀ x ∈ ops, x.1 = 4) →
    SameMany (Allowed (buildChain ops e)) (Allowed (buildChain ops e'))
  | [], _ => h
  | (t, c) :: ops, ht => by
    obtain rfl : t = 4 := ht (t, c) List.mem_cons_self
    unfold buildChain
    exact (sameMany_mk _ _ _ _ _ _).trans ((sameMany_or [] [] (.refl _) (sameMany_chain h (fun x hx => ht x (List.mem_cons_of_mem _ hx)))).trans
      (sameMany_mk _ _ _ _ _ _).symm)

theorem empty_chain {e : EC} (h : Allowed e []) : ∀ {ops : List (Nat × EC)}, (∀ x ∈ ops, x.1 = 4) → Allowed (buildChain ops e) []
  | [], _ => h
  | (t, c) :: ops, ht => by
    obtain rfl : t = 4 := ht (t, c) List.mem_cons_self
    exact .inr (.inr (.inr ⟨rfl, .inr (empty_chain h (fun x hx => ht x (List.mem_cons_of_mem _ hx)))⟩))

theorem buildChain_concat : ∀ (l : List (Nat × EC)) (x : Nat × EC) (e : EC), buildChain (l ++ [x]) e = buildChain l (.mk x.1 1 [] [] x.2 e)
  | [], (_, _), _ => rfl
  | (t, c) :: l, x, e => by
    show EC.mk t 1 [] [] c (buildChain (l ++ [x]) e) = _
    rw [buildChain_concat l x e]
    rfl

theorem chain_occ {l : List (Nat × EC)} {t : Nat} {c e : EC} : (buildChain l (.mk t 1 [] [] c e)).occ = 1 := by
  cases l with
  | nil => rfl
  | cons => rfl

/-- the mark `+` after several members, with the normalisation. -/
theorem close_plus_chain {l : List (Nat × EC)} {t : Nat} {c e : EC} (hl : ∀ x ∈ l, x.1 = t) :
    SameSeqs (Allowed ((buildChain l (normOr false (.mk t 1 [] [] c e))).setOcc (if normFound (.mk t 1 [] [] c e) = true then 3 else 4)))
      (Repeated 4 (Allowed (buildChain l (.mk t 1 [] [] c e)))) := by
  have hn : buildChain l (.mk t 1 [] [] c e) ≠ .nil := by cases l <;> nofun
  cases hf : normFound (.mk t 1 [] [] c e) with
  | false =>
    rw [norm_unfound _ false hf nofun]
    have := close_plus hn (by rw [chain_occ]; decide)
    rw [chain_occ] at this
    exact this
  | true =>
    have ht : t = 4 := by
      refine Classical.byContradiction fun ht => ?_
      unfold normFound at hf
      simp [ht] at hf
    subst ht
    intro w
    have k := sameMany_chain (sameMany_norm false (.mk 4 1 [] [] c e)) hl w
    have e1 := plus_of_empty (empty_chain (empty_of_found hf) hl) w
    refine Iff.trans ?_ (k.trans e1.symm)
    have : ∃ a b n p, buildChain l (normOr false (.mk 4 1 [] [] c e)) = .mk 4 1 n p a b := by
      cases l with
      | nil => exact ⟨_, _, _, _, rfl⟩
      | cons x l =>
        obtain ⟨u, v⟩ := x
        obtain rfl : u = 4 := hl (u, v) List.mem_cons_self
        exact ⟨_, _, _, _, rfl⟩
    obtain ⟨a, b, n, p, e2⟩ := this
    rw [e2]
    exact Iff.rfl

/-! ### C74 -/

/-- the property in full: whatever mark follows a group, the model built for it allows the group's sequences, as often as the mark says. -/
def C74_statement : Prop := ∀ (E : Env) (st : CS), (∃ t, ∀ x ∈ st.ops, x.1 = t) → st.result ≠ .nil → ∀ (o : Nat) (m : List Nat), OccMark o m →
  ∀ (r : List Nat), (∀ c, r.head? = some c → c ≠ 63 ∧ c ≠ 42 ∧ c ≠ 43) → ∀ (σ : Type) (s : St σ), s.cur = 41 :: (m ++ r) →
  ∃ e s', childrenClose E st s = .ok e s' ∧ SameSeqs (Allowed e) (Repeated o (Allowed st.result))

/-- C74, for all groups but those of a single member marked `*`: the normalisations `(a | b* | c?)* == (a | b | c)*` and
`(a | b*)+ == (a | b)*` keep the meaning. -/
theorem C74_close_partial (E : Env) {st : CS} (hu : ∃ t, ∀ x ∈ st.ops, x.1 = t) (hn : st.result ≠ .nil) (h3 : st.result.occ ≠ 3)
    {o : Nat} {m : List Nat} (ho : OccMark o m) {r : List Nat} (hr : ∀ c, r.head? = some c → c ≠ 63 ∧ c ≠ 42 ∧ c ≠ 43) {σ : Type} {s : St σ} (hs : s.cur = 41 :: (m ++ r)) :
    ∃ e s', childrenClose E st s = .ok e s' ∧ SameSeqs (Allowed e) (Repeated o (Allowed st.result)) := by
  unfold childrenClose
  rw [adv_bind, peek_bind]
  simp only [hs, List.drop_succ_cons, List.drop_zero]
  cases ho with
  | once =>
    have hc : ∀ c, c = 63 ∨ c = 42 ∨ c = 43 → r.getD 0 E.eof ≠ c := by
      intro c hc
      cases r with
      | nil => rw [List.getD_nil]; rcases E.eof_spec with he | he <;> rw [he] <;> omega
      | cons x r => rw [List.getD_cons_zero]; have := hr x rfl; omega
    simp only [List.nil_append, if_neg (hc 63 (.inl rfl)), if_neg (hc 42 (.inr (.inl rfl))), if_neg (hc 43 (.inr (.inr rfl)))]
    exact ⟨_, _, rfl, fun _ => Iff.rfl⟩
  | opt => exact ⟨_, _, rfl, close_opt hn h3⟩
  | mult => exact ⟨_, _, rfl, close_star hn⟩
  | plus =>
    cases hl : st.ops.getLast? with
    | none =>
      cases hres : st.result with
      | nil => exact absurd hres hn
      | mk t1 o1 n1 p1 a1 b1 =>
        refine ⟨_, _, rfl, ?_⟩
        rw [← hres]
        exact close_plus hn h3
    | some x =>
      obtain ⟨t, c⟩ := x
      obtain ⟨l, hops⟩ := List.getLast?_eq_some_iff.1 hl
      obtain ⟨t', hu⟩ := hu
      have hlt : ∀ x ∈ l, x.1 = t := by
        intro x hx
        rw [hu x (by rw [hops]; simp [hx]), ← hu (t, c) (by rw [hops]; simp)]
      have hres : st.result = buildChain l (.mk t 1 [] [] c st.last) := by
        unfold CS.result
        rw [hops, ← buildChain_concat l (t, c)]
        cases l <;> rfl
      have ho1 := chain_occ (l := l) (t := t) (c := c) (e := st.last)
      rw [← hres] at ho1
      cases hres2 : st.result with
      | nil => exact absurd hres2 hn
      | mk t1 o1 n1 p1 a1 b1 =>
        rw [hres2] at ho1
        refine ⟨_, _, rfl, ?_⟩
        rw [← hres2, hres, chain_occ]
        simp only [hops, List.dropLast_concat, Nat.reduceEqDiff, if_false]
        exact close_plus_chain hlt

/-- a group of two members and the mark `+`: the hypotheses are met, the normalisation does something. -/
example : ∃ st : CS, (∃ t, ∀ x ∈ st.ops, x.1 = t) ∧ st.result ≠ .nil ∧ st.result.occ ≠ 3 ∧
    childrenClose env0 st { initSt () Heap.empty [] with cur := b!")+>" } =
      .ok (.mk 4 3 [] [] (.mk 2 1 b!"a" [] .nil .nil) (.mk 2 1 b!"b" [] .nil .nil)) ({ initSt () Heap.empty [] with cur := b!"+>" } : St Unit) :=
  ⟨{ first := .nil, ops := [(4, .mk 2 1 b!"a" [] .nil .nil)], last := .mk 2 3 b!"b" [] .nil .nil }, ⟨4, by simp⟩, nofun, by decide, rfl⟩

/-- **C74 is false**: `(a*)+` is built as `a+`, which does not allow the empty sequence; `(a*)+` does (/repo/parserctx.go:2838-2843). -/
theorem C74_refuted : ¬ C74_statement := by
  intro hs
  obtain ⟨e, s', h, hw⟩ := hs env0 { first := .mk 2 3 b!"a" [] .nil .nil } ⟨0, nofun⟩ nofun 4 [43] .plus [] nofun Unit { initSt () Heap.empty [] with cur := [41, 43] } rfl
  have h1 : childrenClose env0 { first := .mk 2 3 b!"a" [] .nil .nil } { initSt () Heap.empty [] with cur := [41, 43] } =
    .ok (.mk 2 4 b!"a" [] .nil .nil) ({ initSt () Heap.empty [] with cur := [43] } : St Unit) := rfl
  rw [h1] at h
  cases h
  have := (hw []).2 ⟨[], [], .none, .none, rfl⟩
  obtain ⟨x, y, k, _, e⟩ := this
  rcases k with ⟨k, _⟩ | ⟨_, rfl⟩ | ⟨k, _⟩ | ⟨k, _⟩
  · exact absurd k (by decide)
  · cases e
  · exact absurd k (by decide)
  · exact absurd k (by decide)

/-- and `(a*)?` is built as `a?`, which does not allow two `a` (/repo/parserctx.go:2809-2818). Unlike `+` after a group this is accepted by
the parser, see `C53_star_dropped`. -/
theorem C74_opt_star : Allowed (.mk 2 3 b!"a" [] .nil .nil) [([], b!"a"), ([], b!"a")] ∧ ¬ Allowed (.mk 2 2 b!"a" [] .nil .nil) [([], b!"a"), ([], b!"a")] := by
  have h1 : unmarked 2 b!"a" [] .nil .nil [([], b!"a")] := .inr (.inl ⟨rfl, rfl⟩)
  refine ⟨Many.more (A := unmarked 2 b!"a" [] .nil .nil) h1 (Many.more h1 .none), ?_⟩
  rintro (h | ⟨h, _⟩ | ⟨_, h⟩ | ⟨h, _⟩ | ⟨h, _⟩)
  · cases h
  · exact absurd h (by decide)
  · cases h
  · exact absurd h (by decide)
  · exact absurd h (by decide)

/-! ### whole declarations -/

/-- the property for declarations: the handler is told a content model that allows the sequences written. -/
def C74_text_statement : Prop := ∀ (E : Env) (n t : List Nat) (A : Seqs) (r : List Nat), DeclaresChildren E n t A →
  ∃ e, ReadsAs E (t ++ r) (encodeRunes n) 4 e r ∧ SameSeqs (Allowed e) A

theorem allowed_name (p l : List Nat) (o : Nat) : Allowed (nameModel p l o) = Repeated o fun s => s = [(encodeRunes p, encodeRunes l)] := by
  unfold nameModel
  rw [allowed_mk]
  congr 1
  funext w
  simp [unmarked]

theorem allowed_choice (a b : EC) : Allowed (.mk 4 1 [] [] a b) = fun s => Allowed a s ∨ Allowed b s := by
  rw [allowed_mk]
  show unmarked 4 [] [] a b = _
  funext w
  simp [unmarked]

theorem allowed_seq (a b : EC) : Allowed (.mk 3 1 [] [] a b) = fun s => ∃ u v, Allowed a u ∧ Allowed b v ∧ s = u ++ v := by
  rw [allowed_mk]
  show unmarked 3 [] [] a b = _
  funext w
  simp [unmarked]

theorem allowed_opt {e : EC} (hn : e ≠ .nil) (h : starred e = false) : Allowed (madeOpt e) = Repeated 2 (Allowed e) := by
  cases e with
  | nil => exact absurd rfl hn
  | mk t o n p a b =>
    have ho : o ≠ 3 := by rintro rfl; cases h
    have k := close_opt hn ho
    have e1 : madeOpt (.mk t o n p a b) = if (EC.mk t o n p a b).occ = 4 then (EC.mk t o n p a b).setOcc 3 else (EC.mk t o n p a b).setOcc 2 := by
      show EC.mk t (if o = 3 ∨ o = 4 then 3 else 2) n p a b = if o = 4 then EC.mk t 3 n p a b else EC.mk t 2 n p a b
      by_cases h4 : o = 4
      · rw [if_pos (.inr h4), if_pos h4]
      · rw [if_neg (by omega), if_neg h4]
    rw [e1]
    funext w
    exact propext (k w)

theorem modelText_some {E : Env} {k : CK} {d : Nat} {e : EC} {t : List Nat} (h : ModelText E k d e t) : e ≠ .nil := by
  induction h with
  | name => nofun
  | paren _ _ _ ih => exact ih
  | @parenOpt d ws e x _ _ _ _ ih => cases e with
    | nil => exact absurd rfl ih
    | mk => nofun
  | last _ _ ih => exact ih
  | more => nofun
  | single => nofun
  | several => nofun

/-- the model read for a text allows what the text stands for. -/
theorem modelText_written {E : Env} {k : CK} {d : Nat} {e : EC} {t : List Nat} (h : ModelText E k d e t) : Written (Named E) k t (Allowed e) := by
  induction h with
  | name h1 h2 => rw [allowed_name]; exact .name h1 h2
  | paren _ h2 _ ih => exact .paren (o := 1) h2 ih .once
  | parenOpt _ h2 h3 h4 ih => rw [allowed_opt (modelText_some h3) h4]; exact .paren (o := 2) h2 ih .opt
  | last _ h2 ih => exact .last ih h2
  | @more d b e x w1 w2 e' y _ h2 h3 _ ih1 ih2 =>
    cases b with
    | true => exact (allowed_choice e e').symm ▸ Written.choice ih1 h2 h3 ih2
    | false => exact (allowed_seq e e').symm ▸ Written.seq ih1 h2 h3 ih2
  | single h1 h2 h3 =>
    rw [allowed_name, ← List.append_assoc]
    exact .group (b := true) (.last (.name h1 h2) h3)
  | @several d w p l o m b w1 w2 e y h1 h2 h3 h4 _ ih =>
    have hx : Written (Named E) .member (w ++ m) (Allowed (nameModel p l o)) := by rw [allowed_name]; exact .name h1 h2
    rw [← List.append_assoc]
    cases b with
    | true => exact .group (b := true) ((allowed_choice (nameModel p l o) e).symm ▸ Written.choice hx h3 h4 ih)
    | false => exact .group (b := false) ((allowed_seq (nameModel p l o) e).symm ▸ Written.seq hx h3 h4 ih)

/-- C74 for declarations (partial): a declaration of element content, as far as the parser reads it (`C53_element_partial`), is reported with a content
model that allows exactly the sequences written. Missing: groups beginning with a group, groups with `*` or `+`, `?` after a group of one name with `*`. -/
theorem C74_text_partial (E : Env) {n : List Nat} {e : EC} {t : List Nat} (h : ElementText E n 4 e t) (r : List Nat) :
    ReadsAs E (t ++ r) (encodeRunes n) 4 e r ∧ DeclaresChildren E n t (Allowed e) := by
  refine ⟨C53_element_partial E h r, ?_⟩
  obtain ⟨w1, w2, w3, x, h1, h2, h3, h4, h5, h6, h7, rfl⟩ := h
  generalize ht : 4 = typ at h7
  cases h7 with
  | empty | any | pcdata | pcdataStar | mixed => omega
  | children k1 k2 => exact ⟨h6, w1, w2, w3, _, _, 1, [], _, h1, h2, h3, h4, h5, k1, modelText_written k2, .once, rfl, by simp⟩
  | childrenOpt k1 k2 k3 =>
    exact ⟨h6, w1, w2, w3, _, _, 2, [63], _, h1, h2, h3, h4, h5, k1, modelText_written k2, .opt, allowed_opt (modelText_some k2) k3, by simp⟩

/-- `(a,(b|c*)?)` and what it stands for. -/
example : ∃ e, ReadsAs env0 b!"<!ELEMENT e (a,(b|c*)?)>" b!"e" 4 e [] ∧ DeclaresChildren env0 b!"e" b!"<!ELEMENT e (a,(b|c*)?)>" (Allowed e) ∧
    Allowed e [([], b!"a"), ([], b!"c"), ([], b!"c")] ∧ ¬ Allowed e [([], b!"b")] := by
  have nm : ∀ c, 97 ≤ c ∧ c ≤ 122 → Named env0 [c] [] [c] := fun c hc => letters_named (by simp) (by simpa using hc) (by simp)
  have g : ModelText env0 .group 1 _ b!"b|c*" := .several (w := b!"b") (m := []) (b := true) (w1 := []) (w2 := []) (y := b!"c*") (nm 98 (by decide)) .once (by decide) (by decide)
    (.last (x := b!"c*") (ws := []) (.name (w := b!"c") (m := [42]) (nm 99 (by decide)) .mult) (by decide))
  have g2 : ModelText env0 .group 0 _ b!"a,(b|c*)?" := .several (w := b!"a") (m := []) (b := false) (w1 := []) (w2 := []) (y := b!"(b|c*)?") (nm 97 (by decide)) .once (by decide) (by decide)
    (.last (x := b!"(b|c*)?") (ws := []) (.parenOpt (ws := []) (x := b!"b|c*") (by decide) (by decide) g rfl) (by decide))
  have := C74_text_partial env0 (n := b!"e") (t := b!"<!ELEMENT e (a,(b|c*)?)>") ⟨[32], [32], [], b!"(a,(b|c*)?)", by decide, by decide, by decide, by decide, by decide,
    letters_name (by decide) (by decide) (by decide), .children (ws := []) (x := b!"a,(b|c*)?") (by decide) g2, by decide⟩ []
  refine ⟨_, this.1, this.2, ?_, ?_⟩
  · rw [show sepType false = 3 from rfl, allowed_seq]
    refine ⟨[([], b!"a")], [([], b!"c"), ([], b!"c")], ?_, ?_, rfl⟩
    · rw [allowed_name]; rfl
    · rw [allowed_opt (modelText_some g) rfl, show sepType true = 4 from rfl, allowed_choice, allowed_name, allowed_name]
      refine .inr (.inr ?_)
      have h1 : (fun s : List (Bytes × Bytes) => s = [(encodeRunes [], encodeRunes b!"c")]) [([], b!"c")] := rfl
      exact Many.more (A := fun s : List (Bytes × Bytes) => s = [(encodeRunes [], encodeRunes b!"c")]) h1 (Many.one h1)
  · rw [show sepType false = 3 from rfl, allowed_seq, allowed_name]
    rintro ⟨u, v, h1, _, h2⟩
    have h1 : u = [([], b!"a")] := h1
    subst h1
    cases h2

/-- the property for declarations is false: `(a,b)*` is refused. -/
theorem C74_text_refuted : ¬ C74_text_statement := by
  intro h
  have nm : ∀ c, 97 ≤ c ∧ c ≤ 122 → Named env0 [c] [] [c] := fun c hc => letters_named (by simp) (by simpa using hc) (by simp)
  have g : Written (Named env0) .group b!"a,b" _ := .group (b := false) (.seq (x := b!"a") (w1 := []) (w2 := []) (y := b!"b") (.name (w := b!"a") (m := []) (nm 97 (by decide)) .once) (by decide) (by decide)
    (.last (x := b!"b") (ws := []) (.name (w := b!"b") (m := []) (nm 98 (by decide)) .once) (by decide)))
  obtain ⟨e, h1, _⟩ := h env0 b!"e" b!"<!ELEMENT e (a,b)*>" _ [] ⟨letters_name (by decide) (by decide) (by decide), [32], [32], [], [], b!"a,b", 3, [42], _, by decide, by decide, by decide, by decide, by decide, by decide, g, .mult, rfl, by decide⟩
  have h2 := ReadsAs.not_err h1
  have h3 := C53_refused b!"<!ELEMENT e (a,b)*>" (by simp)
  rw [List.append_nil] at h2
  rw [h2] at h3
  cases h3

end Helium
