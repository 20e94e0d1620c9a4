import Verif.Lemmas.DtdRun
import Verif.Lemmas.NameRun
import Verif.Props.Sax
/-! Declarations in document type declarations: C31 (entities), C32 (element types), C33 (attributes). -/
namespace Helium
open Spec
variable {σ : Type}

/-- three declarations used in the examples. -/
def dtdHeap : Heap := Heap.empty.alloc { kind := .dtd, name := b!"r" }

theorem dtdHeap_fresh : FreshDtd dtdHeap 0 := by
  refine ⟨by decide, rfl, rfl, rfl, rfl, rfl, rfl, rfl, ?_⟩
  intro d
  show (if d = 0 then _ else _ : Node).extSubset ≠ _
  split <;> exact nofun

/-! ### C31 -/

/-- **C31**, full statement about the tables: after every history of declarations, a general (parameter) entity means what the
first declaration of its name as a general (parameter) entity said. -/
def C31_statement : Prop := ∀ (h : Heap) (t : Nat) (ops : List DOp) (rs : List (Except Err Nat)) (h' : Heap), FreshDtd h t →
  history t ops h = .ok rs h' →
  (∀ n, generalOf h' t n = ops.findSome? (DOp.general n)) ∧ (∀ n, parameterOf h' t n = ops.findSome? (DOp.parameter n))

/-- **C31** fails: of two declarations of `e` the second one counts. -/
theorem C31_refuted : ¬ C31_statement := by
  intro hc
  obtain ⟨rs, h', h1, I, -⟩ := history_run [.entity b!"e" 1 [] [] b!"x", .entity b!"e" 1 [] [] b!"y"] (DInv.fresh dtdHeap_fresh)
  obtain ⟨h2, -⟩ := hc _ _ _ _ _ dtdHeap_fresh h1
  have h3 := h2 b!"e"
  have h4 : generalOf h' 0 b!"e" = _ := I.gen b!"e"
  rw [h4] at h3
  revert h3
  decide

/-- the same on a parsed document: the second declaration is used. -/
theorem C31_refuted_parse : (match parse env0 9 b!"<!DOCTYPE a [<!ENTITY e 'x'><!ENTITY e 'y'>]><a/>" with
    | .done (some d) none h _ => (docGetEntity h d b!"e").map (fun i => (h.at' i).content)
    | _ => none) = some b!"y" := by decide +kernel

/-- **C31**, what holds: every history of declarations runs to its end; general and parameter entities are looked up separately;
in both tables the **last** declaration counts (full claim: the first one); declarations of any other type, in particular of the
predefined type (6), are refused and leave no trace. -/
theorem C31_entities_partial {h : Heap} {t : Nat} (F : FreshDtd h t) (ops : List DOp) : ∃ rs h', history t ops h = .ok rs h' ∧
    (∀ n, generalOf h' t n = lastSome (DOp.general n) ops) ∧ (∀ n, parameterOf h' t n = lastSome (DOp.parameter n) ops) ∧
    rs.length = ops.length ∧
    ∀ pre n ty p s c post r, ops = pre ++ .entity n ty p s c :: post → rs[pre.length]? = some r → ((∃ i, r = .ok i) ↔ 1 ≤ ty ∧ ty ≤ 5) := by
  obtain ⟨rs, h', h1, I, h2, h3⟩ := history_run ops (DInv.fresh F)
  refine ⟨rs, h', h1, I.gen, I.par, h2, ?_⟩
  intro pre n ty p s c post r hk hr
  exact h3 pre _ post r hk hr

/-- on histories that declare no entity twice the full claim holds. -/
theorem C31_first_binding_partial {h : Heap} {t : Nat} (F : FreshDtd h t) (ops : List DOp)
    (h1 : ∀ n a b op op', ops = a ++ op :: b → op' ∈ b → (op.general n).isSome → op'.general n = none)
    (h2 : ∀ n a b op op', ops = a ++ op :: b → op' ∈ b → (op.parameter n).isSome → op'.parameter n = none) :
    ∃ rs h', history t ops h = .ok rs h' ∧
    (∀ n, generalOf h' t n = ops.findSome? (DOp.general n)) ∧ (∀ n, parameterOf h' t n = ops.findSome? (DOp.parameter n)) := by
  have key : ∀ {β : Type} (f : DOp → Option β) (l : List DOp), (∀ a b op op', l = a ++ op :: b → op' ∈ b → (f op).isSome → f op' = none) →
      lastSome f l = l.findSome? f := by
    intro β f l
    induction l with
    | nil => intro _; rfl
    | cons x l ih =>
      intro hl
      have ih := ih (fun a b op op' e => hl (x :: a) b op op' (by rw [e]; rfl))
      unfold lastSome at ih ⊢
      rw [List.reverse_cons, findSome_snoc, ih, List.findSome?_cons]
      cases hx : f x with
      | none => simp
      | some v =>
        have : l.findSome? f = none := List.findSome?_eq_none_iff.2 (fun y hy => hl [] l x y rfl hy (by simp [hx]))
        simp [this]
  obtain ⟨rs, h', e1, e2, e3, -⟩ := C31_entities_partial F ops
  exact ⟨rs, h', e1, fun n => by rw [e2, key _ _ (h1 n)], fun n => by rw [e3, key _ _ (h2 n)]⟩

/-- which calls succeeded. -/
def Out.succ {S : Type} : Out S (List (Except Err Nat)) → Option (List Bool)
  | .ok rs _ => some (rs.map (fun r => match r with | .ok _ => true | .error _ => false))
  | _ => none

example : (history 0 [.entity b!"e" 1 [] [] b!"x", .entity b!"e" 4 [] [] b!"y", .entity b!"lt" 6 [] [] b!"z"] dtdHeap).succ =
    some [true, true, false] := by decide +kernel

/-- **C31**, predefined entities: whatever has been declared, a reference to one of the five predefined names is resolved to the
predefined entity, without asking the handler. -/
theorem C31_predefined (E : Env) (H : Handler σ) (p : Predef) (s : St σ) {w : List Nat} (hs : s.cur = 38 :: (p.name ++ 59 :: w)) :
    parseEntityRef E H s = .ok (.pre p) { s with cur := w } := by
  have hn : Name E p.name := by
    have hl : ∀ c, 97 ≤ c → c ≤ 122 → E.isLetter c = true := by
      intro c h1 h2
      rw [E.letter_ascii c (by omega)]
      simp; omega
    cases p <;> refine ⟨⟨_, _, rfl, Or.inl (hl _ (by decide) (by decide))⟩, ?_, by decide⟩ <;>
    · intro c hc
      refine Or.inl (hl _ ?_ ?_) <;> revert c <;> decide
  have hsemi : ∀ c, (59 :: w : List Nat).head? = some c → c ≠ 0 ∧ ¬ NameChar E c := by
    intro c hc
    cases hc
    refine ⟨by decide, ?_⟩
    intro h
    rcases h with h | h | h | h | h | h
    · rw [E.letter_ascii 59 (by decide)] at h; revert h; decide
    · rw [E.digit_ascii 59 (by decide)] at h; revert h; decide
    all_goals cases h
  have h1 := parseName_run E hn hsemi { s with cur := p.name ++ 59 :: w } rfl
  have henc : encodeRunes p.name = p.name := by cases p <;> decide
  rw [henc] at h1
  have hres : resolvePredef p.name = some p := by cases p <;> rfl
  unfold parseEntityRef
  rw [peek_bind, hs, need_bind (by rfl), adv_bind]
  simp only [hs, List.drop_succ_cons, List.drop_zero]
  have h2 : M.orElse (parseName E) .nameRequired { s with cur := p.name ++ 59 :: w } = .ok p.name { s with cur := 59 :: w } := orElse_run h1
  rw [bind_run h2, peek_bind, need_bind (by rfl), adv_bind]
  simp only [hres]
  rfl

/-! ### C32 -/

theorem splitColon_fst (s : Bytes) : 58 ∉ (splitColon s).1 := by
  unfold splitColon indexByte
  cases h : s.findIdx? (· == 58) with
  | none => simp
  | some i =>
    simp only
    intro hm
    obtain ⟨j, hj, e⟩ := List.getElem_of_mem hm
    rw [List.findIdx?_eq_some_iff_getElem] at h
    obtain ⟨h1, h2, h3⟩ := h
    rw [List.length_take] at hj
    have := h3 j (by omega)
    rw [List.getElem_take] at e
    simp [e] at this

/-- a separator that does not occur in the first parts makes the parts unique. -/
theorem sep_inj : ∀ {a b x y : Bytes}, 58 ∉ a → 58 ∉ b → a ++ 58 :: x = b ++ 58 :: y → a = b ∧ x = y
  | [], [], _, _, _, _, h => by simpa using h
  | [], c :: b, _, _, _, hb, h => by
    simp only [List.nil_append, List.cons_append, List.cons.injEq] at h
    exact absurd (by simp [h.1]) hb
  | c :: a, [], _, _, ha, _, h => by
    simp only [List.nil_append, List.cons_append, List.cons.injEq] at h
    exact absurd (by simp [h.1]) ha
  | c :: a, d :: b, x, y, ha, hb, h => by
    simp only [List.cons_append, List.cons.injEq] at h
    obtain ⟨rfl, h⟩ := h
    have := sep_inj (fun hm => ha (by simp [hm])) (fun hm => hb (by simp [hm])) h
    simp [this.1, this.2]

theorem sep_inj_right {a b x y : Bytes} (hx : 58 ∉ x) (hy : 58 ∉ y) (h : a ++ 58 :: x = b ++ 58 :: y) : a = b ∧ x = y := by
  have h2 := congrArg List.reverse h
  simp only [List.reverse_append, List.reverse_cons, List.append_assoc, List.singleton_append, List.cons_append, List.nil_append] at h2
  obtain ⟨h3, h4⟩ := sep_inj (by simpa using hx) (by simpa using hy) h2
  exact ⟨by simpa using h4, by simpa using h3⟩

theorem elemKey_inj {q q' : Bytes × Bytes} (h1 : 58 ∉ q.1) (h2 : 58 ∉ q'.1) (h : elemKey q.2 q.1 = elemKey q'.2 q'.1) : q = q' := by
  obtain ⟨h3, h4⟩ := sep_inj_right h1 h2 h
  exact Prod.ext h4 h3

theorem elSel_eq (m : Bytes) (op : DOp) : elSel (elemKey (splitColon m).2 (splitColon m).1) op = op.elementType (splitColon m) := by
  cases op with
  | element n ty ec =>
    simp only [elSel, DOp.elementType]
    by_cases h : splitColon n = splitColon m
    · simp [h]
    · rw [if_neg, if_neg]
      · exact fun hh => h hh.1
      · exact fun hh => h (elemKey_inj (splitColon_fst n) (splitColon_fst m) hh.1)
  | entity => rfl
  | attr => rfl

/-- **C32**: every history of declarations runs to its end. A declaration of an element type is accepted exactly when it is
consistent (EMPTY/ANY without, mixed/children with a content model) and the same element type has not been declared before; the
type and content model found afterwards are those of the first consistent declaration, whatever else has been declared before or
after. -/
theorem C32_element_types {h : Heap} {t : Nat} (F : FreshDtd h t) (ops : List DOp) : ∃ rs h', history t ops h = .ok rs h' ∧
    (∀ n, elementOf h' t (splitColon n) = ops.findSome? (DOp.elementType (splitColon n))) ∧ rs.length = ops.length ∧
    ∀ pre n ty ec post r, ops = pre ++ .element n ty ec :: post → rs[pre.length]? = some r →
      ((∃ i, r = .ok i) ↔ Consistent ty ec ∧ ∀ op ∈ pre, op.elementType (splitColon n) = none) := by
  obtain ⟨rs, h', h1, I, h2, h3⟩ := history_run ops (DInv.fresh F)
  refine ⟨rs, h', h1, ?_, h2, ?_⟩
  · intro n
    have h4 : elementOf h' t (splitColon n) = ([] ++ ops).findSome? _ := I.el (elemKey (splitColon n).2 (splitColon n).1)
    rw [h4, List.nil_append, show elSel (elemKey (splitColon n).2 (splitColon n).1) = DOp.elementType (splitColon n) from funext (elSel_eq n)]
  · intro pre n ty ec post r hk hr
    rw [h3 pre _ post r hk hr]
    simp only [OpAccepted, List.nil_append]
    rw [show elSel (elemKey (splitColon n).2 (splitColon n).1) = DOp.elementType (splitColon n) from funext (elSel_eq n), List.findSome?_eq_none_iff]

example : (history 0 [.element b!"a" 1 .nil, .element b!"b" 1 (.mk 1 1 [] [] .nil .nil), .element b!"b" 2 .nil, .element b!"a" 2 .nil,
    .element b!"x:a" 3 (.mk 1 1 [] [] .nil .nil)] dtdHeap).succ = some [true, false, true, false, true] := by decide +kernel

/-- a declaration added later does not change what was found before. -/
theorem C32_later_declarations {h : Heap} {t : Nat} (F : FreshDtd h t) (ops more : List DOp) {rs rs' : List (Except Err Nat)} {h1 h2 : Heap}
    (e1 : history t ops h = .ok rs h1) (e2 : history t (ops ++ more) h = .ok rs' h2) (n : Bytes) {d : Nat × EC}
    (hd : elementOf h1 t (splitColon n) = some d) : elementOf h2 t (splitColon n) = some d := by
  obtain ⟨_, _, f1, f2, -⟩ := C32_element_types F ops
  obtain ⟨_, _, g1, g2, -⟩ := C32_element_types F (ops ++ more)
  rw [e1] at f1; cases f1
  rw [e2] at g1; cases g1
  rw [g2, List.findSome?_append, ← f2, hd]
  rfl

/-! ### C33 -/

/-- **C33**, full statement: after every history of declarations the attribute `(elem, name, prefix)` means what its first (legal)
declaration said, and a (legal) declaration is refused only if the same attribute was declared before. -/
def C33_statement : Prop := ∀ (h : Heap) (t : Nat) (ops : List DOp) (rs : List (Except Err Nat)) (h' : Heap), FreshDtd h t →
  history t ops h = .ok rs h' →
  (∀ e n p, attributeOf h' t e n p = ops.findSome? (DOp.attribute e n p)) ∧
  ∀ pre e n p ty d v tr post r, ops = pre ++ .attr e n p ty d v tr :: post → rs[pre.length]? = some r →
      ((∃ i, r = .ok i) ↔ (1 ≤ ty ∧ ty ≤ 10) ∧ ∀ op ∈ pre, op.attribute e n p = none)

/-- **C33** fails: the attribute `a` of `b:c` and the attribute `b:a:` of `c` have the same table key `a::b:c`. -/
theorem C33_refuted : ¬ C33_statement := by
  intro hc
  obtain ⟨rs, h', h1, I, -⟩ := history_run [.attr b!"b:c" b!"a" b!"" 1 1 [] []] (DInv.fresh dtdHeap_fresh)
  obtain ⟨h2, -⟩ := hc _ _ _ _ _ dtdHeap_fresh h1
  have h3 := h2 b!"c" b!"a:" b!"b"
  -- looked up under the other triple, the first declaration is found
  have hk : attrKey b!"a:" b!"b" b!"c" = attrKey b!"a" b!"" b!"b:c" := by decide
  have h4 : attributeOf h' 0 b!"c" b!"a:" b!"b" = _ := I.att (attrKey b!"a:" b!"b" b!"c")
  rw [h4] at h3
  revert h3
  decide

/-- the same on a document: the second declaration is refused as a duplicate. -/
theorem C33_refuted_parse : (parse env0 9 b!"<!DOCTYPE a [<!ATTLIST b:c a CDATA #IMPLIED><!ATTLIST c b:a: CDATA #IMPLIED>]><a/>").view.map (·.2.1) =
    some (some (.parse (.k .mDupAttrDecl))) := by decide +kernel

/-- an attribute declaration whose local name and prefix have no colon. -/
def Colonless : DOp → Prop
  | .attr _ n p _ _ _ _ => 58 ∉ n ∧ 58 ∉ p
  | _ => True

theorem attrKey_inj {n p e n' p' e' : Bytes} (h1 : 58 ∉ n) (h2 : 58 ∉ p) (h3 : 58 ∉ n') (h4 : 58 ∉ p') (h : attrKey n p e = attrKey n' p' e') :
    e = e' ∧ n = n' ∧ p = p' := by
  obtain ⟨rfl, h5⟩ := sep_inj h1 h3 h
  obtain ⟨rfl, rfl⟩ := sep_inj h2 h4 h5
  exact ⟨rfl, rfl, rfl⟩

theorem atSel_eq {e n p : Bytes} (h1 : 58 ∉ n) (h2 : 58 ∉ p) (op : DOp) (hop : Colonless op) : atSel (attrKey n p e) op = op.attribute e n p := by
  cases op with
  | attr e' n' p' ty d v tr =>
    simp only [atSel, DOp.attribute]
    by_cases h : e' = e ∧ n' = n ∧ p' = p
    · obtain ⟨rfl, rfl, rfl⟩ := h; simp
    · rw [if_neg, if_neg]
      · exact fun hh => h hh.1
      · exact fun hh => h (attrKey_inj hop.1 hop.2 h1 h2 hh.1)
  | entity => rfl
  | element => rfl

theorem findSome_congr {α β : Type} {f g : α → Option β} : ∀ {l : List α}, (∀ x ∈ l, f x = g x) → l.findSome? f = l.findSome? g
  | [], _ => rfl
  | x :: l, h => by
    rw [List.findSome?_cons, List.findSome?_cons, h x (by simp), findSome_congr (l := l) (fun y hy => h y (by simp [hy]))]

/-- **C33** for attributes whose local name and prefix contain no colon (as in a namespace-well-formed document); missing are names
with several colons. -/
theorem C33_attributes_partial {h : Heap} {t : Nat} (F : FreshDtd h t) (ops : List DOp) (hco : ∀ op ∈ ops, Colonless op) :
    ∃ rs h', history t ops h = .ok rs h' ∧
    (∀ e n p, 58 ∉ n → 58 ∉ p → attributeOf h' t e n p = ops.findSome? (DOp.attribute e n p)) ∧ rs.length = ops.length ∧
    ∀ pre e n p ty d v tr post r, ops = pre ++ .attr e n p ty d v tr :: post → rs[pre.length]? = some r →
      ((∃ i, r = .ok i) ↔ (1 ≤ ty ∧ ty ≤ 10) ∧ ∀ op ∈ pre, op.attribute e n p = none) := by
  obtain ⟨rs, h', h1, I, h2, h3⟩ := history_run ops (DInv.fresh F)
  refine ⟨rs, h', h1, ?_, h2, ?_⟩
  · intro e n p hn hp
    have h4 : attributeOf h' t e n p = ([] ++ ops).findSome? _ := I.att (attrKey n p e)
    rw [h4, List.nil_append]
    exact findSome_congr (fun op hop => atSel_eq hn hp op (hco op hop))
  · intro pre e n p ty d v tr post r hk hr
    rw [h3 pre _ post r hk hr]
    have hcl : Colonless (.attr e n p ty d v tr) := hco _ (by rw [hk]; simp)
    simp only [OpAccepted, List.nil_append]
    rw [findSome_congr (fun op hop => atSel_eq hcl.1 hcl.2 op (hco op (by rw [hk]; simp [hop]))), List.findSome?_eq_none_iff]

example : (history 0 [.attr b!"e" b!"a" b!"" 1 1 [] [], .attr b!"e" b!"a" b!"x" 1 1 [] [], .attr b!"e" b!"a" b!"" 2 1 [] [], .attr b!"f" b!"a" b!"" 1 1 [] []] dtdHeap).succ =
    some [true, true, false, true] := by decide +kernel

end Helium
