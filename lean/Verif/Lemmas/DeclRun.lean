import Verif.Lemmas.Alike
import Verif.Lemmas.EntityRun
import Verif.Props.Small
/-! The parser reads the declarations of an internal subset as written. -/
namespace Helium
open Spec

section
variable {σ : Type} (E : Env) (H : Handler σ)

theorem bind_assoc' {S α β γ : Type} {p : M S α} {f : α → M S β} {g : β → M S γ} {s : S} : ((p >>= f) >>= g) s = (p >>= fun a => f a >>= g) s := by
  show M.bind (M.bind p f) g s = M.bind p (fun a => M.bind (f a) g) s
  unfold M.bind
  cases p s <;> rfl

theorem bind_congr' {S α β : Type} {p : M S α} {f g : α → M S β} {s : S} (h : ∀ a t, f a t = g a t) : (p >>= f) s = (p >>= g) s := by
  have : f = g := funext (fun a => funext (fun t => h a t))
  rw [this]

/-- what is done for one attribute. -/
def declareAtt (snl : Nat) (elem : Bytes) (a : AttDef) : P σ Unit := do
  cb H (.attributeDecl elem a.name a.typ a.deflt a.value a.names)
  if a.value ≠ [] ∧ a.deflt ≠ 3 ∧ a.deflt ≠ 2 then addAttributeDefault snl elem a.name a.value else pure ()
  M.modify (fun s => { s with attsSpecial := mapSet s.attsSpecial (specialKey elem a.name) a.typ })

/-- what is done for a list of attributes. -/
def declareAtts (snl : Nat) (elem : Bytes) : List AttDef → P σ Unit
  | [] => pure ()
  | a :: as => do declareAtt H snl elem a; declareAtts snl elem as

/-- what is done for a declaration. -/
def declare (snl : Nat) : Decl → P σ Unit
  | .element n typ e => cb H (.elementDecl n typ e)
  | .entity p n lit v => do
    cb H (.entityDecl n (if p then 4 else 1) [] [] v)
    let cur ← ask H (if p then .getParameterEntity n else .getEntity n)
    setOrig cur lit
  | .attlist n as => declareAtts H snl n as
  | .comment b => cb H (.comment b)
  | .pi n d => cb H (.pi n d)

theorem NoCur.ite {α : Type} {c : Prop} [Decidable c] {p q : P σ α} (hp : NoCur p) (hq : NoCur q) : NoCur (if c then p else q) := by
  split
  · exact hp
  · exact hq

theorem NoCur.declareAtt (snl : Nat) (elem : Bytes) (a : AttDef) : NoCur (declareAtt H snl elem a) := by
  unfold Helium.declareAtt
  refine .bind (.cb _ _) (fun _ => .ite (.bind (.addAttributeDefault _ _ _ _) (fun _ => ?_)) ?_)
  all_goals exact .modify (fun _ _ => rfl) (fun _ => rfl)

theorem NoCur.declareAtts (snl : Nat) (elem : Bytes) : ∀ as, NoCur (declareAtts H snl elem as)
  | [] => .pure _
  | a :: as => .bind (.declareAtt _ _ _ _) (fun _ => NoCur.declareAtts snl elem as)

theorem NoCur.declare (snl : Nat) (d : Decl) : NoCur (declare H snl d) := by
  cases d with
  | element n typ e => exact .cb _ _
  | entity p n l v => exact .bind (.cb _ _) (fun _ => .bind (.ask _ _) (fun _ => .setOrig _ _))
  | attlist n as => exact .declareAtts _ _ _ _
  | comment b => exact .cb _ _
  | pi n d => exact .cb _ _

theorem need_blank {ws r : List Nat} (hne : ws ≠ []) (hr : (ws ++ r).dropWhile isBlank = r) :
    decide (((ws ++ r).dropWhile isBlank).length < (ws ++ r).length) = true := by
  rw [hr]
  have : ws.length ≠ 0 := by simpa using hne
  simp; omega

theorem blank_or {ws r : List Nat} {P : Nat → Prop} (hw : ∀ c, Ws c → P c) (hb : Blank ws) (hr : ∀ c, r.head? = some c → P c) :
    ∀ c, (ws ++ r).head? = some c → P c := by
  cases ws with
  | nil => exact hr
  | cons a ws => intro c hc; cases hc; exact hw _ (hb _ (by simp))

theorem entity_run {p : Bool} {n l v t r : List Nat} (snl : Nat) (h : EntityText E p n l v t) (s : St σ) (hs : s.cur = t ++ r) :
    Alike r r (parseEntityDecl E H s) (declare H snl (.entity p (encodeRunes n) (encodeRunes l) (encodeRunes v)) { s with cur := r }) := by
  obtain ⟨w1, w2, w3, w4, q, n1, h1, n2, h2, n3, h3, h4, hn, hc, hq, hv, rfl⟩ := h
  simp only [List.append_assoc, List.cons_append, List.nil_append] at hs
  obtain ⟨c, t, hct, hcw, hcs, hcn⟩ := name_head E hn (w3 ++ q :: (l ++ q :: (w4 ++ 62 :: r)))
  have hqw : ¬ Ws q := by rcases hq with rfl | rfl <;> decide
  unfold parseEntityDecl
  rw [bind_run (consume_run (r := w1 ++ ((if p = true then 37 :: w2 else []) ++ (n ++ (w3 ++ q :: (l ++ q :: (w4 ++ 62 :: r)))))) hs), if_pos rfl]
  run
  have hd1 : (w1 ++ ((if p = true then 37 :: w2 else []) ++ (n ++ (w3 ++ q :: (l ++ q :: (w4 ++ 62 :: r)))))).dropWhile isBlank =
      (if p = true then 37 :: w2 else []) ++ (n ++ (w3 ++ q :: (l ++ q :: (w4 ++ 62 :: r)))) := by
    apply dropWhile_blank h1
    cases p with
    | true => intro c hc; cases hc; decide
    | false => intro x hx; simp [hct] at hx; subst hx; exact hcw
  rw [need_bind (need_blank n1 hd1), hd1]
  have hp : ∀ (s0 : St σ), s0.cur = (if p = true then 37 :: w2 else []) ++ (n ++ (w3 ++ q :: (l ++ q :: (w4 ++ 62 :: r)))) → (do
      if (← peek E) = 37 then
        adv 1
        M.need (← skipBlanks) .spaceRequired
        pure true
      else pure false : P σ Bool) s0 = .ok p { s0 with cur := n ++ (w3 ++ q :: (l ++ q :: (w4 ++ 62 :: r))) } := by
    intro s0 h0
    run
    rw [h0]
    cases p with
    | true =>
      have hd2 : (w2 ++ (n ++ (w3 ++ q :: (l ++ q :: (w4 ++ 62 :: r))))).dropWhile isBlank = (n ++ (w3 ++ q :: (l ++ q :: (w4 ++ 62 :: r)))) := by
        apply dropWhile_blank h2
        intro x hx; rw [hct] at hx; cases hx; exact hcw
      rw [if_pos rfl]
      have := need_bind (e := .spaceRequired) (f := fun _ => (pure true : P σ Bool)) (s := { s0 with cur := n ++ (w3 ++ q :: (l ++ q :: (w4 ++ 62 :: r))) }) (need_blank n2 hd2)
      simp only [if_true, List.cons_append, List.drop_succ_cons, List.drop_zero, hd2] at this ⊢
      exact this
    | false =>
      have : ¬ (([] : List Nat) ++ (n ++ (w3 ++ q :: (l ++ q :: (w4 ++ 62 :: r))))).getD 0 E.eof = 37 := by
        rw [List.nil_append, hct]
        intro h
        have h : c = 37 := h
        subst h
        exact (ascii_notName E (by decide) (by decide) (by decide)).2 hcn
      simp only [Bool.false_eq_true, if_false] at h0 ⊢
      rw [if_neg this, ← show s0.cur = n ++ (w3 ++ q :: (l ++ q :: (w4 ++ 62 :: r))) from h0]
  rw [bind_run (hp _ rfl)]
  have hstop : ∀ c, (w3 ++ q :: (l ++ q :: (w4 ++ 62 :: r))).head? = some c → c ≠ 0 ∧ ¬ NameChar E c := by
    obtain ⟨a, b, rfl⟩ := List.exists_cons_of_ne_nil n3
    intro c hc; cases hc
    exact ws_notName E (h3 _ (by simp))
  rw [bind_run (wrap_run (parseName_run E hn hstop _ rfl))]
  have hcol : ¬ (indexByte (encodeRunes n) 58).isSome = true := by
    rw [indexByte_some, mem_encodeRunes_ascii n 58 (by decide)]
    exact hc
  rw [if_neg hcol]
  run
  have hd3 : (w3 ++ q :: (l ++ q :: (w4 ++ 62 :: r))).dropWhile isBlank = q :: (l ++ q :: (w4 ++ 62 :: r)) := by
    apply dropWhile_blank h3
    intro c hc; cases hc; exact hqw
  rw [need_bind (need_blank n3 hd3), hd3]
  run
  rw [if_pos (show (q :: (l ++ q :: (w4 ++ 62 :: r))).getD 0 E.eof = 34 ∨ (q :: (l ++ q :: (w4 ++ 62 :: r))).getD 0 E.eof = 39 from hq)]
  rw [bind_assoc', bind_run (attempt_run (parseEntityValue_run E hq hv _ rfl))]
  simp only
  rw [bind_assoc']
  refine Alike.bind (NoCur.cb H _ _ r) (fun _ u hu => ?_)
  have hu : u.cur = w4 ++ 62 :: r := hu
  run
  have hd4 : (w4 ++ 62 :: r).dropWhile isBlank = 62 :: r := by
    apply dropWhile_blank h4
    intro c hc; cases hc; decide
  rw [hu, hd4]
  rw [need_bind (c := (62 :: r).getD 0 E.eof == 62) rfl]
  run
  exact NoCur.bind (NoCur.ask H (if p = true then Ev.getParameterEntity (encodeRunes n) else Ev.getEntity (encodeRunes n)))
    (fun x => NoCur.setOrig x (encodeRunes l)) { u with cur := r } r

theorem names_run {ns : List (List Nat)} {t r : List Nat} (h : NamesText E ns t) : ∀ (fuel : Nat) (acc : List Bytes) (s : St σ), t.length < fuel → s.cur = t ++ r →
    notationLoop E fuel acc s = .ok (acc ++ ns.map encodeRunes) { s with cur := 41 :: r } := by
  induction h with
  | @one n ws hn hw =>
    intro fuel acc s hf hs
    cases fuel with
    | zero => cases hf
    | succ fuel =>
      simp only [List.append_assoc, List.cons_append, List.nil_append] at hs
      have hst : ∀ c, (ws ++ 41 :: r).head? = some c → c ≠ 0 ∧ ¬ NameChar E c :=
        blank_or (P := fun c => c ≠ 0 ∧ ¬ NameChar E c) (fun c hc => ws_notName E hc) hw (by intro c hc; cases hc; exact ascii_notName E (by decide) (by decide) (by decide))
      unfold notationLoop
      rw [bind_run (orElse_run (parseName_run E hn hst _ hs))]
      run
      have hd : (ws ++ 41 :: r).dropWhile isBlank = 41 :: r := dropWhile_blank hw (by intro c hc; cases hc; decide)
      rw [hd, if_neg (show ¬ (41 :: r).getD 0 E.eof = 124 by intro h; cases h)]
      rfl
  | @more n ws w2 ns t hn hw hw2 hns ih =>
    intro fuel acc s hf hs
    cases fuel with
    | zero => cases hf
    | succ fuel =>
      simp only [List.append_assoc, List.cons_append] at hs
      have hst : ∀ c, (ws ++ 124 :: (w2 ++ (t ++ r))).head? = some c → c ≠ 0 ∧ ¬ NameChar E c :=
        blank_or (P := fun c => c ≠ 0 ∧ ¬ NameChar E c) (fun c hc => ws_notName E hc) hw (by intro c hc; cases hc; exact ascii_notName E (by decide) (by decide) (by decide))
      unfold notationLoop
      rw [bind_run (orElse_run (parseName_run E hn hst _ hs))]
      run
      have hd : (ws ++ 124 :: (w2 ++ (t ++ r))).dropWhile isBlank = 124 :: (w2 ++ (t ++ r)) := dropWhile_blank hw (by intro c hc; cases hc; decide)
      have hd2 : (w2 ++ (t ++ r)).dropWhile isBlank = t ++ r := dropWhile_blank hw2 (by
        have : ∃ n r', Name E n ∧ t = n ++ r' := by cases hns <;> exact ⟨_, _, ‹_›, rfl⟩
        obtain ⟨m, r', hm, rfl⟩ := this
        obtain ⟨c, u, hc, hcw, _⟩ := name_head E hm (r' ++ r)
        intro x hx
        rw [List.append_assoc, hc] at hx; cases hx; exact hcw)
      rw [hd, if_pos (show (124 :: (w2 ++ (t ++ r))).getD 0 E.eof = 124 from rfl)]
      simp only [List.drop_succ_cons, List.drop_zero, hd2]
      rw [ih fuel _ _ (by simp at hf ⊢; omega) rfl]
      simp

theorem notPrefix {a b : Nat} {p t : List Nat} (h : a ≠ b) : ¬ (a :: p) <+: b :: t := by
  rintro ⟨x, hx⟩
  simp at hx
  exact h hx.1

theorem type_run {typ : Nat} {ns : List Bytes} {t r : List Nat} (h : TypeText E typ ns t) (hr : ∃ c u, r = c :: u ∧ Ws c) (s : St σ) (hs : s.cur = t ++ r) :
    parseAttributeType E s = .ok (typ, ns) { s with cur := r } := by
  obtain ⟨c, u, rfl, hc⟩ := hr
  have hne : ∀ x : Nat, ¬ Ws x → x ≠ c := by rintro x hx rfl; exact hx hc
  unfold parseAttributeType
  have F : ∀ {α : Type} {l : List Nat} {p q : P σ α} {s : St σ}, ¬ l <+: s.cur → (do if (← consume l) then p else q : P σ α) s = q s := by
    intro α l p q s hl
    rw [bind_run (consume_run_false hl)]
    rfl
  have T : ∀ {α : Type} {l r : List Nat} {p q : P σ α} {s : St σ}, s.cur = l ++ r → (do if (← consume l) then p else q : P σ α) s = p { s with cur := r } := by
    intro α l r p q s hl
    rw [bind_run (consume_run hl)]
    rfl
  have nc : ∀ {p : List Nat}, (p.all (fun x => decide (¬ Ws x)) = true) → p ≠ [] → ¬ p <+: c :: u := by
    rintro p hp hn ⟨x, hx⟩
    cases p with
    | nil => exact hn rfl
    | cons a p =>
      simp at hx
      simp at hp
      exact hne a hp.1 hx.1
  cases h with
  | cdata => exact T hs
  | id =>
    rw [F (by rw [hs]; exact notPrefix (by decide)), F, F, T hs]
    · rfl
    · rw [hs]; rintro ⟨x, hx⟩; simp at hx; exact nc (p := b!"REF") (by decide) (by decide) ⟨x, by simpa using hx⟩
    · rw [hs]; rintro ⟨x, hx⟩; simp at hx; exact nc (p := b!"REFS") (by decide) (by decide) ⟨x, by simpa using hx⟩
  | idref =>
    rw [F (by rw [hs]; exact notPrefix (by decide)), F, T hs]
    · rfl
    · rw [hs]; rintro ⟨x, hx⟩; simp at hx; exact nc (p := b!"S") (by decide) (by decide) ⟨x, by simpa using hx⟩
  | idrefs =>
    rw [F (by rw [hs]; exact notPrefix (by decide)), T hs]
    rfl
  | entity =>
    rw [F (by rw [hs]; exact notPrefix (by decide)), F (by rw [hs]; exact notPrefix (by decide)), F (by rw [hs]; exact notPrefix (by decide)),
      F (by rw [hs]; exact notPrefix (by decide)), T hs]
    rfl
  | entities =>
    rw [F (by rw [hs]; exact notPrefix (by decide)), F (by rw [hs]; exact notPrefix (by decide)), F (by rw [hs]; exact notPrefix (by decide)),
      F (by rw [hs]; exact notPrefix (by decide)), F, T hs]
    · rfl
    · rw [hs]; rintro ⟨x, hx⟩; simp at hx
  | nmtoken =>
    rw [F (by rw [hs]; exact notPrefix (by decide)), F (by rw [hs]; exact notPrefix (by decide)), F (by rw [hs]; exact notPrefix (by decide)),
      F (by rw [hs]; exact notPrefix (by decide)), F (by rw [hs]; exact notPrefix (by decide)), F (by rw [hs]; exact notPrefix (by decide)), F, T hs]
    · rfl
    · rw [hs]; rintro ⟨x, hx⟩; simp at hx; exact nc (p := b!"S") (by decide) (by decide) ⟨x, by simpa using hx⟩
  | nmtokens =>
    rw [F (by rw [hs]; exact notPrefix (by decide)), F (by rw [hs]; exact notPrefix (by decide)), F (by rw [hs]; exact notPrefix (by decide)),
      F (by rw [hs]; exact notPrefix (by decide)), F (by rw [hs]; exact notPrefix (by decide)), F (by rw [hs]; exact notPrefix (by decide)), T hs]
    rfl
  | @«notation» w1 w2 ns t n1 h1 h2 hns =>
    simp only [List.append_assoc, List.cons_append, List.nil_append] at hs
    have hs : s.cur = b!"NOTATION" ++ (w1 ++ 40 :: (w2 ++ (t ++ c :: u))) := hs
    rw [F (by rw [hs]; exact notPrefix (by decide)), F (by rw [hs]; exact notPrefix (by decide)), F (by rw [hs]; exact notPrefix (by decide)),
      F (by rw [hs]; exact notPrefix (by decide)), F (by rw [hs]; exact notPrefix (by decide)), F (by rw [hs]; exact notPrefix (by decide)), F, F, T hs]
    · rw [bind_run (needBlanks_run E n1 h1 (r := 40 :: (w2 ++ (t ++ c :: u))) (by intro c hc; cases hc; decide) _ rfl)]
      have hd2 : (w2 ++ (t ++ c :: u)).dropWhile isBlank = t ++ c :: u := dropWhile_blank h2 (by
        have : ∃ n r', Name E n ∧ t = n ++ r' := by cases hns <;> exact ⟨_, _, ‹_›, rfl⟩
        obtain ⟨m, r', hm, rfl⟩ := this
        obtain ⟨c, u, hc, hcw, _⟩ := name_head E hm (r' ++ _ :: _)
        intro x hx
        rw [List.append_assoc, hc] at hx; cases hx; exact hcw)
      have : ∀ s0 : St σ, s0.cur = 40 :: (w2 ++ (t ++ c :: u)) → parseNotationType E s0 = .ok (ns.map encodeRunes) { s0 with cur := c :: u } := by
        intro s0 h0
        unfold parseNotationType
        run
        rw [h0, need_bind (c := (40 :: (w2 ++ (t ++ c :: u))).getD 0 E.eof == 40) rfl]
        run
        simp only [h0, List.drop_succ_cons, List.drop_zero, hd2]
        rw [bind_run (names_run E hns _ [] _ (by simp; omega) rfl)]
        run
        rw [need_bind (c := (41 :: (c :: u)).getD 0 E.eof == 41) rfl]
        rfl
      rw [bind_run (wrap_run (this _ rfl))]
      rfl
    · rw [hs]; rintro ⟨x, hx⟩; simp at hx
    · rw [hs]; rintro ⟨x, hx⟩; simp at hx

theorem quoted_run {q : Nat} (hq : q = 34 ∨ q = 39) {l w r : List Nat} (hv : Value q l w) (s : St σ) (hs : s.cur = q :: (l ++ q :: r)) :
    ∃ n, parseQuotedText E (fun q => parseAttributeValueInternal E H q false) s = .ok (reported w, n) { s with cur := r } := by
  obtain ⟨n, sp, hl⟩ := attrValueLoop_run E H hq r hv ((l ++ q :: r).length + 1) [] false 0 { s with cur := l ++ q :: r } (by simp; omega) rfl
  refine ⟨n, ?_⟩
  unfold parseQuotedText
  run
  rw [hs, if_pos (show (q :: (l ++ q :: r)).getD 0 E.eof = 34 ∨ (q :: (l ++ q :: r)).getD 0 E.eof = 39 from hq)]
  have h1 : parseAttributeValueInternal E H q false ({ s with cur := l ++ q :: r } : St σ) = .ok (reported w, n) { s with cur := q :: r } := by
    unfold parseAttributeValueInternal
    run
    rw [bind_run hl]
    rw [if_neg (by simp)]
    rfl
  refine (bind_run h1).trans ?_
  run
  rw [needRaw_bind (c := (q :: r).getD 0 E.eof == (q :: (l ++ q :: r)).getD 0 E.eof) (by simp)]
  rfl

theorem default_run {typ d : Nat} {v : Bytes} {u r : List Nat} (h : DefaultText typ d v u) (s : St σ) (hs : s.cur = u ++ r) :
    ∃ x, parseDefaultDecl E H s = .ok (d, x) { s with cur := r } ∧
      ∀ s' : St σ, (if typ ≠ 1 then attrNormalizeSpace x else pure x : P σ Bytes) s' = .ok v s' := by
  have hnorm : ∀ {w : List Nat}, typ = 1 ∨ w = [] ∨ (∃ c ∈ w, c ≠ 32) → ∀ s' : St σ,
      (if typ ≠ 1 then attrNormalizeSpace (reported w) else pure (reported w) : P σ Bytes) s' = .ok (defaultValue typ w) s' := by
    intro w hw s'
    unfold defaultValue
    by_cases ht : typ = 1
    · simp [ht]; rfl
    · simp only [ne_eq, ht, not_false_eq_true, if_true, if_false]
      rw [← reported_unwords]
      exact C43_normalize_partial _ _ (reported_space (by rcases hw with h | h; exact absurd h ht; exact h))
  have F : ∀ {α : Type} {l : List Nat} {p q : P σ α} {s : St σ}, ¬ l <+: s.cur → (do if (← consume l) then p else q : P σ α) s = q s := by
    intro α l p q s hl
    rw [bind_run (consume_run_false hl)]
    rfl
  have T : ∀ {α : Type} {l r : List Nat} {p q : P σ α} {s : St σ}, s.cur = l ++ r → (do if (← consume l) then p else q : P σ α) s = p { s with cur := r } := by
    intro α l r p q s hl
    rw [bind_run (consume_run hl)]
    rfl
  unfold parseDefaultDecl
  cases h with
  | required =>
    refine ⟨[], ?_, fun s' => by split <;> rfl⟩
    exact T hs
  | implied =>
    refine ⟨[], ?_, fun s' => by split <;> rfl⟩
    rw [F (by rw [hs]; rintro ⟨x, hx⟩; simp at hx), T hs]
    rfl
  | @fixed ws q l w hne hb hq hv hw =>
    simp only [List.append_assoc, List.cons_append, List.nil_append] at hs
    have hs : s.cur = b!"#FIXED" ++ (ws ++ q :: (l ++ q :: r)) := hs
    rw [F (by rw [hs]; rintro ⟨x, hx⟩; simp at hx), F (by rw [hs]; rintro ⟨x, hx⟩; simp at hx)]
    obtain ⟨n, hn⟩ := quoted_run E H hq hv { s with cur := q :: (l ++ q :: r) } rfl
    refine ⟨reported w, ?_, hnorm hw⟩
    rw [bind_run (a := 4) (t := { s with cur := q :: (l ++ q :: r) })]
    · rw [bind_run (wrap_run hn)]
      rfl
    · rw [T hs]
      rw [bind_run (needBlanks_run E hne hb (r := q :: (l ++ q :: r)) (by intro c hc; cases hc; rcases hq with rfl | rfl <;> decide) _ rfl)]
      rfl
  | @value q l w hq hv hw =>
    simp only [List.append_assoc, List.cons_append, List.nil_append] at hs
    have hq35 : q ≠ 35 := by rcases hq with rfl | rfl <;> decide
    rw [F (by rw [hs]; exact notPrefix hq35.symm), F (by rw [hs]; exact notPrefix hq35.symm)]
    obtain ⟨n, hn⟩ := quoted_run E H hq hv s hs
    refine ⟨reported w, ?_, hnorm hw⟩
    rw [bind_run (a := 1) (t := s)]
    · rw [bind_run (wrap_run hn)]
      rfl
    · rw [F (by rw [hs]; exact notPrefix hq35.symm)]
      rfl

/-- one attribute is read, up to the white space after it. -/
theorem att_run (snl : Nat) (elem : Bytes) {n w1 w2 w3 t u r : List Nat} {typ d : Nat} {ns : List Bytes} {v : Bytes} (hn : Name E n) (n1 : w1 ≠ [])
    (h1 : Blank w1) (ht : TypeText E typ ns t) (n2 : w2 ≠ []) (h2 : Blank w2) (hd : DefaultText typ d v u) (h3 : Blank w3)
    (hr : ∃ c x, r = c :: x ∧ ¬ Ws c) (h62 : w3 = [] → r.head? = some 62) (fuel : Nat) (s : St σ)
    (hs : s.cur = n ++ (w1 ++ (t ++ (w2 ++ (u ++ (w3 ++ r)))))) :
    attlistLoop E H snl elem (fuel + 1) s =
      (declareAtt H snl elem ⟨encodeRunes n, typ, d, v, ns⟩ >>= fun _ => (do
        if (← peek E) = 62 then adv 1 else attlistLoop E H snl elem fuel : P σ Unit)) { s with cur := r } := by
  obtain ⟨c, x, hc, hcw, _, hcn⟩ := name_head E hn (w1 ++ (t ++ (w2 ++ (u ++ (w3 ++ r)))))
  obtain ⟨cr, xr, rfl, hcr⟩ := hr
  have hth : ∃ c x, t = c :: x ∧ ¬ Ws c := by cases ht <;> exact ⟨_, _, rfl, by decide⟩
  have huh : ∃ c x, u = c :: x ∧ ¬ Ws c := by
    cases hd with
    | required => exact ⟨_, _, rfl, by decide⟩
    | implied => exact ⟨_, _, rfl, by decide⟩
    | fixed => exact ⟨_, _, rfl, by decide⟩
    | value hq => exact ⟨_, _, rfl, by rcases hq with rfl | rfl <;> decide⟩
  rw [attlistLoop]
  run
  rw [if_neg (by
    rw [hs, hc]
    intro h
    have h : c = 62 := h
    subst h
    exact (ascii_notName E (by decide) (by decide) (by decide)).2 hcn)]
  rw [bind_run (orElse_run (parseName_run E hn (r := w1 ++ (t ++ (w2 ++ (u ++ (w3 ++ cr :: xr))))) (by
    obtain ⟨a, b, rfl⟩ := List.exists_cons_of_ne_nil n1
    intro c hc; cases hc
    exact ws_notName E (h1 _ (by simp))) _ hs))]
  rw [bind_run (needBlanks_run E n1 h1 (r := t ++ (w2 ++ (u ++ (w3 ++ cr :: xr)))) (by
    obtain ⟨c, x, rfl, h⟩ := hth
    intro y hy; cases hy; exact h) _ rfl)]
  rw [bind_run (wrap_run (type_run E ht (r := w2 ++ (u ++ (w3 ++ cr :: xr))) (by
    obtain ⟨a, b, rfl⟩ := List.exists_cons_of_ne_nil n2
    exact ⟨a, _, rfl, h2 _ (by simp)⟩) _ rfl))]
  rw [bind_run (needBlanks_run E n2 h2 (r := u ++ (w3 ++ cr :: xr)) (by
    obtain ⟨c, x, rfl, h⟩ := huh
    intro y hy; cases hy; exact h) _ rfl)]
  obtain ⟨y, hy, hv⟩ := default_run E H hd { s with cur := u ++ (w3 ++ cr :: xr) } rfl
  rw [bind_run (wrap_run hy)]
  simp only
  rw [bind_run (hv _)]
  run
  have hw3 : w3 = [] ∧ cr = 62 ∨ w3 ≠ [] := by
    by_cases h : w3 = []
    · have := h62 h
      simp at this
      exact .inl ⟨h, this⟩
    · exact .inr h
  split
  · rename_i hne
    rcases hw3 with ⟨rfl, rfl⟩ | n3
    · exact absurd rfl hne
    · rw [bind_run (needBlanks_run E n3 h3 (r := cr :: xr) (by intro y hy; cases hy; exact hcr) _ rfl)]
      unfold declareAtt
      rw [bind_assoc']
      refine bind_congr' (fun _ s1 => ?_)
      simp only
      split
      · rw [bind_assoc']
      · rfl
  · rename_i hne
    rcases hw3 with ⟨rfl, rfl⟩ | n3
    · unfold declareAtt
      rw [bind_assoc']
      refine bind_congr' (fun _ s1 => ?_)
      simp only
      split
      · rw [bind_assoc']
      · rfl
    · obtain ⟨a, b, rfl⟩ := List.exists_cons_of_ne_nil n3
      refine absurd ?_ hne
      intro h
      have h : a = 62 := h
      have := h3 a (by simp)
      rw [h] at this
      exact absurd this (by decide)

theorem attDefs_head {as : List AttDef} {t : List Nat} (h : AttDefs E as t) (r : List Nat) : ∃ c x, t ++ r = c :: x ∧ ¬ Ws c ∧ c ≠ 62 := by
  have : ∃ n r', Name E n ∧ t = n ++ r' := by cases h <;> exact ⟨_, _, ‹_›, rfl⟩
  obtain ⟨n, r', hn, rfl⟩ := this
  obtain ⟨c, x, hc, hcw, _, hcn⟩ := name_head E hn (r' ++ r)
  refine ⟨c, x, by rw [List.append_assoc, hc], hcw, ?_⟩
  rintro rfl
  exact (ascii_notName E (by decide) (by decide) (by decide)).2 hcn

theorem atts_run (snl : Nat) (elem : Bytes) {as : List AttDef} {t r : List Nat} (h : AttDefs E as t) : ∀ (fuel : Nat) (s : St σ), t.length < fuel →
    s.cur = t ++ r → Alike r r (attlistLoop E H snl elem fuel s) (declareAtts H snl elem as { s with cur := r }) := by
  induction h with
  | @one n w1 w2 w3 typ ns t d v u hn n1 h1 ht n2 h2 hd h3 =>
    intro fuel s hf hs
    cases fuel with
    | zero => cases hf
    | succ fuel =>
      rw [att_run E H snl elem hn n1 h1 ht n2 h2 hd h3 (r := 62 :: r) ⟨62, r, rfl, by decide⟩ (fun _ => rfl) fuel s (by rw [hs]; simp)]
      unfold declareAtts
      refine Alike.bind (NoCur.declareAtt H _ _ _ { s with cur := 62 :: r } r) (fun _ s1 hs1 => ?_)
      have hs1 : s1.cur = 62 :: r := hs1
      run
      rw [hs1, if_pos (show (62 :: r).getD 0 E.eof = 62 from rfl)]
      unfold declareAtts
      show Alike r r (.ok () { s1 with cur := s1.cur.drop 1 }) (.ok () { s1 with cur := r })
      rw [hs1]
      exact Alike.ok (c := r) (r := r) () { s1 with cur := r } rfl
  | @more n w1 w2 w3 typ ns t d v u as t' hn n1 h1 ht n2 h2 hd n3 h3 has ih =>
    intro fuel s hf hs
    cases fuel with
    | zero => cases hf
    | succ fuel =>
      obtain ⟨c, x, hc, hcw, h62⟩ := attDefs_head E has r
      rw [att_run E H snl elem hn n1 h1 ht n2 h2 hd h3 (r := t' ++ r) ⟨c, x, hc, hcw⟩ (fun h => absurd h n3) fuel s (by rw [hs]; simp)]
      unfold declareAtts
      refine Alike.bind (NoCur.declareAtt H _ _ _ { s with cur := t' ++ r } r) (fun _ s1 hs1 => ?_)
      have hs1 : s1.cur = t' ++ r := hs1
      run
      rw [if_neg (by rw [hs1, hc]; exact h62)]
      refine ih fuel s1 ?_ hs1
      have : n ≠ [] := by obtain ⟨c, t, rfl, _⟩ := hn.start; simp
      have : n.length ≠ 0 := by simpa using this
      simp at hf
      omega

theorem attlist_run (snl : Nat) {n : List Nat} {as : List AttDef} {t r : List Nat} (h : AttlistText E n as t) (s : St σ) (hs : s.cur = t ++ r) :
    Alike r r (parseAttributeListDecl E H snl s) (declare H snl (.attlist (encodeRunes n) as) { s with cur := r }) := by
  obtain ⟨w1, w2, x, n1, h1, n2, h2, hn, hx, rfl⟩ := h
  simp only [List.append_assoc] at hs
  have hs : s.cur = b!"<!ATTLIST" ++ (w1 ++ (n ++ (w2 ++ (x ++ r)))) := hs
  unfold parseAttributeListDecl
  rw [bind_run (consume_run hs), if_pos rfl]
  obtain ⟨c, y, hc, hcw, _, hcn⟩ := name_head E hn (w2 ++ (x ++ r))
  rw [bind_run (needBlanks_run E n1 h1 (r := n ++ (w2 ++ (x ++ r))) (by intro z hz; rw [hc] at hz; cases hz; exact hcw) _ rfl)]
  rw [bind_run (wrap_run (parseName_run E hn (r := w2 ++ (x ++ r)) (by
    obtain ⟨a, b, rfl⟩ := List.exists_cons_of_ne_nil n2
    intro c hc; cases hc
    exact ws_notName E (h2 _ (by simp))) _ rfl))]
  run
  have hd2 : (w2 ++ (x ++ r)).dropWhile isBlank = x ++ r := dropWhile_blank h2 (by
    obtain ⟨c, y, hc, hcw, _⟩ := attDefs_head E hx r
    intro z hz
    rw [hc] at hz; cases hz; exact hcw)
  rw [hd2]
  exact atts_run E H snl (encodeRunes n) hx _ _ (by simp; omega) rfl
end
end Helium
