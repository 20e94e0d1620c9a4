import Verif.Spec.Accepted
import Verif.Props.Markup
import Verif.Lemmas.SourceContent
import Verif.Lemmas.ValLogic
/-! What an accepted start tag looks like. -/
namespace Helium
open Spec
section
variable {σ : Type} (E : Env) (H : Handler σ)

/-- with the tree builder, the entity tables hold what has been declared. -/
def Safe (s : St σ) : Prop := ∀ tb, H = treeBuilder tb → EntOK s

/-- the run from `s` to `s'` consumed `t`, made the callbacks `evs` and left the element stack as it was. -/
structure Step (s s' : St σ) (t : List Nat) (evs : List Ev) : Prop where
  cur : s.cur = t ++ s'.cur
  ext : ∃ mid, s'.trace = s.trace ++ mid ∧ mid.map (·.1) = evs
  nodes : s'.nodes = s.nodes
  sub : s'.inSubset = s.inSubset
  safe : Safe H s → Safe H s'

/-- no NUL in the input, outside the document type declaration, unless `K` says nothing, and the entity tables are in order, unless `K` says
nothing about what references stand for. -/
structure Ready (K : List Nat → Bytes → Prop) (s : St σ) : Prop where
  nul : 0 ∉ s.cur
  sub : s.inSubset = 0 ∨ ∀ n x, K n x
  safe : Safe H s ∨ ∀ n x y, K n x → K n y

/-- the handler has answered lookups only for names in `K`. -/
def Knows (K : List Nat → Bytes → Prop) (s : St σ) : Prop := ∀ n e, (Ev.getEntity (encodeRunes n), HOut.ent (some e)) ∈ s.trace → ∀ x, HeldFor H n x → K n x

variable {E H} {K : List Nat → Bytes → Prop}

theorem Step.trace {s s' : St σ} {t : List Nat} {evs : List Ev} (h : Step H s s' t evs) : s'.trace.map (·.1) = s.trace.map (·.1) ++ evs := by
  obtain ⟨mid, h1, h2⟩ := h.ext
  rw [h1, List.map_append, h2]
theorem Knows.mono {s s' : St σ} {mid : List (Ev × HOut)} (h : Knows H K s') (hm : s'.trace = s.trace ++ mid) : Knows H K s :=
  fun n e hn => h n e (by rw [hm]; exact List.mem_append_left _ hn)
theorem Step.knows {s s' : St σ} {t : List Nat} {evs : List Ev} (h : Step H s s' t evs) (k : Knows H K s') : Knows H K s := by
  obtain ⟨mid, h1, -⟩ := h.ext
  exact k.mono h1
theorem Step.extra {s s' : St σ} : s'.trace = s.trace → ∃ mid, s'.trace = s.trace ++ mid ∧ mid.map (·.1) = ([] : List Ev) :=
  fun h => ⟨[], by rw [h, List.append_nil], rfl⟩

theorem Safe.heap {s s' : St σ} (h : Safe H s) (ht : s'.trace = s.trace) (hh : Tabs (fun _ => False) s.hc.heap s'.hc.heap) : Safe H s' :=
  fun tb e => (h tb e).heap ht hh
theorem Safe.call {s : St σ} (h : Safe H s) (ev : Ev) : Safe H (cbSt H ev s) := fun tb e => by subst e; exact (h tb rfl).call ev

theorem Step.refl (s : St σ) : Step H s s [] [] := ⟨rfl, Step.extra rfl, rfl, rfl, id⟩
theorem Step.trans {a b c : St σ} {t u : List Nat} {x y : List Ev} (h : Step H a b t x) (k : Step H b c u y) : Step H a c (t ++ u) (x ++ y) :=
  ⟨by rw [h.cur, k.cur, List.append_assoc], by
    obtain ⟨m1, e1, e2⟩ := h.ext
    obtain ⟨m2, e3, e4⟩ := k.ext
    exact ⟨m1 ++ m2, by rw [e3, e1, List.append_assoc], by rw [List.map_append, e2, e4]⟩, k.nodes.trans h.nodes, k.sub.trans h.sub, fun x => k.safe (h.safe x)⟩
theorem Step.moved {s s' : St σ} {t w : List Nat} (hs : s' = { s with cur := w }) (h : s.cur = t ++ w) : Step H s s' t [] := by
  subst hs; exact ⟨h, Step.extra rfl, rfl, rfl, fun x => x.heap rfl (Tabs.refl _ _)⟩
theorem Step.quiet {s s' : St σ} {t : List Nat} (q : Quiet false s s') (h : s.cur = t ++ s'.cur) : Step H s s' t [] :=
  ⟨h, Step.extra q.trace, q.nodes, q.inSubset, fun x => x.heap q.trace q.tabs.toTabs⟩
theorem Step.nul {s s' : St σ} {t : List Nat} {x : List Ev} (h : Step H s s' t x) (h0 : 0 ∉ s.cur) : 0 ∉ s'.cur :=
  fun hc => h0 (by rw [h.cur]; exact List.mem_append_right _ hc)
theorem Step.ready {s s' : St σ} {t : List Nat} {x : List Ev} (h : Step H s s' t x) (h0 : Ready H K s) : Ready H K s' :=
  ⟨h.nul h0.nul, h0.sub.imp (h.sub.trans ·) id, h0.safe.imp h.safe id⟩

theorem cb_step {ev : Ev} {s s' : St σ} (h : cb H ev s = .ok () s') : Step H s s' [] [ev] := by
  have h2 := cb_post (H := H) (L := NT H) (ev := ev) s
  rw [h] at h2
  rw [show s' = _ from h2]
  exact ⟨rfl, ⟨_, rfl, rfl⟩, rfl, rfl, fun x => x.call ev⟩

theorem cb_step' {ev : Ev} {s s' : St σ} {t w : List Nat} (hs : s.cur = t ++ w) (h : cb H ev { s with cur := w } = .ok () s') :
    Step H s s' t [ev] := by
  have h1 : Step H s { s with cur := w } t [] := .moved rfl hs
  have := h1.trans (cb_step h)
  simpa using this

theorem ask_step {ev : Ev} {s s' : St σ} {r : Except Err (Option ERef)} (h : ask H ev s = .ok r s') : Step H s s' [] [ev] := by
  unfold ask callback at h
  obtain ⟨o, t, h1, h⟩ := bind_ok.1 h
  simp only [Out.ok.injEq] at h1
  obtain ⟨rfl, rfl⟩ := h1
  have : s' = cbSt H ev s := by
    cases hr : (H s.view ev s.hc).1 <;> rw [hr] at h <;> simp only [pure_ok, panic_ok, diverge_ok] at h
    all_goals (obtain ⟨-, rfl⟩ := h; simp [cbSt, hr])
  rw [this]
  exact ⟨rfl, ⟨_, rfl, rfl⟩, rfl, rfl, fun x => x.call ev⟩

theorem ask_answer {ev : Ev} {s s' : St σ} {e : ERef} (h : ask H ev s = .ok (.ok (some e)) s') : (ev, HOut.ent (some e)) ∈ s'.trace := by
  unfold ask callback at h
  obtain ⟨o, t, h1, h⟩ := bind_ok.1 h
  simp only [Out.ok.injEq] at h1
  obtain ⟨rfl, rfl⟩ := h1
  cases hr : (H s.view ev s.hc).1 <;> rw [hr] at h <;> simp only [pure_ok, panic_ok, diverge_ok] at h
  all_goals (obtain ⟨h1, rfl⟩ := h; simp at h1)
  subst h1
  simp

theorem ask_said {ev : Ev} {s s' : St σ} {e : ERef} (h : ask H ev s = .ok (.ok (some e)) s') : (H s.view ev s.hc).1 = .ent (some e) := by
  unfold ask callback at h
  obtain ⟨o, t, h1, h⟩ := bind_ok.1 h
  simp only [Out.ok.injEq] at h1
  obtain ⟨rfl, rfl⟩ := h1
  cases hr : (H s.view ev s.hc).1 <;> rw [hr] at h <;> simp only [pure_ok, panic_ok, diverge_ok] at h
  all_goals (obtain ⟨h1, rfl⟩ := h; simp at h1)
  subst h1
  rfl

theorem treeBuilder_ptr {fuel : Nat} {v : HV} {n : Bytes} {c : HC σ} {e : ERef} (h : (treeBuilder fuel v (.getEntity n) c).1 = .ent (some e)) :
    ∃ i, e = .ptr i := by
  unfold treeBuilder tbOut tbDoc at h
  cases hd : c.doc with
  | none => simp [Bind.bind, M.bind, M.get, M.deref, M.panic, hd] at h
  | some d =>
    simp only [Bind.bind, M.bind, M.get, M.deref, hd, Pure.pure, M.pure] at h
    cases hg : docGetEntity c.heap d n with
    | none => rw [hg] at h; simp [M.raw, M.fail] at h
    | some x =>
      rw [hg] at h
      injection h with h; injection h with h
      exact ⟨x, h.symm⟩

theorem peekd_cons {s : St σ} {c : Nat} (h : s.cur.getD 0 E.eof = c) (hc : c ≠ 0 ∧ c ≠ 0xFFFD) : ∃ t, s.cur = c :: t := by
  cases h1 : s.cur with
  | nil => rw [h1] at h; exact absurd h (eof_ne E c hc)
  | cons x t => rw [h1] at h; cases h; exact ⟨t, rfl⟩

/-- input is consumed from the front. -/
def curL (H : Handler σ) : Logic false H where
  R s s' := s'.cur <:+ s.cur
  X _ _ _ := True
  Q _ := True
  quiet h := h.cur
  trans h k := k.trans h
  transX _ _ := trivial
  xquiet _ _ := trivial
  fail _ := trivial
  wrap _ := trivial
  call _ _ := List.suffix_refl _
  callX _ _ := trivial
  look _ := List.suffix_refl _

/-- input is consumed from the front, and the parser stays where it is with respect to the document type declaration. -/
structure Stay (H : Handler σ) (s s' : St σ) : Prop where
  cur : s'.cur <:+ s.cur
  sub : s'.inSubset = s.inSubset
  safe : Safe H s → Safe H s'

theorem Stay.refl (s : St σ) : Stay H s s := ⟨List.suffix_refl _, rfl, id⟩
theorem Stay.ready {s s' : St σ} (h : Stay H s s') (h0 : Ready H K s) : Ready H K s' :=
  ⟨fun hc => h0.nul (List.IsSuffix.mem hc h.cur), h0.sub.imp (h.sub.trans ·) id, h0.safe.imp h.safe id⟩

/-- the same as a program logic. -/
def stayL (H : Handler σ) : Logic false H where
  R s s' := Stay H s s'
  X _ _ _ := True
  Q _ := True
  quiet h := ⟨h.cur, h.inSubset, fun x => x.heap h.trace h.tabs.toTabs⟩
  trans h k := ⟨k.cur.trans h.cur, k.sub.trans h.sub, fun x => k.safe (h.safe x)⟩
  transX _ _ := trivial
  xquiet _ _ := trivial
  fail _ := trivial
  wrap _ := trivial
  call _ _ := ⟨List.suffix_refl _, rfl, fun x => x.call _⟩
  callX _ _ := trivial
  look _ := ⟨List.suffix_refl _, rfl, fun x => x.call _⟩

/-! ### names -/

theorem NameParsed.loose {start chr : Nat → Prop} {cur cur' : List Nat} {v : Bytes} (h : NameParsed start chr cur v cur') (h0 : 0 ∉ cur)
    (hs : ∀ c, start c → NameStartChar E c) (hc : ∀ c, chr c → NameChar E c) :
    ∃ n, cur = n ++ cur' ∧ v = encodeRunes n ∧ LooseName E n := by
  obtain ⟨c, a, r, e1, e2, e3, e4, -, e6, -⟩ := h
  have e6 : cur' = r := by
    rcases e6 with e6 | ⟨e6, _⟩
    · exact e6
    · exfalso
      apply h0
      rw [e1]
      exact List.mem_append_right _ (List.mem_of_mem_head? e6)
  subst e6
  exact ⟨c :: a, e1, e2, c, a, rfl, hs c e3, fun x hx => hc x (e4 x hx)⟩

theorem Spec.LooseName.ne {n : List Nat} (h : LooseName E n) : encodeRunes n ≠ [] := by
  obtain ⟨c, t, rfl, -, -⟩ := h
  rw [encodeRunes_cons]
  have := encodeRune_ne_nil c
  simp [this]

theorem parseNCName_err {s s' : St σ} {e : Err} (h : parseNCName E s = .err e s') : s' = s := by
  unfold parseNCName at h
  run at h
  cases hc : s.cur with
  | nil => simp only [hc] at h; simp only [M.cerr, M.fail, Out.err.injEq] at h; exact h.2.symm
  | cons c t =>
    simp only [hc] at h
    run at h
    split at h
    · simp only [M.cerr, M.fail, Out.err.injEq] at h; exact h.2.symm
    · split at h
      · simp only [M.cerr, M.fail, Out.err.injEq] at h; exact h.2.symm
      · cases h

theorem nameStart_nameChar {c : Nat} (h : NameStartChar E c) : NameChar E c := by
  rcases h with h | h | h
  · exact Or.inl h
  · exact Or.inr (Or.inr (Or.inr (Or.inr (Or.inl h))))
  · exact Or.inr (Or.inr (Or.inr (Or.inr (Or.inr h))))

theorem Spec.LooseName.chars {n : List Nat} (h : LooseName E n) : ∀ c ∈ n, NameChar E c := by
  obtain ⟨c, t, rfl, h1, h2⟩ := h
  intro x hx
  rcases List.mem_cons.1 hx with rfl | hx
  · exact nameStart_nameChar h1
  · exact h2 x hx

theorem Spec.LooseName.scalar {n : List Nat} (h : LooseName E n) : ∀ c ∈ n, isScalar c := fun c hc => nameChar_scalar E (h.chars c hc)

theorem parseQName_sound {s s' : St σ} {q : Bytes × Bytes} (h : parseQName E s = .ok q s') (h0 : 0 ∉ s.cur) :
    ∃ n, LooseName E n ∧ encodeRunes n = (if q.2 = [] then q.1 else q.2 ++ 58 :: q.1) ∧ s.cur = n ++ s'.cur ∧ s' = { s with cur := s'.cur } := by
  unfold parseQName at h
  obtain ⟨x, s1, h1, g⟩ := bind_ok.1 h
  clear h; have h := g; clear g
  rcases attempt_ok.1 h1 with ⟨v, rfl, kh1⟩ | ⟨e, rfl, kh1⟩
  · obtain ⟨cur1, rfl, hn⟩ := parseNCName_sound E kh1
    obtain ⟨n, e1, e2, e3⟩ := hn.loose (E := E) h0 (fun _ h => h) (fun _ h => h.1)
    simp only at h
    run at h
    split at h
    · cases h
      exact ⟨n, e3, by simp [e2], e1, rfl⟩
    · rename_i hp
      have hp : cur1.getD 0 E.eof = 58 := by simpa using hp
      obtain ⟨t, ht⟩ := peekd_cons (E := E) (s := { s with cur := cur1 }) hp (by decide)
      have ht : cur1 = 58 :: t := ht
      subst ht
      obtain ⟨x, s2, h2, g⟩ := bind_ok.1 h
      clear h; have h := g; clear g
      have h0' : 0 ∉ t := fun hc => h0 (by rw [e1]; exact List.mem_append_right _ (List.mem_cons_of_mem _ hc))
      rcases attempt_ok.1 h2 with ⟨l, rfl, kh2⟩ | ⟨e, rfl, kh2⟩
      · obtain ⟨cur2, rfl, hn2⟩ := parseNCName_sound E kh2
        obtain ⟨n2, f1, f2, f3⟩ := hn2.loose (E := E) h0' (fun _ h => h) (fun _ h => h.1)
        obtain ⟨rfl, rfl⟩ := pure_ok.1 h
        have f1 : t = n2 ++ cur2 := f1
        refine ⟨n ++ 58 :: n2, ?_, ?_, by rw [e1, f1]; simp, rfl⟩
        · obtain ⟨c, a, rfl, g1, g2⟩ := e3
          refine ⟨c, a ++ 58 :: n2, rfl, g1, ?_⟩
          intro y hy
          rcases List.mem_append.1 hy with hy | hy
          · exact g2 y hy
          · rcases List.mem_cons.1 hy with rfl | hy
            · exact Or.inr (Or.inr (Or.inr (Or.inr (Or.inr rfl))))
            · exact f3.chars y hy
        · have : v ≠ [] := by rw [e2]; exact e3.ne
          subst e2 f2; simp only [this, if_false, encodeRunes_append, encodeRunes_cons]
          rfl
      · have := parseNCName_err kh2
        subst this
        obtain ⟨x, s3, h3, g⟩ := bind_ok.1 h
        clear h; have h := g; clear g
        rcases attempt_ok.1 h3 with ⟨l, rfl, kh3⟩ | ⟨e, rfl, kh3⟩
        · unfold parseNmtoken at kh3
          run at kh3
          split at kh3
          · cases kh3
          · cases kh3
            obtain ⟨rfl, rfl⟩ := pure_ok.1 h
            refine ⟨n ++ [58], ?_, ?_, by rw [e1]; simp, rfl⟩
            · obtain ⟨c, a, rfl, g1, g2⟩ := e3
              refine ⟨c, a ++ [58], rfl, g1, ?_⟩
              intro y hy
              rcases List.mem_append.1 hy with hy | hy
              · exact g2 y hy
              · rw [List.mem_singleton.1 hy]
                exact Or.inr (Or.inr (Or.inr (Or.inr (Or.inr rfl))))
            · have : v ≠ [] := by rw [e2]; exact e3.ne
              subst e2; simp only [this, if_false, encodeRunes_append]
              rfl
        · unfold parseNmtoken at kh3
          run at kh3
          split at kh3 <;> cases kh3
  · have := parseNCName_err kh1
    subst this
    run at h
    split at h
    · obtain ⟨x, s2, h2, g⟩ := bind_ok.1 h
      clear h; have h := g; clear g
      rcases attempt_ok.1 h2 with ⟨l, rfl, kh2⟩ | ⟨e, rfl, kh2⟩
      · obtain ⟨cur2, rfl, hn2⟩ := parseName_sound E kh2
        obtain ⟨n2, f1, f2, f3⟩ := hn2.loose (E := E) h0 (fun _ h => h) (fun _ h => h)
        obtain ⟨rfl, rfl⟩ := pure_ok.1 h
        exact ⟨n2, f3, by simp [f2], f1, rfl⟩
      · exact (cerr_ok.1 h).elim
    · exact (fail_ok.1 h).elim

/-! ### references -/

theorem parseCharRef_step {s s' : St σ} {v : Nat} (h : parseCharRef s = .ok v s') (hne : s'.cur ≠ []) :
    ∃ t, LooseCharRef t v ∧ Step H s s' t [] := by
  have hq := Silent.parseCharRef (kb := false) s
  rw [h] at hq
  obtain ⟨hex, ds, n, h1, h2, -, h4, h5⟩ := C18_accepted_partial h
  rcases h5 with h5 | h5
  · refine ⟨refOpen hex ++ (ds ++ [59]), ⟨ds, n, ?_, h2, h4⟩, .quiet hq (by rw [h5]; simp)⟩
    cases hex
    · exact Or.inl ⟨rfl, h1⟩
    · exact Or.inr ⟨rfl, h1⟩
  · exact absurd h5.2 hne

theorem ctxGetEntity_step {s s' : St σ} {b : Bytes} {r : Option Nat} (h : ctxGetEntity b s = .ok r s') : Step H s s' [] [] := by
  have hq := Silent.ctxGetEntity b s
  rw [h] at hq
  refine .quiet hq ?_
  unfold ctxGetEntity at h
  run at h
  split at h
  · cases h; rfl
  · obtain ⟨d, s1, h1, h⟩ := bind_ok.1 h
    obtain ⟨-, rfl⟩ := deref_ok.1 h1
    cases hg : docGetEntity s1.hc.heap d b with
    | some e => rw [hg] at h; cases h; rfl
    | none =>
      rw [hg] at h
      run at h
      split at h
      · obtain ⟨_, s2, h2, h⟩ := bind_ok.1 h
        obtain ⟨-, rfl⟩ := pure_ok.1 h
        unfold liftH at h2
        simp only [updNode, M.modify] at h2
        cases h2
        rfl
      · cases h; rfl

theorem parseEntityRef_step {s s' : St σ} {e : ERef} (h : parseEntityRef E H s = .ok e s') (h0 : Ready H K s) (hk : Knows H K s') :
    ∃ n, LooseName E n ∧ ((∃ p, resolvePredef (encodeRunes n) = some p ∧ e = .pre p ∧ Step H s s' (38 :: (n ++ [59])) []) ∨
      (resolvePredef (encodeRunes n) = none ∧ (∀ x, HeldFor H n x → K n x) ∧ (∀ tb, H = treeBuilder tb → ∃ i, e = .ptr i) ∧
        Step H s s' (38 :: (n ++ [59])) [.getEntity (encodeRunes n)])) := by
  unfold parseEntityRef at h
  run at h
  obtain ⟨_, s1, h1, g⟩ := bind_ok.1 h
  clear h; have h := g; clear g
  obtain ⟨h1, rfl⟩ := need_ok.1 h1
  obtain ⟨t, ht⟩ := peekd_cons (E := E) (by simpa using h1) (by decide : (38 : Nat) ≠ 0 ∧ (38 : Nat) ≠ 0xFFFD)
  run at h
  obtain ⟨name, s2, h2, g⟩ := bind_ok.1 h
  clear h; have h := g; clear g
  obtain ⟨cur2, rfl, hn⟩ := parseName_sound E (orElse_ok.1 h2)
  have h0' : 0 ∉ t := fun hc => h0.nul (by rw [ht]; exact List.mem_cons_of_mem _ hc)
  rw [show (s1.cur.drop 1) = t by rw [ht]; rfl] at hn
  obtain ⟨n, e1, rfl, e3⟩ := hn.loose (E := E) h0' (fun _ h => h) (fun _ h => h)
  have e1 : t = n ++ cur2 := e1
  run at h
  obtain ⟨_, s3, h3, g⟩ := bind_ok.1 h
  clear h; have h := g; clear g
  obtain ⟨k3, rfl⟩ := need_ok.1 h3
  obtain ⟨t2, ht2⟩ := peekd_cons (E := E) (s := { s1 with cur := cur2 }) (eq_of_beq k3) (by decide : (59 : Nat) ≠ 0 ∧ (59 : Nat) ≠ 0xFFFD)
  have ht2 : cur2 = 59 :: t2 := ht2
  subst ht2
  have hstep : Step H s1 { s1 with cur := t2 } (38 :: (n ++ [59])) [] := .moved rfl (by rw [ht, e1]; simp)
  run at h
  refine ⟨n, e3, ?_⟩
  cases hp : resolvePredef (encodeRunes n) with
  | some p =>
    rw [hp] at h
    obtain ⟨rfl, rfl⟩ := pure_ok.1 h
    exact Or.inl ⟨p, rfl, rfl, hstep⟩
  | none =>
    rw [hp] at h
    refine Or.inr ⟨rfl, ?_⟩
    obtain ⟨r, s4, h4, g⟩ := bind_ok.1 h
    clear h; have h := g; clear g
    have hs4 := hstep.trans (ask_step h4)
    rw [List.append_nil, List.nil_append] at hs4
    cases r with
    | ok o =>
      cases o with
      | none => exact (panic_ok.1 h).elim
      | some e =>
        obtain ⟨he, rfl⟩ := pure_ok.1 h
        subst he
        exact ⟨hk n _ (ask_answer h4), fun tb e => by subst e; exact treeBuilder_ptr (ask_said h4), hs4⟩
    | error e =>
      obtain ⟨r, s5, h5, g⟩ := bind_ok.1 h
      clear h; have h := g; clear g
      have hs5 := hs4.trans (ctxGetEntity_step h5)
      rcases h0.sub with h0sub | hall
      case inr =>
        rw [List.append_nil, List.append_nil] at hs5
        refine ⟨fun x _ => hall n x, ?_⟩
        cases r with
        | none =>
          run at h
          split at h
          · exact (cerr_ok.1 h).elim
          · split at h
            · obtain ⟨_, _, _, g⟩ := bind_ok.1 h
              exact (panic_ok.1 g).elim
            · exact (panic_ok.1 h).elim
        | some e =>
          run at h
          split at h
          · exact (cerr_ok.1 h).elim
          · split at h
            · exact (cerr_ok.1 h).elim
            · cases h
              exact ⟨fun _ _ => ⟨_, rfl⟩, hs5⟩
      have h0sub : s4.inSubset = 0 := hs4.sub.trans h0sub
      have hnone : r = none := by
        unfold ctxGetEntity at h5
        run at h5
        rw [if_pos h0sub] at h5
        exact (pure_ok.1 h5).1.symm
      subst hnone
      rw [List.append_nil, List.append_nil] at hs5
      run at h
      split at h
      · exact (cerr_ok.1 h).elim
      · split at h
        · obtain ⟨_, _, _, g⟩ := bind_ok.1 h
          exact (panic_ok.1 g).elim
        · exact (panic_ok.1 h).elim

/-! ### attributes -/

theorem onlyLookups_nil : OnlyLookups [] := by intro ev h; cases h
theorem Spec.OnlyLookups.append {a b : List Ev} (h : OnlyLookups a) (k : OnlyLookups b) : OnlyLookups (a ++ b) := by
  intro ev hev
  rcases List.mem_append.1 hev with h1 | h1
  · exact h ev h1
  · exact k ev h1
theorem onlyLookups_one {n : Bytes} : OnlyLookups [.getEntity n] := by
  intro ev h
  exact ⟨n, List.mem_singleton.1 h⟩

theorem step_ne {s s' : St σ} {t : List Nat} {x : List Ev} (h : Step H s s' t x) (hne : s'.cur ≠ []) : s.cur ≠ [] := by
  rw [h.cur]
  intro hc
  exact hne (List.append_eq_nil_iff.1 hc).2

/-- the input goes on with a character an unclosed attribute value stops at. -/
def Stuck (l : List Nat) : Prop := ∃ c r, l = c :: r ∧ (isChar c = false ∨ c = 60)

theorem predef_value {n : List Nat} {p : Predef} (hn : LooseName E n) (h : resolvePredef (encodeRunes n) = some p) :
    ∃ v, refValue n = some v ∧ p.content = encodeRunes [v] ∧ n.head? ≠ some 35 ∧ v < 128 := by
  have hs := hn.scalar
  have inj : ∀ {m : List Nat}, encodeRunes n = encodeRunes m → (∀ c ∈ m, isScalar c) → n = m := by
    intro m he hm
    rw [← decodeRunes_encodeRunes n hs, he, decodeRunes_encodeRunes m hm]
  unfold resolvePredef at h
  split at h
  · rename_i he
    have := inj (m := b!"lt") he (by decide)
    subst this; cases h
    exact ⟨60, rfl, rfl, by decide⟩
  · split at h
    · rename_i he
      have := inj (m := b!"gt") he (by decide)
      subst this; cases h
      exact ⟨62, rfl, rfl, by decide⟩
    · split at h
      · rename_i he
        have := inj (m := b!"amp") he (by decide)
        subst this; cases h
        exact ⟨38, rfl, rfl, by decide⟩
      · split at h
        · rename_i he
          have := inj (m := b!"apos") he (by decide)
          subst this; cases h
          exact ⟨39, rfl, rfl, by decide⟩
        · split at h
          · rename_i he
            have := inj (m := b!"quot") he (by decide)
            subst this; cases h
            exact ⟨34, rfl, rfl, by decide⟩
          · cases h

theorem predef_none {n : List Nat} (hn : LooseName E n) (h : resolvePredef (encodeRunes n) = none) : refValue n = none := by
  unfold refValue
  have k : ∀ {m : List Nat}, n = m → resolvePredef (encodeRunes m) = none := by rintro m rfl; exact h
  split
  · rename_i he; have := k he; revert this; decide
  · split
    · rename_i he; have := k he; revert this; decide
    · split
      · rename_i he; have := k he; revert this; decide
      · split
        · rename_i he; have := k he; revert this; decide
        · split
          · rename_i he; have := k he; revert this; decide
          · obtain ⟨c, t, rfl, hc, -⟩ := hn
            split
            · rename_i heq
              cases heq
              exfalso
              rcases hc with hc | hc | hc
              · rw [E.letter_ascii 35 (by decide)] at hc; revert hc; decide
              · cases hc
              · cases hc
            · rfl

/-- what the loop keeps of the value `r` read so far: all of it, or its words. -/
structure Kept (nrm : Bool) (r b : Bytes) (sp : Bool) (n : Nat) : Prop where
  all : nrm = false → b = r
  same : nrm = true → wst b = wst r
  last : nrm = true → sp = true → b.getLast? = some 32
  canon : nrm = true → n = 0 → Canon (wst b) b sp

theorem Kept.start {nrm : Bool} : Kept nrm [] [] false 0 := ⟨fun _ => rfl, fun _ => rfl, fun _ h => (by cases h), fun _ _ => .start⟩

theorem Kept.ref {nrm : Bool} {r b x : Bytes} {sp : Bool} {n : Nat} (h : Kept nrm r b sp n) : Kept nrm (r ++ x) (b ++ x) false (n + 1) :=
  ⟨fun e => by rw [h.all e], fun e => by rw [wst_append, wst_append, h.same e], fun _ e => (by cases e), fun _ e => (by cases e)⟩

theorem Kept.word {nrm : Bool} {r b : Bytes} {sp : Bool} {n c : Nat} (h : Kept nrm r b sp n) (hc : ¬ Ws c) :
    Kept nrm (r ++ encodeRune c) (b ++ encodeRune c) false n := by
  have h32 : 32 ∉ encodeRune c := by
    intro h
    have := (mem_encodeRune_ascii c 32 (by decide)).1 h
    exact hc (by unfold Ws; omega)
  refine ⟨fun e => by rw [h.all e], fun e => by rw [wst_append, wst_append, h.same e], fun _ e => (by cases e), fun e1 e2 => ?_⟩
  rw [wst_append, foldl_word _ _ h32]
  exact (h.canon e1 e2).word (encodeRune_ne_nil c)

theorem Kept.space {nrm : Bool} {r b : Bytes} {sp : Bool} {n : Nat} (h : Kept nrm r b sp n) (hb : b ≠ [] ∨ nrm = false) :
    Kept nrm (r ++ [32]) (if nrm = false ∨ sp = false then b ++ [32] else b) true n := by
  have e32 : ∀ x : Bytes, wst (x ++ [32]) = wstep (wst x) 32 := fun x => by rw [wst_append]; rfl
  cases nrm with
  | false =>
    refine ⟨fun _ => by simp [h.all rfl], fun e => (by cases e), fun e => (by cases e), fun e => (by cases e)⟩
  | true =>
    have hb : b ≠ [] := hb.resolve_right (by simp)
    cases sp with
    | false =>
      refine ⟨fun e => by simp at e, fun e => ?_, fun _ _ => by simp, fun e1 e2 => ?_⟩
      · simp only [or_true, if_true]
        rw [e32, e32, h.same e]
      · simp only [or_true, if_true]
        rw [e32]
        exact (h.canon e1 e2).space hb
    | true =>
      simp only [Bool.true_eq_false, or_self, if_false]
      refine ⟨fun e => (by cases e), fun e => ?_, h.last, h.canon⟩
      rw [e32, ← h.same e, wstep_idem (wst_last (h.last e rfl))]

theorem Kept.lead {nrm : Bool} {r b : Bytes} {sp : Bool} {n : Nat} (h : Kept nrm r b sp n) (hb : ¬ (b ≠ [] ∨ nrm = false)) :
    Kept nrm (r ++ [32]) b sp n := by
  have h1 : nrm = true := by
    cases nrm with
    | true => rfl
    | false => exact absurd (Or.inr rfl) hb
  have h2 : b = [] := by
    cases b with
    | nil => rfl
    | cons c t => exact absurd (Or.inl (by simp)) hb
  subst h2
  refine ⟨fun e => (by rw [h1] at e; cases e), fun e => ?_, h.last, h.canon⟩
  rw [wst_append, ← h.same e]
  rfl

/-- with the tree builder, a reference to an entity stands for itself. -/
theorem heldRef {s s' : St σ} {e : ERef} {m u : List Nat} (h : parseEntityRef E H s = .ok e s') (hs : Safe H s)
    (hp : ∀ tb, H = treeBuilder tb → ∃ i, e = .ptr i) (st : Step H s s' u [.getEntity (encodeRunes m)]) :
    HeldFor H m (if e.typ s'.hc.heap = 6 then (if e.content s'.hc.heap = [38] then b!"&#38;" else e.content s'.hc.heap)
      else 38 :: (e.name s'.hc.heap ++ [59])) := by
  intro tb e0
  subst e0
  obtain ⟨i, rfl⟩ := hp tb rfl
  obtain ⟨n, -, -, h3, pre, o, h4⟩ := parseEntityRef_found s (hs tb rfl) _ _ h
  have hn : encodeRunes n = encodeRunes m := by
    have h5 := st.trace
    rw [h4, List.map_append] at h5
    have := (List.append_inj' h5 rfl).2
    simpa using this
  have h6 : ¬ ERef.typ s'.hc.heap (.ptr i) = 6 := by
    unfold ERef.typ
    rcases h3.2.2 with h | h | h <;> simp only [h] <;> decide
  rw [if_neg h6]
  unfold ERef.name refTo
  simp only [h3.2.1, hn]

theorem attrValueLoop_step {q : Nat} (hq : q = 34 ∨ q = 39) {nrm : Bool} : ∀ (fuel : Nat) {b : Bytes} {sp : Bool} {n : Nat} {s s' : St σ} {x : Bytes × Nat × Bool}
    {r0 : Bytes}, attrValueLoop E H q nrm fuel b sp n s = .ok x s' → Kept nrm r0 b sp n → Ready H K s → Knows H K s' → s'.cur ≠ [] →
    ∃ t v look, LooseValue E K q t v ∧ Kept nrm (r0 ++ v) x.1 x.2.2 x.2.1 ∧ OnlyLookups look ∧ Step H s s' t look ∧ ((∃ r, s'.cur = q :: r) ∨ Stuck s'.cur) := by
  intro fuel
  induction fuel with
  | zero => intro b sp n s s' x r0 h; exact (diverge_ok.1 h).elim
  | succ fuel ih =>
    intro b sp n s s' x r0 h hp h0 hk hne
    unfold attrValueLoop at h
    run at h
    split at h
    · rename_i hc
      cases h
      refine ⟨[], [], [], .nil, by simpa using hp, onlyLookups_nil, .refl _, ?_⟩
      cases hcur : s.cur with
      | nil => exact absurd hcur hne
      | cons c r =>
        rw [hcur] at hc
        rcases hc with ⟨_, hc⟩ | hc | hc
        · exact Or.inl ⟨r, by rw [← show c = q from hc]⟩
        · exact Or.inr ⟨c, r, rfl, Or.inl hc⟩
        · exact Or.inr ⟨c, r, rfl, Or.inr hc⟩
    · rename_i hc
      split at h
      · split at h
        · obtain ⟨v, s1, h1, h2⟩ := bind_ok.1 h
          have h1 := wrap_ok.1 h1
          have h0' : Ready H K s1 := by
            have hq := Silent.parseCharRef (kb := false) s
            rw [h1] at hq
            exact ⟨fun hc => h0.nul (hq.cur.mem hc), h0.sub.imp (hq.inSubset.trans ·) id, h0.safe.imp (fun x => x.heap hq.trace hq.tabs.toTabs) id⟩
          obtain ⟨t, w, look, g1, gk, g2, g3, g4⟩ := ih h2 hp.ref h0' hk hne
          obtain ⟨u, e1, e2⟩ := parseCharRef_step h1 (step_ne g3 hne)
          exact ⟨u ++ t, _, look, .charRef e1 g1, by rw [List.append_assoc] at gk; exact gk, g2, e2.trans g3, g4⟩
        · obtain ⟨e, s1, h1, h2⟩ := bind_ok.1 h
          have h1 := wrap_ok.1 h1
          run at h2
          have h0' : Ready H K s1 := by
            have hr := Sat.parseEntityRef (L := stayL H) E (Admits.of fun _ _ _ => trivial) s
            rw [h1] at hr
            exact hr.ready h0
          obtain ⟨t, w, look, g1, gk, g2, g3, g4⟩ := ih h2 hp.ref h0' hk hne
          obtain ⟨m, e1, e2⟩ := parseEntityRef_step h1 h0 (g3.knows hk)
          rw [List.append_assoc] at gk
          have : ∃ look, LooseValue E K q (38 :: (m ++ 59 :: t))
              ((if e.typ s1.hc.heap = 6 then (if e.content s1.hc.heap = [38] then b!"&#38;" else e.content s1.hc.heap) else 38 :: (e.name s1.hc.heap ++ [59])) ++ w) ∧
              OnlyLookups look ∧ Step H s s1 (38 :: (m ++ [59])) look := by
            rcases e2 with ⟨p, f1, rfl, e2⟩ | ⟨f0, f1, f9, e2⟩
            · obtain ⟨v, f2, f3, -, f7⟩ := predef_value e1 f1
              refine ⟨[], ?_, onlyLookups_nil, e2⟩
              have f4 : (if (ERef.pre p).typ s1.hc.heap = 6 then (if (ERef.pre p).content s1.hc.heap = [38] then b!"&#38;" else (ERef.pre p).content s1.hc.heap)
                  else 38 :: ((ERef.pre p).name s1.hc.heap ++ [59])) = heldAs v := by
                have f5 : (ERef.pre p).typ s1.hc.heap = 6 := rfl
                have f6 : (ERef.pre p).content s1.hc.heap = p.content := rfl
                rw [if_pos f5, f6, f3]
                have f8 : encodeRune v = [v] := by unfold encodeRune; simp [f7]
                simp only [encodeRunes, List.flatMap_cons, List.flatMap_nil, List.append_nil, heldAs, f8, List.cons.injEq, and_true]
              rw [f4]
              exact .predefined e1 f2 g1
            · refine ⟨_, .entity e1 (predef_none e1 f0) ?_ g1, onlyLookups_one, e2⟩
              rcases h0.safe with hsafe | hall
              · exact f1 _ (heldRef h1 hsafe f9 e2)
              · exact hall m _ _ (f1 (refTo m) fun _ _ => rfl)
          obtain ⟨lk, k0, k1, k2⟩ := this
          refine ⟨38 :: (m ++ 59 :: t), _, lk ++ look, k0, gk, k1.append g2, ?_, g4⟩
          have := k2.trans g3
          rw [show 38 :: (m ++ [59]) ++ t = 38 :: (m ++ 59 :: t) by simp] at this
          exact this
      · rename_i hamp
        cases hcur : s.cur with
        | nil =>
          rw [hcur] at hc
          exfalso
          have h1 := E.eof_spec
          rcases h1 with h1 | h1 <;> rw [List.getD_nil, h1] at hc <;> exact hc (Or.inr (Or.inl (by decide)))
        | cons c r =>
          have hgd : s.cur.getD 0 E.eof = c := by rw [hcur]; rfl
          rw [hgd] at h
          rw [hcur] at hc hamp
          have hc : ¬ ((q ≠ 0 ∧ c = q) ∨ isChar c = false ∨ c = 60) := hc
          have hamp : ¬ c = 38 := hamp
          have hq0 : q ≠ 0 := by omega
          have hx : isChar c = true := by
            cases hx : isChar c
            · exact absurd (Or.inr (Or.inl hx)) hc
            · rfl
          have hv : ∀ {t v}, LooseValue E K q t v → LooseValue E K q (c :: t) ((if Ws c then [32] else encodeRune c) ++ v) := fun ht =>
            .char (isChar_xml hx) (fun h => hc (Or.inl ⟨hq0, h⟩)) hamp (fun h => hc (Or.inr (Or.inr h))) ht
          have hs : Step H s { s with cur := s.cur.drop 1 } [c] [] := .moved rfl (by rw [hcur]; rfl)
          have fin : ∀ {b sp n}, attrValueLoop E H q nrm fuel b sp n { s with cur := s.cur.drop 1 } = .ok x s' →
              Kept nrm (r0 ++ (if Ws c then [32] else encodeRune c)) b sp n →
              ∃ t v look, LooseValue E K q t v ∧ Kept nrm (r0 ++ v) x.1 x.2.2 x.2.1 ∧ OnlyLookups look ∧ Step H s s' t look ∧ ((∃ r, s'.cur = q :: r) ∨ Stuck s'.cur) := by
            intro b sp n h2 hp2
            obtain ⟨t, v, look, g1, gk, g2, g3, g4⟩ := ih h2 hp2 (hs.ready h0) hk hne
            exact ⟨c :: t, _, look, hv g1, by rw [List.append_assoc] at gk; exact gk, g2, hs.trans g3, g4⟩
          split at h
          · rename_i hw
            have hw : Ws c := by unfold Ws; omega
            rw [if_pos hw] at fin
            split at h
            · rename_i hb
              exact fin h (hp.space hb)
            · rename_i hb
              exact fin h (hp.lead hb)
          · rename_i hw
            have hw : ¬ Ws c := by unfold Ws; omega
            rw [if_neg hw] at fin
            exact fin h (hp.word hw)

/-- the value of an attribute before the second normalisation. -/
structure Found (nrm : Bool) (r x : Bytes) (n : Nat) : Prop where
  all : nrm = false → x = r
  same : nrm = true → words [] x = words [] r
  canon : nrm = true → n = 0 → x = unwords (words [] r)

theorem Kept.found {nrm : Bool} {r b : Bytes} {sp : Bool} {n : Nat} (h : Kept nrm r b sp n) :
    Found nrm r (if sp ∧ nrm then trimRight b else b) n := by
  cases nrm with
  | false => exact ⟨fun _ => by simp [h.all rfl], fun e => (by cases e), fun e => (by cases e)⟩
  | true =>
    have hw : words [] b = words [] r := by rw [words_wst, words_wst, h.same rfl]
    have hb : n = 0 → b = unwords (words [] r) ++ (if sp then [32] else []) := by
      intro hn
      rw [← hw, words_wst]
      exact (h.canon rfl hn).text
    cases sp with
    | false =>
      simp only [Bool.false_eq_true, false_and, if_false]
      exact ⟨fun e => (by cases e), fun _ => hw, fun _ hn => by simpa using hb hn⟩
    | true =>
      simp only [and_self, if_true]
      refine ⟨fun e => (by cases e), fun _ => by rw [words_trim, hw], fun _ hn => ?_⟩
      rw [hb hn]
      exact trimRight_unwords _ (fun w hw => words_mem [] r (by simp) w hw)

theorem parseAttributeValueInternal_loop {q : Nat} {nrm : Bool} {s s' : St σ} {y : Bytes × Nat} (h : parseAttributeValueInternal E H q nrm s = .ok y s') :
    ∃ fuel z, attrValueLoop E H q nrm fuel [] false 0 s = .ok z s' ∧ y = (if z.2.2 ∧ nrm then trimRight z.1 else z.1, z.2.1) := by
  unfold parseAttributeValueInternal at h
  run at h
  obtain ⟨z, s2, k2, k3⟩ := bind_ok.1 h
  split at k3
  · rename_i hc
    split at k3
    · exact (panic_ok.1 k3).elim
    · obtain ⟨rfl, rfl⟩ := pure_ok.1 k3; exact ⟨_, z, k2, by rw [if_pos hc]⟩
  · rename_i hc
    obtain ⟨rfl, rfl⟩ := pure_ok.1 k3; exact ⟨_, z, k2, by rw [if_neg hc]⟩

theorem parseAttributeValue_step {nrm : Bool} {s s' : St σ} {x : Bytes × Nat} (h : parseAttributeValue E H nrm s = .ok x s')
    (h0 : Ready H K s) (hk : Knows H K s') (hne : s'.cur ≠ []) :
    ∃ t look, OnlyLookups look ∧ Step H s s' t look ∧
      ((t = [] ∧ x.1 = [] ∨ ∃ q b r, (q = 34 ∨ q = 39) ∧ LooseValue E K q b r ∧ t = q :: (b ++ [q]) ∧ Found nrm r x.1 x.2) ∨ Stuck s'.cur) := by
  unfold parseAttributeValue at h
  run at h
  split at h
  · rename_i hq
    obtain ⟨r, hr⟩ : ∃ r, s.cur = s.cur.getD 0 E.eof :: r := peekd_cons (E := E) rfl (by omega)
    generalize hqq : s.cur.getD 0 E.eof = q at h hq hr
    have hs : Step H s { s with cur := s.cur.drop 1 } [q] [] := .moved rfl (by rw [hr]; rfl)
    obtain ⟨v, s1, h1, h2⟩ := bind_ok.1 h
    rcases attempt_ok.1 h1 with ⟨y, rfl, k1⟩ | ⟨e, rfl, k1⟩
    · obtain ⟨fuel, z, hl, rfl⟩ := parseAttributeValueInternal_loop k1
      run at h2
      split at h2
      · rename_i hq2
        obtain ⟨r2, hr2⟩ := peekd_cons hq2 (by omega)
        cases h2
        have hk' : Knows H K s1 := hk
        obtain ⟨t, w, look, g1, gk, g2, g3, -⟩ := attrValueLoop_step (K := K) hq fuel hl .start (hs.ready h0) hk' (by rw [hr2]; simp)
        refine ⟨q :: (t ++ [q]), look, g2, ?_, Or.inl (Or.inr ⟨q, t, w, hq, g1, rfl, gk.found⟩)⟩
        have := (hs.trans g3).trans (Step.moved (s' := { s1 with cur := s1.cur.drop 1 }) (t := [q]) rfl (by rw [hr2]; rfl))
        simpa using this
      · rename_i hq2
        cases h2
        obtain ⟨t, w, look, g1, gk, g2, g3, g4⟩ := attrValueLoop_step hq fuel hl .start (hs.ready h0) hk hne
        refine ⟨_, look, g2, hs.trans g3, Or.inr ?_⟩
        rcases g4 with ⟨r3, g4⟩ | g4
        · exact absurd (by rw [g4]; rfl) hq2
        · exact g4
    · run at h2
      split at h2 <;> exact (fail_ok.1 h2).elim
  · cases h
    exact ⟨[], [], onlyLookups_nil, .refl _, Or.inl (Or.inl ⟨rfl, rfl⟩)⟩

theorem ite_any {S α : Type} {c : Prop} [Decidable c] {p q : M S α} {s s' : S} {a : α} (h : (if c then p else q) s = .ok a s') :
    p s = .ok a s' ∨ q s = .ok a s' := by
  split at h
  · exact Or.inl h
  · exact Or.inr h

theorem skip_step (s : St σ) : ∃ ws, Blank ws ∧ Step H s { s with cur := s.cur.dropWhile isBlank } ws [] := by
  obtain ⟨ws, r, h1, h2, -, h4⟩ := blanks_split s.cur
  exact ⟨ws, h2, .moved rfl (by rw [h4]; exact h1)⟩

/-- the qualified name of an attribute as the parser splits it. -/
def qual (l p : Bytes) : Bytes := if p = [] then l else p ++ 58 :: l

theorem parseAttribute_step {el : Bytes} {s s' : St σ} {a : Bytes × Bytes × Bytes} (h : parseAttribute E H el s = .ok a s')
    (h0 : Ready H K s) (hk : Knows H K s') (hne : s'.cur ≠ []) :
    ∃ t n look, encodeRunes n = qual a.1 a.2.1 ∧ OnlyLookups look ∧ Step H s s' t look ∧ (LooseAttr E K t n a.2.2 ∨ Stuck s'.cur) := by
  unfold parseAttribute at h
  obtain ⟨q, s1, h1, h2⟩ := bind_ok.1 h
  obtain ⟨n, e1, e2, e3, e4⟩ := parseQName_sound (wrap_ok.1 h1) h0.nul
  have hs1 : Step H s s1 n [] := .moved e4 e3
  run at h2
  obtain ⟨v, s2, h3, h4⟩ := bind_ok.1 h2
  obtain ⟨nrm, h3', h4'⟩ : ∃ nrm : Bool, M.wrap (parseAttributeValue E H nrm)
      { s1 with cur := (((s1.cur.dropWhile isBlank).drop 1).dropWhile isBlank) } = .ok v s2 ∧
      (if nrm = true ∧ v.2 > 0 then (do let v' ← attrNormalizeSpace v.1; pure (q.1, q.2, v') : P σ _) else pure (q.1, q.2, v.1)) s2 = .ok a s' := ⟨_, h3, h4⟩
  clear h h2 h3 h4
  have h3 := h3'
  have h4 := h4'
  clear h3' h4'
  have hv : s' = s2 ∧ a.1 = q.1 ∧ a.2.1 = q.2 ∧ ((¬ (nrm = true ∧ v.2 > 0) ∧ a.2.2 = v.1) ∨ nrm = true ∧ a.2.2 = unwords (words [] v.1)) := by
    split at h4
    · rename_i hn
      obtain ⟨v', s3, h5, h6⟩ := bind_ok.1 h4
      obtain ⟨rfl, rfl⟩ := pure_ok.1 h6
      by_cases hs : v.1 = [] ∨ ∃ c ∈ v.1, c ≠ 32
      · rw [C43_normalize_partial v.1 s2 hs] at h5
        cases h5
        exact ⟨rfl, rfl, rfl, .inr ⟨hn.1, rfl⟩⟩
      · simp only [not_or, not_exists, not_and, Decidable.not_not] at hs
        rw [C43_spaces_panic v.1 s2 hs.1 hs.2] at h5
        cases h5
    · rename_i hn
      obtain ⟨rfl, rfl⟩ := pure_ok.1 h4; exact ⟨rfl, rfl, rfl, .inl ⟨hn, rfl⟩⟩
  obtain ⟨rfl, ha1, ha2, ha3⟩ := hv
  obtain ⟨w1, hw1, hs2⟩ := skip_step s1
  have h3 := wrap_ok.1 h3
  cases hcur : s1.cur.dropWhile isBlank with
  | nil =>
    exfalso
    rw [hcur] at h3
    unfold parseAttributeValue at h3
    run at h3
    split at h3
    · rename_i hq
      have := eof_ne E
      simp only [List.drop_nil, List.dropWhile_nil, List.getD_nil] at hq
      rcases hq with hq | hq
      · exact this 34 (by decide) hq
      · exact this 39 (by decide) hq
    · cases h3
      exact hne rfl
  | cons x r =>
    rw [hcur] at hs2 h3
    have hs3 : Step H { s1 with cur := x :: r } { s1 with cur := r } [x] [] := .moved rfl rfl
    obtain ⟨w2, hw2, hs4⟩ := skip_step { s1 with cur := r }
    have hall := ((hs1.trans hs2).trans hs3).trans hs4
    obtain ⟨t, look, g1, g2, g3⟩ := parseAttributeValue_step h3 (hall.ready h0) hk hne
    refine ⟨_, n, look, by rw [e2, qual, ha1, ha2], g1, hall.trans g2, ?_⟩
    rcases g3 with g3 | g3
    · refine Or.inl ⟨e1, w1, x, w2, t, by simp, hw1, hw2, ?_⟩
      rcases g3 with ⟨rfl, g3⟩ | ⟨q', b, r', f1, f2, f3, f4⟩
      · refine .inl ⟨rfl, ?_⟩
        rcases ha3 with ⟨-, h⟩ | ⟨-, h⟩ <;> rw [h, g3]
        rfl
      · refine .inr ⟨q', b, r', f1, f2, f3, ?_⟩
        rcases ha3 with ⟨hn, h⟩ | ⟨hn, h⟩
        · cases nrm with
          | false => exact .inl (h.trans (f4.all rfl))
          | true => exact .inr (h.trans (f4.canon rfl (by simp at hn; omega)))
        · exact .inr (by rw [h, f4.same hn])
    · exact Or.inr g3

end
end Helium
