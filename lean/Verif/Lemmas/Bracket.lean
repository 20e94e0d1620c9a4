import Verif.Lemmas.DocLogic
import Verif.Spec.Sax
/-! Element events are well bracketed. -/
namespace Helium
open Spec
section
variable {σ : Type} {H : Handler σ} (E : Env)

theorem nest_append (a b : List Ev) : ∀ st, nest st (a ++ b) = (nest st a).bind (fun st' => nest st' b) := by
  induction a with
  | nil => intro st; rfl
  | cons x t ih =>
    intro st
    cases x
    case startElement => simp only [List.cons_append, nest]; exact ih _
    case endElement =>
      cases st with
      | nil => simp [nest]
      | cons y st =>
        simp only [List.cons_append, nest]
        split
        · exact ih _
        · rfl
    all_goals simp only [List.cons_append, nest]; exact ih _

theorem nest_other {ev : Ev} (h : ¬ IsTag ev) (st : List (Bytes × Bytes × Bytes)) : nest st [ev] = some st := by
  cases ev <;> simp [nest, IsTag] at h ⊢

/-- a piece of trace that leaves the open elements as they are. -/
def Neutral (mid : List (Ev × HOut)) : Prop := ∀ st, nest st (mid.map (·.1)) = some st

/-- a piece of trace that at most opens elements. -/
def Opens (mid : List (Ev × HOut)) : Prop := ∃ ext, ∀ st, nest st (mid.map (·.1)) = some (ext ++ st)

theorem Neutral.nil : Neutral [] := fun _ => rfl
theorem Neutral.append {a b : List (Ev × HOut)} (ha : Neutral a) (hb : Neutral b) : Neutral (a ++ b) := by
  intro st
  rw [List.map_append, nest_append, ha st]
  exact hb st
theorem Neutral.opens {a : List (Ev × HOut)} (ha : Neutral a) : Opens a := ⟨[], ha⟩
theorem Opens.append {a b : List (Ev × HOut)} (ha : Opens a) (hb : Opens b) : Opens (a ++ b) := by
  obtain ⟨x, hx⟩ := ha
  obtain ⟨y, hy⟩ := hb
  refine ⟨y ++ x, fun st => ?_⟩
  rw [List.map_append, nest_append, hx st]
  show nest (x ++ st) _ = _
  rw [hy (x ++ st), List.append_assoc]
theorem Neutral.single {ev : Ev} {o : HOut} (h : ¬ IsTag ev) : Neutral [(ev, o)] := fun st => nest_other h st

/-- a piece of trace without element events. -/
def NoTag (mid : List (Ev × HOut)) : Prop := ∀ x ∈ mid, ¬ IsTag x.1

theorem NoTag.nil : NoTag [] := by intro x h; cases h
theorem NoTag.append {a b : List (Ev × HOut)} (ha : NoTag a) (hb : NoTag b) : NoTag (a ++ b) := by
  intro x hx
  rcases List.mem_append.1 hx with h | h
  · exact ha x h
  · exact hb x h
theorem NoTag.single {ev : Ev} {o : HOut} (h : ¬ IsTag ev) : NoTag [(ev, o)] := by
  intro x hx
  rw [List.mem_singleton] at hx
  subst hx
  exact h
theorem NoTag.neutral {mid : List (Ev × HOut)} (h : NoTag mid) : Neutral mid := by
  induction mid with
  | nil => exact Neutral.nil
  | cons x t ih =>
    have h1 : Neutral [x] := Neutral.single (h x (by simp))
    exact h1.append (ih (fun y hy => h y (by simp [hy])))

/-- logic of functions that make no element events. -/
def NT (H : Handler σ) : Logic false H where
  R s s' := s'.nodes = s.nodes ∧ ∃ mid, s'.trace = s.trace ++ mid ∧ NoTag mid
  X s _ s' := ∃ mid, s'.trace = s.trace ++ mid ∧ NoTag mid
  Q ev := ¬ IsTag ev
  quiet h := ⟨h.nodes, [], by simp [h.trace], NoTag.nil⟩
  trans := by
    rintro a b c ⟨h0, m, h1, h2⟩ ⟨h0', m', h1', h2'⟩
    exact ⟨h0'.trans h0, m ++ m', by rw [h1', h1, List.append_assoc], h2.append h2'⟩
  transX := by
    rintro a b e c ⟨_, m, h1, h2⟩ ⟨m', h1', h2'⟩
    exact ⟨m ++ m', by rw [h1', h1, List.append_assoc], h2.append h2'⟩
  xquiet := by
    rintro a e b c ⟨m, h1, h2⟩ h
    exact ⟨m, by rw [h.trace, h1], h2⟩
  fail := by
    intro s e _
    exact ⟨[], by simp, NoTag.nil⟩
  wrap h := h
  call := by
    intro s ev hq h
    exact ⟨rfl, [(ev, cbRes H ev s)], rfl, NoTag.single hq⟩
  callX := by
    intro s ev e hq h
    exact ⟨[(ev, cbRes H ev s)], rfl, NoTag.single hq⟩
  look := by
    intro s ev h
    refine ⟨rfl, [(ev, cbRes H ev s)], rfl, NoTag.single ?_⟩
    cases ev <;> simp [Ev.lookup, IsTag] at h ⊢

theorem NT_admits : Admits (NT H) := by
  refine Admits.of (fun ev h _ => ?_)
  show ¬ IsTag ev
  cases ev <;> simp [Ev.inner, IsTag] at h ⊢

theorem NT_prolog (snl : Nat) : Sat (NT H) (parseProlog E H snl) :=
  Sat.parseProlog E NT_admits (Sat.attlistLoop E NT_admits (fun _ _ _ _ _ _ _ => by simp [NT, IsTag])) (by simp [NT, IsTag]) (by simp [NT, IsTag]) (fun _ _ _ => ⟨by simp [NT, IsTag], by simp [NT, IsTag]⟩) (fun s c => ⟨rfl, [], by simp, NoTag.nil⟩)
    (fun s n => ⟨rfl, [], by simp, NoTag.nil⟩) snl

/-- bracketing logic. -/
def BL (H : Handler σ) : Logic false H where
  R s s' := s'.nodes = s.nodes ∧ ∃ mid, s'.trace = s.trace ++ mid ∧ Neutral mid
  X s _ s' := ∃ mid, s'.trace = s.trace ++ mid ∧ Opens mid
  Q ev := ¬ IsTag ev
  quiet h := ⟨h.nodes, [], by simp [h.trace], Neutral.nil⟩
  trans := by
    rintro a b c ⟨h0, m, h1, h2⟩ ⟨h0', m', h1', h2'⟩
    exact ⟨h0'.trans h0, m ++ m', by rw [h1', h1, List.append_assoc], h2.append h2'⟩
  transX := by
    rintro a b e c ⟨_, m, h1, h2⟩ ⟨m', h1', h2'⟩
    exact ⟨m ++ m', by rw [h1', h1, List.append_assoc], h2.opens.append h2'⟩
  xquiet := by
    rintro a e b c ⟨m, h1, h2⟩ h
    exact ⟨m, by rw [h.trace, h1], h2⟩
  fail := by
    intro s e _
    exact ⟨[], by simp, Neutral.nil.opens⟩
  wrap h := h
  call := by
    intro s ev hq h
    exact ⟨rfl, [(ev, cbRes H ev s)], rfl, Neutral.single hq⟩
  callX := by
    intro s ev e hq h
    exact ⟨[(ev, cbRes H ev s)], rfl, (Neutral.single hq).opens⟩
  look := by
    intro s ev h
    refine ⟨rfl, [(ev, cbRes H ev s)], rfl, Neutral.single ?_⟩
    cases ev <;> simp [Ev.lookup, IsTag] at h ⊢

theorem BL_admits : Admits (BL H) := by
  refine Admits.of (fun ev h _ => ?_)
  show ¬ IsTag ev
  cases ev <;> simp [Ev.inner, IsTag] at h ⊢

theorem BL_flat : Flat E (BL H) (fun _ => True) where
  admits := BL_admits
  inv := fun _ _ => trivial
  invq := fun _ _ => trivial
  enter := fun _ _ _ _ _ _ => trivial
  leave := by
    rintro s d h c fc lc t - ⟨h0, m, h1, h2⟩
    exact ⟨rfl, m, h1, h2⟩
  leaveX := by
    rintro s d h c fc lc t e - ⟨m, h1, h2⟩
    exact ⟨m, h1, h2⟩
  ent := fun _ _ _ _ _ _ _ => by intro h; exact h

/-- the start event of an element. -/
def IsStart (e : EInfo) : Ev → Prop
  | .startElement l p u _ _ => e = ⟨l, p, u⟩
  | _ => False

theorem cb_post {L : Logic false H} {ev : Ev} (s : St σ) : post (cb H ev s) (fun s' => s' = cbSt H ev s) (fun _ s' => s' = cbSt H ev s) := by
  unfold cb callback cbSt
  simp only [Bind.bind, M.bind]
  cases hr : (H s.view ev s.hc).1 <;> simp only [Pure.pure, M.pure, M.fail, M.panic, M.diverge] <;> first | rfl | trivial

theorem post_bind {S α β : Type} {p : M S α} {f : α → M S β} {s : S} {R R' : S → Prop} {X : Err → S → Prop}
    (hp : post (p s) R X) (hf : ∀ a s', R s' → post (f a s') R' X) : post ((p >>= f) s) R' X := by
  show post (M.bind p f s) R' X
  unfold M.bind
  cases hps : p s with
  | ok a s' => rw [hps] at hp; exact hf a s' hp
  | err e s' => rw [hps] at hp; exact hp
  | panic => trivial
  | diverge => trivial

theorem post_wrap {S α : Type} {p : M S α} {s : S} {R : S → Prop} {X : S → Prop}
    (hp : post (p s) R (fun _ => X)) : post (M.wrap p s) R (fun _ => X) := by
  unfold M.wrap
  cases hps : p s with
  | ok a s' => rw [hps] at hp; exact hp
  | err e s' => rw [hps] at hp; exact hp
  | panic => trivial
  | diverge => trivial

/-- what a start tag leaves behind. -/
def StartPost (s s' : St σ) : Prop :=
  ∃ e mid l p u n a o, s'.nodes = s.nodes ++ [e] ∧ e = ⟨l, p, u⟩ ∧ s'.trace = s.trace ++ mid ++ [(.startElement l p u n a, o)] ∧ NoTag mid

theorem parseStartTag_post (s : St σ) : post (parseStartTag E H s) (StartPost s) (fun _ s' => ∃ mid, s'.trace = s.trace ++ mid ∧ Opens mid) := by
  have hQ : Admits (NT H) := NT_admits
  unfold parseStartTag
  have step : ∀ {α β : Type} {p : P σ α} {f : α → P σ β} {t : St σ}, Sat (NT H) p → (NT H).R s t →
      (∀ a t', (NT H).R s t' → post (f a t') (StartPost s) (fun _ s' => ∃ mid, s'.trace = s.trace ++ mid ∧ Opens mid)) →
      post ((p >>= f) t) (StartPost s) (fun _ s' => ∃ mid, s'.trace = s.trace ++ mid ∧ Opens mid) := by
    intro α β p f t hp ht hf
    refine post_bind (R := (NT H).R s) ?_ hf
    exact post_mono (hp t) (fun _ h => (NT H).trans ht h) (fun e t' h => by
      obtain ⟨m, h1, h2⟩ := (NT H).transX (e := e) ht h
      exact ⟨m, h1, h2.neutral.opens⟩)
  refine step (Silent.sat (Silent.peek E) _) ((NT H).quiet (Quiet.refl s)) (fun _ t ht => ?_)
  refine step (Silent.sat (Silent.need _ _) _) ht (fun _ t ht => ?_)
  refine step (Silent.sat (Silent.adv _) _) ht (fun _ t ht => ?_)
  refine step (Silent.sat (Silent.orElse (Silent.parseQName E)) _) ht (fun q t ht => ?_)
  refine step (Silent.sat (Silent.need _ _) _) ht (fun _ t ht => ?_)
  refine step (Silent.sat Silent.rest _) ht (fun r t ht => ?_)
  refine step (Sat.attrsLoop E hQ (fun _ _ => ⟨rfl, [], by simp, NoTag.nil⟩) _ _ _ _) ht (fun na t ht => ?_)
  refine step (Silent.sat Silent.get _) ht (fun s0 t ht => ?_)
  show post ((if q.2 ≠ [] ∧ nsLookup s0.ns q.2 = [] then M.cerr EK.mNamespaceNotFound else _ : P σ Unit) t) _ _
  by_cases hc : q.2 ≠ [] ∧ nsLookup s0.ns q.2 = []
  · rw [if_pos hc]
    obtain ⟨m, h1, h2⟩ := (NT H).transX ht ((NT H).fail (s := t) (e := .parse (.k .mNamespaceNotFound)) (by intro e' h; cases h))
    exact ⟨m, h1, h2.neutral.opens⟩
  · rw [if_neg hc]
    obtain ⟨hn, mid, h1, h2⟩ := ht
    refine post_bind (R := fun t' => t' = cbSt H (.startElement q.1 q.2 (nsLookup s0.ns q.2) (nsList s0.ns na.1)
      (na.2 ++ defaultAttrs E s0.attsDefault q.2 q.1)) t) ?_ ?_
    · refine post_mono (cb_post (L := NT H) t) (fun _ h => h) ?_
      intro e s' hs'
      subst hs'
      have hm : ∀ (n : List (Option (Bytes × Bytes))) (a : List AttrD) (u : Bytes) (o : HOut),
          Opens (mid ++ [(.startElement q.1 q.2 u n a, o)]) :=
        fun n a u o => h2.neutral.opens.append ⟨[(q.1, q.2, u)], fun st => rfl⟩
      refine ⟨_, ?_, hm (nsList s0.ns na.1) (na.2 ++ defaultAttrs E s0.attsDefault q.2 q.1) (nsLookup s0.ns q.2) (cbRes H (.startElement q.1 q.2 (nsLookup s0.ns q.2) (nsList s0.ns na.1)
        (na.2 ++ defaultAttrs E s0.attsDefault q.2 q.1)) t)⟩
      rw [← List.append_assoc, ← h1]
      rfl
    · intro _ t' ht'
      subst ht'
      refine ⟨⟨q.1, q.2, nsLookup s0.ns q.2⟩, mid, q.1, q.2, _, nsList s0.ns na.1, na.2 ++ defaultAttrs E s0.attsDefault q.2 q.1,
        cbRes H (.startElement q.1 q.2 (nsLookup s0.ns q.2) (nsList s0.ns na.1)
        (na.2 ++ defaultAttrs E s0.attsDefault q.2 q.1)) t, ?_, rfl, ?_, h2⟩
      · show t.nodes ++ _ = _
        rw [hn]
      · show t.trace ++ _ = _
        rw [h1]
        rfl

/-- first half of `parseEndTag`. -/
def endTagHead : P σ Unit := do
  if (← consume b!"/>") then pure ()
  else if (← consume b!"</") then
    let s ← M.get
    let e ← M.deref s.nodes.getLast?
    if (← consume (decodeRunes e.name)) then
      M.need ((← peek E) == 62) .gtRequired
      adv 1
    else M.cerr .mEndTagExpected
  else M.cerr .ltSlashRequired

/-- second half of `parseEndTag`. -/
def endTagFin (H : Handler σ) : P σ Unit := do
  let s ← M.get
  let e ← M.deref s.nodes.getLast?
  cb H (.endElement e.loc e.pfx e.uri)
  M.modify (fun s => { s with nodes := s.nodes.dropLast })

theorem bindM_assoc {S α β γ : Type} (p : M S α) (f : α → M S β) (g : β → M S γ) :
    (p >>= f) >>= g = p >>= fun a => f a >>= g := by
  funext s
  show M.bind (M.bind p f) g s = M.bind p (fun a => M.bind (f a) g) s
  unfold M.bind
  cases p s <;> rfl

theorem pureM_bind {S α β : Type} (a : α) (f : α → M S β) : (pure a : M S α) >>= f = f a := rfl

theorem iteM_bind {S α β : Type} {c : Prop} [Decidable c] (p q : M S α) (f : α → M S β) :
    (if c then p else q) >>= f = if c then p >>= f else q >>= f := by split <;> rfl

theorem parseEndTag_eq : parseEndTag E H = (do endTagHead E; endTagFin H) := by
  unfold parseEndTag endTagHead
  simp only [bindM_assoc, iteM_bind, pureM_bind]
  rfl

theorem Silent.endTagHead : Silent false (endTagHead E : P σ Unit) := by
  unfold Helium.endTagHead
  silent

theorem endTagFin_post (s : St σ) (ns : List EInfo) (e : EInfo) (hs : s.nodes = ns ++ [e]) :
    post (endTagFin H s) (fun s' => s'.nodes = ns ∧ ∃ o, s'.trace = s.trace ++ [(.endElement e.loc e.pfx e.uri, o)])
      (fun _ s' => ∃ o, s'.trace = s.trace ++ [(.endElement e.loc e.pfx e.uri, o)]) := by
  have hlast : s.nodes.getLast? = some e := by rw [hs]; simp
  have : endTagFin H s = (do
      cb H (.endElement e.loc e.pfx e.uri)
      M.modify (fun s => { s with nodes := s.nodes.dropLast }) : P σ Unit) s := by
    unfold endTagFin
    show M.bind M.get _ s = _
    simp only [M.bind, M.get]
    rw [hlast]
    rfl
  rw [this]
  refine post_bind (R := fun t => t = cbSt H (.endElement e.loc e.pfx e.uri) s)
    (post_mono (cb_post (L := BL H) s) (fun _ h => h) ?_) ?_
  · rintro e' t rfl
    exact ⟨_, rfl⟩
  · rintro _ t rfl
    refine ⟨?_, _, rfl⟩
    show (s.nodes.dropLast) = ns
    rw [hs]; simp

theorem parseEndTag_post (s : St σ) (ns : List EInfo) (e : EInfo) (hs : s.nodes = ns ++ [e]) :
    post (parseEndTag E H s) (fun s' => s'.nodes = ns ∧ ∃ o, s'.trace = s.trace ++ [(.endElement e.loc e.pfx e.uri, o)])
      (fun _ s' => s'.trace = s.trace ∨ ∃ o, s'.trace = s.trace ++ [(.endElement e.loc e.pfx e.uri, o)]) := by
  rw [parseEndTag_eq]
  refine post_bind (R := Quiet false s) (post_mono (Silent.endTagHead E s) (fun _ h => h) (fun _ t h => Or.inl h.1.trace)) ?_
  intro _ t ht
  refine post_mono (endTagFin_post t ns e (by rw [ht.nodes, hs])) ?_ ?_
  · rintro t' ⟨h1, o, h2⟩
    exact ⟨h1, o, by rw [h2, ht.trace]⟩
  · rintro _ t' ⟨o, h2⟩
    exact Or.inr ⟨o, by rw [h2, ht.trace]⟩

/-- the trace of one element. -/
def ElementTrace (mid : List (Ev × HOut)) : Prop :=
  ∃ pre l p u n a o body o', mid = pre ++ (.startElement l p u n a, o) :: body ++ [(.endElement l p u, o')] ∧ NoTag pre ∧ Neutral body

theorem ElementTrace.neutral {mid : List (Ev × HOut)} (h : ElementTrace mid) : Neutral mid := by
  obtain ⟨pre, l, p, u, n, a, o, body, o', rfl, h1, h2⟩ := h
  intro st
  rw [List.append_assoc, List.map_append, nest_append, h1.neutral st]
  show nest ((l, p, u) :: st) (List.map _ (body ++ [(.endElement l p u, o')])) = _
  rw [List.map_append, nest_append, h2]
  simp [nest]

theorem parseElementW_post {body : P σ Unit} (hb : Sat (BL H) body) (s : St σ) :
    post (parseElementW E H body s) (fun s' => s'.nodes = s.nodes ∧ ∃ mid, s'.trace = s.trace ++ mid ∧ ElementTrace mid)
      (fun _ s' => ∃ mid, s'.trace = s.trace ++ mid ∧ Opens mid) := by
  unfold parseElementW
  refine post_bind (post_wrap (parseStartTag_post E s)) ?_
  rintro _ t ⟨e, m, l, p, u, n, a, o, hn, he, ht, hm⟩
  have hend : ∀ t' : St σ, (BL H).R t t' → post (M.wrap (parseEndTag E H) t')
      (fun s' => s'.nodes = s.nodes ∧ ∃ mid, s'.trace = s.trace ++ mid ∧ ElementTrace mid)
      (fun _ s' => ∃ mid, s'.trace = s.trace ++ mid ∧ Opens mid) := by
    rintro t' ⟨hn', m', ht', hm'⟩
    refine post_wrap (post_mono (parseEndTag_post E t' s.nodes e (by rw [hn', hn])) ?_ ?_)
    · rintro t'' ⟨h1, o', h2⟩
      refine ⟨h1, m ++ (.startElement l p u n a, o) :: m' ++ [(.endElement l p u, o')], ?_, m, l, p, u, n, a, o, m', o', rfl, hm, hm'⟩
      rw [h2, ht', ht, he]
      simp
    · rintro _ t'' (h2 | ⟨o', h2⟩)
      · refine ⟨m ++ ((.startElement l p u n a, o) :: m'), ?_, ?_⟩
        · rw [h2, ht', ht]; simp
        · refine hm.neutral.opens.append ⟨[(l, p, u)], fun st => ?_⟩
          show nest ((l, p, u) :: st) _ = _
          exact hm' _
      · refine ⟨m ++ (.startElement l p u n a, o) :: m' ++ [(.endElement l p u, o')], ?_,
          (ElementTrace.neutral ⟨m, l, p, u, n, a, o, m', o', rfl, hm, hm'⟩).opens⟩
        rw [h2, ht', ht, he]
        simp
  refine post_bind (R := fun t' => t' = t) (by simp only [hasPrefix]; exact rfl) ?_
  rintro c t' rfl
  split
  · exact hend t' ((BL H).quiet (Quiet.refl _))
  · refine post_bind (R := (BL H).R t') (post_wrap (post_mono (hb t') (fun _ h => h) ?_)) (fun _ t'' h => hend t'' h)
    rintro e' t'' ⟨m', h1, h2⟩
    refine ⟨m ++ [(.startElement l p u n a, o)] ++ m', by rw [h1, ht, List.append_assoc, List.append_assoc, List.append_assoc], ?_⟩
    exact (hm.neutral.opens.append ⟨[(l, p, u)], fun st => rfl⟩).append h2

theorem BL_element {body : P σ Unit} (hb : SatI (BL H) (fun _ => True) body) : SatI (BL H) (fun _ => True) (parseElementW E H body) := by
  intro s _
  refine post_mono (parseElementW_post E hb.sat s) ?_ (fun _ _ h => h)
  rintro s' ⟨h1, mid, h2, h3⟩
  exact ⟨h1, mid, h2, h3.neutral⟩

theorem BL_content (fuel : Nat) : Sat (BL H) (parseContent E H fuel) :=
  (SatI.parseContent E (BL_flat E).toFrame (fun _ h => SatI.parseReference E (BL_flat E) h) (fun _ h => BL_element E h) fuel).sat

theorem BL_prolog (snl : Nat) : Sat (BL H) (parseProlog E H snl) :=
  Sat.parseProlog E BL_admits (Sat.attlistLoop E BL_admits (fun _ _ _ _ _ _ _ => by simp [BL, IsTag])) (by simp [BL, IsTag]) (by simp [BL, IsTag]) (fun _ _ _ => ⟨by simp [BL, IsTag], by simp [BL, IsTag]⟩) (fun s c => ⟨rfl, [], by simp, Neutral.nil⟩)
    (fun s n => ⟨rfl, [], by simp, Neutral.nil⟩) snl

theorem BL_document (fuel snl : Nat) : Sat (BL H) (parseDocument E H fuel snl) := by
  rw [parseDocument_eq]
  refine Sat.bind (BL_prolog E snl) (fun _ => ?_)
  exact (SatI.parseTail E (BL_flat E).toFrame (fun _ h => SatI.parseReference E (BL_flat E) h) (fun _ h => BL_element E h) (by simp [BL, IsTag]) fuel).sat

end
end Helium
