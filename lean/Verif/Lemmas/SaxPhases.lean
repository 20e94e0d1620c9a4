import Verif.Lemmas.Bracket
import Verif.Lemmas.TbErr
import Verif.Lemmas.EscapeRead
/-! The phases of a document and what text events carry. -/
namespace Helium
open Spec
section
variable {σ : Type} {H : Handler σ} (E : Env)

theorem switchEncoding_post (s : St σ) : post (switchEncoding E s) (fun t => t.trace = s.trace ∧ t.inSubset = s.inSubset)
    (fun _ t => t = s) := by
  unfold switchEncoding
  simp only [Bind.bind, M.bind, M.get]
  cases encLoad (if s.encoding ≠ [] then s.encoding else if s.detected ≠ [] then s.detected else b!"utf8") with
  | none => exact rfl
  | some c => exact ⟨rfl, rfl⟩

/-! ### the envelope -/

/-- a trace with no locator, document start or document end. -/
def Inside (mid : List (Ev × HOut)) : Prop := ∀ x ∈ mid, ¬ IsEnvelope x.1

theorem lookup_not_envelope (ev : Ev) (h : ev.lookup) : ¬ IsEnvelope ev := by
  cases ev <;> simp [Ev.lookup, IsEnvelope] at h ⊢

/-- logic of the inside of a document. -/
abbrev IL (H : Handler σ) : Logic false H := TL H false (fun ev => ¬ IsEnvelope ev) lookup_not_envelope

theorem IL_admits : Admits (IL H) := by
  refine Admits.of (fun ev h _ => ?_)
  show ¬ IsEnvelope ev
  cases ev <;> simp [Ev.inner, IsEnvelope] at h ⊢

theorem IL_flat : Flat E (IL H) (fun _ => True) :=
  TL_flat (H := H) (G := fun ev => ¬ IsEnvelope ev) E (IL_admits (H := H)) (fun _ _ => trivial) (fun _ _ => trivial)
    (fun _ _ _ _ _ => trivial) (fun _ _ _ _ _ _ _ => id)

theorem IL_tags : FlatTags (IL H) := TL_tags (by simp [IsEnvelope]) (by simp [IsEnvelope])

/-- `parseTail` up to the end of the document. -/
def parseTailBody (H : Handler σ) (fuel : Nat) : P σ Unit := do
  let _ ← skipBlanks
  M.need ((← peek E) == 60) .emptyDocument
  M.wrap (parseElement E H fuel)
  M.wrap (parseMisc E H)
  M.need (← isDone) .documentEnd

theorem parseTail_eq (fuel : Nat) : parseTail E H fuel = (do parseTailBody E H fuel; cb H .endDocument) := by
  unfold parseTail parseTailBody
  simp only [bindM_assoc]

theorem SatI.parseTailBody {kb : Bool} {L : Logic kb H} {I : St σ → Prop} (F : Frame L I)
    (hr : ∀ body : P σ Unit, SatI L I body → SatI L I (Helium.parseReference E H body))
    (he : ∀ body : P σ Unit, SatI L I body → SatI L I (Helium.parseElementW E H body)) (fuel : Nat) :
    SatI L I (parseTailBody E H fuel) := by
  unfold Helium.parseTailBody
  refine SatI.bind F (Sat.satI (Silent.sat Silent.skipBlanks L)) (fun _ => ?_)
  refine SatI.bind F (Sat.satI (Silent.sat (Silent.peek E) L)) (fun _ => ?_)
  refine SatI.bind F (Sat.satI (Silent.sat (Silent.need _ _) L)) (fun _ => ?_)
  refine SatI.bind F (SatI.wrap (SatI.parseElement E F hr he fuel)) (fun _ => ?_)
  refine SatI.bind F (Sat.satI (Sat.wrap (Sat.parseMisc E F.admits))) (fun _ => ?_)
  refine SatI.bind F (Sat.satI (Silent.sat Silent.isDone L)) (fun _ => ?_)
  exact Sat.satI (Silent.sat (Silent.need _ _) L)

/-- the three shapes of the events of a document. -/
inductive Shape (evs : List (Ev × HOut)) : Prop
  | loc (o) (h : evs = [(.setDocumentLocator, o)])
  | opened (o o' mid) (h : evs = (.setDocumentLocator, o) :: (.startDocument, o') :: mid) (hm : Inside mid)
  | closed (o o' mid o'') (h : evs = (.setDocumentLocator, o) :: (.startDocument, o') :: mid ++ [(.endDocument, o'')]) (hm : Inside mid)

theorem parseDocument_shape (fuel snl : Nat) (s : St σ) (h0 : s.trace = []) :
    post (parseDocument E H fuel snl s)
      (fun t => ∃ o o' mid o'', t.trace = (.setDocumentLocator, o) :: (.startDocument, o') :: mid ++ [(.endDocument, o'')] ∧ Inside mid)
      (fun _ t => Shape t.trace) := by
  unfold parseDocument
  refine post_bind (R := fun t => ∃ o, t.trace = [(Ev.setDocumentLocator, o)]) ?_ ?_
  · rw [parseHead_eq]
    refine post_bind (R := fun t => ∃ o, t.trace = [(Ev.setDocumentLocator, o)])
      (post_mono (cb_post (L := IL H) s) ?_ ?_) ?_
    · rintro t rfl
      exact ⟨cbRes H .setDocumentLocator s, by simp [cbSt, cbRes, h0]⟩
    · rintro e t rfl
      exact .loc (cbRes H .setDocumentLocator s) (by simp [cbSt, cbRes, h0])
    · rintro _ t ⟨o, ht⟩
      exact post_mono (Silent.headRest (kb := false) E t) (fun _ h => ⟨o, by rw [h.trace, ht]⟩) (fun _ _ h => .loc o (by rw [h.1.trace, ht]))
  rintro _ t1 ⟨o, ht1⟩
  refine post_bind (R := fun t : St σ => t.trace = [(Ev.setDocumentLocator, o)]) ?_ ?_
  · refine post_wrap (X := fun t => Shape t.trace) (post_mono (switchEncoding_post E t1) (fun _ h => h.1.trans ht1) ?_)
    rintro e t rfl
    exact .loc o ht1
  rintro _ t2 ht2
  have hL : ∀ o' m, Inside m → Shape ([(Ev.setDocumentLocator, o), (.startDocument, o')] ++ m) := fun o' m hm => .opened o o' m rfl hm
  refine post_bind (R := fun t => ∃ o', t.trace = [(Ev.setDocumentLocator, o), (.startDocument, o')])
    (post_mono (cb_post (L := IL H) t2) ?_ ?_) ?_
  · rintro t rfl
    exact ⟨cbRes H .startDocument t2, by simp [cbSt, cbRes, ht2]⟩
  · rintro e t rfl
    exact .opened o (cbRes H .startDocument t2) [] (by simp [cbSt, cbRes, ht2]) (by simp [Inside])
  rintro _ t3 ⟨o', ht3⟩
  have step : ∀ {α : Type} {p : P σ α} {t : St σ}, Sat (IL H) p →
      (∃ m, t.trace = [(Ev.setDocumentLocator, o), (.startDocument, o')] ++ m ∧ Inside m) →
      post (p t) (fun t => ∃ m, t.trace = [(Ev.setDocumentLocator, o), (.startDocument, o')] ++ m ∧ Inside m) (fun _ t => Shape t.trace) := by
    rintro α p t hp ⟨m, hm, hi⟩
    refine post_mono (hp t) ?_ ?_
    · rintro t' ⟨_, m', h1, h2⟩
      refine ⟨m ++ m', by rw [h1, hm, List.append_assoc], ?_⟩
      intro x hx
      rcases List.mem_append.1 hx with h | h
      · exact hi x h
      · exact (h2 x h).1
    · rintro e t' ⟨m', h1, h2, _⟩
      refine .opened o o' (m ++ m') (by rw [h1, hm]; simp) ?_
      intro x hx
      rcases List.mem_append.1 hx with h | h
      · exact hi x h
      · exact h2 x h
  refine post_bind (step (Sat.wrap (Sat.parseMisc E IL_admits)) ⟨[], by rw [ht3]; rfl, by simp [Inside]⟩) ?_
  intro _ t4 ht4
  refine post_bind (step (Sat.parseDoctypePart E IL_admits (Sat.attlistLoop E IL_admits (fun _ _ _ _ _ _ _ => by simp [IL, TL, IsEnvelope])) (fun _ _ _ => ⟨by simp [IL, TL, IsEnvelope], by simp [IL, TL, IsEnvelope]⟩) (fun s n => ⟨by simp, [], by simp, by simp⟩) snl) ht4) ?_
  intro _ t5 ht5
  rw [parseTail_eq]
  refine post_bind (step (SatI.parseTailBody E (IL_flat E).toFrame
    (fun _ h => SatI.parseReference E (IL_flat E) h) (fun _ h => SatI.parseElementW E (IL_flat E).toFrame IL_tags h) fuel).sat ht5) ?_
  rintro _ t6 ⟨m, ht6, hi⟩
  refine post_mono (cb_post (L := IL H) t6) ?_ ?_
  · rintro t rfl
    exact ⟨o, o', m, cbRes H .endDocument t6, by simp [cbSt, cbRes, ht6], hi⟩
  · rintro e t rfl
    exact .closed o o' m (cbRes H .endDocument t6) (by simp [cbSt, cbRes, ht6]) hi

/-! ### text -/

theorem isChar_xml {c : Nat} (h : isChar c = true) : XmlChar c := by
  unfold isChar at h
  unfold XmlChar
  split at h
  · simp at h
  · split at h <;> simp at h <;> omega

theorem replaceCRLF_cons {x : Nat} {t : List Nat} (h : ¬ (x = 13 ∧ t.head? = some 10)) : replaceCRLF (x :: t) = x :: replaceCRLF t := by
  rw [replaceCRLF.eq_def]
  split
  · simp_all
  · simp_all
  · simp_all

theorem replaceCRLF_append {a : List Nat} (h : ∀ x ∈ a, x ≠ 13) (t : List Nat) : replaceCRLF (a ++ t) = a ++ replaceCRLF t := by
  induction a with
  | nil => rfl
  | cons x a ih =>
    rw [List.cons_append, replaceCRLF_cons (fun h' => h x (by simp) h'.1), ih (fun y hy => h y (by simp [hy]))]
    rfl

theorem encodeRunes_head10 (t : List Nat) : (encodeRunes t).head? = some 10 ↔ t.head? = some 10 := by
  cases t with
  | nil => simp [encodeRunes]
  | cons x t =>
    rw [encodeRunes_cons]
    by_cases hx : x < 0x80
    · rw [encodeRune_ascii x hx]; simp
    · have h1 : x ≠ 10 := by omega
      have h2 : 10 ∉ encodeRune x := by rw [mem_encodeRune_ascii x 10 (by omega)]; omega
      cases he : encodeRune x with
      | nil => exact absurd he (encodeRune_ne_nil x)
      | cons y l =>
        rw [he] at h2
        simp at h2 ⊢
        constructor
        · intro h; exact absurd h.symm h2.1
        · intro h; exact absurd h h1

theorem replaceCRLF_encodeRunes : ∀ l : List Nat, replaceCRLF (encodeRunes l) = encodeRunes (replaceCRLF l)
  | [] => rfl
  | x :: t => by
    by_cases hx : x = 13
    · subst hx
      match t with
      | [] => rfl
      | y :: t' =>
        by_cases hy : y = 10
        · subst hy
          rw [encodeRunes_cons, encodeRune_ascii 13 (by omega), encodeRunes_cons, encodeRune_ascii 10 (by omega)]
          show replaceCRLF (13 :: 10 :: encodeRunes t') = encodeRunes (10 :: replaceCRLF t')
          rw [encodeRunes_cons, encodeRune_ascii 10 (by omega), ← replaceCRLF_encodeRunes t']
          rfl
        · rw [encodeRunes_cons, encodeRune_ascii 13 (by omega)]
          show replaceCRLF (13 :: encodeRunes (y :: t')) = _
          rw [replaceCRLF_cons (x := 13) (t := encodeRunes (y :: t')) (by rw [encodeRunes_head10]; simp [hy]),
            replaceCRLF_cons (x := 13) (t := y :: t') (by simp [hy]), replaceCRLF_encodeRunes (y :: t'), encodeRunes_cons,
            encodeRune_ascii 13 (by omega)]
          rfl
    · rw [encodeRunes_cons, replaceCRLF_append, replaceCRLF_cons (by simp [hx]), replaceCRLF_encodeRunes t, encodeRunes_cons]
      intro b hb h
      subst h
      rw [mem_encodeRune_ascii x 13 (by omega)] at hb
      exact hx hb.symm
termination_by l => l.length

theorem mem_replaceCRLF (l : List Nat) (c : Nat) (h : c ∈ replaceCRLF l) : c ∈ l := by
  induction l using replaceCRLF.induct with
  | case1 => simp [replaceCRLF] at h
  | case2 t ih =>
    rw [replaceCRLF] at h
    rcases List.mem_cons.1 h with rfl | h
    · simp
    · exact List.mem_cons_of_mem _ (List.mem_cons_of_mem _ (ih h))
  | case3 x t hx ih =>
    rw [replaceCRLF_cons (by rintro ⟨rfl, ht⟩; cases t with | nil => simp at ht | cons y t => simp at ht; subst ht; exact hx t rfl rfl)] at h
    rcases List.mem_cons.1 h with rfl | h
    · simp
    · exact List.mem_cons_of_mem _ (ih h)

theorem textData_legal {d : Bytes} (h : TextData d) : ∃ rs : List Nat, d = encodeRunes rs ∧ ∀ c ∈ rs, XmlChar c := by
  obtain ⟨l, _, h1, rfl⟩ := h
  exact ⟨replaceCRLF l, replaceCRLF_encodeRunes l, fun c hc => isChar_xml (h1 c (mem_replaceCRLF l c hc))⟩

theorem dataOK_legal {ev : Ev} (h : ev.dataOK) : LegalText ev := by
  cases ev with
  | characters d =>
    rcases h with h | ⟨c, h1, _, rfl⟩
    · exact textData_legal h
    · exact ⟨[c], by simp [encodeRunes], by intro x hx; rw [List.mem_singleton] at hx; subst hx; exact isChar_xml h1⟩
  | ignorable d => exact textData_legal h.1
  | _ => trivial

/-- handlers whose `GetEntity` does not answer with an application-made predefined or nameless entity. -/
def PlainEntities (H : Handler σ) : Prop :=
  ∀ v n c i c', H v (.getEntity n) c = (.ent (some (.ptr i)), c') → (c'.heap.at' i).name ≠ [] ∧ (c'.heap.at' i).entType ≠ 6

theorem ask_ok {ev : Ev} {s s' : St σ} {x : Except Err (Option ERef)} (h : ask H ev s = .ok x s') :
    s' = cbSt H ev s ∧ (∀ e, x = .ok (some e) → cbRes H ev s = .ent (some e)) := by
  unfold ask callback at h
  simp only [Bind.bind, M.bind] at h
  cases hr : (H s.view ev s.hc).1 <;> simp only [hr, Pure.pure, M.pure, M.panic, M.diverge, reduceCtorEq, Out.ok.injEq] at h
  all_goals
    obtain ⟨rfl, rfl⟩ := h
    refine ⟨by simp [cbSt, hr], ?_⟩
    intro e he
    cases he
    try (unfold cbRes; exact hr)

theorem entityRef_content (hH : PlainEntities H) (s : St σ) (e : ERef) (s' : St σ) (hI : s.inSubset = 0)
    (h : parseEntityRef E H s = .ok e s') (hn : e.name s'.hc.heap = [] ∨ e.typ s'.hc.heap = 6) :
    LegalText (.characters (e.content s'.hc.heap)) := by
  have hpre : ∀ p : Predef, LegalText (.characters ((ERef.pre p).content s'.hc.heap)) := by
    intro p
    cases p
    · exact ⟨[60], rfl, by decide⟩
    · exact ⟨[62], rfl, by decide⟩
    · exact ⟨[38], rfl, by decide⟩
    · exact ⟨[39], rfl, by decide⟩
    · exact ⟨[34], rfl, by decide⟩
  unfold parseEntityRef at h
  obtain ⟨_, t1, h1, h⟩ := bind_ok.1 h
  obtain ⟨_, t2, h2, h⟩ := bind_ok.1 h
  obtain ⟨_, t3, h3, h⟩ := bind_ok.1 h
  obtain ⟨name, t4, h4, h⟩ := bind_ok.1 h
  obtain ⟨_, t5, h5, h⟩ := bind_ok.1 h
  obtain ⟨_, t6, h6, h⟩ := bind_ok.1 h
  obtain ⟨_, t7, h7, h⟩ := bind_ok.1 h
  have hsub : t7.inSubset = 0 := by
    rw [adv_ok] at h7
    rw [h7]
    rw [need_ok] at h6
    rw [h6.2]
    rw [peek_ok] at h5
    rw [h5.2]
    have := Silent.parseName (kb := false) (σ := σ) E t3
    rw [orElse_ok] at h4
    rw [h4] at this
    have h4' : t4.inSubset = t3.inSubset := Quiet.inSubset this
    show t4.inSubset = 0
    rw [h4']
    rw [adv_ok] at h3
    rw [h3]
    rw [need_ok] at h2
    rw [h2.2]
    rw [peek_ok] at h1
    rw [h1.2]
    exact hI
  cases hp : resolvePredef name with
  | some p =>
    simp only [hp] at h
    obtain ⟨rfl, _⟩ := pure_ok.1 h
    exact hpre p
  | none =>
    simp only [hp] at h
    obtain ⟨x, t8, h8, h⟩ := bind_ok.1 h
    obtain ⟨ht8, hx⟩ := ask_ok h8
    match x with
    | .ok (some e') =>
      simp only at h
      obtain ⟨rfl, rfl⟩ := pure_ok.1 h
      have hr := hx _ rfl
      match e' with
      | .pre p => exact hpre p
      | .ptr i =>
        have := hH t7.view name t7.hc i (cbSt H (.getEntity name) t7).hc (by
          unfold cbRes at hr
          exact Prod.ext hr rfl)
        rw [← ht8] at this
        rcases hn with h | h
        · exact absurd h this.1
        · exact absurd h this.2
    | .ok none => simp only [panic_ok] at h
    | .error e' =>
      simp only at h
      have hs8 : t8.inSubset = 0 := by rw [ht8]; exact hsub
      obtain ⟨y, t9, h9, h⟩ := bind_ok.1 h
      unfold ctxGetEntity at h9
      simp only [Bind.bind, M.bind, M.get, hs8, if_true] at h9
      obtain ⟨rfl, rfl⟩ := pure_ok.1 h9
      simp only at h
      obtain ⟨z, t10, h10, h⟩ := bind_ok.1 h
      simp only [ite_run] at h
      exfalso
      split at h
      · exact cerr_ok.1 h
      · split at h
        · obtain ⟨_, _, _, h⟩ := bind_ok.1 h
          exact panic_ok.1 h
        · exact panic_ok.1 h

theorem lookup_legal (ev : Ev) (h : ev.lookup) : LegalText ev := by
  cases ev <;> simp [Ev.lookup, LegalText] at h ⊢

theorem legal_admits (tr : Bool) : Admits (TL H tr LegalText lookup_legal) := Admits.of (fun _ _ h => dataOK_legal h)

theorem legal_flat (hH : PlainEntities H) : Flat E (TL H true LegalText lookup_legal) (fun s => s.inSubset = 0) :=
  TL_flat E (legal_admits true) (fun h h0 => (h.1 rfl).trans h0) (fun h h0 => h.inSubset.trans h0)
    (fun _ _ _ _ _ => rfl) (fun s e s' hI h hn _ => entityRef_content E hH s e s' hI h hn)

theorem legal_tags : FlatTags (TL H true LegalText lookup_legal) := TL_tags (fun _ _ _ _ _ => trivial) (fun _ _ _ => trivial)

/-- after the prolog the parser is outside the DTD. -/
theorem parseProlog_subset (snl : Nat) (s : St σ) (h0 : s.inSubset = 0) :
    post (parseProlog E H snl s) (fun t => t.inSubset = 0) (fun _ _ => True) := by
  have keep : ∀ {α : Type} {p : P σ α} {t : St σ}, Sat (TL H true (fun _ => True) (fun _ _ => trivial)) p → t.inSubset = 0 →
      post (p t) (fun t => t.inSubset = 0) (fun _ _ => True) :=
    fun hp ht => post_mono (hp _) (fun _ h => (h.1 rfl).trans ht) (fun _ _ _ => trivial)
  have any : ∀ {α : Type} (p : P σ α) (t : St σ), post (p t) (fun _ => True) (fun _ _ => True) := by
    intro α p t
    cases p t <;> trivial
  have hA : Admits (TL H true (fun _ => True) (fun _ _ => trivial)) := Admits.of (fun _ _ _ => trivial)
  unfold parseProlog
  refine post_bind (keep (Sat.parseHead E trivial) h0) (fun _ t1 h1 => ?_)
  refine post_bind (R := fun t : St σ => t.inSubset = 0)
    (post_wrap (X := fun _ => True) (post_mono (switchEncoding_post E t1) (fun _ h => h.2.trans h1) (fun _ _ _ => trivial))) (fun _ t2 h2 => ?_)
  refine post_bind (keep (Sat.cb trivial) h2) (fun _ t3 h3 => ?_)
  refine post_bind (keep (Sat.wrap (Sat.parseMisc E hA)) h3) (fun _ t4 h4 => ?_)
  unfold parseDoctypePart
  refine post_bind (keep (Silent.sat (Silent.hasPrefix _) _) h4) (fun c t5 h5 => ?_)
  have fin : ∀ t : St σ, post ((do
      M.modify (fun s => { s with inSubset := 2 })
      let s ← M.get
      cb H (.externalSubset s.intSubName s.extSubSystem s.extSubURI)
      M.modify (fun s => { s with inSubset := 0, attsSpecial := s.attsSpecial.filter (fun p => p.2 != 1) })
      M.wrap (parseMisc E H) : P σ Unit) t) (fun t => t.inSubset = 0) (fun _ _ => True) := by
    intro t
    refine post_bind (any _ t) (fun _ t _ => ?_)
    refine post_bind (any _ t) (fun _ t _ => ?_)
    refine post_bind (any _ t) (fun _ t _ => ?_)
    refine post_bind (R := fun t : St σ => t.inSubset = 0) rfl (fun _ t h => ?_)
    exact keep (Sat.wrap (Sat.parseMisc E hA)) h
  split
  · refine post_bind (any _ _) (fun _ t _ => ?_)
    refine post_bind (any _ _) (fun _ t _ => ?_)
    refine post_bind (any _ _) (fun c t _ => ?_)
    split
    · refine post_bind (any _ _) (fun _ t _ => ?_)
      exact fin _
    · exact fin _
  · exact h5

/-- the text events of a document. -/
theorem parseDocument_legal (hH : PlainEntities H) (fuel snl : Nat) (s : St σ) (h0 : s.inSubset = 0) (ht : s.trace = []) :
    post (parseDocument E H fuel snl s) (fun t => ∀ x ∈ t.trace, LegalText x.1) (fun _ t => ∀ x ∈ t.trace, LegalText x.1) := by
  rw [parseDocument_eq]
  have hp : Sat (TL H false LegalText lookup_legal) (parseProlog E H snl) :=
    Sat.parseProlog E (legal_admits false) (Sat.attlistLoop E (legal_admits false) (fun _ _ _ _ _ _ _ => trivial)) trivial trivial (fun _ _ _ => ⟨trivial, trivial⟩) (fun s c => ⟨by simp, [], by simp, by simp⟩)
      (fun s n => ⟨by simp, [], by simp, by simp⟩) snl
  have h1 := hp s
  have h2 := parseProlog_subset (H := H) E snl s h0
  show post (M.bind _ _ s) _ _
  unfold M.bind
  cases hr : parseProlog E H snl s with
  | ok a t =>
    rw [hr] at h1 h2
    obtain ⟨_, m, hm, hg⟩ := h1
    rw [ht, List.nil_append] at hm
    have h3 := SatI.parseTail E (legal_flat E hH).toFrame (fun _ h => SatI.parseReference E (legal_flat E hH) h)
      (fun _ h => SatI.parseElementW E (legal_flat E hH).toFrame legal_tags h) trivial fuel t h2
    refine post_mono h3 ?_ ?_
    · rintro t' ⟨_, m', hm', hg'⟩ x hx
      rw [hm', hm] at hx
      rcases List.mem_append.1 hx with h | h
      · exact (hg x h).1
      · exact (hg' x h).1
    · rintro e t' ⟨m', hm', hg', _⟩ x hx
      rw [hm', hm] at hx
      rcases List.mem_append.1 hx with h | h
      · exact (hg x h).1
      · exact hg' x h
  | err e t =>
    rw [hr] at h1
    obtain ⟨m, hm, hg, _⟩ := h1
    rw [ht, List.nil_append] at hm
    intro x hx
    rw [hm] at hx
    exact hg x hx
  | panic => trivial
  | diverge => trivial

end
end Helium
namespace Helium
open Spec
section
variable {σ : Type} {H : Handler σ} (E : Env)

/-- shape of the trace of a successful document. -/
theorem parseDocument_oneRoot {fuel snl : Nat} {s s' : St σ} {u : Unit} (h : parseDocument E H fuel snl s = .ok u s') :
    ∃ m1 pre l p u n a o body o' m2,
      s'.trace = s.trace ++ m1 ++ (pre ++ (.startElement l p u n a, o) :: body ++ [(.endElement l p u, o')]) ++ m2 ∧
      NoTag m1 ∧ NoTag pre ∧ Neutral body ∧ NoTag m2 := by
  rw [parseDocument_eq] at h
  obtain ⟨_, s1, h1, h⟩ := bind_ok.1 h
  have hp := NT_prolog (H := H) E snl s
  rw [h1] at hp
  obtain ⟨_, m1, hm1, hn1⟩ := hp
  unfold parseTail at h
  obtain ⟨_, s2, h2, h⟩ := bind_ok.1 h
  obtain ⟨_, s3, h3, h⟩ := bind_ok.1 h
  obtain ⟨_, s4, h4, h⟩ := bind_ok.1 h
  have hs2 := Silent.skipBlanks (kb := false) s1
  rw [h2] at hs2
  have ht4 : s4.trace = s1.trace := by
    rw [(need_ok.1 h4).2, (peek_ok.1 h3).2]
    exact hs2.trace
  obtain ⟨_, s5, h5, h⟩ := bind_ok.1 h
  have he := parseElementW_post E (BL_content (H := H) E fuel) s4
  have h5' : parseElementW E H (parseContent E H fuel) s4 = .ok _ s5 := wrap_ok.1 h5
  rw [h5'] at he
  obtain ⟨_, mid, hmid, pre, l, p, u, n, a, o, body, o', hmid', hn2, hb⟩ := he
  obtain ⟨_, s6, h6, h⟩ := bind_ok.1 h
  have hmisc := Sat.wrap (Sat.parseMisc (L := NT H) E NT_admits) s5
  rw [h6] at hmisc
  obtain ⟨_, m6, hm6, hn6⟩ := hmisc
  obtain ⟨_, s7, h7, h⟩ := bind_ok.1 h
  obtain ⟨_, s8, h8, h⟩ := bind_ok.1 h
  have ht8 : s8.trace = s6.trace := by rw [(need_ok.1 h8).2, (isDone_ok.1 h7).2]
  have hend := Sat.cb (L := NT H) (H := H) (ev := .endDocument) (by simp [NT, IsTag]) s8
  rw [h] at hend
  obtain ⟨_, m9, hm9, hn9⟩ := hend
  refine ⟨m1, pre, l, p, u, n, a, o, body, o', m6 ++ m9, ?_, hn1, hn2, hb, hn6.append hn9⟩
  rw [hm9, ht8, hm6, hmid, ht4, hm1, hmid']
  simp only [List.append_assoc]

end
end Helium
