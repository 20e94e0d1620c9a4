import Verif.Lemmas.DeclRun
import Verif.Lemmas.SourceDoc
import Verif.Lemmas.ContentRun
/-! The parser reads an internal subset and a document type declaration as written. -/
namespace Helium
open Spec

section
variable {σ α β : Type}

theorem bind_assocF {S α β γ : Type} {p : M S α} {f : α → M S β} {g : β → M S γ} : (p >>= f) >>= g = p >>= fun a => f a >>= g :=
  funext (fun _ => bind_assoc')

/-- a program all of whose errors are wrapped. -/
def Wraps (p : P σ α) : Prop := ∀ s, M.wrap p s = p s

theorem Wraps.bind {p : P σ α} {f : α → P σ β} (hp : Wraps p) (hf : ∀ a, Wraps (f a)) : Wraps (p >>= f) := by
  intro s
  have h := hp s
  show M.wrap (M.bind p f) s = M.bind p f s
  unfold M.wrap M.bind at *
  cases hs : p s with
  | ok a t => exact hf a t
  | err e t =>
    rw [hs] at h
    have h : wrapErr e = e := by simpa using h
    show Out.err (wrapErr e) t = Out.err e t
    rw [h]
  | panic => rfl
  | diverge => rfl

theorem Wraps.pure (a : α) : Wraps (pure a : P σ α) := fun _ => rfl
theorem Wraps.modify (f : St σ → St σ) : Wraps (M.modify f : P σ Unit) := fun _ => rfl
theorem Wraps.get {f : St σ → P σ β} (h : ∀ s, Wraps (f s)) : Wraps (M.get >>= f) := .bind (fun _ => rfl) h
theorem Wraps.ite {c : Prop} [Decidable c] {p q : P σ α} (hp : Wraps p) (hq : Wraps q) : Wraps (if c then p else q) := by
  split
  · exact hp
  · exact hq
theorem Wraps.callback (H : Handler σ) (ev : Ev) : Wraps (callback H ev) := fun _ => rfl
theorem Wraps.cb (H : Handler σ) (ev : Ev) : Wraps (cb H ev) := by
  refine (Wraps.callback H ev).bind (fun o => ?_)
  cases o
  · exact .pure _
  · exact .pure _
  · exact .pure _
  · rename_i e
    intro s
    show Out.err (wrapErr (wrapErr e)) s = Out.err (wrapErr e) s
    cases e <;> rfl
  · exact fun _ => rfl
  · exact fun _ => rfl
theorem Wraps.ask (H : Handler σ) (ev : Ev) : Wraps (ask H ev) := by
  refine (Wraps.callback H ev).bind (fun o => ?_)
  cases o <;> exact fun _ => rfl
theorem Wraps.tryH (p : HM α) : Wraps (M.attempt (liftH p) : P σ (Except Err α)) := by
  intro s
  unfold M.wrap M.attempt liftH
  cases p s.hc.heap <;> rfl
theorem Wraps.upd (i : Nat) (f : Node → Node) : Wraps (liftH (updNode i f) : P σ Unit) := fun _ => rfl
theorem Wraps.setOrig (e : Except Err (Option ERef)) (lit : Bytes) : Wraps (setOrig e lit : P σ Unit) := by
  unfold Helium.setOrig
  split
  · exact .upd _ _
  · exact .pure _
theorem Wraps.addAttributeDefault (fuel : Nat) (elem attr value : Bytes) : Wraps (addAttributeDefault fuel elem attr value : P σ Unit) := by
  unfold Helium.addAttributeDefault
  refine .get (fun s => ?_)
  split
  · exact .pure _
  · refine .bind (.modify _) (fun _ => .get (fun s => .bind (.tryH _) (fun x => ?_)))
    cases x with
    | error e => exact .pure _
    | ok a => exact .bind (.upd _ _) (fun _ => .modify _)

variable (E : Env) (H : Handler σ)

theorem Wraps.declareAtt (snl : Nat) (elem : Bytes) (a : AttDef) : Wraps (declareAtt H snl elem a) := by
  unfold Helium.declareAtt
  exact .bind (.cb _ _) (fun _ => .ite (.bind (.addAttributeDefault _ _ _ _) (fun _ => .modify _)) (.modify _))

theorem Wraps.declareAtts (snl : Nat) (elem : Bytes) : ∀ as, Wraps (declareAtts H snl elem as)
  | [] => .pure _
  | _ :: as => .bind (.declareAtt _ _ _ _) (fun _ => Wraps.declareAtts snl elem as)

theorem Wraps.declare (snl : Nat) (d : Decl) : Wraps (declare H snl d) := by
  cases d with
  | element n typ e => exact .cb _ _
  | entity p n l v => exact .bind (.cb _ _) (fun _ => .bind (.ask _ _) (fun _ => .setOrig _ _))
  | attlist n as => exact .declareAtts _ _ _ _
  | comment b => exact .cb _ _
  | pi n d => exact .cb _ _

theorem Alike.wraps {c r : List Nat} {p q : P σ α} {s s' : St σ} (h : Alike c r (p s) (q s')) (hq : Wraps q) : Alike c r (M.wrap p s) (q s') := by
  rw [← hq s']
  exact h.wrap

/-- the right cursor does not matter. -/
theorem Alike.cursor {c r x : List Nat} {o : Out (St σ) α} {q : P σ α} {s : St σ} (h : Alike c r o (q { s with cur := r })) (hq : NoCur q) :
    Alike c x o (q { s with cur := x }) := by
  have h2 := hq { s with cur := r } x
  generalize q { s with cur := r } = o1 at h h2
  have h2 : Alike r x o1 (q { s with cur := x }) := h2
  generalize q { s with cur := x } = o2 at h2
  cases h with
  | ok a t ht => cases h2; exact .ok a t ht
  | err e t t' ht => cases h2; rename_i ht2; exact .err e t _ (by rw [← ht2, ← ht])
  | panic => cases h2; exact .panic
  | diverge => cases h2; exact .diverge

theorem pe_skip {s : St σ} (h : s.cur.getD 0 E.eof ≠ 37) : parsePEReference E H s = .ok () s := by
  unfold parsePEReference
  run
  rw [if_neg h]

/-- text that does not begin with a reference to a parameter entity. -/
def NoPE (r : List Nat) : Prop := ∃ c t, r = c :: t ∧ c ≠ 37

theorem NoPE.getD {r : List Nat} (h : NoPE r) : r.getD 0 E.eof ≠ 37 := by
  obtain ⟨c, t, rfl, h⟩ := h
  exact h

theorem decl_run (snl : Nat) {d : Decl} {t r : List Nat} (h : DeclText E d t) (hr : NoPE r) (s : St σ) (hs : s.cur = t ++ r) :
    Alike r r (parseMarkupDecl E H snl s) (declare H snl d { s with cur := r }) := by
  have P : ∀ (p : P σ Unit), Alike r r (p s) (declare H snl d { s with cur := r }) →
      Alike r r ((do M.wrap p; M.wrap (parsePEReference E H) : P σ Unit) s) (declare H snl d { s with cur := r }) := by
    intro p hp
    have h1 := (hp.wraps (Wraps.declare H snl d)).bind (c' := r) (f := fun _ => M.wrap (parsePEReference E H)) (g := fun _ => pure ())
      (fun a u hu => by
        rw [wrap_run (pe_skip E H (by rw [hu]; exact hr.getD E))]
        exact .ok () u hu)
    have h2 : (declare H snl d >>= fun _ => pure ()) { s with cur := r } = declare H snl d { s with cur := r } := by
      show M.bind _ _ _ = _
      unfold M.bind
      cases declare H snl d { s with cur := r } <;> rfl
    rw [h2] at h1
    exact h1
  unfold parseMarkupDecl
  run
  cases h with
  | element h =>
    obtain ⟨t', ht'⟩ : ∃ t', t = 60 :: 33 :: 69 :: 76 :: t' := by
      obtain ⟨w1, w2, w3, x, _, _, _, _, _, _, _, rfl⟩ := h
      exact ⟨_, rfl⟩
    have hc : s.cur = 60 :: 33 :: 69 :: 76 :: (t' ++ r) := by rw [hs, ht']; rfl
    rw [hc]
    simp (decide := true) only [List.getD_cons_zero, List.getD_cons_succ, and_true, and_false, if_true, if_false]
    refine P _ ?_
    rw [element_run E H h s hs]
    exact NoCur.cb H _ { s with cur := r } r
  | entity h =>
    obtain ⟨t', ht'⟩ : ∃ t', t = 60 :: 33 :: 69 :: 78 :: t' := by
      obtain ⟨w1, w2, w3, w4, q, _, _, _, _, _, _, _, _, _, _, _, rfl⟩ := h
      exact ⟨_, rfl⟩
    have hc : s.cur = 60 :: 33 :: 69 :: 78 :: (t' ++ r) := by rw [hs, ht']; rfl
    rw [hc]
    simp (decide := true) only [List.getD_cons_zero, List.getD_cons_succ, and_true, and_false, if_true, if_false]
    exact P _ (entity_run E H snl h s hs)
  | attlist h =>
    obtain ⟨t', ht'⟩ : ∃ t', t = 60 :: 33 :: 65 :: 84 :: t' := by
      obtain ⟨w1, w2, x, _, _, _, _, _, _, rfl⟩ := h
      exact ⟨_, rfl⟩
    have hc : s.cur = 60 :: 33 :: 65 :: 84 :: (t' ++ r) := by rw [hs, ht']; rfl
    rw [hc]
    simp (decide := true) only [List.getD_cons_zero, List.getD_cons_succ, and_true, and_false, if_true, if_false]
    exact P _ (attlist_run E H snl h s hs)
  | @comment b h =>
    have hs : s.cur = b!"<!--" ++ (b ++ (b!"-->" ++ r)) := by rw [hs]; simp
    have hc : s.cur = 60 :: 33 :: 45 :: 45 :: (b ++ (b!"-->" ++ r)) := hs
    rw [hc]
    simp (decide := true) only [List.getD_cons_zero, List.getD_cons_succ, and_true, and_false, if_true, if_false]
    refine P _ ?_
    have := parseComment_run H (w := r) (fun c hc => (h.legal c hc).isChar) h.hyphen s hs
    rw [replaceCRLF_encodeRunes, ← unixLines_eq] at this
    rw [this]
    exact NoCur.cb H _ { s with cur := r } r
  | @pi t n d h =>
    have hs : s.cur = b!"<?" ++ (t ++ (b!"?>" ++ r)) := by rw [hs]; simp
    have hc : s.cur = 60 :: 63 :: (t ++ (b!"?>" ++ r)) := hs
    rw [hc]
    simp (decide := true) only [List.getD_cons_zero, List.getD_cons_succ, and_true, and_false, if_true, if_false]
    rw [pi_run E H h s hs]
    exact NoCur.cb H _ { s with cur := r } r

/-- all declarations in turn. -/
def declareAll (snl : Nat) : List Decl → P σ Unit
  | [] => pure ()
  | d :: ds => do declare H snl d; declareAll snl ds

theorem NoCur.declareAll (snl : Nat) : ∀ ds, NoCur (declareAll H snl ds)
  | [] => .pure _
  | _ :: ds => .bind (.declare _ _ _) (fun _ => NoCur.declareAll snl ds)

theorem Wraps.declareAll (snl : Nat) : ∀ ds, Wraps (declareAll H snl ds)
  | [] => .pure _
  | _ :: ds => .bind (.declare _ _ _) (fun _ => Wraps.declareAll snl ds)

theorem decl_head {d : Decl} {t : List Nat} (h : DeclText E d t) : ∃ t', t = 60 :: t' := by
  cases h with
  | element h => obtain ⟨w1, w2, w3, x, _, _, _, _, _, _, _, rfl⟩ := h; exact ⟨_, rfl⟩
  | entity h => obtain ⟨w1, w2, w3, w4, q, _, _, _, _, _, _, _, _, _, _, _, rfl⟩ := h; exact ⟨_, rfl⟩
  | attlist h => obtain ⟨w1, w2, x, _, _, _, _, _, _, rfl⟩ := h; exact ⟨_, rfl⟩
  | comment => exact ⟨_, rfl⟩
  | pi => exact ⟨_, rfl⟩

theorem subset_noPE {ds : List Decl} {t : List Nat} (h : SubsetText E ds t) (r : List Nat) : NoPE (t ++ 93 :: r) := by
  have key : ∀ {ws x : List Nat}, Blank ws → NoPE x → NoPE (ws ++ x) := by
    intro ws x hw hx
    cases ws with
    | nil => exact hx
    | cons a ws =>
      refine ⟨a, ws ++ x, rfl, ?_⟩
      rintro rfl
      exact absurd (hw 37 (by simp)) (by decide)
  cases h with
  | nil hw => exact key hw ⟨93, r, rfl, by decide⟩
  | cons hw hd hs =>
    obtain ⟨t', rfl⟩ := decl_head E hd
    rw [List.append_assoc]
    exact key hw ⟨60, _, rfl, by decide⟩

theorem markup_skip (snl : Nat) {r : List Nat} {s : St σ} (hs : s.cur = 93 :: r) : parseMarkupDecl E H snl s = .ok () s := by
  unfold parseMarkupDecl
  run
  rw [hs]
  rw [if_neg (fun h => absurd (show (93 : Nat) = 60 from h.1) (by decide)), if_neg (fun h => absurd (show (93 : Nat) = 60 from h.1) (by decide))]
  exact wrap_run (pe_skip E H (by rw [hs]; show (93 : Nat) ≠ 37; decide))

theorem subset_run (snl : Nat) {ds : List Decl} {t : List Nat} (h : SubsetText E ds t) {r : List Nat} : ∀ (fuel : Nat) (s : St σ), t.length + 1 < fuel →
    s.cur = t ++ 93 :: r → Alike (93 :: r) (93 :: r) (internalSubsetLoop E H snl fuel s) (declareAll H snl ds { s with cur := 93 :: r }) := by
  have done : ∀ (fuel : Nat) (s : St σ), 0 < fuel → s.cur = 93 :: r → internalSubsetLoop E H snl fuel s = .ok () s := by
    intro fuel s hf hs
    cases fuel with
    | zero => cases hf
    | succ fuel =>
      rw [internalSubsetLoop]
      run
      rw [hs]
      rfl
  induction h with
  | @nil ws hw =>
    intro fuel s hf hs
    have : internalSubsetLoop E H snl fuel s = .ok () { s with cur := 93 :: r } := by
      cases ws with
      | nil =>
        rw [done fuel s (by omega) hs]
        have hs : s.cur = 93 :: r := hs
        rw [← hs]
      | cons a ws =>
        match fuel, hf with
        | 0, hf => simp at hf
        | 1, hf => simp at hf
        | fuel + 2, hf =>
        have ha : a ≠ 93 := by rintro rfl; exact absurd (hw 93 (by simp)) (by decide)
        have hs : s.cur = a :: (ws ++ 93 :: r) := hs
        have hdw : (a :: (ws ++ 93 :: r)).dropWhile isBlank = 93 :: r := dropWhile_blank (ws := a :: ws) hw (by intro c hc; cases hc; decide)
        rw [internalSubsetLoop]
        run
        rw [hs]
        rw [if_neg (show ¬ (a :: (ws ++ 93 :: r)).isEmpty = true by simp), if_neg (show ¬ (a :: (ws ++ 93 :: r)).getD 0 E.eof = 93 from ha), hdw]
        rw [bind_run (wrap_run (markup_skip E H snl (r := r) rfl)), bind_run (wrap_run (pe_skip E H (by show (93 : Nat) ≠ 37; decide)))]
        exact done _ _ (by omega) rfl
    rw [this]
    exact .ok () { s with cur := 93 :: r } rfl
  | @cons ws d t ds x hw hd hx ih =>
    intro fuel s hf hs
    obtain ⟨t', ht⟩ := decl_head E hd
    have hx' : NoPE (x ++ 93 :: r) := subset_noPE E hx r
    have hs : s.cur = ws ++ (t ++ (x ++ 93 :: r)) := by rw [hs]; simp
    have hdw : s.cur.dropWhile isBlank = t ++ (x ++ 93 :: r) := by
      rw [hs]
      exact dropWhile_blank hw (by intro c hc; rw [ht] at hc; cases hc; decide)
    obtain ⟨c, u, hcu, hc⟩ : ∃ c u, s.cur = c :: u ∧ c ≠ 93 := by
      rw [hs]
      cases ws with
      | nil => rw [ht]; exact ⟨60, _, rfl, by decide⟩
      | cons a ws => exact ⟨a, _, rfl, by rintro rfl; exact absurd (hw 93 (by simp)) (by decide)⟩
    cases fuel with
    | zero => cases hf
    | succ fuel =>
      rw [internalSubsetLoop]
      run
      rw [hdw, hcu]
      rw [if_neg (show ¬ (c :: u).isEmpty = true by simp), if_neg (show ¬ (c :: u).getD 0 E.eof = 93 from hc)]
      have h1 := (decl_run E H snl hd hx' { s with cur := t ++ (x ++ 93 :: r) } rfl).wraps (Wraps.declare H snl d)
      have h2 : Alike (x ++ 93 :: r) (93 :: r) (M.wrap (parseMarkupDecl E H snl) { s with cur := t ++ (x ++ 93 :: r) }) (declare H snl d { s with cur := 93 :: r }) :=
        Alike.cursor (s := s) h1 (NoCur.declare H snl d)
      show Alike _ _ _ ((do declare H snl d; declareAll H snl ds : P σ Unit) _)
      refine h2.bind (fun _ u hu => ?_)
      rw [bind_run (wrap_run (pe_skip E H (by rw [hu]; exact hx'.getD E)))]
      refine ih fuel u ?_ hu
      rw [ht] at hf
      simp at hf
      omega

/-- what is done for a document type declaration, up to the white space after it. -/
def declareDoctype (snl : Nat) (n : Bytes) (ds : List Decl) : P σ Unit := do
  M.modify (fun s => { s with inSubset := 1 })
  M.modify (fun s => { s with intSubName := n })
  M.modify (fun s => { s with extSubURI := [], extSubSystem := [] })
  cb H (.internalSubset n [] [])
  declareAll H snl ds
  M.modify (fun s => { s with inSubset := 2 })
  let s ← M.get
  cb H (.externalSubset s.intSubName s.extSubSystem s.extSubURI)
  M.modify (fun s => { s with inSubset := 0, attsSpecial := s.attsSpecial.filter (fun p => p.2 != 1) })

theorem NoCur.declareDoctype (snl : Nat) (n : Bytes) (ds : List Decl) : NoCur (declareDoctype H snl n ds) := by
  unfold Helium.declareDoctype
  refine .bind (.modify (fun _ _ => rfl) (fun _ => rfl)) (fun _ => .bind (.modify (fun _ _ => rfl) (fun _ => rfl)) (fun _ =>
    .bind (.modify (fun _ _ => rfl) (fun _ => rfl)) (fun _ => .bind (.cb _ _) (fun _ => .bind (.declareAll _ _ _) (fun _ =>
    .bind (.modify (fun _ _ => rfl) (fun _ => rfl)) (fun _ => .get (fun s => .bind (.cb _ _) (fun _ => .modify (fun _ _ => rfl) (fun _ => rfl)))
      (fun s r => rfl)))))))

/-- a document type declaration is read; what follows is the `Misc` after it. -/
theorem doctype_run (snl : Nat) {n : List Nat} {ds : List Decl} {t r : List Nat} (h : DoctypeText E n ds t) (hr : r.head? ≠ some 91) (s : St σ)
    (hs : s.cur = t ++ r) (x : List Nat) :
    ∃ o, Alike r x o (declareDoctype H snl (encodeRunes n) ds { s with cur := x }) ∧
      parseDoctypePart E H snl s = (match o with
        | .ok _ u => M.wrap (parseMisc E H) u
        | o => o) := by
  have key : ∀ (p : P σ Unit) (s : St σ), (p >>= fun _ => M.wrap (parseMisc E H)) s = (match p s with | .ok _ u => M.wrap (parseMisc E H) u | o => o) := by
    intro p s
    show M.bind _ _ _ = _
    unfold M.bind
    cases p s <;> rfl
  let tail : P σ Unit := do
    M.modify (fun s => { s with inSubset := 2 })
    let s ← M.get
    cb H (.externalSubset s.intSubName s.extSubSystem s.extSubURI)
    M.modify (fun s => { s with inSubset := 0, attsSpecial := s.attsSpecial.filter (fun p => p.2 != 1) })
  have htail : NoCur tail := .bind (.modify (fun _ _ => rfl) (fun _ => rfl)) (fun _ => .get (fun s => .bind (.cb _ _) (fun _ => .modify (fun _ _ => rfl) (fun _ => rfl))) (fun s r => rfl))
  let front : P σ Unit := do
    M.modify (fun s => { s with inSubset := 1 })
    M.wrap (parseDocTypeDecl E H)
    if (← hasPrefix b!"[") then M.wrap (parseInternalSubset E H snl) else pure ()
  have hfront : Alike r x (front s) ((do
      M.modify (fun s => { s with inSubset := 1 })
      M.modify (fun s => { s with intSubName := encodeRunes n })
      M.modify (fun s => { s with extSubURI := [], extSubSystem := [] })
      cb H (.internalSubset (encodeRunes n) [] [])
      declareAll H snl ds : P σ Unit) { s with cur := x }) := by
    have hstop : ∀ {w y : List Nat} {c : Nat}, Blank w → (c = 62 ∨ c = 91) → ∀ a, (w ++ c :: y).head? = some a → a ≠ 0 ∧ ¬ NameChar E a := by
      intro w y c hw hc
      exact blank_or (P := fun c => c ≠ 0 ∧ ¬ NameChar E c) (fun c hc => ws_notName E hc) hw (by
        intro a ha; cases ha
        rcases hc with rfl | rfl <;> exact ascii_notName E (by decide) (by decide) (by decide))
    -- the part up to the first event
    have hopen : ∀ (w1 w2 y : List Nat) (c : Nat), Name E n → w1 ≠ [] → Blank w1 → Blank w2 → (c = 62 ∨ c = 91) →
        s.cur = b!"<!DOCTYPE" ++ (w1 ++ (n ++ (w2 ++ c :: y))) →
        parseDocTypeDecl E H { s with inSubset := 1 } = (do
          cb H (.internalSubset (encodeRunes n) [] [])
          let c ← peek E
          if c = 91 then pure ()
          else
            M.need (c == 62) .docTypeNotFinished
            adv 1 : P σ Unit) { s with inSubset := 1, intSubName := encodeRunes n, extSubURI := [], extSubSystem := [], cur := c :: y } := by
      intro w1 w2 y c hn n1 h1 h2 hc hs
      obtain ⟨a, b, hab, haw, _⟩ := name_head E hn (w2 ++ c :: y)
      unfold parseDocTypeDecl
      rw [bind_run (consume_run (r := w1 ++ (n ++ (w2 ++ c :: y))) (by exact hs)), if_pos rfl]
      run
      have hd1 : (w1 ++ (n ++ (w2 ++ c :: y))).dropWhile isBlank = n ++ (w2 ++ c :: y) := dropWhile_blank h1 (by intro z hz; rw [hab] at hz; cases hz; exact haw)
      rw [hd1]
      rw [bind_run (orElse_run (parseName_run E hn (hstop h2 hc) _ rfl))]
      run
      have hcw : ¬ Ws c := by rcases hc with rfl | rfl <;> decide
      have hd2 : (w2 ++ c :: y).dropWhile isBlank = c :: y := dropWhile_blank h2 (by intro z hz; cases hz; exact hcw)
      rw [hd2]
      rw [bind_run (wrap_run (show parseExternalID _ = .ok ([], []) _ from rfl))]
      run
      have hd3 : (c :: y).dropWhile isBlank = c :: y := dropWhile_blank (ws := []) (by intro c hc; cases hc) (by intro z hz; cases hz; exact hcw)
      simp only [hd3]
      have hext : (s.hasExternalSubset || ([] : Bytes) != [] || ([] : Bytes) != []) = s.hasExternalSubset := by simp
      rw [hext]
    show Alike r x ((do
      M.modify (fun s => { s with inSubset := 1 })
      M.wrap (parseDocTypeDecl E H)
      if (← hasPrefix b!"[") then M.wrap (parseInternalSubset E H snl) else pure () : P σ Unit) s) _
    run
    cases h with
    | @plain w1 w2 hn n1 h1 h2 =>
      have hs : s.cur = b!"<!DOCTYPE" ++ (w1 ++ (n ++ (w2 ++ 62 :: r))) := by rw [hs]; simp
      have ho := hopen w1 w2 r 62 hn n1 h1 h2 (.inl rfl) hs
      have hpa : Alike r x (M.wrap (parseDocTypeDecl E H) { s with inSubset := 1 }) (cb H (.internalSubset (encodeRunes n) [] [])
          { s with inSubset := 1, intSubName := encodeRunes n, extSubURI := [], extSubSystem := [], cur := x }) := by
        refine Alike.wraps ?_ (Wraps.cb _ _)
        rw [ho]
        have h2 : ∀ s0 : St σ, (cb H (.internalSubset (encodeRunes n) [] []) >>= fun _ => pure ()) s0 = cb H (.internalSubset (encodeRunes n) [] []) s0 := by
          intro s0
          show M.bind _ _ _ = _
          unfold M.bind
          cases cb H (.internalSubset (encodeRunes n) [] []) s0 <;> rfl
        rw [← h2]
        refine (NoCur.cb H _ _ x).bind (fun _ u hu => ?_)
        have hu : u.cur = 62 :: r := hu
        run
        rw [hu, if_neg (show ¬ (62 :: r).getD 0 E.eof = 91 by intro h; cases h), need_bind (c := (62 :: r).getD 0 E.eof == 62) rfl]
        show Alike r x (.ok () { u with cur := u.cur.drop 1 }) (.ok () { u with cur := x })
        rw [hu]
        exact Alike.ok (c := r) (r := x) () { u with cur := r } rfl
      refine hpa.bind (fun _ u hu => ?_)
      run
      have : (b!"[").isPrefixOf u.cur = false := by
        rw [hu]
        cases r with
        | nil => rfl
        | cons a r =>
          simp at hr
          simp [List.isPrefixOf]
          omega
      rw [this]
      exact .ok () u hu
    | @subset w1 w2 w3 _ y hn n1 h1 h2 h3 hy =>
      have hs : s.cur = b!"<!DOCTYPE" ++ (w1 ++ (n ++ (w2 ++ 91 :: (y ++ 93 :: (w3 ++ 62 :: r))))) := by rw [hs]; simp
      have ho := hopen w1 w2 _ 91 hn n1 h1 h2 (.inr rfl) hs
      have hpa : Alike (91 :: (y ++ 93 :: (w3 ++ 62 :: r))) x (M.wrap (parseDocTypeDecl E H) { s with inSubset := 1 }) (cb H (.internalSubset (encodeRunes n) [] [])
          { s with inSubset := 1, intSubName := encodeRunes n, extSubURI := [], extSubSystem := [], cur := x }) := by
        refine Alike.wraps ?_ (Wraps.cb _ _)
        rw [ho]
        have h2 : ∀ s0 : St σ, (cb H (.internalSubset (encodeRunes n) [] []) >>= fun _ => pure ()) s0 = cb H (.internalSubset (encodeRunes n) [] []) s0 := by
          intro s0
          show M.bind _ _ _ = _
          unfold M.bind
          cases cb H (.internalSubset (encodeRunes n) [] []) s0 <;> rfl
        rw [← h2]
        refine (NoCur.cb H _ _ x).bind (fun _ u hu => ?_)
        have hu : u.cur = 91 :: (y ++ 93 :: (w3 ++ 62 :: r)) := hu
        run
        rw [hu, if_pos (show (91 :: (y ++ 93 :: (w3 ++ 62 :: r))).getD 0 E.eof = 91 from rfl)]
        exact Alike.ok (r := x) () u hu
      refine hpa.bind (fun _ u hu => ?_)
      run
      have : (b!"[").isPrefixOf u.cur = true := by rw [hu]; rfl
      rw [this, if_pos rfl]
      refine Alike.wraps ?_ (Wraps.declareAll H snl ds)
      unfold parseInternalSubset
      run
      rw [hu, if_pos (show (91 :: (y ++ 93 :: (w3 ++ 62 :: r))).getD 0 E.eof = 91 from rfl)]
      simp only [List.drop_succ_cons, List.drop_zero]
      have h4 := subset_run E H snl hy (r := w3 ++ 62 :: r) ((y ++ 93 :: (w3 ++ 62 :: r)).length + 1) { u with cur := y ++ 93 :: (w3 ++ 62 :: r) } (by simp) rfl
      have h5 : Alike (93 :: (w3 ++ 62 :: r)) x (internalSubsetLoop E H snl ((y ++ 93 :: (w3 ++ 62 :: r)).length + 1) { u with cur := y ++ 93 :: (w3 ++ 62 :: r) })
        (declareAll H snl ds { u with cur := x }) := Alike.cursor (s := u) h4 (NoCur.declareAll H snl ds)
      have h6 : ∀ s0 : St σ, (declareAll H snl ds >>= fun _ => pure ()) s0 = declareAll H snl ds s0 := by
        intro s0
        show M.bind _ _ _ = _
        unfold M.bind
        cases declareAll H snl ds s0 <;> rfl
      rw [← h6]
      refine h5.bind (fun _ z hz => ?_)
      run
      have hd3 : (w3 ++ 62 :: r).dropWhile isBlank = 62 :: r := dropWhile_blank h3 (by intro z hz; cases hz; decide)
      rw [hz, if_pos (show (93 :: (w3 ++ 62 :: r)).getD 0 E.eof = 93 from rfl)]
      simp only [List.drop_succ_cons, List.drop_zero, hd3]
      rw [need_bind (c := (62 :: r).getD 0 E.eof == 62) rfl]
      show Alike r x (.ok () { z with cur := (62 :: r).drop 1 }) (.ok () { z with cur := x })
      exact Alike.ok (c := r) (r := x) () { z with cur := r } rfl
  refine ⟨(front >>= fun _ => tail) s, ?_, ?_⟩
  · have := hfront.bind (c' := r) (f := fun _ => tail) (g := fun _ => tail) (fun _ u hu => by rw [← hu]; exact htail u x)
    have e : ∀ s0 : St σ, declareDoctype H snl (encodeRunes n) ds s0 = ((do
      M.modify (fun s => { s with inSubset := 1 })
      M.modify (fun s => { s with intSubName := encodeRunes n })
      M.modify (fun s => { s with extSubURI := [], extSubSystem := [] })
      cb H (.internalSubset (encodeRunes n) [] [])
      declareAll H snl ds : P σ Unit) >>= fun _ => tail) s0 := by
      intro s0
      unfold declareDoctype
      simp only [bind_assocF]
      rfl
    rw [e]
    exact this
  · rw [← key]
    unfold parseDoctypePart
    have hp : (b!"<!DOCTYPE").isPrefixOf s.cur = true := by
      rw [hs]
      cases h <;> rfl
    run
    rw [hp, if_pos rfl]
    have e : ∀ s0 : St σ, ((do
        M.wrap (parseDocTypeDecl E H)
        if (← hasPrefix b!"[") then M.wrap (parseInternalSubset E H snl) else pure () : P σ Unit) >>= fun _ => tail >>= fun _ => M.wrap (parseMisc E H)) s0 =
        (do
          M.wrap (parseDocTypeDecl E H)
          if (← hasPrefix b!"[") then M.wrap (parseInternalSubset E H snl) else pure ()
          tail
          M.wrap (parseMisc E H) : P σ Unit) s0 := by
      intro s0
      simp only [bind_assocF]
      refine bind_congr' (fun _ s1 => ?_)
      refine bind_congr' (fun b s2 => ?_)
      cases b <;> rfl
    have e2 : ((front >>= fun _ => tail) >>= fun _ => M.wrap (parseMisc E H)) s = ((do
        M.wrap (parseDocTypeDecl E H)
        if (← hasPrefix b!"[") then M.wrap (parseInternalSubset E H snl) else pure () : P σ Unit) >>= fun _ => tail >>= fun _ => M.wrap (parseMisc E H)) { s with inSubset := 1 } := by
      simp only [front, bind_assocF]
      rfl
    rw [e2, e]
    simp only [tail, bind_assocF]
end
end Helium
