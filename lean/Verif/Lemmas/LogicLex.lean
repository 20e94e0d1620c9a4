import Verif.Lemmas.Logic
/-! Every lexical and DTD parsing function respects every `Logic`. -/
namespace Helium

/-- closes a goal `Silent kb (f ..)` for a known `f`; extended below. -/
syntax "silent_leaf" : tactic
macro_rules | `(tactic| silent_leaf) => `(tactic| first
  | with_reducible assumption
  | with_reducible exact Silent.pure _ | with_reducible exact Silent.cerr _ | with_reducible exact Silent.raw _ | with_reducible exact Silent.panic | with_reducible exact Silent.diverge
  | with_reducible exact Silent.get | with_reducible exact Silent.need _ _ | with_reducible exact Silent.needRaw _ _ | with_reducible exact Silent.deref _ | with_reducible exact Silent.adv _
  | with_reducible exact Silent.peekN _ _ | with_reducible exact Silent.peek _ | with_reducible exact Silent.peekB _ _ | with_reducible exact Silent.isDone | with_reducible exact Silent.hasPrefix _
  | with_reducible exact Silent.rest | with_reducible exact Silent.consume _ | with_reducible exact Silent.skipBlanks | ((with_reducible refine Silent.attemptLiftH ?_ ?_); keepT_leaf; exact fun _ T => (Calms.createAttribute T).mono (fun _ _ _ _ => trivial)) | ((with_reducible refine Silent.updNode _ ?_); intro x; first | exact ⟨⟨rfl, rfl, rfl, rfl, rfl, rfl, rfl, rfl, rfl⟩, id, fun h => ⟨h, rfl, rfl⟩⟩ | exact ⟨⟨rfl, rfl, rfl, rfl, rfl, rfl, rfl, rfl, rfl⟩, fun _ => rfl, fun h => ⟨h, rfl, rfl⟩⟩)
  | (apply Silent.modify; intro s; first
      | exact ⟨List.suffix_refl _, rfl, rfl, rfl, rfl, rfl, rfl, rfl, fun _ => ⟨rfl, rfl⟩, Tabs0.refl _, rfl⟩
      | exact ⟨List.suffix_refl _, rfl, rfl, rfl, rfl, rfl, rfl, rfl, fun e => (by cases e), Tabs0.refl _, rfl⟩))

macro "silent1" : tactic => `(tactic| first
  | silent_leaf
  | with_reducible refine Silent.bind ?_ (fun _ => ?_) | with_reducible refine Silent.wrap ?_
  | with_reducible refine Silent.orElse ?_ | with_reducible refine Silent.attempt ?_
  | split
  | dsimp only)

macro "silent" : tactic => `(tactic| repeat silent1)

section
variable {kb : Bool} {σ : Type} {α β : Type} (E : Env)

theorem Silent.needBlanks : Silent kb (needBlanks E : P σ Unit) := by
  unfold Helium.needBlanks; silent
macro_rules | `(tactic| silent_leaf) => `(tactic| with_reducible exact Silent.needBlanks _)

theorem Silent.parseName : Silent kb (parseName E : P σ Bytes) := by
  unfold Helium.parseName; silent
macro_rules | `(tactic| silent_leaf) => `(tactic| with_reducible exact Silent.parseName _)

theorem Silent.parseNCName : Silent kb (parseNCName E : P σ Bytes) := by
  unfold Helium.parseNCName; silent
macro_rules | `(tactic| silent_leaf) => `(tactic| with_reducible exact Silent.parseNCName _)

theorem Silent.parseNmtoken : Silent kb (parseNmtoken E : P σ Bytes) := by
  unfold Helium.parseNmtoken; silent
macro_rules | `(tactic| silent_leaf) => `(tactic| with_reducible exact Silent.parseNmtoken _)

theorem Silent.parsePITarget : Silent kb (parsePITarget E : P σ Bytes) := by
  unfold Helium.parsePITarget; silent
macro_rules | `(tactic| silent_leaf) => `(tactic| with_reducible exact Silent.parsePITarget _)

theorem Silent.areBlanks (b : Bytes) : Silent kb (areBlanks E b : P σ Bool) := by
  unfold Helium.areBlanks; silent
macro_rules | `(tactic| silent_leaf) => `(tactic| with_reducible exact Silent.areBlanks _ _)

theorem Silent.attrNormalizeSpace (b : Bytes) : Silent kb (attrNormalizeSpace b : P σ Bytes) := by
  unfold Helium.attrNormalizeSpace; silent
macro_rules | `(tactic| silent_leaf) => `(tactic| with_reducible exact Silent.attrNormalizeSpace _)

theorem Silent.ctxGetEntity (b : Bytes) : Silent false (ctxGetEntity b : P σ (Option Nat)) := by
  intro s
  unfold Helium.ctxGetEntity
  show post (M.bind M.get _ s) _ _
  simp only [M.bind, M.get]
  by_cases h0 : s.inSubset = 0
  · rw [if_pos h0]; exact Quiet.refl s
  · rw [if_neg h0]
    show post (M.bind (M.deref s.hc.doc) _ s) _ _
    unfold M.bind
    cases s.hc.doc with
    | none => trivial
    | some d =>
      show post ((match docGetEntity s.hc.heap d b with
        | some e => Pure.pure (some e)
        | none => if (s.hc.heap.at' d).standalone = 1 ∧ s.inSubset ≠ 2 then do
            Helium.liftH (Helium.updNode d (fun x => { x with standalone := 0 }))
            Pure.pure none
          else Pure.pure none : P σ (Option Nat)) s) _ _
      cases docGetEntity s.hc.heap d b with
      | some e => exact Quiet.refl s
      | none =>
        simp only
        split
        · exact ⟨List.suffix_refl _, rfl, rfl, rfl, rfl, rfl, rfl, rfl, fun e => (by cases e), ⟨Tabs.upd _ s.hc.heap d (f := fun x => { x with standalone := 0 }) rfl ⟨id, fun h => ⟨h, rfl, rfl⟩⟩, fun T => Gentle.upd_same T d (f := fun x => { x with standalone := 0 }) ⟨rfl, rfl, rfl, rfl, rfl, rfl, rfl, rfl, rfl⟩⟩, rfl⟩
        · exact Quiet.refl s

/-! ### XML declaration -/

theorem Silent.parseQuotedTextBytes {v : P σ Bytes} (h : Silent kb v) : Silent kb (parseQuotedTextBytes E v) := by
  unfold Helium.parseQuotedTextBytes; silent

theorem Silent.parseNamedAttributeBytes {n : Bytes} {v : P σ Bytes} (h : Silent kb v) :
    Silent kb (parseNamedAttributeBytes E n v) := by
  have := Silent.parseQuotedTextBytes E h
  unfold Helium.parseNamedAttributeBytes
  silent
  exact Silent.fail (by intro e' h; cases h)

theorem Silent.parseVersionNum : Silent kb (parseVersionNum E : P σ Bytes) := by
  unfold Helium.parseVersionNum; silent

theorem Silent.parseEncodingName : Silent kb (parseEncodingName E : P σ Bytes) := by
  unfold Helium.parseEncodingName; silent

theorem Silent.parseStandaloneDeclValue : Silent kb (parseStandaloneDeclValue : P σ Bytes) := by
  unfold Helium.parseStandaloneDeclValue; silent

theorem Silent.closeDecl : Silent kb (closeDecl : P σ Bool) := Silent.consume _
macro_rules | `(tactic| silent_leaf) => `(tactic| with_reducible exact Silent.closeDecl)

theorem Silent.parseXMLDecl : Silent kb (parseXMLDecl E : P σ Unit) := by
  have h1 := fun n => Silent.parseNamedAttributeBytes (kb := kb) (σ := σ) E (n := n) (Silent.parseVersionNum E)
  have h2 := fun n => Silent.parseNamedAttributeBytes (kb := kb) (σ := σ) E (n := n) (Silent.parseEncodingName E)
  have h3 := fun n => Silent.parseNamedAttributeBytes (kb := kb) (σ := σ) E (n := n) Silent.parseStandaloneDeclValue
  unfold Helium.parseXMLDecl
  repeat first | exact h1 _ | exact h2 _ | exact h3 _ | silent1

/-! ### content models -/

theorem Silent.parseOccur (e : EC) : Silent kb (parseOccur E e : P σ EC) := by
  unfold Helium.parseOccur; silent
macro_rules | `(tactic| silent_leaf) => `(tactic| with_reducible exact Silent.parseOccur _ _)

theorem Silent.childrenClose (st : CS) : Silent kb (childrenClose E st : P σ EC) := by
  unfold Helium.childrenClose; silent
macro_rules | `(tactic| silent_leaf) => `(tactic| with_reducible exact Silent.childrenClose _ _)

theorem newEC_err {n : Bytes} {t : Nat} {e : Err} (h : newElementContent n t = .error e) : GoodErr (wrapErr e) := by
  apply goodErr_wrap
  unfold newElementContent at h
  split at h <;> try split at h
  all_goals first | split at h | skip
  all_goals first | (cases h; intro e' h'; cases h') | cases h

theorem Silent.ecFail {α : Type} {n : Bytes} {t : Nat} {e : Err} (h : newElementContent n t = .error e) :
    Silent kb (M.fail (wrapErr e) : P σ α) := Silent.fail (newEC_err h)
macro_rules | `(tactic| silent_leaf) => `(tactic| with_reducible exact Silent.ecFail (by assumption))

theorem Silent.parseMixed : Silent kb (parseMixed E : P σ EC) := by
  unfold Helium.parseMixed; silent
macro_rules | `(tactic| silent_leaf) => `(tactic| with_reducible exact Silent.parseMixed _)

mutual
theorem Silent.parseChildren : ∀ (fuel depth : Nat), Silent kb (parseChildren E fuel depth : P σ EC)
  | 0, _ => by unfold Helium.parseChildren; exact Silent.diverge
  | fuel + 1, depth => by
    have h1 := Silent.parseChildren fuel (depth + 1)
    have h2 := Silent.childrenLoop fuel depth
    unfold Helium.parseChildren
    repeat first | exact h2 _ | silent1
theorem Silent.childrenLoop : ∀ (fuel depth : Nat) (st : CS), Silent kb (childrenLoop E fuel depth st : P σ EC)
  | 0, _, _ => by unfold Helium.childrenLoop; exact Silent.diverge
  | fuel + 1, depth, st => by
    have h1 := Silent.parseChildren fuel (depth + 1)
    have h2 := Silent.childrenLoop fuel depth
    unfold Helium.childrenLoop
    repeat first | exact h2 _ | silent1
end
macro_rules | `(tactic| silent_leaf) => `(tactic| with_reducible exact Silent.parseChildren _ _ _)

theorem Silent.parseElementContentDecl : Silent kb (parseElementContentDecl E : P σ (EC × Nat)) := by
  unfold Helium.parseElementContentDecl; silent
macro_rules | `(tactic| silent_leaf) => `(tactic| with_reducible exact Silent.parseElementContentDecl _)

/-! ### entities and attribute lists -/

theorem Silent.strCharRefLoop (hex : Bool) (b : Bytes) : ∀ v, Silent kb (strCharRefLoop hex v b : P σ (Nat × Bytes)) := by
  induction b with
  | nil => intro v; exact Silent.panic
  | cons c t ih =>
    intro v
    unfold Helium.strCharRefLoop
    repeat first | exact ih _ | silent1
macro_rules | `(tactic| silent_leaf) => `(tactic| with_reducible exact Silent.strCharRefLoop _ _ _)

theorem Silent.parseStringCharRef (b : Bytes) : Silent kb (parseStringCharRef b : P σ (Nat × Bytes)) := by
  unfold Helium.parseStringCharRef; silent
macro_rules | `(tactic| silent_leaf) => `(tactic| with_reducible exact Silent.parseStringCharRef _)

theorem Silent.decodePE (fuel : Nat) : ∀ b, Silent kb (decodePE fuel b : P σ Bytes) := by
  induction fuel with
  | zero => intro b; exact Silent.diverge
  | succ n ih =>
    intro b
    cases b with
    | nil => exact Silent.pure _
    | cons c t =>
      unfold Helium.decodePE
      repeat first | exact ih _ | silent1
macro_rules | `(tactic| silent_leaf) => `(tactic| with_reducible exact Silent.decodePE _ _)

theorem Silent.parseEntityValueInternal (q : Nat) : Silent kb (parseEntityValueInternal q : P σ Bytes) := by
  unfold Helium.parseEntityValueInternal; silent
macro_rules | `(tactic| silent_leaf) => `(tactic| with_reducible exact Silent.parseEntityValueInternal _)

theorem Silent.parseEntityValue : Silent kb (parseEntityValue E : P σ (Bytes × Bytes)) := by
  unfold Helium.parseEntityValue; silent
macro_rules | `(tactic| silent_leaf) => `(tactic| with_reducible exact Silent.parseEntityValue _)

theorem Silent.setOrig (e : Except Err (Option ERef)) (b : Bytes) : Silent false (setOrig e b : P σ Unit) := by
  unfold Helium.setOrig; silent

theorem Silent.parseExternalID : Silent kb (parseExternalID : P σ (Bytes × Bytes)) := Silent.pure _
macro_rules | `(tactic| silent_leaf) => `(tactic| with_reducible exact Silent.parseExternalID)

theorem Silent.notationLoop (fuel : Nat) : ∀ l, Silent kb (notationLoop E fuel l : P σ (List Bytes)) := by
  induction fuel with
  | zero => intro b; exact Silent.diverge
  | succ n ih =>
    intro l
    unfold Helium.notationLoop
    repeat first | exact ih _ | silent1
macro_rules | `(tactic| silent_leaf) => `(tactic| with_reducible exact Silent.notationLoop _ _ _)

theorem Silent.enumLoop (fuel : Nat) : ∀ l, Silent kb (enumLoop E fuel l : P σ (List Bytes)) := by
  induction fuel with
  | zero => intro b; exact Silent.diverge
  | succ n ih =>
    intro l
    unfold Helium.enumLoop
    repeat first | exact ih _ | silent1
macro_rules | `(tactic| silent_leaf) => `(tactic| with_reducible exact Silent.enumLoop _ _ _)

theorem Silent.parseNotationType : Silent kb (parseNotationType E : P σ (List Bytes)) := by
  unfold Helium.parseNotationType; silent
macro_rules | `(tactic| silent_leaf) => `(tactic| with_reducible exact Silent.parseNotationType _)

theorem Silent.parseEnumerationType : Silent kb (parseEnumerationType E : P σ (List Bytes)) := by
  unfold Helium.parseEnumerationType; silent
macro_rules | `(tactic| silent_leaf) => `(tactic| with_reducible exact Silent.parseEnumerationType _)

theorem Silent.parseAttributeType : Silent kb (parseAttributeType E : P σ (Nat × List Bytes)) := by
  unfold Helium.parseAttributeType; silent
macro_rules | `(tactic| silent_leaf) => `(tactic| with_reducible exact Silent.parseAttributeType _)

theorem Silent.addAttributeDefault (fuel : Nat) (a b c : Bytes) : Silent false (addAttributeDefault fuel a b c : P σ Unit) := by
  unfold Helium.addAttributeDefault; silent

theorem Silent.afterNs : Silent kb (afterNs E : P σ Bool) := by
  unfold Helium.afterNs; silent
macro_rules | `(tactic| silent_leaf) => `(tactic| with_reducible exact Silent.afterNs _)

theorem Silent.parseQName : Silent kb (parseQName E : P σ (Bytes × Bytes)) := by
  unfold Helium.parseQName
  refine Silent.attemptBind (Silent.parseNCName E) (fun a => ?_) (fun e he => ?_)
  · dsimp only; silent
  · dsimp only
    refine Silent.bind (Silent.peek E) (fun _ => ?_)
    split
    · silent
    · exact Silent.fail (goodErr_wrap he)
macro_rules | `(tactic| silent_leaf) => `(tactic| with_reducible exact Silent.parseQName _)

theorem charRefLoop_suffix (hex : Bool) (l : List Nat) : ∀ v, (charRefLoop hex v l).2 <:+ l := by
  induction l with
  | nil => intro v; exact List.suffix_refl _
  | cons c t ih =>
    intro v
    unfold charRefLoop
    split
    · exact List.suffix_refl _
    · split
      · exact List.suffix_refl _
      · exact (ih _).trans (List.suffix_cons c t)

theorem Silent.charRefBody (hex : Bool) : Silent kb (charRefBody hex : P σ Nat) := by
  intro s
  unfold Helium.charRefBody
  simp only [Bind.bind, M.bind, Helium.rest, M.modify]
  have hs := charRefLoop_suffix hex s.cur 0
  generalize Helium.charRefLoop hex 0 s.cur = x at *
  obtain ⟨x1, x2⟩ := x
  have hq : Quiet kb s { s with cur := x2 } := ⟨hs, rfl, rfl, rfl, rfl, rfl, rfl, rfl, fun _ => ⟨rfl, rfl⟩, Tabs0.refl _, rfl⟩
  cases x1 with
  | none => exact ⟨hq, by intro e' h; cases h⟩
  | some v =>
    have : Silent kb (do
      let _ ← Helium.consume [59]
      if isChar v && (v < 2 ^ 31 && v ≤ 0x10FFFF) then Pure.pure v else M.raw .invalidChar : P σ Nat) := by silent
    exact post_mono (this { s with cur := x2 }) (fun _ h => hq.trans h) (fun _ _ h => ⟨hq.trans h.1, h.2⟩)
macro_rules | `(tactic| silent_leaf) => `(tactic| with_reducible exact Silent.charRefBody _)

theorem Silent.parseCharRef : Silent kb (parseCharRef : P σ Nat) := by
  unfold Helium.parseCharRef; silent
macro_rules | `(tactic| silent_leaf) => `(tactic| with_reducible exact Silent.parseCharRef)

end
end Helium
