import Verif.Lemmas.LogicDoc
import Verif.Lemmas.Run
/-! Only a reference to a parameter entity and an external identifier set the flags `hasPERefs` and `hasExternalSubset`. -/
namespace Helium
section
variable {σ : Type}

/-- what the parser keeps of the document type declaration. -/
def St.dtdHead (s : St σ) : Bool × Bytes × Bytes × Bytes := (s.hasExternalSubset, s.intSubName, s.extSubSystem, s.extSubURI)

/-- the flags and the names are as they were. -/
def SameFlags (s s' : St σ) : Prop := s'.hasPERefs = s.hasPERefs ∧ s'.dtdHead = s.dtdHead

theorem SameFlags.refl (s : St σ) : SameFlags s s := ⟨rfl, rfl⟩
theorem SameFlags.trans {a b c : St σ} (h : SameFlags a b) (k : SameFlags b c) : SameFlags a c := ⟨k.1.trans h.1, k.2.trans h.2⟩

/-- `p` leaves the flags alone. -/
def Fl {α : Type} (p : P σ α) : Prop := ∀ s, post (p s) (SameFlags s) (fun _ => SameFlags s)

variable {α β : Type}

theorem Fl.ok {p : P σ α} (hp : Fl p) {s s' : St σ} {a : α} (h : p s = .ok a s') : SameFlags s s' := by
  have := hp s
  rw [h] at this
  exact this
theorem Fl.bind {p : P σ α} {f : α → P σ β} (hp : Fl p) (hf : ∀ a, Fl (f a)) : Fl (p >>= f) := by
  intro s
  have h1 := hp s
  show post (M.bind p f s) _ _
  unfold M.bind
  cases h : p s with
  | ok a t =>
    rw [h] at h1
    exact post_mono (hf a t) (fun _ h => SameFlags.trans h1 h) (fun _ _ h => SameFlags.trans h1 h)
  | err e t => rw [h] at h1; exact h1
  | panic => trivial
  | diverge => trivial
theorem Fl.pure (a : α) : Fl (Pure.pure a : P σ α) := fun s => .refl s
theorem Fl.fail (e : Err) : Fl (M.fail e : P σ α) := fun s => .refl s
theorem Fl.cerr (e : EK) : Fl (M.cerr e : P σ α) := Fl.fail _
theorem Fl.raw (e : EK) : Fl (M.raw e : P σ α) := Fl.fail _
theorem Fl.panic : Fl (M.panic : P σ α) := fun _ => trivial
theorem Fl.diverge : Fl (M.diverge : P σ α) := fun _ => trivial
theorem Fl.get : Fl (M.get : P σ (St σ)) := fun s => .refl s
theorem Fl.need (c : Bool) (e : EK) : Fl (M.need c e : P σ Unit) := by
  unfold M.need
  cases c
  · exact Fl.cerr _
  · exact Fl.pure ()
theorem Fl.needRaw (c : Bool) (e : EK) : Fl (M.needRaw c e : P σ Unit) := by
  unfold M.needRaw
  cases c
  · exact Fl.raw _
  · exact Fl.pure ()
theorem Fl.deref (o : Option α) : Fl (M.deref o : P σ α) := by
  cases o
  · exact Fl.panic
  · exact Fl.pure _
theorem Fl.wrap {p : P σ α} (h : Fl p) : Fl (M.wrap p) := by
  intro s
  have := h s
  unfold M.wrap
  cases hp : p s <;> rw [hp] at this <;> exact this
theorem Fl.orElse {p : P σ α} {e : EK} (h : Fl p) : Fl (M.orElse p e) := by
  intro s
  have := h s
  unfold M.orElse
  cases hp : p s <;> rw [hp] at this <;> exact this
theorem Fl.attempt {p : P σ α} (h : Fl p) : Fl (M.attempt p) := by
  intro s
  have := h s
  unfold M.attempt
  cases hp : p s <;> rw [hp] at this <;> exact this
theorem Fl.modify {f : St σ → St σ} (h : ∀ s, SameFlags s (f s)) : Fl (M.modify f : P σ Unit) := fun s => h s
theorem Fl.adv (n : Nat) : Fl (adv n : P σ Unit) := Fl.modify (fun _ => ⟨rfl, rfl⟩)
theorem Fl.peekN (E : Env) (n : Nat) : Fl (peekN E n : P σ Nat) := fun s => .refl s
theorem Fl.peek (E : Env) : Fl (peek E : P σ Nat) := fun s => .refl s
theorem Fl.peekB (E : Env) (n : Nat) : Fl (peekB E n : P σ Nat) := fun s => .refl s
theorem Fl.isDone : Fl (isDone : P σ Bool) := fun s => .refl s
theorem Fl.hasPrefix (l : List Nat) : Fl (hasPrefix l : P σ Bool) := fun s => .refl s
theorem Fl.rest : Fl (rest : P σ (List Nat)) := fun s => .refl s
theorem Fl.consume (l : List Nat) : Fl (consume l : P σ Bool) := by
  intro s
  unfold Helium.consume
  split <;> exact ⟨rfl, rfl⟩
theorem Fl.skipBlanks : Fl (skipBlanks : P σ Bool) := fun _ => ⟨rfl, rfl⟩
theorem Fl.liftH (p : HM α) : Fl (liftH p : P σ α) := by
  intro s
  unfold Helium.liftH
  cases p s.hc.heap <;> first | trivial | exact ⟨rfl, rfl⟩
theorem Fl.callback (H : Handler σ) (ev : Ev) : Fl (callback H ev) := fun _ => ⟨rfl, rfl⟩
end

/-- closes `Fl (f ..)` for a known `f`; extended below. -/
syntax "fl_leaf" : tactic
macro_rules | `(tactic| fl_leaf) => `(tactic| first
  | with_reducible assumption
  | with_reducible exact Fl.pure _ | with_reducible exact Fl.cerr _ | with_reducible exact Fl.raw _ | with_reducible exact Fl.fail _ | with_reducible exact Fl.panic | with_reducible exact Fl.diverge
  | with_reducible exact Fl.get | with_reducible exact Fl.need _ _ | with_reducible exact Fl.needRaw _ _ | with_reducible exact Fl.deref _ | with_reducible exact Fl.adv _
  | with_reducible exact Fl.peekN _ _ | with_reducible exact Fl.peek _ | with_reducible exact Fl.peekB _ _ | with_reducible exact Fl.isDone | with_reducible exact Fl.hasPrefix _
  | with_reducible exact Fl.rest | with_reducible exact Fl.consume _ | with_reducible exact Fl.skipBlanks | with_reducible exact Fl.liftH _ | with_reducible exact Fl.callback _ _
  | (apply Fl.modify; intro s; exact ⟨rfl, rfl⟩))

macro "fl1" : tactic => `(tactic| first
  | fl_leaf
  | with_reducible refine Fl.bind ?_ (fun _ => ?_) | with_reducible refine Fl.wrap ?_
  | with_reducible refine Fl.orElse ?_ | with_reducible refine Fl.attempt ?_
  | split
  | dsimp only)

macro "fl" : tactic => `(tactic| repeat fl1)

section
variable {σ : Type} {α β : Type} (E : Env) (H : Handler σ)

theorem Fl.cb (ev : Ev) : Fl (cb H ev) := by
  unfold Helium.cb; fl
macro_rules | `(tactic| fl_leaf) => `(tactic| with_reducible exact Fl.cb _ _)

theorem Fl.cbRaw (ev : Ev) : Fl (cbRaw H ev) := by
  unfold Helium.cbRaw; fl
macro_rules | `(tactic| fl_leaf) => `(tactic| with_reducible exact Fl.cbRaw _ _)

theorem Fl.ask (ev : Ev) : Fl (ask H ev) := by
  unfold Helium.ask; fl
macro_rules | `(tactic| fl_leaf) => `(tactic| with_reducible exact Fl.ask _ _)

theorem Fl.needBlanks : Fl (needBlanks E : P σ Unit) := by
  unfold Helium.needBlanks; fl
macro_rules | `(tactic| fl_leaf) => `(tactic| with_reducible exact Fl.needBlanks _)

theorem Fl.parseName : Fl (parseName E : P σ Bytes) := by
  unfold Helium.parseName; fl
macro_rules | `(tactic| fl_leaf) => `(tactic| with_reducible exact Fl.parseName _)

theorem Fl.parseNmtoken : Fl (parseNmtoken E : P σ Bytes) := by
  unfold Helium.parseNmtoken; fl
macro_rules | `(tactic| fl_leaf) => `(tactic| with_reducible exact Fl.parseNmtoken _)

theorem Fl.parsePITarget : Fl (parsePITarget E : P σ Bytes) := by
  unfold Helium.parsePITarget; fl
macro_rules | `(tactic| fl_leaf) => `(tactic| with_reducible exact Fl.parsePITarget _)

theorem Fl.attrNormalizeSpace (b : Bytes) : Fl (attrNormalizeSpace b : P σ Bytes) := by
  unfold Helium.attrNormalizeSpace; fl
macro_rules | `(tactic| fl_leaf) => `(tactic| with_reducible exact Fl.attrNormalizeSpace _)

theorem Fl.ctxGetEntity (b : Bytes) : Fl (ctxGetEntity b : P σ (Option Nat)) := by
  unfold Helium.ctxGetEntity; fl
macro_rules | `(tactic| fl_leaf) => `(tactic| with_reducible exact Fl.ctxGetEntity _)

theorem Fl.parseComment : Fl (parseComment H) := by
  unfold Helium.parseComment; fl
macro_rules | `(tactic| fl_leaf) => `(tactic| with_reducible exact Fl.parseComment _)

theorem Fl.parsePI : Fl (parsePI E H) := by
  unfold Helium.parsePI; fl
macro_rules | `(tactic| fl_leaf) => `(tactic| with_reducible exact Fl.parsePI _ _)

theorem Fl.parseQuotedTextBytes {v : P σ Bytes} (h : Fl v) : Fl (parseQuotedTextBytes E v) := by
  unfold Helium.parseQuotedTextBytes; fl
macro_rules | `(tactic| fl_leaf) => `(tactic| with_reducible exact Fl.parseQuotedTextBytes _ (by assumption))

theorem Fl.parseNamedAttributeBytes {n : Bytes} {v : P σ Bytes} (h : Fl v) : Fl (parseNamedAttributeBytes E n v) := by
  unfold Helium.parseNamedAttributeBytes; fl
macro_rules | `(tactic| fl_leaf) => `(tactic| with_reducible exact Fl.parseNamedAttributeBytes _ (by assumption))

theorem Fl.parseVersionNum : Fl (parseVersionNum E : P σ Bytes) := by
  unfold Helium.parseVersionNum; fl
macro_rules | `(tactic| fl_leaf) => `(tactic| with_reducible exact Fl.parseVersionNum _)

theorem Fl.parseEncodingName : Fl (parseEncodingName E : P σ Bytes) := by
  unfold Helium.parseEncodingName; fl
macro_rules | `(tactic| fl_leaf) => `(tactic| with_reducible exact Fl.parseEncodingName _)

theorem Fl.parseStandaloneDeclValue : Fl (parseStandaloneDeclValue : P σ Bytes) := by
  unfold Helium.parseStandaloneDeclValue; fl
macro_rules | `(tactic| fl_leaf) => `(tactic| with_reducible exact Fl.parseStandaloneDeclValue)

theorem Fl.closeDecl : Fl (closeDecl : P σ Bool) := by
  unfold Helium.closeDecl; fl
macro_rules | `(tactic| fl_leaf) => `(tactic| with_reducible exact Fl.closeDecl)

theorem Fl.parseXMLDecl : Fl (parseXMLDecl E : P σ Unit) := by
  have h1 := fun n => Fl.parseNamedAttributeBytes (σ := σ) E (n := n) (Fl.parseVersionNum E)
  have h2 := fun n => Fl.parseNamedAttributeBytes (σ := σ) E (n := n) (Fl.parseEncodingName E)
  have h3 := fun n => Fl.parseNamedAttributeBytes (σ := σ) E (n := n) Fl.parseStandaloneDeclValue
  unfold Helium.parseXMLDecl
  repeat first | exact h1 _ | exact h2 _ | exact h3 _ | fl1
macro_rules | `(tactic| fl_leaf) => `(tactic| with_reducible exact Fl.parseXMLDecl _)

theorem Fl.parseOccur (e : EC) : Fl (parseOccur E e : P σ EC) := by
  unfold Helium.parseOccur; fl
macro_rules | `(tactic| fl_leaf) => `(tactic| with_reducible exact Fl.parseOccur _ _)

theorem Fl.childrenClose (st : CS) : Fl (childrenClose E st : P σ EC) := by
  unfold Helium.childrenClose; fl
macro_rules | `(tactic| fl_leaf) => `(tactic| with_reducible exact Fl.childrenClose _ _)

theorem Fl.parseMixed : Fl (parseMixed E : P σ EC) := by
  unfold Helium.parseMixed; fl
macro_rules | `(tactic| fl_leaf) => `(tactic| with_reducible exact Fl.parseMixed _)

mutual
theorem Fl.parseChildren : ∀ (fuel depth : Nat), Fl (parseChildren E fuel depth : P σ EC)
  | 0, _ => by unfold Helium.parseChildren; exact Fl.diverge
  | fuel + 1, depth => by
    have h1 := Fl.parseChildren fuel (depth + 1)
    have h2 := Fl.childrenLoop fuel depth
    unfold Helium.parseChildren
    repeat first | exact h2 _ | fl1
theorem Fl.childrenLoop : ∀ (fuel depth : Nat) (st : CS), Fl (childrenLoop E fuel depth st : P σ EC)
  | 0, _, _ => by unfold Helium.childrenLoop; exact Fl.diverge
  | fuel + 1, depth, st => by
    have h1 := Fl.parseChildren fuel (depth + 1)
    have h2 := Fl.childrenLoop fuel depth
    unfold Helium.childrenLoop
    repeat first | exact h2 _ | fl1
end
macro_rules | `(tactic| fl_leaf) => `(tactic| with_reducible exact Fl.parseChildren _ _ _)

theorem Fl.parseElementContentDecl : Fl (parseElementContentDecl E : P σ (EC × Nat)) := by
  unfold Helium.parseElementContentDecl; fl
macro_rules | `(tactic| fl_leaf) => `(tactic| with_reducible exact Fl.parseElementContentDecl _)

theorem Fl.parseElementDecl : Fl (parseElementDecl E H) := by
  unfold Helium.parseElementDecl; fl
macro_rules | `(tactic| fl_leaf) => `(tactic| with_reducible exact Fl.parseElementDecl _ _)

theorem Fl.strCharRefLoop (hex : Bool) (b : Bytes) : ∀ v, Fl (strCharRefLoop hex v b : P σ (Nat × Bytes)) := by
  induction b with
  | nil => intro v; exact Fl.panic
  | cons c t ih =>
    intro v
    unfold Helium.strCharRefLoop
    repeat first | exact ih _ | fl1
macro_rules | `(tactic| fl_leaf) => `(tactic| with_reducible exact Fl.strCharRefLoop _ _ _)

theorem Fl.parseStringCharRef (b : Bytes) : Fl (parseStringCharRef b : P σ (Nat × Bytes)) := by
  unfold Helium.parseStringCharRef; fl
macro_rules | `(tactic| fl_leaf) => `(tactic| with_reducible exact Fl.parseStringCharRef _)

theorem Fl.decodePE (fuel : Nat) : ∀ b, Fl (decodePE fuel b : P σ Bytes) := by
  induction fuel with
  | zero => intro b; exact Fl.diverge
  | succ n ih =>
    intro b
    cases b with
    | nil => exact Fl.pure _
    | cons c t =>
      unfold Helium.decodePE
      repeat first | exact ih _ | fl1
macro_rules | `(tactic| fl_leaf) => `(tactic| with_reducible exact Fl.decodePE _ _)

theorem Fl.parseEntityValueInternal (q : Nat) : Fl (parseEntityValueInternal q : P σ Bytes) := by
  unfold Helium.parseEntityValueInternal; fl
macro_rules | `(tactic| fl_leaf) => `(tactic| with_reducible exact Fl.parseEntityValueInternal _)

theorem Fl.parseEntityValue : Fl (parseEntityValue E : P σ (Bytes × Bytes)) := by
  unfold Helium.parseEntityValue; fl
macro_rules | `(tactic| fl_leaf) => `(tactic| with_reducible exact Fl.parseEntityValue _)

theorem Fl.parseExternalID : Fl (parseExternalID : P σ (Bytes × Bytes)) := by
  unfold Helium.parseExternalID; fl
macro_rules | `(tactic| fl_leaf) => `(tactic| with_reducible exact Fl.parseExternalID)

theorem Fl.setOrig (e : Except Err (Option ERef)) (b : Bytes) : Fl (setOrig e b : P σ Unit) := by
  unfold Helium.setOrig; fl
macro_rules | `(tactic| fl_leaf) => `(tactic| with_reducible exact Fl.setOrig _ _)

theorem Fl.parseEntityDecl : Fl (parseEntityDecl E H) := by
  unfold Helium.parseEntityDecl; fl
macro_rules | `(tactic| fl_leaf) => `(tactic| with_reducible exact Fl.parseEntityDecl _ _)

theorem Fl.notationLoop (fuel : Nat) : ∀ l, Fl (notationLoop E fuel l : P σ (List Bytes)) := by
  induction fuel with
  | zero => intro l; exact Fl.diverge
  | succ n ih =>
    intro l
    unfold Helium.notationLoop
    repeat first | exact ih _ | fl1
macro_rules | `(tactic| fl_leaf) => `(tactic| with_reducible exact Fl.notationLoop _ _ _)

theorem Fl.enumLoop (fuel : Nat) : ∀ l, Fl (enumLoop E fuel l : P σ (List Bytes)) := by
  induction fuel with
  | zero => intro l; exact Fl.diverge
  | succ n ih =>
    intro l
    unfold Helium.enumLoop
    repeat first | exact ih _ | fl1
macro_rules | `(tactic| fl_leaf) => `(tactic| with_reducible exact Fl.enumLoop _ _ _)

theorem Fl.parseNotationType : Fl (parseNotationType E : P σ (List Bytes)) := by
  unfold Helium.parseNotationType; fl
macro_rules | `(tactic| fl_leaf) => `(tactic| with_reducible exact Fl.parseNotationType _)

theorem Fl.parseEnumerationType : Fl (parseEnumerationType E : P σ (List Bytes)) := by
  unfold Helium.parseEnumerationType; fl
macro_rules | `(tactic| fl_leaf) => `(tactic| with_reducible exact Fl.parseEnumerationType _)

theorem Fl.parseAttributeType : Fl (parseAttributeType E : P σ (Nat × List Bytes)) := by
  unfold Helium.parseAttributeType; fl
macro_rules | `(tactic| fl_leaf) => `(tactic| with_reducible exact Fl.parseAttributeType _)

theorem Fl.charRefBody (hex : Bool) : Fl (charRefBody hex : P σ Nat) := by
  unfold Helium.charRefBody; fl
macro_rules | `(tactic| fl_leaf) => `(tactic| with_reducible exact Fl.charRefBody _)

theorem Fl.parseCharRef : Fl (parseCharRef : P σ Nat) := by
  unfold Helium.parseCharRef; fl
macro_rules | `(tactic| fl_leaf) => `(tactic| with_reducible exact Fl.parseCharRef)

theorem Fl.parseEntityRef : Fl (parseEntityRef E H) := by
  unfold Helium.parseEntityRef; fl
macro_rules | `(tactic| fl_leaf) => `(tactic| with_reducible exact Fl.parseEntityRef _ _)

theorem Fl.attrValueLoop (q : Nat) (nz : Bool) (fuel : Nat) : ∀ b sp n, Fl (attrValueLoop E H q nz fuel b sp n) := by
  induction fuel with
  | zero => intro b sp n; exact Fl.diverge
  | succ n ih =>
    intro b sp n
    unfold Helium.attrValueLoop
    repeat first | with_reducible exact ih _ _ _ | fl1
macro_rules | `(tactic| fl_leaf) => `(tactic| with_reducible exact Fl.attrValueLoop _ _ _ _ _ _ _ _)

theorem Fl.parseAttributeValueInternal (q : Nat) (nz : Bool) : Fl (parseAttributeValueInternal E H q nz) := by
  unfold Helium.parseAttributeValueInternal; fl
macro_rules | `(tactic| fl_leaf) => `(tactic| with_reducible exact Fl.parseAttributeValueInternal _ _ _ _)

theorem Fl.parseQuotedText {f : Nat → P σ α} (h : ∀ q, Fl (f q)) : Fl (parseQuotedText E f) := by
  unfold Helium.parseQuotedText
  repeat first | exact h _ | fl1

theorem Fl.parseDefaultDecl : Fl (parseDefaultDecl E H) := by
  have := Fl.parseQuotedText E (f := fun q => Helium.parseAttributeValueInternal E H q false) (fun q => Fl.parseAttributeValueInternal E H q false)
  unfold Helium.parseDefaultDecl; fl
macro_rules | `(tactic| fl_leaf) => `(tactic| with_reducible exact Fl.parseDefaultDecl _ _)

theorem Fl.addAttributeDefault (fuel : Nat) (a b c : Bytes) : Fl (addAttributeDefault fuel a b c : P σ Unit) := by
  unfold Helium.addAttributeDefault; fl
macro_rules | `(tactic| fl_leaf) => `(tactic| with_reducible exact Fl.addAttributeDefault _ _ _ _)

theorem Fl.attlistLoop (snl : Nat) (b : Bytes) (fuel : Nat) : Fl (attlistLoop E H snl b fuel) := by
  induction fuel with
  | zero => exact Fl.diverge
  | succ n ih => unfold Helium.attlistLoop; fl
macro_rules | `(tactic| fl_leaf) => `(tactic| with_reducible exact Fl.attlistLoop _ _ _ _ _)

theorem Fl.parseAttributeListDecl (snl : Nat) : Fl (parseAttributeListDecl E H snl) := by
  unfold Helium.parseAttributeListDecl; fl
macro_rules | `(tactic| fl_leaf) => `(tactic| with_reducible exact Fl.parseAttributeListDecl _ _ _)

theorem Fl.parseMiscLoop (fuel : Nat) : Fl (parseMiscLoop E H fuel) := by
  induction fuel with
  | zero => exact Fl.diverge
  | succ n ih => unfold Helium.parseMiscLoop; fl
macro_rules | `(tactic| fl_leaf) => `(tactic| with_reducible exact Fl.parseMiscLoop _ _ _)

theorem Fl.parseMisc : Fl (parseMisc E H) := by
  unfold Helium.parseMisc; fl
macro_rules | `(tactic| fl_leaf) => `(tactic| with_reducible exact Fl.parseMisc _ _)

theorem Fl.switchEncoding : Fl (switchEncoding E : P σ Unit) := by
  unfold Helium.switchEncoding; fl
macro_rules | `(tactic| fl_leaf) => `(tactic| with_reducible exact Fl.switchEncoding _)

theorem Fl.headRest : Fl (headRest E : P σ Unit) := by
  unfold Helium.headRest; fl

theorem Fl.parseHead : Fl (parseHead E H) := by
  unfold Helium.parseHead; fl
macro_rules | `(tactic| fl_leaf) => `(tactic| with_reducible exact Fl.parseHead _ _)

end
end Helium
