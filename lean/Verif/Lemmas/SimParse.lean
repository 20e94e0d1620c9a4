import Verif.Lemmas.Sim
/-! Every parsing function runs in step with itself. -/
namespace Helium

/-- closes a goal `Sim L (f ..) (f ..)` for a known `f`; extended below. -/
syntax "sim_leaf" : tactic
macro_rules | `(tactic| sim_leaf) => `(tactic| first
  | with_reducible assumption
  | with_reducible exact Sim.pure _ | with_reducible exact Sim.mpure _ | with_reducible exact Sim.cerr _ | with_reducible exact Sim.raw _
  | with_reducible exact Sim.fail _ | with_reducible exact Sim.panic | with_reducible exact Sim.diverge
  | with_reducible exact Sim.need _ _ | with_reducible exact Sim.needRaw _ _ | with_reducible exact Sim.deref _
  | with_reducible exact Sim.adv _ | with_reducible exact Sim.peekN _ _ | with_reducible exact Sim.peek _
  | with_reducible exact Sim.peekB _ _ | with_reducible exact Sim.isDone | with_reducible exact Sim.hasPrefix _
  | with_reducible exact Sim.rest | with_reducible exact Sim.consume _ | with_reducible exact Sim.skipBlanks
  | ((with_reducible refine Sim.cb (by assumption) _ ?_); exact ⟨rfl, fun _ => trivial⟩)
  | ((with_reducible refine Sim.cbRaw (by assumption) _ ?_); exact ⟨rfl, fun _ => trivial⟩)
  | ((with_reducible refine Sim.liftH (N := fun _ => False) ?_ ?_); exact Upto.refl _; focus (keepT; done))
  | (with_reducible refine Sim.modify ?_; intro s u tr; exact ⟨rfl, rfl, rfl, rfl, rfl⟩))

macro "sim1" : tactic => `(tactic| first
  | sim_leaf
  | (with_reducible refine Sim.get_bind (fun s u tr => ?_); dsimp only [St.re])
  | ((with_reducible refine Sim.ask_bind (by assumption) _ ?_ (fun _ => ?_) (fun _ _ => ?_)); rfl)
  | with_reducible refine Sim.bind ?_ (fun _ => ?_) | with_reducible refine Sim.wrap ?_
  | with_reducible refine Sim.orElse ?_ | with_reducible refine Sim.attempt ?_
  | with_reducible refine Sim.ite (fun _ => ?_) (fun _ => ?_)
  | dsimp only
  | (split <;> (try simp only [*])))

macro "sim" : tactic => `(tactic| repeat sim1)

section
variable {σ τ : Type} {α β : Type} {L : Sync σ τ} {H : Handler σ} {G : Handler τ} (E : Env) {o : List Nat → List Nat}
  {ho : ∀ l, (o l).Perm l}

theorem Sim.needBlanks : Sim L (needBlanks E : P σ Unit) (needBlanks (E.reorder o ho)) := by
  unfold Helium.needBlanks; sim
macro_rules | `(tactic| sim_leaf) => `(tactic| with_reducible exact Sim.needBlanks _)

theorem Sim.parseName : Sim L (parseName E : P σ Bytes) (parseName (E.reorder o ho)) := by
  have e : Helium.parseName (σ := τ) (E.reorder o ho) = Helium.parseName E := rfl
  rw [e]
  unfold Helium.parseName; sim
macro_rules | `(tactic| sim_leaf) => `(tactic| with_reducible exact Sim.parseName _)

theorem Sim.parseNCName : Sim L (parseNCName E : P σ Bytes) (parseNCName (E.reorder o ho)) := by
  have e : Helium.parseNCName (σ := τ) (E.reorder o ho) = Helium.parseNCName E := rfl
  rw [e]
  unfold Helium.parseNCName; sim
macro_rules | `(tactic| sim_leaf) => `(tactic| with_reducible exact Sim.parseNCName _)

theorem Sim.parseNmtoken : Sim L (parseNmtoken E : P σ Bytes) (parseNmtoken (E.reorder o ho)) := by
  have e : Helium.parseNmtoken (σ := τ) (E.reorder o ho) = Helium.parseNmtoken E := rfl
  rw [e]
  unfold Helium.parseNmtoken; sim
macro_rules | `(tactic| sim_leaf) => `(tactic| with_reducible exact Sim.parseNmtoken _)

theorem Sim.parseQName : Sim L (parseQName E : P σ (Bytes × Bytes)) (parseQName (E.reorder o ho)) := by
  unfold Helium.parseQName; sim
macro_rules | `(tactic| sim_leaf) => `(tactic| with_reducible exact Sim.parseQName _)

theorem Sim.charRefBody (hex : Bool) : Sim L (charRefBody hex : P σ Nat) (charRefBody hex) := by
  unfold Helium.charRefBody; sim
macro_rules | `(tactic| sim_leaf) => `(tactic| with_reducible exact Sim.charRefBody _)

theorem Sim.parseCharRef : Sim L (parseCharRef : P σ Nat) parseCharRef := by
  unfold Helium.parseCharRef; sim
macro_rules | `(tactic| sim_leaf) => `(tactic| with_reducible exact Sim.parseCharRef)

theorem Sim.ctxGetEntity (b : Bytes) : Sim L (ctxGetEntity b : P σ (Option Nat)) (ctxGetEntity b) := by
  unfold Helium.ctxGetEntity; sim
macro_rules | `(tactic| sim_leaf) => `(tactic| with_reducible exact Sim.ctxGetEntity _)

theorem Sim.parseEntityRef (hA : InStep L H G) : Sim L (parseEntityRef E H) (parseEntityRef (E.reorder o ho) G) := by
  unfold Helium.parseEntityRef; sim
macro_rules | `(tactic| sim_leaf) => `(tactic| with_reducible exact Sim.parseEntityRef _ (by assumption))

theorem Sim.attrValueLoop (hA : InStep L H G) (q : Nat) (nz : Bool) : ∀ (fuel : Nat) (b : Bytes) (sp : Bool) (n : Nat),
    Sim L (attrValueLoop E H q nz fuel b sp n) (attrValueLoop (E.reorder o ho) G q nz fuel b sp n)
  | 0, _, _, _ => by unfold Helium.attrValueLoop; exact Sim.diverge
  | fuel + 1, b, sp, n => by
    have ih := Sim.attrValueLoop hA q nz fuel
    unfold Helium.attrValueLoop
    repeat first | exact ih _ _ _ | sim1

theorem Sim.parseAttributeValueInternal (hA : InStep L H G) (q : Nat) (nz : Bool) :
    Sim L (parseAttributeValueInternal E H q nz) (parseAttributeValueInternal (E.reorder o ho) G q nz) := by
  unfold Helium.parseAttributeValueInternal
  repeat first | exact Sim.attrValueLoop E hA _ _ _ _ _ _ | sim1
macro_rules | `(tactic| sim_leaf) => `(tactic| with_reducible exact Sim.parseAttributeValueInternal _ (by assumption) _ _)

theorem Sim.parseQuotedText {f : Nat → P σ α} {g : Nat → P τ α} (h : ∀ q, Sim L (f q) (g q)) :
    Sim L (parseQuotedText E f) (parseQuotedText (E.reorder o ho) g) := by
  unfold Helium.parseQuotedText
  repeat first | exact h _ | sim1

theorem Sim.parseAttributeValue (hA : InStep L H G) (nz : Bool) :
    Sim L (parseAttributeValue E H nz) (parseAttributeValue (E.reorder o ho) G nz) := by
  unfold Helium.parseAttributeValue; sim
macro_rules | `(tactic| sim_leaf) => `(tactic| with_reducible exact Sim.parseAttributeValue _ (by assumption) _)

theorem Sim.attrNormalizeSpace (b : Bytes) : Sim L (attrNormalizeSpace b : P σ Bytes) (attrNormalizeSpace b) := by
  unfold Helium.attrNormalizeSpace; sim
macro_rules | `(tactic| sim_leaf) => `(tactic| with_reducible exact Sim.attrNormalizeSpace _)

theorem Sim.parseAttribute (hA : InStep L H G) (l : Bytes) : Sim L (parseAttribute E H l) (parseAttribute (E.reorder o ho) G l) := by
  unfold Helium.parseAttribute; sim
macro_rules | `(tactic| sim_leaf) => `(tactic| with_reducible exact Sim.parseAttribute _ (by assumption) _)

theorem Sim.parseComment (hA : InStep L H G) : Sim L (parseComment H) (parseComment G) := by
  unfold Helium.parseComment; sim
macro_rules | `(tactic| sim_leaf) => `(tactic| with_reducible exact Sim.parseComment (by assumption))

theorem Sim.parsePITarget : Sim L (parsePITarget E : P σ Bytes) (parsePITarget (E.reorder o ho)) := by
  unfold Helium.parsePITarget; sim
macro_rules | `(tactic| sim_leaf) => `(tactic| with_reducible exact Sim.parsePITarget _)

theorem Sim.parsePI (hA : InStep L H G) : Sim L (parsePI E H) (parsePI (E.reorder o ho) G) := by
  unfold Helium.parsePI; sim
macro_rules | `(tactic| sim_leaf) => `(tactic| with_reducible exact Sim.parsePI _ (by assumption))

theorem Sim.areBlanks (b : Bytes) : Sim L (areBlanks E b : P σ Bool) (areBlanks (E.reorder o ho) b) := by
  unfold Helium.areBlanks; sim
macro_rules | `(tactic| sim_leaf) => `(tactic| with_reducible exact Sim.areBlanks _ _)

theorem Sim.parseCharData (hA : InStep L H G) (c : Bool) : Sim L (parseCharData E H c) (parseCharData (E.reorder o ho) G c) := by
  unfold Helium.parseCharData; sim
macro_rules | `(tactic| sim_leaf) => `(tactic| with_reducible exact Sim.parseCharData _ (by assumption) _)

theorem Sim.parseCDSect (hA : InStep L H G) : Sim L (parseCDSect E H) (parseCDSect (E.reorder o ho) G) := by
  unfold Helium.parseCDSect; sim
macro_rules | `(tactic| sim_leaf) => `(tactic| with_reducible exact Sim.parseCDSect _ (by assumption))

theorem Sim.parseMiscLoop (hA : InStep L H G) : ∀ fuel, Sim L (parseMiscLoop E H fuel) (parseMiscLoop (E.reorder o ho) G fuel)
  | 0 => by unfold Helium.parseMiscLoop; exact Sim.diverge
  | fuel + 1 => by
    have ih := Sim.parseMiscLoop hA fuel
    unfold Helium.parseMiscLoop; sim

theorem Sim.parseMisc (hA : InStep L H G) : Sim L (parseMisc E H) (parseMisc (E.reorder o ho) G) := by
  unfold Helium.parseMisc
  repeat first | exact Sim.parseMiscLoop E hA _ | sim1
macro_rules | `(tactic| sim_leaf) => `(tactic| with_reducible exact Sim.parseMisc _ (by assumption))

/-! ### XML declaration -/

theorem Sim.parseQuotedTextBytes {v : P σ Bytes} {w : P τ Bytes} (h : Sim L v w) :
    Sim L (parseQuotedTextBytes E v) (parseQuotedTextBytes (E.reorder o ho) w) := by
  unfold Helium.parseQuotedTextBytes; sim

theorem Sim.parseNamedAttributeBytes {n : Bytes} {v : P σ Bytes} {w : P τ Bytes} (h : Sim L v w) :
    Sim L (parseNamedAttributeBytes E n v) (parseNamedAttributeBytes (E.reorder o ho) n w) := by
  have := Sim.parseQuotedTextBytes E (o := o) (ho := ho) h
  unfold Helium.parseNamedAttributeBytes; sim

theorem Sim.parseVersionNum : Sim L (parseVersionNum E : P σ Bytes) (parseVersionNum (E.reorder o ho)) := by
  unfold Helium.parseVersionNum; sim

theorem Sim.parseEncodingName : Sim L (parseEncodingName E : P σ Bytes) (parseEncodingName (E.reorder o ho)) := by
  unfold Helium.parseEncodingName; sim

theorem Sim.parseStandaloneDeclValue : Sim L (parseStandaloneDeclValue : P σ Bytes) parseStandaloneDeclValue := by
  unfold Helium.parseStandaloneDeclValue; sim

theorem Sim.closeDecl : Sim L (closeDecl : P σ Bool) closeDecl := Sim.consume _
macro_rules | `(tactic| sim_leaf) => `(tactic| with_reducible exact Sim.closeDecl)

theorem Sim.parseXMLDecl : Sim L (parseXMLDecl E : P σ Unit) (parseXMLDecl (E.reorder o ho)) := by
  have h1 := fun n => Sim.parseNamedAttributeBytes (L := L) E (o := o) (ho := ho) (n := n) (Sim.parseVersionNum E (o := o) (ho := ho))
  have h2 := fun n => Sim.parseNamedAttributeBytes (L := L) E (o := o) (ho := ho) (n := n) (Sim.parseEncodingName E (o := o) (ho := ho))
  have h3 := fun n => Sim.parseNamedAttributeBytes (L := L) E (o := o) (ho := ho) (n := n) Sim.parseStandaloneDeclValue
  unfold Helium.parseXMLDecl
  repeat first | exact h1 _ | exact h2 _ | exact h3 _ | sim1
macro_rules | `(tactic| sim_leaf) => `(tactic| with_reducible exact Sim.parseXMLDecl _)

theorem Sim.switchEncoding : Sim L (switchEncoding E : P σ Unit) (switchEncoding (E.reorder o ho)) := by
  unfold Helium.switchEncoding; sim
macro_rules | `(tactic| sim_leaf) => `(tactic| with_reducible exact Sim.switchEncoding _)

/-! ### DTD -/

theorem Sim.parsePEReference (hA : InStep L H G) : Sim L (parsePEReference E H) (parsePEReference (E.reorder o ho) G) := by
  unfold Helium.parsePEReference; sim
macro_rules | `(tactic| sim_leaf) => `(tactic| with_reducible exact Sim.parsePEReference _ (by assumption))

theorem Sim.parseOccur (e : EC) : Sim L (parseOccur E e : P σ EC) (parseOccur (E.reorder o ho) e) := by
  unfold Helium.parseOccur; sim
macro_rules | `(tactic| sim_leaf) => `(tactic| with_reducible exact Sim.parseOccur _ _)

theorem Sim.childrenClose (st : CS) : Sim L (childrenClose E st : P σ EC) (childrenClose (E.reorder o ho) st) := by
  unfold Helium.childrenClose; sim
macro_rules | `(tactic| sim_leaf) => `(tactic| with_reducible exact Sim.childrenClose _ _)

mutual
theorem Sim.parseChildren : ∀ (fuel depth : Nat), Sim L (parseChildren E fuel depth : P σ EC) (parseChildren (E.reorder o ho) fuel depth)
  | 0, _ => by unfold Helium.parseChildren; exact Sim.diverge
  | fuel + 1, depth => by
    have h1 := Sim.parseChildren fuel (depth + 1)
    have h2 := Sim.childrenLoop fuel depth
    unfold Helium.parseChildren
    repeat first | exact h2 _ | sim1
theorem Sim.childrenLoop : ∀ (fuel depth : Nat) (st : CS), Sim L (childrenLoop E fuel depth st : P σ EC) (childrenLoop (E.reorder o ho) fuel depth st)
  | 0, _, _ => by unfold Helium.childrenLoop; exact Sim.diverge
  | fuel + 1, depth, st => by
    have h1 := Sim.parseChildren fuel (depth + 1)
    have h2 := Sim.childrenLoop fuel depth
    unfold Helium.childrenLoop
    repeat first | exact h2 _ | sim1
end
macro_rules | `(tactic| sim_leaf) => `(tactic| with_reducible exact Sim.parseChildren _ _ _)

theorem Sim.parseMixed : Sim L (parseMixed E : P σ EC) (parseMixed (E.reorder o ho)) := by
  unfold Helium.parseMixed; sim
macro_rules | `(tactic| sim_leaf) => `(tactic| with_reducible exact Sim.parseMixed _)

theorem Sim.parseElementContentDecl : Sim L (parseElementContentDecl E : P σ (EC × Nat)) (parseElementContentDecl (E.reorder o ho)) := by
  unfold Helium.parseElementContentDecl; sim
macro_rules | `(tactic| sim_leaf) => `(tactic| with_reducible exact Sim.parseElementContentDecl _)

theorem Sim.parseElementDecl (hA : InStep L H G) : Sim L (parseElementDecl E H) (parseElementDecl (E.reorder o ho) G) := by
  unfold Helium.parseElementDecl; sim
macro_rules | `(tactic| sim_leaf) => `(tactic| with_reducible exact Sim.parseElementDecl _ (by assumption))

theorem Sim.strCharRefLoop (hex : Bool) : ∀ (b : Bytes) (v : Nat),
    Sim L (strCharRefLoop hex v b : P σ (Nat × Bytes)) (strCharRefLoop hex v b)
  | [], _ => by unfold Helium.strCharRefLoop; exact Sim.panic
  | c :: t, v => by
    have ih := Sim.strCharRefLoop hex t
    unfold Helium.strCharRefLoop
    repeat first | exact ih _ | sim1

theorem Sim.parseStringCharRef (b : Bytes) : Sim L (parseStringCharRef b : P σ (Nat × Bytes)) (parseStringCharRef b) := by
  unfold Helium.parseStringCharRef
  repeat first | exact Sim.strCharRefLoop _ _ _ | sim1
macro_rules | `(tactic| sim_leaf) => `(tactic| with_reducible exact Sim.parseStringCharRef _)

theorem Sim.decodePE : ∀ (fuel : Nat) (b : Bytes), Sim L (decodePE fuel b : P σ Bytes) (decodePE fuel b)
  | 0, _ => by unfold Helium.decodePE; exact Sim.diverge
  | _ + 1, [] => by unfold Helium.decodePE; exact Sim.pure _
  | fuel + 1, c :: t => by
    have ih := Sim.decodePE fuel
    unfold Helium.decodePE
    repeat first | exact ih _ | sim1
macro_rules | `(tactic| sim_leaf) => `(tactic| with_reducible exact Sim.decodePE _ _)

theorem Sim.parseEntityValueInternal (q : Nat) : Sim L (parseEntityValueInternal q : P σ Bytes) (parseEntityValueInternal q) := by
  unfold Helium.parseEntityValueInternal; sim
macro_rules | `(tactic| sim_leaf) => `(tactic| with_reducible exact Sim.parseEntityValueInternal _)

theorem Sim.parseEntityValue : Sim L (parseEntityValue E : P σ (Bytes × Bytes)) (parseEntityValue (E.reorder o ho)) := by
  unfold Helium.parseEntityValue; sim
macro_rules | `(tactic| sim_leaf) => `(tactic| with_reducible exact Sim.parseEntityValue _)

theorem Sim.setOrig (e : Except Err (Option ERef)) (l : Bytes) : Sim L (setOrig e l : P σ Unit) (setOrig e l) := by
  unfold Helium.setOrig; sim
macro_rules | `(tactic| sim_leaf) => `(tactic| with_reducible exact Sim.setOrig _ _)

theorem Sim.parseExternalID : Sim L (parseExternalID : P σ (Bytes × Bytes)) parseExternalID := Sim.pure _
macro_rules | `(tactic| sim_leaf) => `(tactic| with_reducible exact Sim.parseExternalID)

theorem Sim.parseEntityDecl (hA : InStep L H G) : Sim L (parseEntityDecl E H) (parseEntityDecl (E.reorder o ho) G) := by
  have ha : ∀ (b : Bool) n (l : Bytes),
      Sim L (Helium.ask H (if b then .getParameterEntity n else .getEntity n) >>= fun c => Helium.setOrig c l)
        (Helium.ask G (if b then .getParameterEntity n else .getEntity n) >>= fun c => Helium.setOrig c l) := fun b n l =>
    Sim.ask_bind hA _ (by cases b <;> rfl) (fun _ => Sim.setOrig _ _) (fun _ _ => Sim.pure ())
  unfold Helium.parseEntityDecl
  repeat first | exact ha _ _ _ | sim1
macro_rules | `(tactic| sim_leaf) => `(tactic| with_reducible exact Sim.parseEntityDecl _ (by assumption))

theorem Sim.notationLoop : ∀ (fuel : Nat) (l : List Bytes), Sim L (notationLoop E fuel l : P σ (List Bytes)) (notationLoop (E.reorder o ho) fuel l)
  | 0, _ => by unfold Helium.notationLoop; exact Sim.diverge
  | fuel + 1, l => by
    have ih := Sim.notationLoop fuel
    unfold Helium.notationLoop
    repeat first | exact ih _ | sim1
macro_rules | `(tactic| sim_leaf) => `(tactic| with_reducible exact Sim.notationLoop _ _ _)

theorem Sim.parseNotationType : Sim L (parseNotationType E : P σ (List Bytes)) (parseNotationType (E.reorder o ho)) := by
  unfold Helium.parseNotationType; sim
macro_rules | `(tactic| sim_leaf) => `(tactic| with_reducible exact Sim.parseNotationType _)

theorem Sim.enumLoop : ∀ (fuel : Nat) (l : List Bytes), Sim L (enumLoop E fuel l : P σ (List Bytes)) (enumLoop (E.reorder o ho) fuel l)
  | 0, _ => by unfold Helium.enumLoop; exact Sim.diverge
  | fuel + 1, l => by
    have ih := Sim.enumLoop fuel
    unfold Helium.enumLoop
    repeat first | exact ih _ | sim1
macro_rules | `(tactic| sim_leaf) => `(tactic| with_reducible exact Sim.enumLoop _ _ _)

theorem Sim.parseEnumerationType : Sim L (parseEnumerationType E : P σ (List Bytes)) (parseEnumerationType (E.reorder o ho)) := by
  unfold Helium.parseEnumerationType; sim
macro_rules | `(tactic| sim_leaf) => `(tactic| with_reducible exact Sim.parseEnumerationType _)

theorem Sim.parseAttributeType : Sim L (parseAttributeType E : P σ (Nat × List Bytes)) (parseAttributeType (E.reorder o ho)) := by
  unfold Helium.parseAttributeType; sim
macro_rules | `(tactic| sim_leaf) => `(tactic| with_reducible exact Sim.parseAttributeType _)

theorem Sim.parseDefaultDecl (hA : InStep L H G) : Sim L (parseDefaultDecl E H) (parseDefaultDecl (E.reorder o ho) G) := by
  have h := Sim.parseQuotedText E (o := o) (ho := ho) (fun q => Sim.parseAttributeValueInternal E (o := o) (ho := ho) hA q false)
  unfold Helium.parseDefaultDecl; sim
macro_rules | `(tactic| sim_leaf) => `(tactic| with_reducible exact Sim.parseDefaultDecl _ (by assumption))
end
end Helium
