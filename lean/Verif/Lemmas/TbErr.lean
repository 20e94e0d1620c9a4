import Verif.Model.TreeBuilder
import Verif.Lemmas.Run
/-! Errors of the DOM operations and of the tree builder are plain (never `ErrParseError`). -/
namespace Helium
section
variable {S : Type} {σ : Type} {α β : Type}

/-- every error of `p` is a plain one. -/
def KErr (p : M S α) : Prop := ∀ s e s', p s = .err e s' → ∃ k, e = .k k

theorem KErr.bind {p : M S α} {f : α → M S β} (hp : KErr p) (hf : ∀ a, KErr (f a)) : KErr (p >>= f) := by
  intro s e s' h
  have h : M.bind p f s = _ := h
  unfold M.bind at h
  cases hps : p s with
  | ok a t => rw [hps] at h; exact hf a t e s' h
  | err e1 t => rw [hps] at h; cases h; exact hp _ _ _ hps
  | panic => rw [hps] at h; cases h
  | diverge => rw [hps] at h; cases h

theorem KErr.pure (a : α) : KErr (Pure.pure a : M S α) := by intro h e h' hc; cases hc
theorem KErr.raw (e : EK) : KErr (M.raw e : M S α) := by intro h e h' hc; cases hc; exact ⟨_, rfl⟩
theorem KErr.fail {e : Err} (hk : ∃ k, e = .k k) : KErr (M.fail e : M S α) := by intro h e h' hc; cases hc; exact hk
theorem KErr.panic : KErr (M.panic : M S α) := by intro h e h' hc; cases hc
theorem KErr.diverge : KErr (M.diverge : M S α) := by intro h e h' hc; cases hc
theorem KErr.get : KErr (M.get : M S S) := by intro h e h' hc; cases hc
theorem KErr.modify (f : S → S) : KErr (M.modify f : M S Unit) := by intro h e h' hc; cases hc
theorem KErr.deref (o : Option α) : KErr (M.deref o : M S α) := by
  unfold M.deref
  cases o
  · exact KErr.panic
  · exact KErr.pure _
theorem KErr.attempt (p : M S α) : KErr (M.attempt p) := by
  intro h e h' hc
  unfold M.attempt at hc
  split at hc <;> cases hc
theorem KErr.forM {l : List α} {f : α → M S Unit} (hf : ∀ a, KErr (f a)) : KErr (l.forM f) := by
  induction l with
  | nil => exact KErr.pure ()
  | cons a t ih => exact KErr.bind (hf a) (fun _ => ih)
theorem KErr.updNode (i : Nat) (f : Node → Node) : KErr (updNode i f) := by intro h e h' hc; cases hc
theorem KErr.node (i : Nat) : KErr (node i) := by intro h e h' hc; cases hc
theorem KErr.newNode (n : Node) : KErr (newNode n) := by intro h e h' hc; cases hc
theorem KErr.content (i : Nat) : KErr (content i) := by
  intro h e h' hc
  unfold Helium.content at hc
  split at hc <;> cases hc
theorem KErr.addSibling (i j : Nat) : KErr (addSibling i j) := by
  intro h e h' hc
  unfold Helium.addSibling at hc
  split at hc
  · cases hc
  · dsimp only at hc
    split at hc <;> cases hc
theorem KErr.tbH {p : HM α} (hp : KErr p) : KErr (tbH p : TB σ α) := by
  intro s e s' h
  unfold Helium.tbH at h
  split at h
  · cases h
  · rename_i heq
    cases h
    exact hp _ _ _ heq
  · cases h
  · cases h

/-- known functions; extended below. -/
syntax "kerr_leaf" : tactic
macro_rules | `(tactic| kerr_leaf) => `(tactic| first
  | with_reducible assumption
  | with_reducible exact KErr.pure _ | with_reducible exact KErr.raw _ | with_reducible exact KErr.panic
  | with_reducible exact KErr.diverge | with_reducible exact KErr.get | with_reducible exact KErr.modify _
  | with_reducible exact KErr.deref _ | with_reducible exact KErr.attempt _
  | with_reducible exact KErr.updNode _ _ | with_reducible exact KErr.node _ | with_reducible exact KErr.newNode _
  | with_reducible exact KErr.content _ | with_reducible exact KErr.addSibling _ _)

macro "kerr1" : tactic => `(tactic| first
  | kerr_leaf
  | with_reducible refine KErr.bind ?_ (fun _ => ?_) | with_reducible refine KErr.forM (fun _ => ?_)
  | with_reducible refine KErr.tbH ?_
  | split
  | dsimp only)
macro "kerr" : tactic => `(tactic| repeat kerr1)

theorem KErr.appendContent (i : Nat) (b : Bytes) : KErr (appendContent i b) := KErr.updNode _ _
macro_rules | `(tactic| kerr_leaf) => `(tactic| with_reducible exact KErr.appendContent _ _)
theorem KErr.nodeAddSibling (i j : Nat) : KErr (nodeAddSibling i j) := by unfold Helium.nodeAddSibling; kerr
macro_rules | `(tactic| kerr_leaf) => `(tactic| with_reducible exact KErr.nodeAddSibling _ _)
theorem KErr.addChild (i j : Nat) : KErr (addChild i j) := by unfold Helium.addChild; kerr
macro_rules | `(tactic| kerr_leaf) => `(tactic| with_reducible exact KErr.addChild _ _)
theorem KErr.nodeAddChild (i j : Nat) : KErr (nodeAddChild i j) := by unfold Helium.nodeAddChild; kerr
macro_rules | `(tactic| kerr_leaf) => `(tactic| with_reducible exact KErr.nodeAddChild _ _)
theorem KErr.nodeAddContent (i : Nat) (b : Bytes) : KErr (nodeAddContent i b) := by unfold Helium.nodeAddContent; kerr
macro_rules | `(tactic| kerr_leaf) => `(tactic| with_reducible exact KErr.nodeAddContent _ _)
theorem KErr.createCharRef (d : Option Nat) (b : Bytes) : KErr (createCharRef d b) := by unfold Helium.createCharRef; kerr
macro_rules | `(tactic| kerr_leaf) => `(tactic| with_reducible exact KErr.createCharRef _ _)
theorem KErr.createReference (d : Nat) (b : Bytes) : KErr (createReference d b) := by unfold Helium.createReference; kerr
macro_rules | `(tactic| kerr_leaf) => `(tactic| with_reducible exact KErr.createReference _ _)
theorem KErr.snlPush (st : SNL) (n : Nat) : KErr (snlPush st n) := by unfold Helium.snlPush; kerr
macro_rules | `(tactic| kerr_leaf) => `(tactic| with_reducible exact KErr.snlPush _ _)
theorem KErr.snlFlush (d : Option Nat) (st : SNL) : KErr (snlFlush d st) := by unfold Helium.snlFlush; kerr
macro_rules | `(tactic| kerr_leaf) => `(tactic| with_reducible exact KErr.snlFlush _ _)

theorem snlDigits_err (hex : Bool) (l : List Nat) : ∀ v e, snlDigits hex v l = .error e → ∃ k, e = .k k := by
  induction l with
  | nil => intro v e h; cases h; exact ⟨_, rfl⟩
  | cons c t ih =>
    intro v e h
    unfold snlDigits at h
    split at h
    · cases h
    · split at h
      · cases h; exact ⟨_, rfl⟩
      · exact ih _ _ h

mutual
theorem KErr.stringToNodeList (d : Option Nat) : ∀ (fuel : Nat) (b : Bytes), KErr (stringToNodeList d fuel b)
  | 0, _ => by unfold Helium.stringToNodeList; exact KErr.diverge
  | fuel + 1, b => by
    unfold Helium.stringToNodeList
    exact KErr.snlLoop d fuel _ _
theorem KErr.snlLoop (d : Option Nat) : ∀ (fuel : Nat) (l : List Nat) (st : SNL), KErr (stringToNodeList.loop d fuel l st)
  | 0, _, _ => by unfold Helium.stringToNodeList.loop; exact KErr.diverge
  | fuel + 1, [], st => by
    unfold Helium.stringToNodeList.loop
    kerr
  | fuel + 1, c :: t, st => by
    have h1 := KErr.snlLoop d fuel
    have h2 := KErr.stringToNodeList d fuel
    unfold Helium.stringToNodeList.loop
    split
    · exact h1 _ _
    · split
      · kerr
      · rename_i t2
        split
        · kerr
        · split
          · rename_i heq
            apply KErr.fail
            split at heq <;> exact snlDigits_err _ _ _ _ heq
          · exact h1 _ _
      · split
        · kerr
        · repeat first | with_reducible exact h1 _ _ | with_reducible exact h2 _ | kerr1
end
macro_rules | `(tactic| kerr_leaf) => `(tactic| with_reducible exact KErr.stringToNodeList _ _ _)

theorem KErr.createAttribute (d : Option Nat) (fuel : Nat) (n v : Bytes) (ns : Option (Bytes × Bytes)) :
    KErr (createAttribute d fuel n v ns) := by unfold Helium.createAttribute; kerr
macro_rules | `(tactic| kerr_leaf) => `(tactic| with_reducible exact KErr.createAttribute _ _ _ _ _)

theorem setAttrScan_err (h : Heap) (n : Bytes) (l : List Nat) :
    ∀ o e, setAttrScan h n l o = .error e → ∃ k, e = .k k := by
  induction l with
  | nil => intro o e h; cases h
  | cons a t ih =>
    intro o e hs
    unfold setAttrScan at hs
    split at hs
    · cases hs; exact ⟨_, rfl⟩
    · exact ih _ _ hs

theorem KErr.setAttribute (fuel e : Nat) (n v : Bytes) : KErr (setAttribute fuel e n v) := by
  unfold Helium.setAttribute
  repeat first | exact KErr.fail (setAttrScan_err _ _ _ _ _ (by assumption)) | kerr1
macro_rules | `(tactic| kerr_leaf) => `(tactic| with_reducible exact KErr.setAttribute _ _ _ _)
theorem KErr.setNamespace (e : Nat) (p u : Bytes) (b : Bool) : KErr (setNamespace e p u b) := KErr.updNode _ _
macro_rules | `(tactic| kerr_leaf) => `(tactic| with_reducible exact KErr.setNamespace _ _ _ _)
theorem KErr.createInternalSubset (d : Nat) (a b c : Bytes) : KErr (createInternalSubset d a b c) := by
  unfold Helium.createInternalSubset; kerr
macro_rules | `(tactic| kerr_leaf) => `(tactic| with_reducible exact KErr.createInternalSubset _ _ _ _)
theorem KErr.dtdAddEntity (t : Nat) (n : Bytes) (ty : Nat) (a b c : Bytes) : KErr (dtdAddEntity t n ty a b c) := by
  unfold Helium.dtdAddEntity; kerr
macro_rules | `(tactic| kerr_leaf) => `(tactic| with_reducible exact KErr.dtdAddEntity _ _ _ _ _ _)
theorem KErr.dtdAddElementDecl (t : Nat) (n : Bytes) (ty : Nat) (ec : EC) : KErr (dtdAddElementDecl t n ty ec) := by
  unfold Helium.dtdAddElementDecl; kerr
macro_rules | `(tactic| kerr_leaf) => `(tactic| with_reducible exact KErr.dtdAddElementDecl _ _ _ _)
theorem KErr.dtdRegisterAttribute (t a : Nat) : KErr (dtdRegisterAttribute t a) := by
  unfold Helium.dtdRegisterAttribute; kerr
macro_rules | `(tactic| kerr_leaf) => `(tactic| with_reducible exact KErr.dtdRegisterAttribute _ _)
theorem KErr.addAttributeDecl (t : Option Nat) (a b c : Bytes) (x y : Nat) (v : Bytes) (l : List Bytes) :
    KErr (addAttributeDecl t a b c x y v l) := by
  unfold Helium.addAttributeDecl; kerr
macro_rules | `(tactic| kerr_leaf) => `(tactic| with_reducible exact KErr.addAttributeDecl _ _ _ _ _ _ _ _)

/-! ### callbacks -/

theorem KErr.tbDoc : KErr (tbDoc : TB σ Nat) := by unfold Helium.tbDoc; kerr
macro_rules | `(tactic| kerr_leaf) => `(tactic| with_reducible exact KErr.tbDoc)
theorem KErr.tbAttach (d n : Nat) : KErr (tbAttach d n : TB σ Unit) := by unfold Helium.tbAttach; kerr
macro_rules | `(tactic| kerr_leaf) => `(tactic| with_reducible exact KErr.tbAttach _ _)
theorem KErr.tbSubset (v : HV) (d : Nat) : KErr (tbSubset v d : TB σ (Option Nat)) := by unfold Helium.tbSubset; kerr
macro_rules | `(tactic| kerr_leaf) => `(tactic| with_reducible exact KErr.tbSubset _ _)
theorem KErr.tbAttr (f e : Nat) (a : AttrD) : KErr (tbAttr f e a : TB σ Unit) := by unfold Helium.tbAttr; kerr
macro_rules | `(tactic| kerr_leaf) => `(tactic| with_reducible exact KErr.tbAttr _ _ _)
theorem KErr.tbStartElement (f : Nat) (a b c : Bytes) (d : List (Option (Bytes × Bytes))) (e : List AttrD) :
    KErr (tbStartElement f a b c d e : TB σ Unit) := by unfold Helium.tbStartElement; kerr
macro_rules | `(tactic| kerr_leaf) => `(tactic| with_reducible exact KErr.tbStartElement _ _ _ _ _ _)
theorem KErr.tbEndElement : KErr (tbEndElement : TB σ Unit) := by unfold Helium.tbEndElement; kerr
macro_rules | `(tactic| kerr_leaf) => `(tactic| with_reducible exact KErr.tbEndElement)
theorem KErr.tbCharacters (b : Bytes) : KErr (tbCharacters b : TB σ Unit) := by unfold Helium.tbCharacters; kerr
macro_rules | `(tactic| kerr_leaf) => `(tactic| with_reducible exact KErr.tbCharacters _)
theorem KErr.tbPI (v : HV) (a b : Bytes) : KErr (tbPI v a b : TB σ Unit) := by unfold Helium.tbPI; kerr
macro_rules | `(tactic| kerr_leaf) => `(tactic| with_reducible exact KErr.tbPI _ _ _)
theorem KErr.tbComment (b : Bytes) : KErr (tbComment b : TB σ Unit) := by unfold Helium.tbComment; kerr
macro_rules | `(tactic| kerr_leaf) => `(tactic| with_reducible exact KErr.tbComment _)
theorem KErr.tbInternalSubset (a b c : Bytes) : KErr (tbInternalSubset a b c : TB σ Unit) := by
  unfold Helium.tbInternalSubset; kerr
macro_rules | `(tactic| kerr_leaf) => `(tactic| with_reducible exact KErr.tbInternalSubset _ _ _)
theorem KErr.tbReference (b : Bytes) : KErr (tbReference b : TB σ Unit) := by unfold Helium.tbReference; kerr
macro_rules | `(tactic| kerr_leaf) => `(tactic| with_reducible exact KErr.tbReference _)
theorem KErr.tbAttributeDecl (v : HV) (a b : Bytes) (c d : Nat) (e : Bytes) (f : List Bytes) :
    KErr (tbAttributeDecl v a b c d e f : TB σ Unit) := by unfold Helium.tbAttributeDecl; kerr
macro_rules | `(tactic| kerr_leaf) => `(tactic| with_reducible exact KErr.tbAttributeDecl _ _ _ _ _ _ _)
theorem KErr.tbElementDecl (v : HV) (a : Bytes) (c : Nat) (e : EC) : KErr (tbElementDecl v a c e : TB σ Unit) := by
  unfold Helium.tbElementDecl; kerr
macro_rules | `(tactic| kerr_leaf) => `(tactic| with_reducible exact KErr.tbElementDecl _ _ _ _)
theorem KErr.tbEntityDecl (v : HV) (a : Bytes) (b : Nat) (c d e : Bytes) : KErr (tbEntityDecl v a b c d e : TB σ Unit) := by
  unfold Helium.tbEntityDecl; kerr
macro_rules | `(tactic| kerr_leaf) => `(tactic| with_reducible exact KErr.tbEntityDecl _ _ _ _ _ _)

theorem tbOut_err {p : TB σ HOut} (hp : KErr p) (hno : ∀ s s' e, p s ≠ .ok (.err e) s') {c c' : HC σ} {e : Err}
    (h : tbOut p c = (.err e, c')) : ∃ k, e = .k k := by
  unfold tbOut at h
  split at h
  · rename_i o c1 heq
    cases h
    exact absurd heq (hno _ _ _)
  · rename_i heq
    cases h
    exact hp _ _ _ heq
  · cases h
  · cases h

theorem tbUnit_err {p : TB σ Unit} (hp : KErr p) {c c' : HC σ} {e : Err} (h : tbUnit p c = (.err e, c')) : ∃ k, e = .k k := by
  refine tbOut_err (KErr.bind hp (fun _ => KErr.pure _)) ?_ h
  intro s s' e he
  have he : M.bind p _ s = _ := he
  unfold M.bind at he
  split at he <;> cases he

theorem treeBuilder_err (fuel : Nat) (v : HV) (ev : Ev) (c c' : HC σ) (e : Err) (h : treeBuilder fuel v ev c = (.err e, c')) :
    ∃ k, e = .k k := by
  cases ev <;> simp only [treeBuilder] at h
  case getEntity n =>
    refine tbOut_err ?_ ?_ h
    · kerr
    · intro s s' e he
      simp only [bind_ok] at he
      obtain ⟨d, s1, _, c0, s2, _, he⟩ := he
      cases hg : docGetEntity c0.heap d n <;> simp [hg, pure_ok, raw_ok] at he
  case getParameterEntity n =>
    refine tbOut_err ?_ ?_ h
    · kerr
    · intro s s' e he
      simp only [bind_ok] at he
      obtain ⟨c0, s2, _, he⟩ := he
      cases hd : c0.doc with
      | none => simp [hd, raw_ok] at he
      | some d => cases hg : docGetParameterEntity c0.heap d n <;> simp [hd, hg, pure_ok, raw_ok] at he
  all_goals
    refine tbUnit_err ?_ h
    kerr

end
end Helium
