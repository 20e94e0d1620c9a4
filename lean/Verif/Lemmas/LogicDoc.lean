import Verif.Lemmas.LogicContent
import Verif.Model.TreeBuilder
/-! The phases of `parseDocument` respect every logic. -/
namespace Helium
section
variable {kb : Bool} {σ : Type} {α β : Type} {H : Handler σ} {L : Logic kb H} (E : Env)

theorem detectEncoding_suffix {b n r : Bytes} (h : detectEncoding b = some (n, r)) : r <:+ b := by
  unfold detectEncoding at h
  split at h
  · rename_i p c nm _
    cases c
    · cases h; exact List.suffix_refl _
    · cases h; exact List.drop_suffix _ _
  · cases h

/-- `parseHead` after the first callback. -/
def headRest : P σ Unit := do
  let s ← M.get
  if s.encoding = [] then
    match detectEncoding s.cur with
    | some (n, r) => M.modify (fun s => { s with detected := n, cur := r })
    | none => pure ()
  else pure ()
  if (← isDone) then M.cerr .mEmptyDocument
  else if (← hasPrefix b!"<?xml") then M.wrap (parseXMLDecl E)
  else pure ()

theorem parseHead_eq : parseHead E H = (do cb H .setDocumentLocator; headRest E) := rfl

theorem Silent.headRest : Silent kb (headRest E : P σ Unit) := by
  have h0 := Silent.parseXMLDecl (kb := kb) (σ := σ) E
  unfold Helium.headRest
  intro s
  simp only [Bind.bind, M.bind, M.get]
  have key : Silent kb (do
      if (← Helium.isDone) then M.cerr EK.mEmptyDocument
      else if (← Helium.hasPrefix b!"<?xml") then M.wrap (Helium.parseXMLDecl E)
      else Pure.pure () : P σ Unit) := by
    repeat first | exact h0 | silent1
  by_cases he : s.encoding = []
  · simp only [he, if_true]
    cases hd : detectEncoding s.cur with
    | none => exact key s
    | some x =>
      obtain ⟨n, r⟩ := x
      have hq : Quiet kb s { s with detected := n, cur := r } := ⟨detectEncoding_suffix hd, rfl, rfl, rfl, rfl, rfl, rfl, rfl, fun _ => ⟨rfl, rfl⟩, Tabs0.refl _, rfl⟩
      exact post_mono (key { s with detected := n, cur := r }) (fun _ h => hq.trans h)
        (fun _ _ h => ⟨hq.trans h.1, h.2⟩)
  · simp only [he, if_false]
    exact key s

theorem Sat.parseHead (hQ : L.Q .setDocumentLocator) : Sat L (parseHead E H) := by
  rw [parseHead_eq]
  exact Sat.bind (Sat.cb hQ) (fun _ => Silent.sat (Silent.headRest E) L)

theorem Sat.switchEncoding (hc : ∀ s c, L.R s { s with cur := c }) : Sat L (switchEncoding E) := by
  unfold Helium.switchEncoding
  repeat first | exact Sat.modify (fun s => hc s _) | sat1

/-- the part of `parseDocument` before the root element. -/
def parseProlog (H : Handler σ) (snl : Nat) : P σ Unit := do
  parseHead E H
  M.wrap (switchEncoding E)
  cb H .startDocument
  M.wrap (parseMisc E H)
  parseDoctypePart E H snl

theorem parseDocument_eq (fuel snl : Nat) : parseDocument E H fuel snl = (do parseProlog E H snl; parseTail E H fuel) := by
  funext s
  unfold parseDocument parseProlog
  simp only [Bind.bind, M.bind]
  repeat' split
  all_goals simp_all

end
end Helium
