import Verif.Lemmas.Run
import Verif.Model.Parser.Dtd
/-! Programs that read a text and do something, compared with just doing it after the text. -/
namespace Helium

section
variable {σ α β : Type}

/-- `Alike c r o o'`: the outcomes agree but for the cursor, which is `c` after success on the left and `r` on the right. -/
inductive Alike (c r : List Nat) : Out (St σ) α → Out (St σ) α → Prop
  | ok (a : α) (s : St σ) : s.cur = c → Alike c r (.ok a s) (.ok a { s with cur := r })
  | err (e : Err) (s s' : St σ) : { s with cur := r } = s' → Alike c r (.err e s) (.err e s')
  | panic : Alike c r .panic .panic
  | diverge : Alike c r .diverge .diverge

/-- a program that neither reads nor moves the cursor. -/
def NoCur (p : P σ α) : Prop := ∀ (s : St σ) (r : List Nat), Alike s.cur r (p s) (p { s with cur := r })

theorem Alike.bind {c c' r : List Nat} {p q : P σ α} {f g : α → P σ β} {s s' : St σ} (h : Alike c r (p s) (q s'))
    (hf : ∀ a t, t.cur = c → Alike c' r (f a t) (g a { t with cur := r })) : Alike c' r ((p >>= f) s) ((q >>= g) s') := by
  show Alike c' r (M.bind p f s) (M.bind q g s')
  unfold M.bind
  generalize hp : p s = o at h
  generalize hq : q s' = o' at h
  cases h with
  | ok a t ht => exact hf a t ht
  | err e t t' ht => exact .err e t t' ht
  | panic => exact .panic
  | diverge => exact .diverge

theorem Alike.wrap {c r : List Nat} {p q : P σ α} {s s' : St σ} (h : Alike c r (p s) (q s')) : Alike c r (M.wrap p s) (M.wrap q s') := by
  unfold M.wrap
  generalize hp : p s = o at h
  generalize hq : q s' = o' at h
  cases h with
  | ok a t ht => exact .ok a t ht
  | err e t t' ht => exact .err _ t t' ht
  | panic => exact .panic
  | diverge => exact .diverge

theorem NoCur.pure (a : α) : NoCur (pure a : P σ α) := fun s _ => .ok a s rfl
theorem NoCur.bind {p : P σ α} {f : α → P σ β} (hp : NoCur p) (hf : ∀ a, NoCur (f a)) : NoCur (p >>= f) := fun s r =>
  Alike.bind (hp s r) (fun a t ht => by rw [← ht]; exact hf a t r)
theorem NoCur.fail (e : Err) : NoCur (M.fail e : P σ α) := fun s r => .err e s _ rfl
theorem NoCur.panic : NoCur (M.panic : P σ α) := fun _ _ => .panic
theorem NoCur.diverge : NoCur (M.diverge : P σ α) := fun _ _ => .diverge
theorem NoCur.modify {f : St σ → St σ} (h : ∀ s r, f { s with cur := r } = { f s with cur := r }) (h' : ∀ s, (f s).cur = s.cur) :
    NoCur (M.modify f : P σ Unit) := fun s r => by
  have := Alike.ok (r := r) () (f s) (h' s)
  rw [← h s r] at this
  exact this
theorem NoCur.get {f : St σ → P σ β} (h : ∀ s, NoCur (f s)) (h' : ∀ s r, f { s with cur := r } = f s) : NoCur (M.get >>= f) := fun s r => by
  show Alike s.cur r (f s s) (f { s with cur := r } { s with cur := r })
  rw [h' s r]
  exact h s s r
theorem NoCur.liftH (p : HM α) : NoCur (liftH p : P σ α) := fun s r => by
  unfold Helium.liftH
  generalize p s.hc.heap = o
  cases o with
  | ok a h => exact .ok a _ rfl
  | err e h => exact .err e _ _ rfl
  | panic => exact .panic
  | diverge => exact .diverge
theorem NoCur.tryH (p : HM α) : NoCur (M.attempt (Helium.liftH p) : P σ (Except Err α)) := fun s r => by
  unfold M.attempt Helium.liftH
  generalize p s.hc.heap = o
  cases o with
  | ok a h => exact .ok (Except.ok a) { s with hc := { s.hc with heap := h } } rfl
  | err e h => exact .ok (Except.error e) { s with hc := { s.hc with heap := h } } rfl
  | panic => exact .panic
  | diverge => exact .diverge
theorem NoCur.callback (H : Handler σ) (ev : Ev) : NoCur (callback H ev) := fun s r =>
  .ok _ { s with hc := (H s.view ev s.hc).2, trace := s.trace ++ [(ev, (H s.view ev s.hc).1)] } rfl
theorem NoCur.cb (H : Handler σ) (ev : Ev) : NoCur (cb H ev) := by
  refine (NoCur.callback H ev).bind (fun o => ?_)
  cases o
  · exact .pure _
  · exact .pure _
  · exact .pure _
  · exact .fail _
  · exact .panic
  · exact .diverge
theorem NoCur.ask (H : Handler σ) (ev : Ev) : NoCur (ask H ev) := by
  refine (NoCur.callback H ev).bind (fun o => ?_)
  cases o
  · exact .pure _
  · exact .pure _
  · exact .pure _
  · exact .pure _
  · exact .panic
  · exact .diverge
theorem NoCur.setOrig (e : Except Err (Option ERef)) (lit : Bytes) : NoCur (setOrig e lit : P σ Unit) := by
  unfold Helium.setOrig
  split
  · exact .liftH _
  · exact .pure _
theorem NoCur.addAttributeDefault (fuel : Nat) (elem attr value : Bytes) : NoCur (addAttributeDefault fuel elem attr value : P σ Unit) := by
  unfold Helium.addAttributeDefault
  refine .get (fun s => ?_) (fun s r => rfl)
  split
  · exact .pure _
  · refine .bind (.modify (fun _ _ => rfl) (fun _ => rfl)) (fun _ => ?_)
    refine .get (fun s => ?_) (fun s r => rfl)
    refine .bind (.tryH _) (fun x => ?_)
    cases x with
    | error e => exact .pure _
    | ok a => exact .bind (.liftH _) (fun _ => .modify (fun _ _ => rfl) (fun _ => rfl))
end
end Helium
