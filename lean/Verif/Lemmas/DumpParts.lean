import Verif.Lemmas.DumpRun
/-! The serialiser only appends, and what it appends does not depend on what is there, nor on the budget once it is large enough. -/
namespace Helium

/-- the same outcome with `o` written before. -/
def Out.after {α : Type} (o : Bytes) : Out Bytes α → Out Bytes α
  | .ok a s => .ok a (o ++ s)
  | .err e s => .err e (o ++ s)
  | .panic => .panic
  | .diverge => .diverge

/-- the computation only appends. -/
def Additive {α : Type} (p : DM α) : Prop := ∀ o o', p (o ++ o') = (p o').after o

theorem Additive.emit (s : Bytes) : Additive (emit s) := fun o o' => by
  show Out.ok () (o ++ o' ++ s) = Out.ok () (o ++ (o' ++ s))
  rw [List.append_assoc]
theorem Additive.pure {α : Type} (a : α) : Additive (pure a : DM α) := fun _ _ => rfl
theorem Additive.panic {α : Type} : Additive (M.panic : DM α) := fun _ _ => rfl
theorem Additive.diverge {α : Type} : Additive (M.diverge : DM α) := fun _ _ => rfl
theorem Additive.raw {α : Type} (e : EK) : Additive (M.raw e : DM α) := fun _ _ => rfl

theorem Additive.bind {α β : Type} {p : DM α} {q : α → DM β} (hp : Additive p) (hq : ∀ a, Additive (q a)) : Additive (p >>= q) := fun o o' => by
  show M.bind p q _ = (M.bind p q o').after o
  unfold M.bind
  rw [hp o o']
  cases p o' with
  | ok a s => exact hq a o s
  | _ => rfl

theorem Additive.attempt {α : Type} {p : DM α} (hp : Additive p) : Additive (M.attempt p) := fun o o' => by
  unfold M.attempt
  rw [hp o o']
  cases p o' <;> rfl

theorem Additive.forM {α : Type} {f : α → DM Unit} : ∀ {l : List α}, (∀ x ∈ l, Additive (f x)) → Additive (l.forM f)
  | [], _ => fun _ _ => rfl
  | x :: l, h => by
    have e : List.forM (x :: l) f = (f x >>= fun _ => l.forM f) := rfl
    rw [e]
    exact .bind (h x List.mem_cons_self) (fun _ => Additive.forM (fun y hy => h y (List.mem_cons_of_mem _ hy)))

theorem Additive.chain {h : Heap} {s : Option Nat} {f : Nat → DM Unit} (hf : ∀ x, Additive (f x)) : Additive (forChain h s f) := by
  unfold forChain
  split
  · exact .diverge
  · exact .forM (fun x _ => hf x)

theorem Additive.ite {α : Type} {c : Prop} [Decidable c] {p q : DM α} (hp : Additive p) (hq : Additive q) : Additive (if c then p else q) := by
  split
  · exact hp
  · exact hq

theorem additive_content : ∀ (g : Bool) (ec : EC), Additive (dumpElementContent g ec)
  | _, .nil => .pure _
  | g, .mk t o n p c1 c2 => by
    have i1 := fun g => additive_content g c1
    have i2 := fun g => additive_content g c2
    unfold dumpElementContent
    cases c1 with
    | nil => cases g <;> simp <;> repeat' first | exact .emit _ | exact .panic | exact .raw _ | exact .pure _ | intro _ | apply Additive.bind | split
    | mk t1 o1 n1 p1 d1 d2 =>
      cases c2 with
      | nil => cases g <;> simp <;> repeat' first | exact .emit _ | exact .panic | exact .raw _ | exact .pure _ | exact i1 _ | intro _ | apply Additive.bind | split
      | mk t2 o2 n2 p2 d3 d4 =>
        cases g <;> simp <;> repeat' first | exact .emit _ | exact .panic | exact .raw _ | exact .pure _ | exact i1 _ | exact i2 _ | intro _ | apply Additive.bind | split

theorem additive_node (h : Heap) : ∀ fuel i, Additive (dumpNode h fuel i)
  | 0, _ => .diverge
  | fuel + 1, i => by
    have ih := additive_node h fuel
    unfold dumpNode
    simp only
    split
    · exact .emit _
    · exact .bind (.emit _) (fun _ => .ite (.emit _) (.bind (.emit _) (fun _ => .bind (.chain ih) (fun _ => .emit _))))
    · exact .emit _
    · exact .emit _
    · exact .ite .panic (.emit _)
    · unfold dumpElementDecl
      exact .ite (.emit _) (.ite (.emit _) (.ite (.bind (.emit _) (fun _ => .bind (additive_content _ _) (fun _ => .emit _))) (.raw _)))
    · unfold dumpAttributeDecl
      refine .bind (.emit _) (fun _ => ?_)
      split
      · exact .raw _
      · refine .bind (.emit _) (fun _ => ?_)
        split
        · exact .raw _
        · exact .emit _
    · unfold dumpEntityDecl
      exact .ite (.emit _) (.ite (.emit _) (.ite (.emit _) (.ite (.emit _) (.raw _))))
    · refine .bind (.emit _) (fun _ => .bind (.emit _) (fun _ => .bind (.chain (fun a => ?_)) (fun _ => ?_)))
      · exact .bind (.emit _) (fun _ => .bind (.chain (fun c => .ite (.emit _) (.bind (.attempt (ih c)) (fun _ => .pure _)))) (fun _ => .emit _))
      · exact .ite (.emit _) (.bind (.emit _) (fun _ => .bind (.chain ih) (fun _ => .emit _)))
    · exact .bind (.emit _) (fun _ => .bind (.emit _) (fun _ => .bind (.chain ih) (fun _ => .emit _)))
    · exact .bind (.emit _) (fun _ => .bind (.emit _) (fun _ => .bind (.chain ih) (fun _ => .emit _)))

/-! ### the budget -/

/-- `q` does what `p` does wherever `p` returns. -/
def Outlasts {α : Type} (p q : DM α) : Prop := ∀ o, p o ≠ .diverge → q o = p o

theorem Outlasts.refl {α : Type} (p : DM α) : Outlasts p p := fun _ _ => rfl

theorem Outlasts.bind {α β : Type} {p p' : DM α} {q q' : α → DM β} (hp : Outlasts p p') (hq : ∀ a, Outlasts (q a) (q' a)) : Outlasts (p >>= q) (p' >>= q') := fun o h => by
  change M.bind p q o ≠ _ at h
  show M.bind p' q' o = M.bind p q o
  unfold M.bind at h ⊢
  cases e : p o with
  | ok a s => rw [e] at h; rw [hp o (by rw [e]; nofun), e]; exact hq a s h
  | err x s => rw [hp o (by rw [e]; nofun), e]
  | panic => rw [hp o (by rw [e]; nofun), e]
  | diverge => rw [e] at h; exact absurd rfl h

theorem Outlasts.attempt {α : Type} {p q : DM α} (hp : Outlasts p q) : Outlasts (M.attempt p) (M.attempt q) := fun o h => by
  unfold M.attempt at h ⊢
  cases e : p o with
  | diverge => rw [e] at h; exact absurd rfl h
  | _ => rw [hp o (by rw [e]; nofun), e]

theorem Outlasts.forM {α : Type} {f g : α → DM Unit} : ∀ {l : List α}, (∀ x, Outlasts (f x) (g x)) → Outlasts (l.forM f) (l.forM g)
  | [], _ => fun _ _ => rfl
  | x :: l, h => by
    have e : ∀ k : α → DM Unit, List.forM (x :: l) k = (k x >>= fun _ => l.forM k) := fun _ => rfl
    rw [e, e]
    exact .bind (h x) (fun _ => Outlasts.forM h)

theorem Outlasts.chain {h : Heap} {s : Option Nat} {f g : Nat → DM Unit} (hf : ∀ x, Outlasts (f x) (g x)) : Outlasts (forChain h s f) (forChain h s g) := by
  unfold forChain
  split
  · exact .refl _
  · exact .forM hf

theorem Outlasts.ite {α : Type} {c : Prop} [Decidable c] {p q p' q' : DM α} (hp : Outlasts p p') (hq : Outlasts q q') :
    Outlasts (if c then p else q) (if c then p' else q') := by
  split
  · exact hp
  · exact hq

theorem node_extends (h : Heap) : ∀ fuel i, Outlasts (dumpNode h fuel i) (dumpNode h (fuel + 1) i)
  | 0, _ => fun _ h => absurd rfl h
  | fuel + 1, i => by
    have ih := node_extends h fuel
    unfold dumpNode
    simp only
    split
    · exact .refl _
    · exact .bind (.refl _) (fun _ => .ite (.refl _) (.bind (.refl _) (fun _ => .bind (.chain ih) (fun _ => .refl _))))
    · exact .refl _
    · exact .refl _
    · exact .refl _
    · exact .refl _
    · exact .refl _
    · exact .refl _
    · refine .bind (.refl _) (fun _ => .bind (.refl _) (fun _ => .bind (.chain (fun a => ?_)) (fun _ => ?_)))
      · exact .bind (.refl _) (fun _ => .bind (.chain (fun c => .ite (.refl _) (.bind (.attempt (ih c)) (fun _ => .refl _)))) (fun _ => .refl _))
      · exact .ite (.refl _) (.bind (.refl _) (fun _ => .bind (.chain ih) (fun _ => .refl _)))
    · exact .bind (.refl _) (fun _ => .bind (.refl _) (fun _ => .bind (.chain ih) (fun _ => .refl _)))
    · exact .bind (.refl _) (fun _ => .bind (.refl _) (fun _ => .bind (.chain ih) (fun _ => .refl _)))

theorem node_extends_le (h : Heap) {f g : Nat} (hfg : f ≤ g) (i : Nat) : Outlasts (dumpNode h f i) (dumpNode h g i) := by
  induction hfg with
  | refl => exact .refl _
  | step _ ih => exact fun o hd => (node_extends h _ i o (by rw [ih o hd]; exact hd)).trans (ih o hd)

end Helium
