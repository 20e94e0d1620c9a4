import Verif.Model.Env
/-! Inversion of successful runs. -/
namespace Helium
section
variable {S α β : Type}

theorem bind_ok {p : M S α} {f : α → M S β} {s s'' : S} {b : β} :
    (p >>= f) s = .ok b s'' ↔ ∃ a s', p s = .ok a s' ∧ f a s' = .ok b s'' := by
  show M.bind p f s = _ ↔ _
  unfold M.bind
  cases p s with
  | ok a t => exact ⟨fun h => ⟨a, t, rfl, h⟩, by rintro ⟨a', t', h, h'⟩; cases h; exact h'⟩
  | _ => simp

theorem pure_ok {a b : α} {s s' : S} : (pure a : M S α) s = .ok b s' ↔ a = b ∧ s = s' := by
  show Out.ok a s = _ ↔ _
  simp

theorem fail_ok {e : Err} {b : α} {s s' : S} : (M.fail e : M S α) s = .ok b s' ↔ False := by simp [M.fail]
theorem cerr_ok {e : EK} {b : α} {s s' : S} : (M.cerr e : M S α) s = .ok b s' ↔ False := by simp [M.cerr, M.fail]
theorem raw_ok {e : EK} {b : α} {s s' : S} : (M.raw e : M S α) s = .ok b s' ↔ False := by simp [M.raw, M.fail]
theorem panic_ok {b : α} {s s' : S} : (M.panic : M S α) s = .ok b s' ↔ False := by simp [M.panic]
theorem diverge_ok {b : α} {s s' : S} : (M.diverge : M S α) s = .ok b s' ↔ False := by simp [M.diverge]
theorem get_ok {b s s' : S} : (M.get : M S S) s = .ok b s' ↔ b = s ∧ s' = s := by
  simp only [M.get, Out.ok.injEq]; exact ⟨fun h => ⟨h.1.symm, h.2.symm⟩, fun h => ⟨h.1.symm, h.2.symm⟩⟩
theorem modify_ok {f : S → S} {u : Unit} {s s' : S} : (M.modify f : M S Unit) s = .ok u s' ↔ s' = f s := by
  simp only [M.modify, Out.ok.injEq, true_and]; exact eq_comm
theorem need_ok {c : Bool} {e : EK} {u : Unit} {s s' : S} : (M.need c e : M S Unit) s = .ok u s' ↔ c = true ∧ s' = s := by
  unfold M.need
  cases c <;> simp [M.cerr, M.fail, M.pure]
  exact eq_comm
theorem needRaw_ok {c : Bool} {e : EK} {u : Unit} {s s' : S} :
    (M.needRaw c e : M S Unit) s = .ok u s' ↔ c = true ∧ s' = s := by
  unfold M.needRaw
  cases c <;> simp [M.raw, M.fail, M.pure]
  exact eq_comm
theorem wrap_ok {p : M S α} {s s' : S} {a : α} : M.wrap p s = .ok a s' ↔ p s = .ok a s' := by
  unfold M.wrap
  cases p s <;> simp
theorem orElse_ok {p : M S α} {e : EK} {s s' : S} {a : α} : M.orElse p e s = .ok a s' ↔ p s = .ok a s' := by
  unfold M.orElse
  cases p s <;> simp
theorem deref_ok {o : Option α} {s s' : S} {a : α} : (M.deref o : M S α) s = .ok a s' ↔ o = some a ∧ s' = s := by
  unfold M.deref
  cases o with
  | none => simp [M.panic]
  | some x => simp only [M.pure, Out.ok.injEq, Option.some.injEq]; exact ⟨fun h => ⟨h.1, h.2.symm⟩, fun h => ⟨h.1, h.2.symm⟩⟩
theorem attempt_ok {p : M S α} {s s' : S} {x : Except Err α} : M.attempt p s = .ok x s' ↔
    (∃ a, x = .ok a ∧ p s = .ok a s') ∨ (∃ e, x = .error e ∧ p s = .err e s') := by
  unfold M.attempt
  cases p s with
  | ok a t => simp only [Out.ok.injEq]; constructor
              · rintro ⟨rfl, rfl⟩; exact Or.inl ⟨_, rfl, rfl, rfl⟩
              · rintro (⟨b, rfl, rfl, rfl⟩ | ⟨e, _, h⟩)
                · exact ⟨rfl, rfl⟩
                · cases h
  | err e t => simp only [Out.ok.injEq]; constructor
               · rintro ⟨rfl, rfl⟩; exact Or.inr ⟨_, rfl, rfl⟩
               · rintro (⟨b, _, h⟩ | ⟨e, rfl, h⟩)
                 · cases h
                 · cases h; exact ⟨rfl, rfl⟩
  | panic => simp
  | diverge => simp
theorem ite_run {c : Prop} [Decidable c] {p q : M S α} {s : S} : (if c then p else q) s = if c then p s else q s := by
  split <;> rfl

end
section
variable {σ : Type}
theorem rest_ok {l : List Nat} {s s' : St σ} : (rest : P σ _) s = .ok l s' ↔ l = s.cur ∧ s' = s := by
  simp only [rest, Out.ok.injEq]; exact ⟨fun h => ⟨h.1.symm, h.2.symm⟩, fun h => ⟨h.1.symm, h.2.symm⟩⟩
theorem adv_ok {n : Nat} {u : Unit} {s s' : St σ} : (adv n : P σ Unit) s = .ok u s' ↔ s' = { s with cur := s.cur.drop n } :=
  modify_ok
theorem peekN_ok {E : Env} {n c : Nat} {s s' : St σ} : (peekN E n : P σ Nat) s = .ok c s' ↔ c = s.cur.getD (n - 1) E.eof ∧ s' = s := by
  simp only [peekN, Out.ok.injEq]; exact ⟨fun h => ⟨h.1.symm, h.2.symm⟩, fun h => ⟨h.1.symm, h.2.symm⟩⟩
theorem peek_ok {E : Env} {c : Nat} {s s' : St σ} : (peek E : P σ Nat) s = .ok c s' ↔ c = s.cur.getD 0 E.eof ∧ s' = s := peekN_ok
theorem isDone_ok {b : Bool} {s s' : St σ} : (isDone : P σ Bool) s = .ok b s' ↔ b = s.cur.isEmpty ∧ s' = s := by
  simp only [isDone, Out.ok.injEq]; exact ⟨fun h => ⟨h.1.symm, h.2.symm⟩, fun h => ⟨h.1.symm, h.2.symm⟩⟩
theorem hasPrefix_ok {l : List Nat} {b : Bool} {s s' : St σ} :
    (hasPrefix l : P σ Bool) s = .ok b s' ↔ b = l.isPrefixOf s.cur ∧ s' = s := by
  simp only [hasPrefix, Out.ok.injEq]; exact ⟨fun h => ⟨h.1.symm, h.2.symm⟩, fun h => ⟨h.1.symm, h.2.symm⟩⟩
theorem consume_ok {l : List Nat} {b : Bool} {s s' : St σ} : (consume l : P σ Bool) s = .ok b s' ↔
    (b = true ∧ l.isPrefixOf s.cur = true ∧ s' = { s with cur := s.cur.drop l.length }) ∨
    (b = false ∧ l.isPrefixOf s.cur = false ∧ s' = s) := by
  unfold consume
  cases h : l.isPrefixOf s.cur
  · simp only [Bool.false_eq_true, if_false, Out.ok.injEq, false_and, and_false, true_and, false_or]
    exact ⟨fun h => ⟨h.1.symm, h.2.symm⟩, fun h => ⟨h.1.symm, h.2.symm⟩⟩
  · simp only [if_true, Out.ok.injEq, true_and, Bool.true_eq_false, false_and, and_false, or_false]
    exact ⟨fun h => ⟨h.1.symm, h.2.symm⟩, fun h => ⟨h.1.symm, h.2.symm⟩⟩

end
end Helium
