import Verif.Lemmas.SourceDoc
import Verif.Lemmas.NameRun
import Verif.Model.Dump
/-! The values an XML declaration can have after it was read. -/
namespace Helium
open Spec
section
variable {σ : Type} {α β : Type}

/-- `p` only moves the cursor, and its results satisfy `V`. -/
def Keeps (p : P σ α) (V : α → Prop) : Prop :=
  ∀ s, match p s with
    | .ok a s' => V a ∧ ∃ c, s' = { s with cur := c }
    | .err _ s' => ∃ c, s' = { s with cur := c }
    | _ => True

theorem Keeps.bind {p : P σ α} {f : α → P σ β} {V : α → Prop} {W : β → Prop} (hp : Keeps p V) (hf : ∀ a, V a → Keeps (f a) W) : Keeps (p >>= f) W := by
  intro s
  have h1 := hp s
  cases hq : p s with
  | ok a s' =>
    rw [bind_run hq]
    rw [hq] at h1
    obtain ⟨ha, c, rfl⟩ := h1
    have h2 := hf a ha { s with cur := c }
    cases hr : f a { s with cur := c } with
    | ok b s'' =>
      rw [hr] at h2
      obtain ⟨hb, d, rfl⟩ := h2
      exact ⟨hb, d, rfl⟩
    | err e s'' =>
      rw [hr] at h2
      obtain ⟨d, rfl⟩ := h2
      exact ⟨d, rfl⟩
    | panic => trivial
    | diverge => trivial
  | err e s' =>
    rw [bind_run_err hq]
    rw [hq] at h1
    exact h1
  | panic => rw [bind_run_panic hq]; trivial
  | diverge => rw [bind_run_diverge hq]; trivial

theorem Keeps.pure {a : α} {V : α → Prop} (h : V a) : Keeps (σ := σ) (pure a) V := fun s => ⟨h, s.cur, rfl⟩
theorem Keeps.fail {e : Err} {V : α → Prop} : Keeps (σ := σ) (M.fail e : P σ α) V := fun s => ⟨s.cur, rfl⟩
theorem Keeps.raw {e : EK} {V : α → Prop} : Keeps (σ := σ) (M.raw e : P σ α) V := fun s => ⟨s.cur, rfl⟩
theorem Keeps.cerr {e : EK} {V : α → Prop} : Keeps (σ := σ) (M.cerr e : P σ α) V := fun s => ⟨s.cur, rfl⟩
theorem Keeps.ite {c : Prop} [Decidable c] {p q : P σ α} {V : α → Prop} (hp : c → Keeps p V) (hq : ¬ c → Keeps q V) : Keeps (if c then p else q) V := by
  split
  · exact hp ‹_›
  · exact hq ‹_›
theorem Keeps.peekB (E : Env) (n : Nat) : Keeps (σ := σ) (peekB E n) (fun _ => True) := fun s => ⟨trivial, s.cur, rfl⟩
theorem Keeps.rest : Keeps (σ := σ) rest (fun _ => True) := fun s => ⟨trivial, s.cur, rfl⟩
theorem Keeps.adv (n : Nat) : Keeps (σ := σ) (adv n) (fun _ => True) := fun s => ⟨trivial, s.cur.drop n, rfl⟩
theorem Keeps.skipBlanks : Keeps (σ := σ) skipBlanks (fun _ => True) := fun s => ⟨trivial, s.cur.dropWhile isBlank, rfl⟩
theorem Keeps.consume (l : List Nat) : Keeps (σ := σ) (consume l) (fun _ => True) := by
  intro s
  unfold Helium.consume
  dsimp only
  by_cases h : l.isPrefixOf s.cur = true
  · simp only [h, if_true]
    exact ⟨trivial, _, rfl⟩
  · simp only [h]
    exact ⟨trivial, s.cur, rfl⟩
theorem Keeps.needRaw (c : Bool) (e : EK) : Keeps (σ := σ) (M.needRaw c e) (fun _ => True) := by
  cases c
  · exact fun s => ⟨s.cur, rfl⟩
  · exact fun s => ⟨trivial, s.cur, rfl⟩

variable (E : Env)

theorem Keeps.named (name : Bytes) {val : P σ Bytes} {V : Bytes → Prop} (hv : Keeps val V) : Keeps (parseNamedAttributeBytes E name val) V := by
  unfold parseNamedAttributeBytes
  refine .bind .skipBlanks fun _ _ => .bind (.consume _) fun _ _ => .ite (fun _ => ?_) (fun _ => .fail)
  refine .bind .skipBlanks fun _ _ => .bind (.peekB E 1) fun _ _ => .bind (.needRaw _ _) fun _ _ => .bind (.adv _) fun _ _ =>
    .bind .skipBlanks fun _ _ => ?_
  unfold parseQuotedTextBytes
  refine .bind (.peekB E 1) fun _ _ => .ite (fun _ => ?_) (fun _ => .raw)
  exact .bind (.adv _) fun _ _ => .bind hv fun v hv => .bind (.peekB E 1) fun _ _ => .bind (.needRaw _ _) fun _ _ => .bind (.adv _) fun _ _ => .pure hv

theorem mem_takeWhile {p : Nat → Bool} {l : List Nat} {c : Nat} (h : c ∈ l.takeWhile p) : p c = true := by
  induction l with
  | nil => cases h
  | cons x l ih =>
    rw [List.takeWhile_cons] at h
    split at h
    · rcases List.mem_cons.1 h with rfl | h
      · assumption
      · exact ih h
    · cases h

theorem isDigitB_iff {c : Nat} : isDigitB c = true ↔ 48 ≤ c ∧ c ≤ 57 := by
  unfold isDigitB
  simp

theorem version_keeps : Keeps (σ := σ) (parseVersionNum E) VersionNum := by
  unfold parseVersionNum
  refine Keeps.bind (V := fun _ => True) .rest fun r _ => .ite (fun h => ?_) (fun _ => .raw)
  refine .bind (.adv _) fun _ _ => .pure ?_
  obtain ⟨h1, h2, h3⟩ := h
  have hb : E.beof = 0 ∨ E.beof = 0xFFFD := E.beof_spec
  match r with
  | [] =>
    rw [List.getD_nil, isDigitB_iff] at h1
    omega
  | [a] =>
    simp only [List.getD_cons_succ, List.getD_nil] at h2
    omega
  | [a, b] =>
    simp only [List.getD_cons_succ, List.getD_nil, isDigitB_iff] at h3
    omega
  | a :: b :: d :: r =>
    simp only [List.getD_cons_zero, List.getD_cons_succ] at h1 h2 h3
    subst h2
    refine ⟨a, d :: r.takeWhile isDigitB, isDigitB_iff.1 h1, by simp, ?_, ?_⟩
    · intro c hc
      rcases List.mem_cons.1 hc with rfl | hc
      · exact isDigitB_iff.1 h3
      · exact isDigitB_iff.1 (mem_takeWhile hc)
    · have e1 : ∀ l : List Nat, l.take (l.takeWhile isDigitB).length = l.takeWhile isDigitB := by
        intro l
        induction l with
        | nil => rfl
        | cons x l ih =>
          by_cases hx : isDigitB x = true
          · simp [hx, ih]
          · simp [hx]
      have e2 : 3 + (List.takeWhile isDigitB (List.drop 3 (a :: 46 :: d :: r))).length = (r.takeWhile isDigitB).length + 1 + 1 + 1 := by
        show 3 + (List.takeWhile isDigitB r).length = _
        omega
      rw [e2, List.take_succ_cons, List.take_succ_cons, List.take_succ_cons, e1]

theorem encName_keeps : Keeps (σ := σ) (parseEncodingName E) EncName := by
  unfold parseEncodingName
  refine Keeps.bind (V := fun _ => True) .rest fun r _ => ?_
  cases r with
  | nil => exact .cerr
  | cons c t =>
    refine .ite (fun hc => ?_) (fun _ => .cerr)
    refine .bind (.adv _) fun _ _ => .pure ?_
    obtain ⟨_, _, h2, _⟩ := nameScan_sound encNameCh E.beof t 2
    have hc' : AsciiLetter c := by
      unfold isAlphaB at hc
      unfold AsciiLetter
      simp at hc
      omega
    have h3 : ∀ x ∈ (nameScan encNameCh E.beof 2 t).1, AsciiLetter x ∨ 48 ≤ x ∧ x ≤ 57 ∨ x = 46 ∨ x = 95 ∨ x = 45 := by
      intro x hx
      have := (h2 x hx).1
      unfold encNameCh isAlphaB isDigitB at this
      unfold AsciiLetter
      simp at this
      omega
    rw [encodeRunes_ascii]
    · exact ⟨c, _, rfl, hc', h3⟩
    · intro x hx
      rcases List.mem_cons.1 hx with rfl | hx
      · unfold AsciiLetter at hc'; omega
      · have := h3 x hx
        unfold AsciiLetter at this; omega

theorem standalone_keeps : Keeps (σ := σ) parseStandaloneDeclValue (fun _ => True) := by
  unfold parseStandaloneDeclValue
  exact .bind (.consume _) fun _ _ => .ite (fun _ => .pure trivial) (fun _ => .bind (.consume _) fun _ _ => .ite (fun _ => .pure trivial) (fun _ => .raw))

/-- **what an XML declaration can set**. -/
theorem xmlDecl_values {s s' : St σ} (he : s.encoding = []) (hs : s.standalone = -2) (h : parseXMLDecl E s = .ok () s') :
    VersionNum s'.version ∧ (s'.encoding = [] ∨ EncName s'.encoding) ∧ (s'.standalone = -2 ∨ s'.standalone = 0 ∨ s'.standalone = 1) := by
  unfold parseXMLDecl at h
  obtain ⟨b, s1, h1, h⟩ := bind_ok.1 h
  have k1 := Keeps.consume b!"<?xml" s
  rw [h1] at k1
  obtain ⟨_, c1, rfl⟩ := k1
  split at h
  case isFalse => exact absurd h (by simp [cerr_ok])
  obtain ⟨b2, s2, h2, h⟩ := bind_ok.1 h
  have k2 := Keeps.skipBlanks { s with cur := c1 }
  rw [h2] at k2
  obtain ⟨_, c2, rfl⟩ := k2
  split at h
  case isFalse => exact absurd h (by simp [raw_ok])
  obtain ⟨v, s3, h3, h⟩ := bind_ok.1 h
  have k3 := (version_keeps E).named E b!"version" { s with cur := c2 }
  rw [wrap_ok.1 h3] at k3
  obtain ⟨hv, c3, rfl⟩ := k3
  obtain ⟨_, s4, h4, h⟩ := bind_ok.1 h
  obtain rfl := modify_ok.1 h4
  obtain ⟨_, s5, h5, h⟩ := bind_ok.1 h
  have k5 := Keeps.peekB E 1 { s with cur := c3, version := v }
  rw [h5] at k5
  obtain ⟨_, c5, rfl⟩ := k5
  split at h
  · obtain ⟨enc, s6, h6, h⟩ := bind_ok.1 h
    have k6 := (encName_keeps E).named E b!"encoding" { s with cur := c5, version := v }
    have key : ∃ e6 : Bytes, (e6 = [] ∨ EncName e6) ∧ ∀ t : Bool × St σ, (match enc with
          | .ok e => (do
            M.modify (fun s => { s with encoding := e })
            closeDecl : P σ Bool)
          | .error _ => pure false) s6 = .ok t.1 t.2 → ∃ c7, t.2 = { s with cur := c7, version := v, encoding := e6 } := by
      rcases attempt_ok.1 h6 with ⟨e, rfl, h7⟩ | ⟨e, rfl, h7⟩
      · rw [h7] at k6
        obtain ⟨hen, c6, rfl⟩ := k6
        refine ⟨e, Or.inr hen, ?_⟩
        rintro ⟨b, t⟩ ht
        obtain ⟨_, t1, h8, ht⟩ := bind_ok.1 ht
        obtain rfl := modify_ok.1 h8
        have k7 := Keeps.consume b!"?>" { s with cur := c6, version := v, encoding := e }
        have ht : consume b!"?>" { s with cur := c6, version := v, encoding := e } = .ok b t := ht
        rw [ht] at k7
        obtain ⟨_, c7, k7⟩ := k7
        exact ⟨c7, k7⟩
      · rw [h7] at k6
        obtain ⟨c6, rfl⟩ := k6
        refine ⟨[], Or.inl rfl, ?_⟩
        rintro ⟨b, t⟩ ht
        obtain ⟨_, rfl⟩ := pure_ok.1 ht
        exact ⟨c6, by simp [← he]⟩
    obtain ⟨e6, hen, key⟩ := key
    obtain ⟨cl, s7, h7, h⟩ := bind_ok.1 h
    obtain ⟨c7, e7⟩ := key (cl, s7) h7
    simp only at e7
    subst e7
    split at h
    · obtain ⟨_, rfl⟩ := pure_ok.1 h
      exact ⟨hv, hen, Or.inl hs⟩
    · obtain ⟨sd, s8, h8, h⟩ := bind_ok.1 h
      have k8 := standalone_keeps.named E b!"standalone" { s with cur := c7, version := v, encoding := e6 }
      rw [h8] at k8
      obtain ⟨_, c8, rfl⟩ := k8
      obtain ⟨_, s9, h9, h⟩ := bind_ok.1 h
      obtain rfl := modify_ok.1 h9
      obtain ⟨b10, s10, h10, h⟩ := bind_ok.1 h
      have k10 := Keeps.consume b!"?>" { s with cur := c8, version := v, encoding := e6, standalone := if sd = b!"yes" then 1 else 0 }
      have h10 : consume b!"?>" { s with cur := c8, version := v, encoding := e6, standalone := if sd = b!"yes" then 1 else 0 } = .ok b10 s10 := h10
      rw [h10] at k10
      obtain ⟨_, c10, rfl⟩ := k10
      split at h
      case isFalse => exact absurd h (by simp [cerr_ok])
      obtain ⟨_, rfl⟩ := pure_ok.1 h
      refine ⟨hv, hen, ?_⟩
      simp only
      split <;> simp
  · obtain ⟨b6, s6, h6, h⟩ := bind_ok.1 h
    have k6 := Keeps.consume b!"?>" { s with cur := c5, version := v }
    have h6 : consume b!"?>" { s with cur := c5, version := v } = .ok b6 s6 := h6
    rw [h6] at k6
    obtain ⟨_, c6, rfl⟩ := k6
    split at h
    case isFalse => exact absurd h (by simp [cerr_ok])
    obtain ⟨_, rfl⟩ := pure_ok.1 h
    exact ⟨hv, Or.inl he, Or.inl hs⟩

/-! ### what the serialiser writes -/

theorem dumpDoc_xmlDecl (n : Node) (hv : n.version = [] ∨ VersionNum n.version) (he : n.encoding = [] ∨ EncName n.encoding) :
    ∃ t, dumpDocContent n = t ++ [10] ∧
      XmlDeclAny t (if n.version = [] then b!"1.0" else n.version) n.encoding (if n.standalone = 0 ∨ n.standalone = 1 then n.standalone else -2) := by
  have pseudo : ∀ name v : List Nat, Pseudo name v (32 :: (name ++ (61 :: 34 :: (v ++ [34])))) := fun name v =>
    ⟨[32], [], [], 34, by simp, by decide, by decide, by decide, Or.inl rfl, rfl⟩
  refine ⟨b!"<?xml" ++ ((32 :: (b!"version" ++ (61 :: 34 :: ((if n.version = [] then b!"1.0" else n.version) ++ [34])))) ++
    ((if n.encoding ≠ [] then 32 :: (b!"encoding" ++ (61 :: 34 :: (n.encoding ++ [34]))) else []) ++
    ((if n.standalone = 0 then 32 :: (b!"standalone" ++ (61 :: 34 :: (b!"no" ++ [34]))) else
        if n.standalone = 1 then 32 :: (b!"standalone" ++ (61 :: 34 :: (b!"yes" ++ [34]))) else []) ++ b!"?>"))), ?_, _, _, _, rfl, ?_, pseudo _ _, ?_, ?_⟩
  · unfold dumpDocContent
    by_cases h1 : n.encoding = [] <;> by_cases h2 : n.standalone = 0 <;> by_cases h3 : n.standalone = 1 <;> simp [h1, h2, h3]
  · split
    · exact ⟨49, b!"0", by decide, by decide, by decide, rfl⟩
    · exact hv.resolve_left ‹_›
  · by_cases h1 : n.encoding = []
    · exact Or.inl ⟨by simp [h1], h1⟩
    · rw [if_pos h1]
      exact Or.inr ⟨he.resolve_left h1, pseudo _ _⟩
  · by_cases h2 : n.standalone = 0
    · refine Or.inr (Or.inr ⟨?_, by simp [h2]⟩)
      rw [if_pos h2]
      exact pseudo _ _
    · rw [if_neg h2]
      by_cases h3 : n.standalone = 1
      · refine Or.inr (Or.inl ⟨?_, by simp [h3]⟩)
        rw [if_pos h3]
        exact pseudo _ _
      · exact Or.inl ⟨if_neg h3, by simp [h2, h3]⟩

end
end Helium
