import Verif.Lemmas.DumpParts
import Verif.Spec.Parts
import Verif.Props.Dom
/-! # Serialisation is compositional (C73) -/
namespace Helium
open Spec

theorem bind_ok_iff {α β : Type} {p : DM α} {q : α → DM β} {o s : Bytes} {b : β} :
    (p >>= q) o = .ok b s ↔ ∃ a t, p o = .ok a t ∧ q a t = .ok b s := by
  show M.bind p q o = _ ↔ _
  unfold M.bind
  cases h : p o with
  | ok a t => exact ⟨fun h => ⟨a, t, rfl, h⟩, fun ⟨_, _, e, h⟩ => by cases e; exact h⟩
  | _ => simp

theorem Additive.from_empty {p : DM Unit} (h : Additive p) {o out : Bytes} : p o = .ok () out ↔ ∃ w, p [] = .ok () w ∧ out = o ++ w := by
  have e := h o []
  rw [List.append_nil] at e
  rw [e]
  cases p [] with
  | ok a w =>
    simp only [Out.after, Out.ok.injEq, true_and]
    exact ⟨fun e => ⟨w, rfl, e.symm⟩, fun ⟨_, e1, e2⟩ => by rw [e1]; exact e2.symm⟩
  | _ => simp [Out.after]

theorem forM_parts {f : Nat → DM Unit} (hf : ∀ x, Additive (f x)) : ∀ {l : List Nat} {o out : Bytes}, l.forM f o = .ok () out ↔
    ∃ ws, OneByOne (fun x w => f x [] = .ok () w) l ws ∧ out = o ++ ws.flatten
  | [], o, out => by
    constructor
    · intro h
      have h : Out.ok () o = Out.ok () out := h
      cases h
      exact ⟨[], trivial, by simp⟩
    · rintro ⟨ws, h, rfl⟩
      cases ws with
      | nil => simp; rfl
      | cons => exact h.elim
  | x :: l, o, out => by
    have e : List.forM (x :: l) f = (f x >>= fun _ => l.forM f) := rfl
    rw [e, bind_ok_iff]
    constructor
    · rintro ⟨_, t, h1, h2⟩
      obtain ⟨w, k1, rfl⟩ := (hf x).from_empty.1 h1
      obtain ⟨ws, k2, rfl⟩ := (forM_parts hf).1 h2
      exact ⟨w :: ws, ⟨k1, k2⟩, by simp⟩
    · rintro ⟨ws, h, rfl⟩
      cases ws with
      | nil => exact h.elim
      | cons w ws => exact ⟨(), o ++ w, (hf x).from_empty.2 ⟨w, h.1, rfl⟩, (forM_parts hf).2 ⟨ws, h.2, by simp⟩⟩

theorem chain_parts {h : Heap} {s : Option Nat} {f : Nat → DM Unit} (hf : ∀ x, Additive (f x)) {o out : Bytes} : forChain h s f o = .ok () out ↔
    ∃ l ws, chain h (h.size + 1) s = some l ∧ OneByOne (fun x w => f x [] = .ok () w) l ws ∧ out = o ++ ws.flatten := by
  unfold forChain
  cases e : chain h (h.size + 1) s with
  | none => exact ⟨nofun, fun ⟨_, _, h, _⟩ => nomatch h⟩
  | some l =>
    simp only [forM_parts hf]
    exact ⟨fun ⟨ws, h1, h2⟩ => ⟨l, ws, rfl, h1, h2⟩, fun ⟨_, ws, h0, h1, h2⟩ => by cases h0; exact ⟨ws, h1, h2⟩⟩

theorem Spec.OneByOne.imp {R S : Nat → Bytes → Prop} : ∀ {l : List Nat} {ws : List Bytes}, (∀ x ∈ l, ∀ w, R x w → S x w) → OneByOne R l ws → OneByOne S l ws
  | [], [], _, _ => trivial
  | _ :: _, _ :: _, h, H => ⟨h _ List.mem_cons_self _ H.1, OneByOne.imp (fun x hx => h x (List.mem_cons_of_mem _ hx)) H.2⟩
  | [], _ :: _, _, H => H.elim
  | _ :: _, [], _, H => H.elim

theorem Spec.OneByOne.map {R S : Nat → Bytes → Prop} {g : Bytes → Bytes} (hg : ∀ x w, R x w ↔ ∃ v, S x v ∧ w = g v) : ∀ {l : List Nat} {ws : List Bytes},
    OneByOne R l ws ↔ ∃ vs, OneByOne S l vs ∧ ws = vs.map g
  | [], [] => ⟨fun _ => ⟨[], trivial, rfl⟩, fun _ => trivial⟩
  | [], _ :: _ => ⟨fun H => H.elim, fun ⟨vs, h, e⟩ => by cases vs with | nil => cases e | cons => exact h.elim⟩
  | _ :: _, [] => ⟨fun H => H.elim, fun ⟨vs, h, e⟩ => by cases vs with | nil => exact h.elim | cons => cases e⟩
  | x :: l, w :: ws => by
    constructor
    · rintro ⟨h1, h2⟩
      obtain ⟨v, k1, rfl⟩ := (hg x w).1 h1
      obtain ⟨vs, k2, rfl⟩ := (OneByOne.map hg).1 h2
      exact ⟨v :: vs, ⟨k1, k2⟩, rfl⟩
    · rintro ⟨vs, h, e⟩
      cases vs with
      | nil => exact h.elim
      | cons v vs =>
        simp only [List.map_cons, List.cons.injEq] at e
        exact ⟨(hg x w).2 ⟨v, h.1, e.1⟩, (OneByOne.map hg).2 ⟨vs, h.2, e.2⟩⟩

/-! ### the budget is large enough -/

/-- whether the serialiser returns on node `i`. -/
def returns (h : Heap) (f i : Nat) : Bool := match dumpNode h f i [] with | .diverge => false | _ => true

theorem returns_iff {h : Heap} {f i : Nat} : returns h f i = true ↔ dumpNode h f i [] ≠ .diverge := by
  unfold returns
  cases dumpNode h f i [] <;> simp

theorem additive_diverge {p : DM Unit} (h : Additive p) (o : Bytes) : p o = .diverge ↔ p [] = .diverge := by
  have e := h o []
  rw [List.append_nil] at e
  rw [e]
  cases p [] <;> simp [Out.after]

theorem dump_stable {h : Heap} {f : Nat} (hs : ∀ i, returns h (f + 1) i = true → returns h f i = true) : dumpNode h (f + 1) = dumpNode h f := by
  funext i o
  by_cases hd : dumpNode h f i [] = .diverge
  · have h1 : dumpNode h (f + 1) i [] = .diverge := Classical.byContradiction fun hn => returns_iff.1 (hs i (returns_iff.2 hn)) hd
    rw [(additive_diverge (additive_node h _ i) o).2 h1, (additive_diverge (additive_node h _ i) o).2 hd]
  · exact node_extends h f i o (fun e => hd ((additive_diverge (additive_node h _ i) o).1 e))

theorem dump_step {h : Heap} {f g : Nat} (e : dumpNode h f = dumpNode h g) : dumpNode h (f + 1) = dumpNode h (g + 1) := by
  funext i
  unfold dumpNode
  rw [e]

theorem dump_constant {h : Heap} {f : Nat} (e : dumpNode h (f + 1) = dumpNode h f) : ∀ n, dumpNode h (f + n) = dumpNode h f
  | 0 => rfl
  | n + 1 => (dump_step (dump_constant e n)).trans e

theorem returns_mono {h : Heap} {f i : Nat} (hr : returns h f i = true) : returns h (f + 1) i = true := by
  rw [returns_iff] at hr ⊢
  rw [node_extends h f i [] hr]
  exact hr

/-- the computation returns. -/
def Back {α : Type} (p : DM α) : Prop := ∀ o, p o ≠ .diverge

theorem Back.emit (s : Bytes) : Back (emit s) := fun _ => nofun
theorem Back.pure {α : Type} (a : α) : Back (pure a : DM α) := fun _ => nofun
theorem Back.panic {α : Type} : Back (M.panic : DM α) := fun _ => nofun
theorem Back.raw {α : Type} (e : EK) : Back (M.raw e : DM α) := fun _ => nofun
theorem Back.bind {α β : Type} {p : DM α} {q : α → DM β} (hp : Back p) (hq : ∀ a, Back (q a)) : Back (p >>= q) := fun o => by
  show M.bind p q o ≠ _
  unfold M.bind
  cases e : p o with
  | ok a s => exact hq a s
  | diverge => exact absurd e (hp o)
  | _ => nofun
theorem Back.ite {α : Type} {c : Prop} [Decidable c] {p q : DM α} (hp : Back p) (hq : Back q) : Back (if c then p else q) := by
  split
  · exact hp
  · exact hq
theorem Back.none {h : Heap} {f : Nat → DM Unit} : Back (forChain h none f) := by
  unfold forChain
  rw [Helium.chain]
  exact .pure _

theorem back_content : ∀ (g : Bool) (ec : EC), Back (dumpElementContent g ec)
  | _, .nil => .pure _
  | g, .mk t o n p c1 c2 => by
    have i1 := fun g => back_content g c1
    have i2 := fun g => back_content g c2
    unfold dumpElementContent
    cases c1 with
    | nil => cases g <;> simp <;> repeat' first | exact .emit _ | exact .panic | exact .raw _ | exact .pure _ | refine Back.bind ?_ (fun _ => ?_) | split
    | mk t1 o1 n1 p1 d1 d2 =>
      cases c2 with
      | nil => cases g <;> simp <;> repeat' first | exact .emit _ | exact .panic | exact .raw _ | exact .pure _ | exact i1 _ | refine Back.bind ?_ (fun _ => ?_) | split
      | mk t2 o2 n2 p2 d3 d4 =>
        cases g <;> simp <;> repeat' first | exact .emit _ | exact .panic | exact .raw _ | exact .pure _ | exact i1 _ | exact i2 _ | refine Back.bind ?_ (fun _ => ?_) | split

theorem blank_returns {h : Heap} (hb : BlankBeyond h) {f i : Nat} (hi : h.size ≤ i) : returns h (f + 1) i = true := by
  obtain ⟨b1, b2⟩ := hb i hi
  rw [returns_iff]
  suffices k : Back (dumpNode h (f + 1) i) from k []
  unfold dumpNode
  simp only [b1, b2]
  split
  · exact .emit _
  · exact .bind (.emit _) (fun _ => .ite (.emit _) (.bind (.emit _) (fun _ => .bind .none (fun _ => .emit _))))
  · exact .emit _
  · exact .emit _
  · exact .ite .panic (.emit _)
  · unfold dumpElementDecl
    exact .ite (.emit _) (.ite (.emit _) (.ite (.bind (.emit _) (fun _ => .bind (back_content _ _) (fun _ => .emit _))) (.raw _)))
  · unfold dumpAttributeDecl
    refine .bind (.emit _) (fun _ => ?_)
    split
    · exact .raw _
    · refine .bind (.emit _) (fun _ => ?_)
      split
      · exact .raw _
      · exact .emit _
  · unfold dumpEntityDecl
    exact .ite (.emit _) (.ite (.emit _) (.ite (.emit _) (.ite (.emit _) (.raw _))))
  · exact .bind (.emit _) (fun _ => .bind (.emit _) (fun _ => .bind .none (fun _ => .ite (.emit _) (.bind (.emit _) (fun _ => .bind .none (fun _ => .emit _))))))
  · exact .bind (.emit _) (fun _ => .bind (.emit _) (fun _ => .bind .none (fun _ => .emit _)))
  · exact .bind (.emit _) (fun _ => .bind (.emit _) (fun _ => .bind .none (fun _ => .emit _)))

/-- on how many nodes it returns. -/
def returnCount (h : Heap) (f : Nat) : Nat := (List.range h.size).countP (returns h f)

theorem countP_lt {α : Type} {p q : α → Bool} : ∀ {l : List α}, (∀ x, p x = true → q x = true) → (∃ x ∈ l, q x = true ∧ p x = false) → l.countP p < l.countP q
  | [], _, ⟨_, h, _⟩ => nomatch h
  | y :: l, hpq, ⟨x, hx, h1, h2⟩ => by
    rw [List.countP_cons, List.countP_cons]
    rcases List.mem_cons.1 hx with rfl | hx
    · have : l.countP p ≤ l.countP q := List.countP_mono_left (fun a _ => hpq a)
      simp only [h1, h2, if_true, Bool.false_eq_true, if_false]
      omega
    · have := countP_lt (l := l) hpq ⟨x, hx, h1, h2⟩
      by_cases hy : p y = true
      · simp only [hy, hpq y hy, if_true]; omega
      · rw [if_neg hy]; omega

theorem count_grows {h : Heap} (hb : BlankBeyond h) {f : Nat} (hne : dumpNode h (f + 2) ≠ dumpNode h (f + 1)) : returnCount h (f + 1) < returnCount h (f + 2) := by
  refine countP_lt (fun x => returns_mono) ?_
  refine Classical.byContradiction fun hn => hne (dump_stable fun i hi => ?_)
  by_cases hs : h.size ≤ i
  · exact blank_returns hb hs
  · cases hr : returns h (f + 1) i with
    | true => rfl
    | false => exact absurd ⟨i, List.mem_range.2 (by omega), hi, hr⟩ hn

theorem dump_settled {h : Heap} (hb : BlankBeyond h) : dumpNode h (h.size + 2) = dumpNode h (h.size + 1) := by
  refine Classical.byContradiction fun hne => ?_
  have hall : ∀ k, k ≤ h.size → dumpNode h (k + 2) ≠ dumpNode h (k + 1) := fun k hk e => by
    apply hne
    have e1 := dump_constant e (h.size - k)
    have e2 := dump_constant e (h.size - k + 1)
    rw [show k + 1 + (h.size - k) = h.size + 1 by omega] at e1
    rw [show k + 1 + (h.size - k + 1) = h.size + 2 by omega] at e2
    rw [e1, e2]
  have hk : ∀ k, k ≤ h.size + 1 → k ≤ returnCount h (k + 1) := by
    intro k
    induction k with
    | zero => intro _; exact Nat.zero_le _
    | succ k ih =>
      intro hk
      have h1 := ih (by omega)
      have h2 := count_grows hb (hall k (by omega))
      show k + 1 ≤ returnCount h (k + 2)
      omega
  have h1 := hk (h.size + 1) (Nat.le_refl _)
  have h2 : returnCount h (h.size + 1 + 1) ≤ h.size := by
    unfold returnCount
    have := List.countP_le_length (p := returns h (h.size + 1 + 1)) (l := List.range h.size)
    rwa [List.length_range] at this
  omega

/-- **C73**: the budget of the model is large enough. If the serialiser does not return on a node within depth `size + 1` it does not return
within any depth; and if it returns within some depth, it does the same within `size + 1`. -/
theorem C73_budget {h : Heap} (hb : BlankBeyond h) (f n : Nat) (o : Bytes) :
    (dumpNode h (h.size + 1) n o = .diverge → dumpNode h f n o = .diverge) ∧
    (dumpNode h f n o ≠ .diverge → dumpNode h (h.size + 1) n o = dumpNode h f n o) := by
  have hc := dump_constant (dump_settled hb)
  have key : dumpNode h f n o ≠ .diverge → dumpNode h (h.size + 1) n o = dumpNode h f n o := fun hf => by
    by_cases hle : f ≤ h.size + 1
    · exact node_extends_le h hle n o hf
    · have := hc (f - (h.size + 1))
      rw [show h.size + 1 + (f - (h.size + 1)) = f by omega] at this
      rw [this]
  refine ⟨fun hd => Classical.byContradiction fun hf => ?_, key⟩
  rw [key hf] at hd
  exact hf hd

/-! ### parts -/

/-- **C73**, documents: the serialisation of a document is its XML declaration followed by the serialisation of each child, each on a line of
its own; it succeeds exactly if that of all children does. -/
theorem C73_document {h : Heap} {d : Nat} (hd : (h.at' d).kind = .doc) {out : Bytes} : xmlString h d = .ok () out ↔
    ∃ cs ws, chain h (h.size + 1) (h.at' d).first = some cs ∧ OneByOne (Serialises h) cs ws ∧
      out = dumpDocContent (h.at' d) ++ (ws.map (· ++ b!"\n")).flatten := by
  have hf : ∀ c, Additive (do dumpNode h (h.size + 1) c; emit [10] : DM Unit) := fun c => .bind (additive_node _ _ _) (fun _ => .emit _)
  have hp : ∀ (c : Nat) (w : Bytes), (do dumpNode h (h.size + 1) c; emit [10] : DM Unit) [] = .ok () w ↔ ∃ v, Serialises h c v ∧ w = v ++ b!"\n" := fun c w => by
    rw [bind_ok_iff]
    constructor
    · rintro ⟨_, v, h1, h2⟩
      cases h2
      exact ⟨v, h1, rfl⟩
    · rintro ⟨v, h1, rfl⟩
      exact ⟨(), v, h1, rfl⟩
  have h0 : dumpNode h (h.size + 1) d [] = .ok () (dumpDocContent (h.at' d)) := by
    unfold dumpNode
    simp only [hd]
    rfl
  unfold xmlString dumpDoc
  rw [bind_run h0, chain_parts hf]
  constructor
  · rintro ⟨cs, ws, h1, h2, rfl⟩
    obtain ⟨vs, k2, rfl⟩ := (OneByOne.map hp).1 h2
    exact ⟨cs, vs, h1, k2, rfl⟩
  · rintro ⟨cs, vs, h1, h2, rfl⟩
    exact ⟨cs, _, h1, (OneByOne.map hp).2 ⟨vs, h2, rfl⟩, rfl⟩

/-- the piece of an attribute value, with any budget. -/
theorem piece_iff {h : Heap} {f c : Nat} {w : Bytes} :
    (if (h.at' c).kind = .text then emit (escapeAttrValue (h.at' c).content) else do
      let _ ← M.attempt (dumpNode h f c)
      pure () : DM Unit) [] = .ok () w ↔
    if (h.at' c).kind = .text then w = escapeAttrValue (h.at' c).content else dumpNode h f c [] = .ok () w ∨ ∃ e, dumpNode h f c [] = .err e w := by
  by_cases hk : (h.at' c).kind = .text
  · simp only [if_pos hk]
    show Out.ok () ([] ++ _) = Out.ok () w ↔ _
    simp only [List.nil_append, Out.ok.injEq, true_and]
    exact eq_comm
  · simp only [if_neg hk]
    rw [bind_ok_iff]
    unfold M.attempt
    constructor
    · rintro ⟨a, t, h1, h2⟩
      cases h2
      cases e : dumpNode h f c [] with
      | ok b s => rw [e] at h1; cases h1; exact .inl rfl
      | err x s => rw [e] at h1; cases h1; exact .inr ⟨x, rfl⟩
      | panic => rw [e] at h1; cases h1
      | diverge => rw [e] at h1; cases h1
    · rintro (e | ⟨x, e⟩)
      · rw [e]; exact ⟨_, _, rfl, rfl⟩
      · rw [e]; exact ⟨_, _, rfl, rfl⟩

/-- **C73**, elements: the serialisation of an element is a tag with its name, its namespace declarations and its attributes in order, and, if it
has children, the serialisations of these in order and an end tag. -/
theorem C73_element {h : Heap} (hb : BlankBeyond h) {e : Nat} (he : (h.at' e).kind = .element) {out : Bytes} : Serialises h e out ↔
    ∃ as ats cs ws, chain h (h.size + 1) (h.at' e).props = some as ∧ OneByOne (AttrText h) as ats ∧
      chain h (h.size + 1) (h.at' e).first = some cs ∧ OneByOne (Serialises h) cs ws ∧
      out = b!"<" ++ dumpName (h.at' e) ++ (h.at' e).nsDefs.flatMap dumpNs ++ ats.flatten ++
        if cs = [] then b!"/>" else b!">" ++ ws.flatten ++ b!"</" ++ dumpName (h.at' e) ++ b!">" := by
  have hpiece : ∀ c, Additive (if (h.at' c).kind = .text then emit (escapeAttrValue (h.at' c).content) else do
      let _ ← M.attempt (dumpNode h (h.size + 1) c)
      pure () : DM Unit) := fun c => .ite (.emit _) (.bind (.attempt (additive_node _ _ _)) (fun _ => .pure _))
  have hattr : ∀ a, Additive (do
      emit (32 :: ((h.at' a).name ++ b!"=\""))
      forChain h (h.at' a).first (fun c =>
        if (h.at' c).kind = .text then emit (escapeAttrValue (h.at' c).content)
        else do
          let _ ← M.attempt (dumpNode h (h.size + 1) c)
          pure ())
      emit [34] : DM Unit) := fun a => .bind (.emit _) (fun _ => .bind (.chain hpiece) (fun _ => .emit _))
  have hat : ∀ a w, (do
      emit (32 :: ((h.at' a).name ++ b!"=\""))
      forChain h (h.at' a).first (fun c =>
        if (h.at' c).kind = .text then emit (escapeAttrValue (h.at' c).content)
        else do
          let _ ← M.attempt (dumpNode h (h.size + 1) c)
          pure ())
      emit [34] : DM Unit) [] = .ok () w ↔ AttrText h a w := fun a w => by
    rw [emit_bind, bind_ok_iff]
    unfold AttrText
    constructor
    · rintro ⟨_, t, h1, h2⟩
      cases h2
      obtain ⟨l, ws, k1, k2, rfl⟩ := (chain_parts hpiece).1 h1
      exact ⟨l, ws, k1, k2.imp (fun _ _ _ h => piece_iff.1 h), by simp⟩
    · rintro ⟨l, ws, h1, h2, rfl⟩
      exact ⟨(), _, (chain_parts hpiece).2 ⟨l, ws, h1, h2.imp (fun _ _ _ h => piece_iff.2 h), rfl⟩, by simp [emit_run]⟩
  show dumpNode h (h.size + 1) e [] = .ok () out ↔ _
  rw [congrFun (congrFun (dump_settled hb).symm e) [], dumpNode]
  simp only [he]
  rw [emit_bind, emit_bind, bind_ok_iff]
  constructor
  · rintro ⟨_, t, h1, h2⟩
    obtain ⟨as, ats, k1, k3, rfl⟩ := (chain_parts hattr).1 h1
    have h3 := k3.imp (fun a _ w h => (hat a w).1 h)
    by_cases hn : (h.at' e).first = none
    · rw [if_pos hn] at h2
      cases h2
      exact ⟨as, ats, [], [], k1, h3, by rw [hn]; rfl, trivial, by simp⟩
    · rw [if_neg hn, emit_bind, bind_ok_iff] at h2
      obtain ⟨_, t, k2, k4⟩ := h2
      cases k4
      obtain ⟨cs, ws, h2, h4, rfl⟩ := (chain_parts (additive_node h _)).1 k2
      have hcs : cs ≠ [] := by
        rintro rfl
        cases hf : (h.at' e).first with
        | none => exact hn hf
        | some c =>
          rw [hf, chain] at h2
          cases hq : chain h h.size (h.at' c).next with
          | none => rw [hq] at h2; cases h2
          | some l => rw [hq] at h2; cases h2
      exact ⟨as, ats, cs, ws, k1, h3, h2, h4, by simp [hcs]⟩
  · rintro ⟨as, ats, cs, ws, h1, h3, h2, h4, rfl⟩
    refine ⟨(), _, (chain_parts hattr).2 ⟨as, ats, h1, h3.imp (fun a _ w h => (hat a w).2 h), rfl⟩, ?_⟩
    by_cases hn : (h.at' e).first = none
    · rw [if_pos hn]
      rw [hn, chain] at h2
      cases h2
      simp [emit_run]
    · rw [if_neg hn, emit_bind, bind_ok_iff]
      have hcs : cs ≠ [] := by
        rintro rfl
        cases hf : (h.at' e).first with
        | none => exact hn hf
        | some c =>
          rw [hf, chain] at h2
          cases hq : chain h h.size (h.at' c).next with
          | none => rw [hq] at h2; cases h2
          | some l => rw [hq] at h2; cases h2
      exact ⟨(), _, (chain_parts (additive_node h _)).2 ⟨cs, ws, h2, h4, rfl⟩, by simp [emit_run, hcs]⟩

/-! ### the hypotheses are met -/

/-- the tree built by the sample history: document 0, element 1 with children 2, 6, 4, 5. -/
example : ∃ h rs, execAll (sampleOps.take 12) Heap.empty = .ok rs h ∧ BlankBeyond h ∧ (h.at' 0).kind = .doc ∧ (h.at' 1).kind = .element ∧
    chain h (h.size + 1) (h.at' 1).first = some [2, 6, 4, 5] ∧ Serialises h 1 b!"<a>x<d/><!--c-->y</a>" := by
  refine ⟨_, _, rfl, ?_, rfl, rfl, rfl, rfl⟩
  intro i hi
  obtain ⟨k, rfl⟩ := Nat.exists_eq_add_of_le' (show 7 ≤ i from hi)
  exact ⟨rfl, rfl⟩

/-- an element with an attribute. -/
def attrTree : Heap := ⟨3, fun i => match i with
  | 0 => { kind := .element, name := b!"a", props := some 1 }
  | 1 => { kind := .attr, name := b!"b", first := some 2, last := some 2, parent := some 0 }
  | 2 => { kind := .text, content := b!"<", parent := some 1 }
  | _ => {}⟩

example : BlankBeyond attrTree ∧ (attrTree.at' 0).kind = .element ∧ AttrText attrTree 1 b!" b=\"&lt;\"" ∧ Serialises attrTree 0 b!"<a b=\"&lt;\"/>" := by
  refine ⟨?_, rfl, ⟨[2], [b!"&lt;"], rfl, ⟨rfl, trivial⟩, rfl⟩, rfl⟩
  intro i hi
  obtain ⟨k, rfl⟩ := Nat.exists_eq_add_of_le' (show 3 ≤ i from hi)
  exact ⟨rfl, rfl⟩

/-- a heap on which the serialiser does not return, whatever the budget: an element that is its own child. -/
def selfTree : Heap := ⟨1, fun i => match i with
  | 0 => { kind := .element, name := b!"a", first := some 0 }
  | _ => {}⟩

example (f : Nat) : dumpNode selfTree f 0 [] = .diverge :=
  (C73_budget (by
    intro i hi
    obtain ⟨k, rfl⟩ := Nat.exists_eq_add_of_le' (show 1 ≤ i from hi)
    exact ⟨rfl, rfl⟩) f 0 []).1 rfl

end Helium
