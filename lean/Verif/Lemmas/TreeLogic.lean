import Verif.Lemmas.TbRun
import Verif.Lemmas.ChunkTb
import Verif.Lemmas.Bracket
import Verif.Lemmas.SaxPhases
import Verif.Lemmas.Forward
import Verif.Lemmas.Sim
import Verif.Lemmas.EntLogic
/-! The parser with the tree builder as handler: the heap always holds the tree of the events so far. -/
namespace Helium
open Spec

theorem Spec.Partial.steps_append : ∀ (a b : List Ev) (s : Partial), s.steps (a ++ b) = (s.steps a).bind (fun s => s.steps b)
  | [], b, s => rfl
  | ev :: a, b, s => by
    show (s.step ev).bind _ = ((s.step ev).bind _).bind _
    cases s.step ev with
    | none => rfl
    | some s' => exact steps_append a b s'

/-! ### what is seen of a sequence of events -/

theorem Spec.Visible.append {a v : List Ev} (h : Visible a v) : ∀ {b w : List Ev}, Visible b w → Visible (a ++ b) (v ++ w) := by
  induction h with
  | nil => intro b w k; exact k
  | keep hev _ ih => intro b w k; exact .keep hev (ih k)
  | @expand m n inner _ l v hi hb hs hl ih1 ih =>
    intro b w k
    have := Visible.expand (m := m) (n := n) hi hb hs (ih k)
    simpa using this

theorem Spec.Visible.self : ∀ {l : List Ev}, (∀ ev ∈ l, ∀ n, ev ≠ .reference n) → Visible l l
  | [], _ => .nil
  | ev :: l, h => .keep (h ev List.mem_cons_self) (Visible.self (fun x hx => h x (List.mem_cons_of_mem _ hx)))

theorem Spec.Visible.eq {l v : List Ev} (h : Visible l v) : (∀ ev ∈ l, ∀ n, ev ≠ .reference n) → v = l := by
  induction h with
  | nil => intro _; rfl
  | keep hev _ ih => intro hn; rw [ih (fun x hx => hn x (List.mem_cons_of_mem _ hx))]
  | @expand m n inner _ l v hi hb hs hl ih1 ih => intro hn; exact absurd rfl (hn (.reference n) (by simp) n)

theorem Spec.Visible.mem {l v : List Ev} (h : Visible l v) : ∀ ev ∈ v, ev ∈ l := by
  induction h with
  | nil => intro ev h; exact h
  | keep hev _ ih =>
    intro ev h
    rcases List.mem_cons.1 h with rfl | h
    · exact List.mem_cons_self
    · exact List.mem_cons_of_mem _ (ih ev h)
  | expand hi hb hs hl ih1 ih =>
    intro ev h
    rcases List.mem_cons.1 h with rfl | h
    · simp
    rcases List.mem_cons.1 h with rfl | h
    · simp
    · have := ih ev h
      simp [this]

theorem Spec.Visible.nest {l v : List Ev} (h : Visible l v) : ∀ st, nest st l = nest st v := by
  induction h with
  | nil => intro st; rfl
  | @keep ev l v hev _ ih =>
    intro st
    rw [show ev :: l = [ev] ++ l from rfl, show ev :: v = [ev] ++ v from rfl, nest_append, nest_append]
    cases Spec.nest st [ev] with
    | none => rfl
    | some st' => exact ih st'
  | @expand m n inner w l v hi hb hs hl ih1 ih =>
    intro st
    show Spec.nest st (inner ++ .reference n :: l) = Spec.nest st v
    rw [nest_append, hb st]
    exact ih st

section
variable {σ : Type} (E : Env) {tf dn : Nat}

/-- events made inside of functions, apart from starts of elements. -/
def Plain (ev : Ev) : Prop := match ev with
  | .startElement .. | .startDocument | .internalSubset .. | .externalSubset .. | .reference _ => False
  | _ => True

/-- events that keep the tree in order: there is no processing instruction inside of the document type declaration. -/
def okIn (n : Nat) : Ev → Bool
  | .pi _ _ => n == 0
  | _ => true

/-- not the report of a reference to an entity. -/
def notRef (m : List (Ev × HOut)) : Prop := ∀ x ∈ m, ∀ n, x.1 ≠ .reference n

/-- not the report of the document type declaration. -/
def notSub : Ev → Bool
  | .internalSubset .. | .externalSubset .. => false
  | _ => true

/-- the report of a document type declaration. -/
def isInt : Ev → Bool
  | .internalSubset .. => true
  | _ => false

theorem countInt_zero {m : List (Ev × HOut)} (h : ∀ x ∈ m, notSub x.1 = true) : (m.map (·.1)).countP isInt = 0 := by
  rw [List.countP_eq_zero]
  intro ev hev
  obtain ⟨x, hx, rfl⟩ := List.mem_map.1 hev
  have := h x hx
  cases hx1 : x.1 <;> rw [hx1] at this <;> simp_all [notSub, isInt]

theorem tbOut_ok {p : TB σ Unit} {c : HC σ} (h : (tbUnit p c).1 ∈ [HOut.ok, .unspecified] ∨ ∃ e, (tbUnit p c).1 = .ent e) :
    p c = .ok () (tbUnit p c).2 := by
  unfold tbUnit tbOut at *
  rw [show (p >>= fun _ => pure HOut.ok : TB σ HOut) c = M.bind p (fun _ => pure HOut.ok) c from rfl] at *
  unfold M.bind at *
  cases hp : p c with
  | ok a c' => rfl
  | err e c' => rw [hp] at h; simp at h
  | panic => rw [hp] at h; simp at h
  | diverge => rw [hp] at h; simp at h

/-- one event at the tree builder. -/
theorem tb_step {v : HV} {ev : Ev} {c : HC σ} {st : Partial} {ds : List Ev} (I : TInv c dn st ds) (hv : okIn v.inSubset ev = true)
    (hq : Plain ev ∨ ∃ l p u ns ats, ev = .startElement l p u ns ats ∧ tagAttrs c.heap ats) (hcd : notCData ev = true)
    (ho : (treeBuilder tf v ev c).1 ∈ [HOut.ok, .unspecified] ∨ (∃ e, (treeBuilder tf v ev c).1 = .ent e) ∨ ev.lookup) :
    ∃ st', st.step ev = some st' ∧ TInv (treeBuilder tf v ev c).2 dn st' (ds ++ [ev].filter isDecl) ∧
      ((treeBuilder tf v ev c).2.heap.at' dn).intSubset = (c.heap.at' dn).intSubset := by
  have hok : ¬ ev.lookup → (treeBuilder tf v ev c).1 ∈ [HOut.ok, .unspecified] ∨ ∃ e, (treeBuilder tf v ev c).1 = .ent e := fun h => by
    rcases ho with h1 | h1 | h1
    · exact Or.inl h1
    · exact Or.inr h1
    · exact absurd h1 h
  have hel : ∀ x, c.elem = some x → ∃ d t r, st.inner = (d, t) :: r := by
    intro x hx
    obtain ⟨a, fs, i1, R, T, i5, i6, _⟩ := I
    rw [hx] at i6
    cases fs with
    | nil => cases i6
    | cons y fs => exact ⟨y.2.1, y.2.2, _, i5.symm⟩
  have hdoc : c.doc = some dn := by
    obtain ⟨a, fs, i1, _⟩ := I
    exact i1
  have hch : ∀ b, (tbUnit (tbCharacters b) c).1 ∈ [HOut.ok, .unspecified] ∨ (∃ e, (tbUnit (tbCharacters b) c).1 = .ent e) →
      ∃ st', (match st.inner with
        | [] => none
        | (d, k) :: r => some { st with inner := (d, k.addText b) :: r }) = some st' ∧ TInv (tbUnit (tbCharacters b) c).2 dn st' ds ∧
        ((tbUnit (tbCharacters b) c).2.heap.at' dn).intSubset = (c.heap.at' dn).intSubset := by
    intro b h
    have h := tbOut_ok h
    cases he : c.elem with
    | none =>
      unfold tbCharacters at h
      rw [get_bind, he] at h
      cases h
    | some x =>
      obtain ⟨d, t, r, hs⟩ := hel x he
      obtain ⟨c', r1, r2, r3⟩ := tbCharacters_inv I hs b
      rw [r1] at h
      injection h with _ h
      rw [← h]
      exact ⟨_, by rw [hs], r2, (info_subsets r3).1⟩
  have hds : isDecl ev = false → ds ++ [ev].filter isDecl = ds := by
    intro h
    rw [List.filter_cons_of_neg (by simp [h])]
    simp
  cases ev
  case startElement l p u ns ats =>
    rcases hq with hq | ⟨l', p', u', ns', ats', hq, hp⟩
    · exact absurd hq id
    · injection hq with h1 h2 h3 h4 h5
      subst h1 h2 h3 h4 h5
      rw [hds rfl]
      obtain ⟨r2, r3⟩ := tbStartElement_inv I hp (tbOut_ok (hok id))
      exact ⟨_, rfl, r2, (info_subsets r3).1⟩
  case endElement l p u =>
    rw [hds rfl]
    have h := tbOut_ok (hok id)
    cases he : c.elem with
    | none =>
      unfold tbEndElement at h
      rw [get_bind, he] at h
      cases h
    | some x =>
      obtain ⟨d, t, r, hs⟩ := hel x he
      obtain ⟨c', r1, r2, r3⟩ := tbEndElement_inv I hs
      rw [r1] at h
      injection h with _ h
      refine ⟨{ st with inner := r }.add d t, by simp only [Partial.step, hs], ?_⟩
      show TInv (tbUnit tbEndElement c).2 dn _ _ ∧ ((tbUnit tbEndElement c).2.heap.at' dn).intSubset = _
      rw [← h]
      exact ⟨r2, (info_subsets r3).1⟩
  case characters b => rw [hds rfl]; exact hch b (hok id)
  case ignorable b => rw [hds rfl]; exact hch b (hok id)
  case comment b =>
    rw [hds rfl]
    have h := tbOut_ok (hok id)
    obtain ⟨c', r1, r2, r3⟩ := tbComment_inv I b
    rw [r1] at h
    injection h with _ h
    refine ⟨_, rfl, ?_⟩
    show TInv (tbUnit (tbComment b) c).2 dn _ _ ∧ ((tbUnit (tbComment b) c).2.heap.at' dn).intSubset = _
    rw [← h]
    exact ⟨r2, (info_subsets r3).1⟩
  case pi t d =>
    rw [hds rfl]
    have h := tbOut_ok (hok id)
    obtain ⟨c', r1, r2, r3⟩ := tbPI_inv I (by simpa [okIn] using hv) t d
    rw [r1] at h
    injection h with _ h
    refine ⟨_, rfl, ?_⟩
    show TInv (tbUnit (tbPI v t d) c).2 dn _ _ ∧ ((tbUnit (tbPI v t d) c).2.heap.at' dn).intSubset = _
    rw [← h]
    exact ⟨r2, (info_subsets r3).1⟩
  case setDocumentLocator => rw [hds rfl]; exact ⟨_, rfl, I, rfl⟩
  case endDocument => rw [hds rfl]; exact ⟨_, rfl, I, rfl⟩
  case cdata b => cases hcd
  case getEntity n =>
    rw [hds rfl]
    refine ⟨_, rfl, ?_⟩
    have : (treeBuilder tf v (.getEntity n) c).2 = c := by
      unfold treeBuilder tbOut tbDoc
      simp only [bindM_assoc, get_bind, hdoc, deref_bind]
      cases docGetEntity c.heap dn n <;> rfl
    rw [this]
    exact ⟨I, rfl⟩
  case getParameterEntity n =>
    rw [hds rfl]
    refine ⟨_, rfl, ?_⟩
    have : (treeBuilder tf v (.getParameterEntity n) c).2 = c := by
      unfold treeBuilder tbOut
      simp only [get_bind, hdoc]
      cases docGetParameterEntity c.heap dn n <;> rfl
    rw [this]
    exact ⟨I, rfl⟩
  case attributeDecl e a t df b en => exact ⟨_, rfl, tbAttributeDecl_inv I (tbOut_ok (hok id))⟩
  case elementDecl n t ec => exact ⟨_, rfl, tbElementDecl_inv I (tbOut_ok (hok id))⟩
  case entityDecl n t p u b => exact ⟨_, rfl, tbEntityDecl_inv I (tbOut_ok (hok id))⟩
  all_goals
    rcases hq with hq | ⟨_, _, _, _, _, hq, _⟩
    · exact absurd hq id
    · cases hq

/-- one event at the tree builder inside of an entity. -/
theorem tb_reg {v : HV} {ev : Ev} {c : HC σ} {O : Heap} {r : Nat} (G : Reg O dn r c) (hv : v.inSubset = 0)
    (hq : Plain ev ∨ (∃ l p u ns ats, ev = .startElement l p u ns ats) ∨ ∃ n, ev = .reference n)
    (ho : (treeBuilder tf v ev c).1 ∈ [HOut.ok, .unspecified] ∨ (∃ e, (treeBuilder tf v ev c).1 = .ent e) ∨ ev.lookup) :
    Reg O dn r (treeBuilder tf v ev c).2 ∧ isDecl ev = false := by
  have hok : ¬ ev.lookup → (treeBuilder tf v ev c).1 ∈ [HOut.ok, .unspecified] ∨ ∃ e, (treeBuilder tf v ev c).1 = .ent e := fun h => by
    rcases ho with h1 | h1 | h1
    · exact Or.inl h1
    · exact Or.inr h1
    · exact absurd h1 h
  cases ev
  case startElement l p u ns ats => exact ⟨tbStartElement_reg G (tbOut_ok (hok id)), rfl⟩
  case endElement l p u => exact ⟨tbEndElement_reg G (tbOut_ok (hok id)), rfl⟩
  case characters b => exact ⟨tbCharacters_reg G (tbOut_ok (hok id)), rfl⟩
  case ignorable b => exact ⟨tbCharacters_reg G (tbOut_ok (hok id)), rfl⟩
  case comment b => exact ⟨tbComment_reg G (tbOut_ok (hok id)), rfl⟩
  case pi t d => exact ⟨tbPI_reg hv G (tbOut_ok (hok id)), rfl⟩
  case reference n => exact ⟨tbReference_reg G (tbOut_ok (hok id)), rfl⟩
  case setDocumentLocator => exact ⟨G, rfl⟩
  case endDocument => exact ⟨G, rfl⟩
  case cdata b => exact ⟨G, rfl⟩
  case getEntity n =>
    have : (treeBuilder tf v (.getEntity n) c).2 = c := by
      unfold treeBuilder tbOut tbDoc
      simp only [bindM_assoc, get_bind, G.doc, deref_bind]
      cases docGetEntity c.heap dn n <;> rfl
    rw [this]
    exact ⟨G, rfl⟩
  case getParameterEntity n =>
    have : (treeBuilder tf v (.getParameterEntity n) c).2 = c := by
      unfold treeBuilder tbOut
      simp only [get_bind, G.doc]
      cases docGetParameterEntity c.heap dn n <;> rfl
    rw [this]
    exact ⟨G, rfl⟩
  case attributeDecl e a t df b en => exact ((tbDecl_out hv).1 _ _ _ _ _ _ (tbOut_ok (hok id))).elim
  case elementDecl n t ec => exact ((tbDecl_out hv).2.1 _ _ _ (tbOut_ok (hok id))).elim
  case entityDecl n t p u b => exact ((tbDecl_out hv).2.2 _ _ _ _ _ (tbOut_ok (hok id))).elim
  all_goals
    rcases hq with hq | ⟨_, _, _, _, _, hq⟩ | ⟨_, hq⟩
    · exact absurd hq id
    · cases hq
    · cases hq

theorem TInv.tab {c : HC σ} {st : Partial} {ds : List Ev} (I : TInv c dn st ds) : TabOK c.heap := by
  obtain ⟨a, fs, i1, R, T, _⟩ := I
  exact T

/-- the heap holds the tree so far, the defaulted attributes are marked, and `o` is the document type declaration. -/
def TSt (dn : Nat) (s : St σ) (st : Partial) (ds : List Ev) (o : Option Nat) : Prop :=
  TInv s.hc dn st ds ∧ Marked s.attsDefault s.hc.heap ∧ (s.hc.heap.at' dn).intSubset = o

/-- from `s` to `s'` events were reported; if the heap of `s` held the tree so far, the heap of `s'` holds that of the events added, and if it
was that of the replacement text of an entity, it still is. -/
def TStep (dn : Nat) (s s' : St σ) : Prop :=
  s'.inSubset = s.inSubset ∧ ∃ mid, s'.trace = s.trace ++ mid ∧ (∀ x ∈ mid, notSub x.1 = true) ∧ (s.inSubset ≠ 0 → notRef mid) ∧
    (∀ st ds o, (∀ x ∈ mid, okIn s.inSubset x.1 = true) → TSt dn s st ds o → (o = none → notRef mid) ∧
      ∃ vis st', Visible (mid.map (·.1)) vis ∧ st.steps (vis.filter notCData) = some st' ∧ TSt dn s' st' (ds ++ (mid.map (·.1)).filter isDecl) o) ∧
    (s.inSubset = 0 → ∀ O r, Reg O dn r s.hc → Reg O dn r s'.hc ∧ (∀ x ∈ mid, isDecl x.1 = false) ∧ ∃ vis, Visible (mid.map (·.1)) vis)

theorem notRef.append {a b : List (Ev × HOut)} (ha : notRef a) (hb : notRef b) : notRef (a ++ b) :=
  fun x hx => (List.mem_append.1 hx).elim (ha x) (hb x)

theorem TStep.trans {a b c : St σ} (h : TStep dn a b) (k : TStep dn b c) : TStep dn a c := by
  obtain ⟨hs, m, h1, hn, hr, h2, h3⟩ := h
  obtain ⟨ks, m', k1, kn, kr, k2, k3⟩ := k
  refine ⟨ks.trans hs, m ++ m', by rw [k1, h1, List.append_assoc], fun x hx => (List.mem_append.1 hx).elim (hn x) (kn x),
    fun h => (hr h).append (kr (by rw [hs]; exact h)), fun st ds o ho I => ?_, fun hz O r G => ?_⟩
  · obtain ⟨n1, v1, st1, w1, e1, I1⟩ := h2 st ds o (fun x hx => ho x (List.mem_append_left _ hx)) I
    obtain ⟨n2, v2, st2, w2, e2, I2⟩ := k2 st1 _ o (fun x hx => by rw [hs]; exact ho x (List.mem_append_right _ hx)) I1
    refine ⟨fun h => (n1 h).append (n2 h), v1 ++ v2, st2, ?_, ?_, ?_⟩
    · rw [List.map_append]; exact w1.append w2
    · rw [List.filter_append, Partial.steps_append, e1]
      exact e2
    · rw [List.map_append, List.filter_append, ← List.append_assoc]
      exact I2
  · obtain ⟨g1, d1, v1, w1⟩ := h3 hz O r G
    obtain ⟨g2, d2, v2, w2⟩ := k3 (hs.trans hz) O r g1
    exact ⟨g2, fun x hx => (List.mem_append.1 hx).elim (d1 x) (d2 x), v1 ++ v2, by rw [List.map_append]; exact w1.append w2⟩

theorem TStep.soft {s s' : St σ} (ht : s'.trace = s.trace) (hi : s'.inSubset = s.inSubset)
    (h : ∀ st ds o, TSt dn s st ds o → ∃ h', s'.hc = { s.hc with heap := h' } ∧ Soft dn s.hc.heap h' ∧ Marked s'.attsDefault h')
    (hR : ∀ O r, Reg O dn r s.hc → Reg O dn r s'.hc) : TStep dn s s' := by
  refine ⟨hi, [], by simp [ht], (fun x hx => by cases hx), (fun _ x hx => by cases hx), fun st ds o _ I => ?_,
    fun _ O r G => ⟨hR O r G, (fun x hx => by cases hx), [], .nil⟩⟩
  obtain ⟨h', e, S, m⟩ := h st ds o I
  refine ⟨(fun _ x hx => by cases hx), [], st, .nil, rfl, ?_⟩
  rw [show ds ++ (([] : List (Ev × HOut)).map (·.1)).filter isDecl = ds by simp]
  refine ⟨?_, ?_, ?_⟩
  · rw [e]; exact I.1.soft S
  · rw [e]; exact m
  · rw [e]
    obtain ⟨⟨a, fs, i1, R, T, i5, i6, Z, _⟩, _, h3⟩ := I
    exact (winfo_eq (S.data dn (by rw [R.size]; exact R.bound _ Z.doc))).2.2.2.2.1.trans h3

theorem TStep.of_same {s s' : St σ} (ht : s'.trace = s.trace) (hi : s'.inSubset = s.inSubset)
    (hh : s'.hc = s.hc ∧ s'.attsDefault = s.attsDefault) : TStep dn s s' :=
  TStep.soft ht hi (fun st ds o I => ⟨s.hc.heap, hh.1, Soft.refl _ _, by rw [hh.2]; exact I.2.1⟩) (fun O r G => by rw [hh.1]; exact G)

theorem TStep.cb {s : St σ} {ev : Ev} (hs : notSub ev = true)
    (hq : Plain ev ∨ ∃ l p u ns ats, ev = .startElement l p u ns ats ∧ (Marked s.attsDefault s.hc.heap → tagAttrs s.hc.heap ats))
    (ho : cbRes (treeBuilder tf) ev s ∈ [HOut.ok, .unspecified] ∨ (∃ e, cbRes (treeBuilder tf) ev s = .ent e) ∨ ev.lookup) :
    TStep dn s (cbSt (treeBuilder tf) ev s) := by
  have hnr : ∀ n, ev ≠ .reference n := by
    rintro n rfl
    rcases hq with h | ⟨_, _, _, _, _, h, _⟩
    · exact h
    · cases h
  have hn1 : notRef [(ev, cbRes (treeBuilder tf) ev s)] := by
    intro x hx
    rw [List.mem_singleton] at hx
    rw [hx]
    exact hnr
  refine ⟨rfl, [(ev, cbRes (treeBuilder tf) ev s)], rfl, (fun x hx => by rw [List.mem_singleton] at hx; rw [hx]; exact hs), fun _ => hn1, fun st ds o hok I => ?_,
    fun hz O r G => ?_⟩
  · have hok := hok _ (List.mem_singleton.2 rfl)
    have hm : Marked s.attsDefault (treeBuilder tf s.view ev s.hc).2.heap := I.2.1.grows (treeBuilder_tabs tf s.view ev s.hc).grows
    have hq : Plain ev ∨ ∃ l p u ns ats, ev = .startElement l p u ns ats ∧ tagAttrs s.hc.heap ats := by
      rcases hq with h | ⟨l, p, u, ns, ats, h, h'⟩
      · exact Or.inl h
      · exact Or.inr ⟨l, p, u, ns, ats, h, h' I.2.1⟩
    cases hcd : notCData ev with
    | true =>
      obtain ⟨st', e1, I'⟩ := tb_step (v := s.view) I.1 hok hq hcd ho
      exact ⟨fun _ => hn1, [ev], st', .keep hnr .nil, by simp [Partial.steps, e1, hcd], I'.1, hm, I'.2.trans I.2.2⟩
    | false =>
      have : ∃ b, ev = .cdata b := by
        unfold notCData at hcd
        split at hcd
        · exact ⟨_, rfl⟩
        · cases hcd
      obtain ⟨b, rfl⟩ := this
      refine ⟨fun _ => hn1, [.cdata b], st, .keep hnr .nil, by simp [Partial.steps, hcd], ?_, hm, I.2.2⟩
      rw [show ds ++ ([(Ev.cdata b, cbRes (treeBuilder tf) (Ev.cdata b) s)].map (·.1)).filter isDecl = ds by simp [isDecl]]
      exact I.1
  · obtain ⟨g, d⟩ := tb_reg (tf := tf) (v := s.view) G hz (hq.imp_right (fun ⟨l, p, u, ns, ats, h, _⟩ => Or.inl ⟨l, p, u, ns, ats, h⟩)) ho
    exact ⟨g, (fun x hx => by rw [List.mem_singleton] at hx; rw [hx]; exact d), [ev], .keep hnr .nil⟩

/-- the logic of the tree under construction. -/
def TR (σ : Type) (tf dn : Nat) : Logic true (treeBuilder tf : Handler σ) where
  R := TStep dn
  X _ _ _ := True
  Q := Plain
  quiet h := TStep.of_same h.trace h.inSubset (by
    obtain ⟨h1, h2⟩ := h.heap rfl
    refine ⟨?_, h2⟩
    rename_i s s'
    have e1 := h.usr; have e2 := h.doc; have e3 := h.elem
    cases hs : s.hc; cases hs' : s'.hc
    simp only [hs, hs'] at e1 e2 e3 h1
    subst e1 e2 e3 h1
    rfl)
  trans := TStep.trans
  transX _ _ := trivial
  xquiet _ _ := trivial
  fail _ := trivial
  wrap _ := trivial
  call := by
    intro s ev hq h
    refine TStep.cb ?_ (Or.inl hq) (by rcases h with h | h <;> simp [h])
    cases ev <;> first | rfl | exact (hq : False).elim
  callX _ _ := trivial
  look := by
    intro s ev h
    refine TStep.cb ?_ (Or.inl ?_) (Or.inr (Or.inr h)) <;> cases ev <;> first | rfl | exact (h : False).elim | trivial

theorem VStep.soft {h h' : Heap} (v : VStep h.size h h') (t : TabOK h → TabOK h') : Soft dn h h' := by
  refine ⟨v.size, t, fun i hi => ?_, fun i hi => ?_, fun i hi hk _ => v.same i hi hk⟩
  · by_cases hk : (h.at' i).kind = .entity
    · rw [v.ent i hi]
      exact ⟨rfl, rfl, rfl, rfl, fun ht => by rw [hk] at ht; cases ht⟩
    · exact Linked.of_eq (v.same i hi hk)
  · rw [v.ent i hi]; rfl

theorem TR_dflt (fuel : Nat) (el at' v : Bytes) : Sat (TR σ tf dn) (addAttributeDefault fuel el at' v) := by
  intro s
  unfold addAttributeDefault
  rw [get_bind]
  cases mapGet s.attsSpecial (specialKey el at') with
  | some _ => exact (TR σ tf dn).quiet (Quiet.refl _)
  | none =>
    simp only [Bind.bind, M.bind, M.modify, M.get, M.attempt, liftH]
    have hv := fun ht => createAttribute_val (h := s.hc.heap) ht s.hc.doc fuel (splitColon at').2 v (some ((splitColon at').1, nsLookup s.ns (splitColon at').1))
    have hg := fun (O : Heap) r (G : Reg O dn r s.hc) => value_reg G.heap (createAttribute_new (vinv_self G.heap.tab) s.hc.doc fuel (splitColon at').2 v
      (some ((splitColon at').1, nsLookup s.ns (splitColon at').1)))
    cases hc : createAttribute s.hc.doc fuel (splitColon at').2 v (some ((splitColon at').1, nsLookup s.ns (splitColon at').1)) s.hc.heap with
    | ok a h' =>
      rw [hc] at hv hg
      refine TStep.soft rfl rfl (fun st ds o I => ?_) (fun O r G => ?_)
      rotate_left
      · obtain ⟨g1, g2, g3, g4, g5⟩ := hg O r G
        exact (RKeep.of_heap G (g1.updNew (i := a) (f := fun x => { x with isDefault := true }) (Nat.le_trans G.heap.size g4) rfl ⟨rfl, rfl⟩ (fun j hj => Or.inl hj)
          (fun j hj => Or.inl hj) (fun j hj => Or.inl hj) (fun j hj => Or.inl hj) (Or.inl rfl)) g2 (fun i hi => (upd_kinds rfl i).trans (g3 i hi))).reg
      have T : TabOK s.hc.heap := I.1.tab
      obtain ⟨rfl, V, T', hs, f, hf⟩ := hv T
      refine ⟨h'.upd s.hc.heap.size (fun x => { x with isDefault := true }), rfl, ?_, ?_⟩
      · have hb : ∀ i, i < s.hc.heap.size → (h'.upd s.hc.heap.size (fun x => { x with isDefault := true })).at' i = h'.at' i := by
          intro i hi
          rw [upd_at, if_neg (by omega)]
        refine VStep.soft ⟨V.size, fun i hi hk => ?_, fun i hi => ?_⟩ (fun _ => T'.of_same rfl (fun i => ?_))
        · rw [hb i hi]; exact V.same i hi hk
        · rw [hb i hi]; exact V.ent i hi
        · rw [upd_at]; split <;> simp_all
      · have hg := ((KeepT.createAttribute (N := fun _ => False) _ _ _ _ _ _).1 _ _ hc).grows
        have hu := Grows.upd h' s.hc.heap.size (f := fun x => { x with isDefault := true }) (fun _ => rfl)
        exact (((I.2.1.grows hg).grows hu).entry el).add el at' hs (by rw [upd_at, if_pos rfl])
    | err e h' =>
      rw [hc] at hv hg
      refine TStep.soft rfl rfl (fun st ds o I => ?_) (fun O r G => (RKeep.of_heap G (hg O r G).1 (hg O r G).2.1 (hg O r G).2.2).reg)
      obtain ⟨V, T'⟩ := hv I.1.tab
      have hg := ((KeepT.createAttribute (N := fun _ => False) _ _ _ _ _ _).2 _ _ hc).grows
      exact ⟨h', rfl, VStep.soft V (fun _ => T'), (I.2.1.grows hg).entry el⟩
    | panic => trivial
    | diverge => trivial

theorem TR_ctx (b : Bytes) : Sat (TR σ tf dn) (ctxGetEntity b) := by
  intro s
  unfold ctxGetEntity
  rw [get_bind]
  have hq := (TR σ tf dn).quiet (Quiet.refl s)
  split
  · exact hq
  · cases hd : s.hc.doc with
    | none => trivial
    | some d =>
      rw [deref_bind]
      cases docGetEntity s.hc.heap d b with
      | some e => exact hq
      | none =>
        simp only
        split
        · refine TStep.soft rfl rfl (fun st ds o I => ?_) (fun O r G => ?_)
          rotate_left
          · obtain rfl : d = dn := by
              have := G.doc
              rw [hd] at this
              exact Option.some.inj this
            exact (RKeep.of_heap G (G.heap.upd (i := d) (f := fun x => { x with standalone := 0 }) rfl ⟨rfl, rfl⟩ (fun _ h => absurd rfl h) (fun _ => ⟨rfl, G.heap.last⟩)
              (fun h => absurd G.heap.dlt (by omega))) (Nat.le_refl _) (fun i _ => upd_kinds rfl i)).reg
          obtain rfl : d = dn := by
            obtain ⟨⟨a, fs, i1, _⟩, _⟩ := I
            rw [hd] at i1
            exact Option.some.inj i1
          refine ⟨s.hc.heap.upd d (fun x => { x with standalone := 0 }), rfl, ⟨Nat.le_refl _, fun T => T.of_same rfl (fun i => ?_), fun i _ => ?_,
            fun i _ => ?_, fun i _ _ hi => ?_⟩, I.2.1.grows (Grows.upd _ _ id)⟩
          · rw [upd_at]; split <;> simp_all
          · rw [upd_at]; split
            · subst i; exact ⟨rfl, rfl, rfl, rfl, fun _ => ⟨rfl, rfl⟩⟩
            · exact Linked.of_eq rfl
          · rw [upd_at]; split
            · subst i; rfl
            · rfl
          · rw [upd_at, if_neg hi]
        · exact hq

theorem lookup_ent {v : HV} {ev : Ev} {c : HC σ} {i : Nat} (h : (treeBuilder tf v ev c).1 = .ent (some (.ptr i))) (hl : ev.lookup) :
    (treeBuilder tf v ev c).2 = c ∧ (TabOK c.heap → (c.heap.at' i).kind = .entity) := by
  cases ev
  case getEntity n =>
    cases hd : c.doc with
    | none => simp [treeBuilder, tbOut, tbDoc, Bind.bind, M.bind, M.get, M.deref, M.panic, hd] at h
    | some d =>
      simp only [treeBuilder, tbOut, tbDoc, Bind.bind, M.bind, M.get, M.deref, hd, Pure.pure, M.pure] at h ⊢
      cases hg : docGetEntity c.heap d n with
      | none => rw [hg] at h; simp [M.raw, M.fail] at h
      | some x =>
        rw [hg] at h
        simp only at h ⊢
        injection h with h; injection h with h; injection h with h
        subst h
        exact ⟨rfl, fun T => (docGetEntity_ent T hg).2⟩
  case getParameterEntity n =>
    cases hd : c.doc with
    | none => simp [treeBuilder, tbOut, Bind.bind, M.bind, M.get, M.raw, M.fail, hd] at h
    | some d =>
      simp only [treeBuilder, tbOut, Bind.bind, M.bind, M.get, hd, Pure.pure, M.pure] at h ⊢
      cases hg : docGetParameterEntity c.heap d n with
      | none => rw [hg] at h; simp [M.raw, M.fail] at h
      | some x =>
        rw [hg] at h
        simp only at h ⊢
        injection h with h; injection h with h; injection h with h
        subst h
        refine ⟨rfl, fun T => ?_⟩
        unfold docGetParameterEntity at hg
        cases hx : (c.heap.at' d).intSubset with
        | some t => rw [hx] at hg; exact (T t _ (Or.inr (mapGet_mem hg))).2
        | none =>
          rw [hx] at hg
          simp only at hg
          cases hy : (c.heap.at' d).extSubset with
          | some t => rw [hy] at hg; exact (T t _ (Or.inr (mapGet_mem hg))).2
          | none => rw [hy] at hg; cases hg
  all_goals exact (hl : False).elim

theorem TR_orig (ev : Ev) (l : Bytes) (hl : ev.lookup) : Sat (TR σ tf dn) (do let cur ← Helium.ask (treeBuilder tf) ev; setOrig cur l) := by
  intro s
  have hL : TStep dn s (cbSt (treeBuilder tf) ev s) := (TR σ tf dn).look hl
  simp only [cbSt] at hL
  unfold Helium.ask callback
  simp only [Bind.bind, M.bind]
  cases hr : (treeBuilder tf s.view ev s.hc).1 with
  | ok => rw [hr] at hL; exact hL
  | unspecified => rw [hr] at hL; exact hL
  | err e => rw [hr] at hL; exact hL
  | panic => trivial
  | diverge => trivial
  | ent o =>
    rw [hr] at hL
    cases o with
    | none => exact hL
    | some r =>
      cases r with
      | pre p => exact hL
      | ptr i =>
        obtain ⟨h1, h2⟩ := lookup_ent hr hl
        refine hL.trans (TStep.soft rfl rfl (fun st ds o I => ?_) (fun O r G => ?_))
        rotate_left
        · have G : Reg O dn r (treeBuilder tf s.view ev s.hc).2 := G
          have hk : ((treeBuilder tf s.view ev s.hc).2.heap.at' i).kind = .entity := by
            rw [h1] at G ⊢
            exact h2 G.heap.tab
          exact (RKeep.of_heap G (G.heap.upd (i := i) (f := fun x => { x with orig := l }) rfl ⟨rfl, rfl⟩ (fun _ _ => ⟨hk, rfl⟩)
            (fun h => (by rw [h, G.heap.dnk] at hk; cases hk))
            (fun a b => ⟨fun j hj => G.heap.next i j a b hj, fun j hj => G.heap.parent i j a b hj, fun h => (by rw [hk] at h; cases h),
              fun h => (by rw [h, G.heap.rk] at hk; cases hk)⟩)) (Nat.le_refl _) (fun j _ => upd_kinds rfl j)).reg
        have I1 : TInv (treeBuilder tf s.view ev s.hc).2 dn st ds := I.1
        have hk : ((treeBuilder tf s.view ev s.hc).2.heap.at' i).kind = .entity := by
          rw [h1] at I1 ⊢
          exact h2 I1.tab
        have hm : Marked s.attsDefault (treeBuilder tf s.view ev s.hc).2.heap := I.2.1
        have hd : i ≠ dn := by
          rintro rfl
          obtain ⟨a, fs, i1, R, T, i5, i6, Z, _⟩ := I1
          rw [Z.docKind] at hk
          cases hk
        refine ⟨(treeBuilder tf s.view ev s.hc).2.heap.upd i (fun x => { x with orig := l }), rfl, ⟨Nat.le_refl _, fun T => T.of_same rfl (fun j => ?_),
          fun j _ => ?_, fun j _ => ?_, fun j _ hj _ => ?_⟩, hm.grows (Grows.upd _ _ id)⟩
        · rw [upd_at]; split <;> simp_all
        · simp only [upd_at]; split
          · subst j; exact ⟨rfl, rfl, rfl, rfl, fun _ => ⟨rfl, rfl⟩⟩
          · exact Linked.of_eq rfl
        · simp only [upd_at]; split
          · subst j; rfl
          · rfl
        · simp only [upd_at]; rw [if_neg]; rintro rfl; exact hj hk

theorem TR_admits : Admits (TR σ tf dn) where
  ev ev h hr _ _ := by cases ev <;> first | exact (h : False).elim | exact absurd rfl (hr rfl _) | trivial
  ref n := fun s => by
    simp only [Bind.bind, M.bind]
    cases cb (treeBuilder tf) (.reference n) s <;> trivial
  dflt := TR_dflt
  orig := TR_orig
  ctx := TR_ctx

/-- outside of the document type declaration. -/
def Inz (s : St σ) : Prop := s.inSubset = 0

theorem TR_frame : Frame (TR σ tf dn) Inz := ⟨TR_admits, fun h i => h.1.trans i, fun h i => h.inSubset.trans i⟩

/-! ### attributes -/

theorem attrsLoop_parsed {H : Handler σ} {b : Bytes} : ∀ {fuel n : Nat} {l : List AttrD} {s s' : St σ} {r : Nat × List AttrD}, allParsed l →
    attrsLoop E H b fuel n l s = .ok r s' → allParsed r.2
  | 0, n, l, s, s', r, _, h => by cases h
  | fuel + 1, n, l, s, s', r, hl, h => by
    have hs : ∀ p q v, allParsed (l ++ [.parsed p q v]) := by
      intro p q v a ha
      rcases List.mem_append.1 ha with h | h
      · exact hl a h
      · rw [List.mem_singleton] at h
        exact ⟨p, q, v, h⟩
    unfold attrsLoop at h
    simp only [bind_ok] at h
    obtain ⟨_, s1, _, c1, s2, _, h⟩ := h
    split at h
    · simp only [pure_ok] at h
      obtain ⟨rfl, _⟩ := h
      exact hl
    · simp only [bind_ok] at h
      obtain ⟨c2, s3, _, h⟩ := h
      split at h
      · simp only [pure_ok] at h
        obtain ⟨rfl, _⟩ := h
        exact hl
      · simp only [bind_ok] at h
        obtain ⟨a, s4, _, h⟩ := h
        split at h
        · simp only [bind_ok] at h
          obtain ⟨_, s5, _, c, s6, _, h⟩ := h
          split at h
          · exact attrsLoop_parsed (hs _ _ _) h
          · exact attrsLoop_parsed hl h
        · split at h
          · simp only [bind_ok] at h
            obtain ⟨t, s5, _, h⟩ := h
            cases hn : nsDeclCheck E t.ns a.1 a.2.2 with
            | none =>
              simp only [hn, bind_ok] at h
              obtain ⟨_, _, _, _, _, _, h⟩ := h
              exact attrsLoop_parsed hl h
            | some o =>
              cases o with
              | none =>
                simp only [hn, bind_ok] at h
                obtain ⟨_, _, _, h⟩ := h
                exact attrsLoop_parsed hl h
              | some e => simp only [hn, cerr_ok] at h
          · exact attrsLoop_parsed (hs _ _ _) h

theorem TR_modify {f : St σ → St σ} (h : ∀ s, (f s).trace = s.trace ∧ (f s).inSubset = s.inSubset ∧ (f s).hc = s.hc ∧
    (f s).attsDefault = s.attsDefault) : Sat (TR σ tf dn) (M.modify f : P σ Unit) :=
  Sat.modify (fun s => TStep.of_same (h s).1 (h s).2.1 (h s).2.2)

/-- `SatI` with the value of the first part. -/
theorem SatI.bindV {kb : Bool} {α β : Type} {H : Handler σ} {L : Logic kb H} {I : St σ → Prop} (F : Frame L I) {p : P σ α} {f : α → P σ β}
    (hp : SatI L I p) (hf : ∀ s a s', I s → p s = .ok a s' → I s' → post (f a s') (L.R s') (L.X s')) : SatI L I (p >>= f) := by
  intro s hI
  have h1 := hp s hI
  show post (M.bind p f s) _ _
  unfold M.bind
  cases hps : p s with
  | ok a s' =>
    rw [hps] at h1
    exact post_mono (hf s a s' hI hps (F.inv h1 hI)) (fun _ h => L.trans h1 h) (fun _ _ h => L.transX h1 h)
  | err e s' => rw [hps] at h1; exact h1
  | panic => trivial
  | diverge => trivial

theorem cb_postR {H : Handler σ} {ev : Ev} {s : St σ} {R : St σ → Prop}
    (h : cbRes H ev s ∈ [HOut.ok, .unspecified] ∨ (∃ e, cbRes H ev s = .ent e) → R (cbSt H ev s)) :
    post (cb H ev s) R (fun _ _ => True) := by
  unfold cbRes cbSt at h
  unfold cb callback
  simp only [Bind.bind, M.bind]
  cases hr : (H s.view ev s.hc).1 <;> simp only [hr, Pure.pure, M.pure, M.fail, M.panic, M.diverge] at h ⊢
  · exact h (by simp)
  · exact h (Or.inr ⟨_, rfl⟩)
  · exact h (by simp)
  all_goals trivial

theorem defaultAttrs_marked {m : List (Bytes × List (Bytes × Nat))} {h : Heap} (hm : Marked m h) {p l : Bytes} {a : AttrD}
    (ha : a ∈ defaultAttrs E m p l) : ∃ i, a = .dflt i ∧ i < h.size ∧ (h.at' i).isDefault = true := by
  unfold defaultAttrs at ha
  simp only at ha
  cases hg : mapGet m (if p ≠ [] then p ++ 58 :: l else l) with
  | none => rw [hg] at ha; cases ha
  | some x =>
    rw [hg] at ha
    obtain ⟨i, hi, rfl⟩ := List.mem_map.1 ha
    obtain ⟨⟨b, j⟩, hj, rfl⟩ := List.mem_map.1 ((E.order_perm _).mem_iff.1 hi)
    exact ⟨_, rfl, hm _ _ hg b j hj⟩

theorem SatI.tr_startTag : SatI (TR σ tf dn) Inz (Helium.parseStartTag E (treeBuilder tf)) := by
  have F : Frame (TR σ tf dn) Inz := TR_frame
  unfold Helium.parseStartTag
  refine SatI.bind F (Sat.satI (Silent.sat (Silent.peek E) _)) (fun _ => ?_)
  refine SatI.bind F (Sat.satI (Silent.sat (Silent.need _ _) _)) (fun _ => ?_)
  refine SatI.bind F (Sat.satI (Silent.sat (Silent.adv _) _)) (fun _ => ?_)
  refine SatI.bind F (Sat.satI (Silent.sat (Silent.orElse (Silent.parseQName E)) _)) (fun q => ?_)
  refine SatI.bind F (Sat.satI (Silent.sat (Silent.need _ _) _)) (fun _ => ?_)
  refine SatI.bind F (Sat.satI (Silent.sat Silent.rest _)) (fun r => ?_)
  refine SatI.bindV F (Sat.satI (Sat.attrsLoop E F.admits (fun _ _ => TStep.of_same rfl rfl ⟨rfl, rfl⟩) _ _ _ _)) (fun s0 na s _ hna hI => ?_)
  have hp := attrsLoop_parsed E (by intro a ha; cases ha) hna
  rw [get_bind]
  have ht : Marked s.attsDefault s.hc.heap → tagAttrs s.hc.heap (na.2 ++ defaultAttrs E s.attsDefault q.2 q.1) := by
    intro hm a ha
    rcases List.mem_append.1 ha with ha | ha
    · exact Or.inl (hp a ha)
    · obtain ⟨i, rfl, hi⟩ := defaultAttrs_marked E hm ha
      exact Or.inr ⟨i, rfl, hi⟩
  by_cases hc : q.2 ≠ [] ∧ nsLookup s.ns q.2 = []
  · rw [if_pos hc]; trivial
  · rw [if_neg hc]
    have hcb : post (cb (treeBuilder tf) (.startElement q.1 q.2 (nsLookup s.ns q.2) (nsList s.ns na.1) (na.2 ++ defaultAttrs E s.attsDefault q.2 q.1)) s)
        (TStep dn s) (fun _ _ => True) :=
      cb_postR (fun ho => TStep.cb rfl (Or.inr ⟨_, _, _, _, _, rfl, ht⟩) (by rcases ho with h | h <;> simp [h]))
    refine post_bind (R' := TStep dn s) hcb ?_
    intro _ s' hs'
    exact hs'.trans (TStep.of_same rfl rfl ⟨rfl, rfl⟩)

theorem Sat.tr_endTag : Sat (TR σ tf dn) (Helium.parseEndTag E (treeBuilder tf)) := by
  have h1 : ∀ l p u, Sat (TR σ tf dn) (Helium.cb (treeBuilder tf) (.endElement l p u)) := fun l p u => Sat.cb trivial
  have h2 : ∀ f : St σ → List EInfo, Sat (TR σ tf dn) (M.modify (fun s => { s with nodes := f s }) : P σ Unit) :=
    fun f => TR_modify (fun s => ⟨rfl, rfl, rfl, rfl⟩)
  unfold Helium.parseEndTag
  repeat first | with_reducible exact h1 _ _ _ | exact h2 _ | sat1

theorem SatI.tr_element {body : P σ Unit} (hb : SatI (TR σ tf dn) Inz body) :
    SatI (TR σ tf dn) Inz (Helium.parseElementW E (treeBuilder tf) body) := by
  have F : Frame (TR σ tf dn) Inz := TR_frame
  unfold Helium.parseElementW
  refine SatI.bind F (SatI.wrap (SatI.tr_startTag E)) (fun _ => ?_)
  refine SatI.bind F (Sat.satI (Silent.sat (Silent.hasPrefix _) _)) (fun c => ?_)
  have h2 : SatI (TR σ tf dn) Inz (M.wrap (Helium.parseEndTag E (treeBuilder tf))) := Sat.satI (Sat.wrap (Sat.tr_endTag E))
  split
  · exact h2
  · refine SatI.bind F (SatI.wrap hb) (fun _ => h2)

/-- a reference to a declared entity looks it up. -/
theorem entityRef_ptr {s s' : St σ} {i : Nat} (h : parseEntityRef E (treeBuilder tf) s = .ok (.ptr i) s') (hz : s.inSubset = 0) :
    ∃ name o, s'.trace = s.trace ++ [(.getEntity name, o)] ∧ s'.hc = s.hc ∧ s'.inSubset = s.inSubset ∧ s'.attsDefault = s.attsDefault ∧
      ∃ d, s.hc.doc = some d ∧ docGetEntity s.hc.heap d name = some i := by
  unfold parseEntityRef at h
  simp only [bind_ok] at h
  obtain ⟨_, s1, r1, _, s2, r2, _, s3, r3, name, s4, r4, _, s5, r5, _, s6, r6, _, s7, r7, h⟩ := h
  have hq : ∀ {α : Type} {p : P σ α} {a b : St σ} {x : α}, Silent true p → p a = .ok x b → Quiet true a b := by
    intro α p a b x hp h
    have := hp a
    rwa [h] at this
  have q : Quiet true s s7 := ((((((hq (Silent.peek E) r1).trans (hq (Silent.need _ _) r2)).trans (hq (Silent.adv _) r3)).trans
    (hq (Silent.orElse (Silent.parseName E)) r4)).trans (hq (Silent.peek E) r5)).trans (hq (Silent.need _ _) r6)).trans (hq (Silent.adv _) r7)
  have qh : s7.hc = s.hc := by
    have e1 := q.usr; have e2 := q.doc; have e3 := q.elem; have e4 := (q.heap rfl).1
    cases h1 : s.hc; cases h2 : s7.hc
    simp only [h1, h2] at e1 e2 e3 e4
    subst e1 e2 e3 e4
    rfl
  cases hp : resolvePredef name with
  | some p =>
    simp only [hp, pure_ok] at h
    cases h.1
  | none =>
    simp only [hp, bind_ok] at h
    obtain ⟨x, s8, r8, h⟩ := h
    have r8' := r8
    unfold ask callback at r8
    simp only [Bind.bind, M.bind] at r8
    have h8 : s8.inSubset = 0 := by
      have := (Sat.ask (L := TR σ tf 0) (ev := .getEntity name) trivial) s7
      rw [r8'] at this
      exact this.1.trans (q.inSubset.trans hz)
    cases x with
    | ok y =>
      cases y with
      | none => cases h
      | some y =>
        simp only [pure_ok] at h
        obtain ⟨rfl, rfl⟩ := h
        cases hx : (treeBuilder tf s7.view (.getEntity name) s7.hc).1 with
        | ent o =>
          rw [hx] at r8
          injection r8 with q1 q2
          injection q1 with q1
          rw [q1] at hx
          have hc := (lookup_ent hx trivial).1
          refine ⟨name, .ent o, by rw [← q2]; show s7.trace ++ _ = _; rw [q.trace], by rw [← q2]; exact hc.trans qh, by rw [← q2]; exact q.inSubset,
            by rw [← q2]; exact (q.heap rfl).2, ?_⟩
          rw [← qh]
          cases hd : s7.hc.doc with
          | none => simp [treeBuilder, tbOut, tbDoc, Bind.bind, M.bind, M.get, M.deref, M.panic, hd] at hx
          | some d =>
            refine ⟨d, rfl, ?_⟩
            simp only [treeBuilder, tbOut, tbDoc, Bind.bind, M.bind, M.get, M.deref, hd, Pure.pure, M.pure] at hx
            cases hg : docGetEntity s7.hc.heap d name with
            | none => rw [hg] at hx; simp [M.raw, M.fail] at hx
            | some z =>
              rw [hg] at hx
              injection hx with hx; injection hx with hx; injection hx with hx
              rw [hx]
        | panic => rw [hx] at r8; cases r8
        | diverge => rw [hx] at r8; cases r8
        | _ => rw [hx] at r8; injection r8 with q1 q2; cases q1
    | error e =>
      simp only [bind_ok] at h
      obtain ⟨o, s9, r9, h⟩ := h
      unfold ctxGetEntity at r9
      rw [get_bind, if_pos h8] at r9
      cases r9
      simp only [bind_ok, get_ok] at h
      obtain ⟨t, s10, _, h⟩ := h
      split at h
      · simp only [cerr_ok] at h
      · split at h
        · simp only [bind_ok] at h
          obtain ⟨_, _, _, h⟩ := h
          cases h
        · cases h

/-- an entity: whatever happens inside of it, no document type declaration is reported, and the rest of the heap stays. -/
theorem tr_chunk {body : P σ Unit} (hb : SatI (TR σ tf dn) Inz body) (c : Bytes) {s s' : St σ} (h : parseChunk E body c s = .ok () s') :
    s'.inSubset = s.inSubset ∧ s'.attsDefault = s.attsDefault ∧ ∃ mid, s'.trace = s.trace ++ mid ∧ (∀ x ∈ mid, notSub x.1 = true) ∧
      (s.hc.doc = some dn → TabOK s.hc.heap → dn < s.hc.heap.size → (s.hc.heap.at' dn).kind = .doc →
        (∀ x ∈ mid, isDecl x.1 = false) ∧ (∃ vis, Visible (mid.map (·.1)) vis) ∧
        ∃ u h', RegH s.hc.heap dn s.hc.heap.size h' ∧
          s'.hc = ⟨u, h'.upd dn (fun x => { x with first := (s.hc.heap.at' dn).first, last := (s.hc.heap.at' dn).last }), some dn, s.hc.elem⟩) := by
  unfold Helium.parseChunk at h
  split at h
  · cases h
  · dsimp only at h
    split at h
    · rename_i g heq
      split at h
      · rename_i t hr
        cases h
        rw [bind_ok] at hr
        obtain ⟨_, t1, r1, r2⟩ := hr
        have h1 := hb (chunkSt s (chunkDoc s).1 g (E.decode .utf8 c)) rfl
        rw [r1] at h1
        have h2 := Silent.chunkAdopt (chunkDoc s).1 t1
        rw [r2] at h2
        obtain ⟨_, mid, e1, e2, _, _, e3⟩ := h1
        refine ⟨rfl, rfl, mid, h2.trace.trans e1, e2, fun hd T hl hk => ?_⟩
        have hc : chunkDoc s = (dn, s.hc.heap) := by unfold chunkDoc; rw [hd]
        rw [hc] at heq e3 r2 ⊢
        have G0 := chunk_start T hl hk heq
        obtain ⟨G1, d1, v1⟩ := e3 rfl s.hc.heap s.hc.heap.size ⟨rfl, G0, fun e he => by cases he⟩
        refine ⟨d1, v1, t1.hc.usr, t1.hc.heap, G1.heap, ?_⟩
        -- nothing hangs below the pseudo root
        unfold Helium.chunkAdopt at r2
        rw [get_bind, G1.doc, deref_bind] at r2
        simp only [G1.heap.root, G1.heap.rfirst] at r2
        have hch : chain t1.hc.heap (t1.hc.heap.size + 1) none = some [] := by unfold chain; rfl
        rw [hch] at r2
        have : t1.hc = t.hc := by
          simp only at r2
          unfold liftH at r2
          injection r2 with _ r2
          rw [← r2]
        rw [this]
        rfl
      all_goals cases h
    all_goals cases h

theorem alloc_upd {h : Heap} {N : Node} (g : Node → Node) : (h.alloc N).upd h.size g = h.alloc (g N) := by
  unfold Heap.upd Heap.put Heap.alloc
  simp only [Heap.mk.injEq, true_and]
  funext j
  by_cases h1 : j = h.size <;> simp [h1]

/-- a reference in the tree. -/
theorem tbReference_inv {c c' : HC σ} {st : Partial} {ds : List Ev} (I : TInv c dn st ds) {name : Bytes} (h : (tbReference name : TB σ Unit) c = .ok () c') :
    st.inner ≠ [] ∧ TInv c' dn (st.add (.ref name) .nil) ds ∧ info (c'.heap.at' dn) = info (c.heap.at' dn) := by
  have hI := I
  obtain ⟨a, fs, i1, R, T, i5, i6, Z, D, i9⟩ := I
  unfold tbReference at h
  rw [bind_ok] at h
  obtain ⟨d, c0, h0, h⟩ := h
  have : d = dn ∧ c0 = c := by
    unfold tbDoc at h0
    rw [get_bind, i1] at h0
    cases h0
    exact ⟨rfl, rfl⟩
  obtain ⟨rfl, rfl⟩ := this
  cases name with
  | nil => cases h
  | cons b t =>
    have hx : ∃ x : Node, (if b = 35 then createCharRef (some d) (b :: t) else createReference d (b :: t)) c0.heap = .ok c0.heap.size (c0.heap.alloc x) ∧
        x.kind = .entityRef ∧ x.next = none ∧ x.prev = none ∧ x.entities = [] ∧ x.pentities = [] ∧ ((b :: t).head? ≠ some 38 → x.name = b :: t) := by
      have hc : ∃ x : Node, createCharRef (some d) (b :: t) c0.heap = .ok c0.heap.size (c0.heap.alloc x) ∧
          x.kind = .entityRef ∧ x.next = none ∧ x.prev = none ∧ x.entities = [] ∧ x.pentities = [] ∧ ((b :: t).head? ≠ some 38 → x.name = b :: t) := by
        refine ⟨_, rfl, rfl, rfl, rfl, rfl, rfl, fun hn => ?_⟩
        show (if b ≠ 38 then b :: t else _) = _
        rw [if_pos (fun e => hn (by rw [e]; rfl))]
      obtain ⟨x, h1, h2⟩ := hc
      split
      · exact ⟨x, h1, h2⟩
      · unfold createReference
        rw [bind_run h1, get_bind]
        cases docGetEntity (c0.heap.alloc x) d ((c0.heap.alloc x).at' c0.heap.size).name with
        | some ent => exact ⟨_, Eq.trans updNode_bind (congrArg (Out.ok c0.heap.size) (alloc_upd _)), h2⟩
        | none => exact ⟨x, rfl, h2⟩
    obtain ⟨x, hx, k1, k2, k3, k4, k5, k6⟩ := hx
    simp only [bind_ok] at h
    obtain ⟨n, c1, h1, s, c2, h2, p, c3, h3, h4⟩ := h
    cases h2
    obtain ⟨g, q1, rfl⟩ := tbH_inv h1
    rw [hx] at q1
    cases q1
    cases he : c0.elem with
    | none => simp only [he] at h3; cases h3
    | some e =>
      simp only [he] at h3
      cases h3
      obtain ⟨h2, r1, r2, r3⟩ := tb_leaf' hI (x := x) (d := .ref (b :: t)) ⟨fun ht => (by rw [k1] at ht; cases ht), k2, k3⟩ (by rw [k1]; nofun) ⟨k4, k5⟩
        (fun ok h i hi => by
          have e1 : (h.at' i).kind = x.kind := by
            have := congrArg Node.kind hi
            exact this
          have e2 : (h.at' i).name = x.name := by
            have := congrArg Node.name hi
            exact this
          exact ⟨e1.trans k1, fun hn => e2.trans (k6 hn)⟩)
      have : (tbAttach d c0.heap.size : TB σ Unit) { c0 with heap := c0.heap.alloc x } = .ok () c' := by
        unfold tbAttach
        rw [get_bind]
        simp only [he]
        refine bind_run (a := .ok ()) (t := c') ?_
        unfold M.attempt
        rw [h4]
      rw [r1] at this
      injection this with _ this
      subst this
      refine ⟨?_, r2, r3⟩
      rw [he] at i6
      cases fs with
      | nil => cases i6
      | cons y fs => rw [← i5]; nofun

theorem SatI.parseReferenceS {kb : Bool} {H : Handler σ} {L : Logic kb H} {I : St σ → Prop} (F : Frame L I) {body : P σ Unit}
    (ent : ∀ s e s', I s → Helium.parseEntityRef E H s = .ok e s' → e.name s'.hc.heap = [] ∨ e.typ s'.hc.heap = 6 →
      e.content s'.hc.heap ≠ [] → L.Q (.characters (e.content s'.hc.heap)))
    (hc : ∀ s i s', I s → Helium.parseEntityRef E H s = .ok (.ptr i) s' →
        ∀ c, post ((do
          Helium.parseChunk E body c
          let s ← M.get
          Helium.cbRaw H (.reference (s.hc.heap.at' i).name) : P σ Unit) s') (L.R s) (L.X s)) :
    SatI L I (Helium.parseReference E H body) := by
  have hQ := F.admits
  unfold Helium.parseReference
  refine SatI.bind F (Sat.satI (Silent.sat (Silent.peek E) L)) (fun c => ?_)
  refine SatI.bind F (Sat.satI (Silent.sat (Silent.need _ _) L)) (fun _ => ?_)
  refine SatI.bind F (Sat.satI (Silent.sat (Silent.peekN E 2) L)) (fun c2 => ?_)
  split
  · intro s hI
    have h1 := (Silent.parseCharRef (kb := kb)).wrap s
    simp only [Bind.bind, M.bind]
    cases hr : M.wrap Helium.parseCharRef s with
    | ok v s' =>
      rw [hr] at h1
      have hv : Helium.CharData (encodeRune v) :=
        have hr := parseCharRef_val (Sat.wrapPost hr)
        ⟨v, hr.1, hr.2, rfl⟩
      have hcb : Sat L (Helium.cb H (.characters (encodeRune v))) := Sat.cbi hQ trivial (by intro _ _ h; cases h) (Or.inr hv) trivial
      exact post_mono (hcb s') (fun _ h => L.trans (L.quiet h1) h)
        (fun _ _ h => L.transX (L.quiet h1) h)
    | err e s' => rw [hr] at h1; exact L.xquiet (L.fail h1.2) h1.1
    | panic => trivial
    | diverge => trivial
  · intro s hI
    have h1 := (Sat.parseEntityRef E hQ).wrap s
    simp only [Bind.bind, M.bind]
    cases hr : M.wrap (Helium.parseEntityRef E H) s with
    | ok e s' =>
      rw [hr] at h1
      have hr := Sat.wrapPost hr
      have hI' := F.inv h1 hI
      have hm : ∀ {o : Out (St σ) Unit}, post o (L.R s') (L.X s') → post o (L.R s) (L.X s) := fun h =>
        post_mono h (fun _ h => L.trans h1 h) (fun _ _ h => L.transX h1 h)
      simp only [M.get]
      by_cases hn : e.name s'.hc.heap = [] ∨ e.typ s'.hc.heap = 6
      · refine hm ?_
        simp only [hn, if_true]
        by_cases hc2 : e.content s'.hc.heap = []
        · simp only [hc2, if_true]; exact L.quiet (Quiet.refl _)
        · simp only [hc2, if_false]; exact Sat.cb (ent s e s' hI hr hn hc2) s'
      · simp only [hn, if_false]
        cases e with
        | pre p => exact hm (L.quiet (Quiet.refl _))
        | ptr i =>
          simp only
          split
          · split
            · exact hc _ _ _ hI hr _
            · exact hm (Silent.sat (Silent.raw _) L s')
          · exact hm (Silent.sat (Silent.raw _) L s')
    | err e s' => rw [hr] at h1; exact h1
    | panic => trivial
    | diverge => trivial

theorem SatI.tr_reference {body : P σ Unit} (hb : SatI (TR σ tf dn) Inz body) (hbl : Sat (BL (treeBuilder tf)) body) :
    SatI (TR σ tf dn) Inz (Helium.parseReference E (treeBuilder tf) body) := by
  refine SatI.parseReferenceS E TR_frame (fun s e s' _ _ _ _ => trivial) (fun s i s' hz hp c => ?_)
  cases hr : (do
      Helium.parseChunk E body c
      let s ← M.get
      cbRaw (treeBuilder tf) (.reference (s.hc.heap.at' i).name) : P σ Unit) s' with
  | ok a t =>
    simp only [bind_ok, get_ok] at hr
    obtain ⟨_, t1, r1, t2, t3, ⟨rfl, rfl⟩, r2⟩ := hr
    obtain ⟨name, o1, p1, p2, p3, p4, d, p5, p6⟩ := entityRef_ptr E hp hz
    obtain ⟨e1, e2, mid, e3, e4, e5⟩ := tr_chunk E hb c r1
    have hneu : ∀ st, nest st (mid.map (·.1)) = some st := by
      have := SatI.parseChunk E (BL_flat (H := treeBuilder tf) E) hbl.satI c s' trivial
      rw [r1] at this
      obtain ⟨_, m, hm, hn⟩ := this
      obtain rfl : m = mid := List.append_cancel_left (hm.symm.trans e3)
      exact hn
    have ht : t = cbSt (treeBuilder tf) (.reference (t3.hc.heap.at' i).name) t3 ∧ (cbRes (treeBuilder tf) (.reference (t3.hc.heap.at' i).name) t3 ∈ [HOut.ok, .unspecified] ∨
        ∃ e, cbRes (treeBuilder tf) (.reference (t3.hc.heap.at' i).name) t3 = .ent e) := by
      unfold cbRaw callback at r2
      simp only [Bind.bind, M.bind] at r2
      unfold cbSt cbRes
      cases hx : (treeBuilder tf t3.view (.reference (t3.hc.heap.at' i).name) t3.hc).1 <;>
        simp only [hx, Pure.pure, M.pure, M.fail, M.panic, M.diverge] at r2 <;> cases r2 <;> simp [hx]
    obtain ⟨rfl, hres⟩ := ht
    generalize (t3.hc.heap.at' i).name = rn at hres r2 ⊢
    have hvis : ∀ {vis}, Visible (mid.map (·.1)) vis → Visible ((((Ev.getEntity name, o1) :: mid) ++ [(Ev.reference rn, cbRes (treeBuilder tf) (.reference rn) t3)]).map (·.1))
        [.getEntity name, .reference rn] := by
      intro vis hv
      have := Visible.expand (m := name) (n := rn) hv hneu (fun n e u hm => by
        obtain ⟨x, hx, he⟩ := List.mem_map.1 hm
        have := e4 x hx
        rw [he] at this
        cases this) .nil
      simpa using this
    refine ⟨e1.trans p3, ((.getEntity name, o1) :: mid) ++ [(Ev.reference rn, cbRes (treeBuilder tf) (.reference rn) t3)], ?_, ?_, fun h => absurd hz h, ?_, ?_⟩
    · show t3.trace ++ _ = _
      rw [e3, p1]
      simp [cbRes]
    · intro x hx
      rcases List.mem_append.1 hx with h | h
      · rcases List.mem_cons.1 h with rfl | h
        · rfl
        · exact e4 x h
      · rw [List.mem_singleton] at h; rw [h]; rfl
    · intro st ds o _ I
      obtain ⟨I1, I2, I3⟩ := I
      have hI1 := I1
      obtain ⟨a, fs, i1, R, T, i5, i6, Z, D, i9⟩ := I1
      have hdl : dn < s.hc.heap.size := by rw [R.size]; exact R.bound _ Z.doc
      obtain rfl : d = dn := by rw [i1] at p5; exact (Option.some.inj p5).symm
      rw [p2] at e5
      obtain ⟨d1, ⟨vis, v1⟩, u, h', G, hc⟩ := e5 i1 T hdl Z.docKind
      have S := chunk_soft G
      have I4 : TInv t3.hc d st ds := by
        rw [hc]
        obtain ⟨b, gs, j1, j2, j3, j4, j5, j6, j7, j8⟩ := hI1.soft S
        exact ⟨b, gs, rfl, j2, j3, j4, j5, j6, j7, j8⟩
      obtain ⟨k1, k2, k3⟩ := tbReference_inv I4 (tbOut_ok (p := tbReference rn) hres)
      refine ⟨fun ho => ?_, [.getEntity name, .reference rn], st.add (.ref rn) .nil, hvis v1, ?_, ?_, ?_, ?_⟩
      · have : docGetEntity s.hc.heap d name = none := by
          unfold docGetEntity
          rw [I3.trans ho, i9]
        rw [this] at p6
        cases p6
      · show Option.bind (some st) _ = _
        show (st.step (.reference rn)).bind _ = _
        cases hi : st.inner with
        | nil => exact absurd hi k1
        | cons y r => simp only [Partial.step, hi]; rfl
      · rw [show ds ++ ((((Ev.getEntity name, o1) :: mid) ++ [(Ev.reference rn, cbRes (treeBuilder tf) (.reference rn) t3)]).map (·.1)).filter isDecl = ds by
          have : (mid.map (·.1)).filter isDecl = [] := by
            rw [List.filter_eq_nil_iff]
            intro ev hev
            obtain ⟨x, hx, rfl⟩ := List.mem_map.1 hev
            simp [d1 x hx]
          simp [isDecl, this]]
        exact k2
      · have hm : Marked s.attsDefault t3.hc.heap := by
          rw [hc]
          refine I2.grows ⟨S.size, fun j hj hd => ?_⟩
          have := congrArg Node.isDefault (S.data j hj)
          exact this.trans hd
        show Marked t3.attsDefault _
        rw [e2, p4]
        exact hm.grows (treeBuilder_tabs tf t3.view (.reference rn) t3.hc).grows
      · refine (info_subsets k3).1.trans ?_
        rw [hc]
        exact (winfo_eq (S.data d hdl)).2.2.2.2.1.trans I3
    · intro _ O r G
      obtain rfl : d = dn := by have := G.doc; rw [p5] at this; exact Option.some.inj this
      rw [p2] at e5
      obtain ⟨d1, ⟨vis, v1⟩, u, h', G', hc⟩ := e5 G.doc G.heap.tab G.heap.dlth G.heap.dnk
      have S := chunk_soft G'
      have G3 : Reg O d r t3.hc := by
        rw [hc]
        refine ⟨rfl, chunk_nest G.heap G', fun e he => ?_⟩
        obtain ⟨g1, g2, g3, g4⟩ := G.elem e he
        exact ⟨g1, Nat.lt_of_lt_of_le g2 S.size, (S.link e g2).kind.trans g3, g4⟩
      obtain ⟨g, _⟩ := tb_reg (tf := tf) (v := t3.view) (ev := .reference rn) G3 (e1.trans (p3.trans hz)) (Or.inr (Or.inr ⟨rn, rfl⟩))
        (hres.elim Or.inl (fun h => Or.inr (Or.inl h)))
      refine ⟨g, fun x hx => ?_, _, hvis v1⟩
      rcases List.mem_append.1 hx with h | h
      · rcases List.mem_cons.1 h with rfl | h
        · rfl
        · exact d1 x h
      · rw [List.mem_singleton] at h; rw [h]; rfl
  | err e t => trivial
  | panic => trivial
  | diverge => trivial

theorem SatI.tr_content (fuel : Nat) : SatI (TR σ tf dn) Inz (Helium.parseContent E (treeBuilder tf) fuel) := by
  have F : Frame (TR σ tf dn) Inz := TR_frame
  induction fuel with
  | zero => exact fun s _ => trivial
  | succ n ih =>
    unfold Helium.parseContent
    refine SatI.bind F (Sat.satI (Silent.sat Silent.isDone _)) (fun c => ?_)
    split
    · exact Sat.satI (Silent.sat (Silent.pure _) _)
    refine SatI.bind F (Sat.satI (Silent.sat (Silent.hasPrefix _) _)) (fun c => ?_)
    split
    · exact Sat.satI (Silent.sat (Silent.pure _) _)
    exact SatI.bind F (SatI.contentStep E F (SatI.tr_reference E ih (BL_content E n)) (SatI.tr_element E ih)) (fun _ => ih)

theorem SatI.tr_tail (fuel : Nat) : SatI (TR σ tf dn) Inz (Helium.parseTailBody E (treeBuilder tf) fuel) := by
  have F : Frame (TR σ tf dn) Inz := TR_frame
  unfold Helium.parseTailBody
  refine SatI.bind F (Sat.satI (Silent.sat Silent.skipBlanks _)) (fun _ => ?_)
  refine SatI.bind F (Sat.satI (Silent.sat (Silent.peek E) _)) (fun _ => ?_)
  refine SatI.bind F (Sat.satI (Silent.sat (Silent.need _ _) _)) (fun _ => ?_)
  refine SatI.bind F (SatI.wrap (SatI.tr_element E (SatI.tr_content E fuel))) (fun _ => ?_)
  refine SatI.bind F (Sat.satI (Sat.wrap (Sat.parseMisc E F.admits))) (fun _ => ?_)
  refine SatI.bind F (Sat.satI (Silent.sat Silent.isDone _)) (fun _ => ?_)
  exact Sat.satI (Silent.sat (Silent.need _ _) _)

end
end Helium
