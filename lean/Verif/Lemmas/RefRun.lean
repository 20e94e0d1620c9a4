import Verif.Lemmas.SourceContent
import Verif.Lemmas.Expand
import Verif.Lemmas.DtdDoc
import Verif.Spec.Refs
/-! Running the parser on content with references to declared entities. -/
namespace Helium
open Spec

/-! ### the document a replacement text is read into -/

theorem Spec.Grown.refl (h : Heap) : Grown h h := ⟨Nat.le_refl _, fun _ _ => rfl⟩

theorem Spec.Grown.trans {a b c : Heap} (h1 : Grown a b) (h2 : Grown b c) : Grown a c :=
  ⟨Nat.le_trans h1.1 h2.1, fun i hi => (h2.2 i (Nat.lt_of_lt_of_le hi h1.1)).trans (h1.2 i hi)⟩

theorem Spec.Grown.alloc (h : Heap) (x : Node) : Grown h (h.alloc x) :=
  ⟨Nat.le_succ _, fun i hi => by simp [Heap.alloc]; omega⟩

section
variable {σ : Type}

/-- the heap in which replacement text is read. -/
def chunkHeap (h : Heap) (d : Nat) : Heap :=
  (((((h.upd d (fun x => { x with first := none, last := none })).alloc (mkElement (some d) b!"pseudoroot")).upd d
    (fun x => { x with first := some h.size })).upd d (fun x => { x with last := some h.size })).upd h.size (fun x => { x with parent := some d }))

theorem attempt_done {S α : Type} {p : M S α} {s s' : S} {a : α} (h : p s = .ok a s') : M.attempt p s = .ok (.ok a) s' := by
  unfold M.attempt
  rw [h]

theorem nodeAddChild_doc {g : Heap} {d r : Nat} (hk : (g.at' d).kind = .doc) (hl : (g.at' d).last = none) :
    nodeAddChild d r g = .ok () (((g.upd d (fun x => { x with first := some r })).upd d (fun x => { x with last := some r })).upd r
      (fun x => { x with parent := some d })) := by
  simp only [nodeAddChild, Bind.bind, M.bind, node, hk, addChild, hl]
  rfl

theorem chunkHeap_run {h : Heap} {d : Nat} (hd : d < h.size) (hk : (h.at' d).kind = .doc) :
    (do let root ← newNode (mkElement (some d) b!"pseudoroot")
        let _ ← M.attempt (nodeAddChild d root)
        pure () : HM Unit) (h.upd d (fun x => { x with first := none, last := none })) = .ok () (chunkHeap h d) := by
  have hne : d ≠ h.size := Nat.ne_of_lt hd
  have e1 : ((h.upd d (fun x => { x with first := none, last := none })).alloc (mkElement (some d) b!"pseudoroot")).at' d =
      { h.at' d with first := none, last := none } := by
    simp [Heap.alloc, Heap.upd, Heap.put, hne]
  generalize hg : (h.upd d (fun x => { x with first := none, last := none })).alloc (mkElement (some d) b!"pseudoroot") = g at e1
  have e2 := nodeAddChild_doc (g := g) (d := d) (r := h.size) (by rw [e1]; exact hk) (by rw [e1])
  have e3 := attempt_done e2
  have e4 : newNode (mkElement (some d) b!"pseudoroot") (h.upd d (fun x => { x with first := none, last := none })) = .ok h.size g := by
    rw [← hg]; rfl
  show M.bind _ _ _ = _
  unfold M.bind
  rw [e4]
  show M.bind _ _ _ = _
  unfold M.bind
  rw [e3]
  unfold chunkHeap
  rw [hg]
  rfl

theorem chunkHeap_spec {h : Heap} {d : Nat} (hd : d < h.size) :
    (chunkHeap h d).size = h.size + 1 ∧ ((chunkHeap h d).at' d).first = some h.size ∧ ((chunkHeap h d).at' h.size).first = none ∧
      ((chunkHeap h d).at' d).kind = (h.at' d).kind ∧
      (∀ i, i < h.size → i ≠ d → (chunkHeap h d).at' i = h.at' i) ∧
      { (chunkHeap h d).at' d with first := (h.at' d).first, last := (h.at' d).last } = h.at' d := by
  have hne : d ≠ h.size := Nat.ne_of_lt hd
  have hne' : h.size ≠ d := Ne.symm hne
  refine ⟨rfl, ?_, ?_, ?_, ?_, ?_⟩
  · simp [chunkHeap, Heap.alloc, Heap.upd, Heap.put, hne, hne']
  · simp [chunkHeap, Heap.alloc, Heap.upd, Heap.put, hne, hne', mkElement]
  · simp [chunkHeap, Heap.alloc, Heap.upd, Heap.put, hne, hne']
  · intro i hi hid
    have : i ≠ h.size := Nat.ne_of_lt hi
    simp [chunkHeap, Heap.alloc, Heap.upd, Heap.put, hid, this]
  · simp [chunkHeap, Heap.alloc, Heap.upd, Heap.put, hne, hne']

/-- the heap after reading: the document has its children back. -/
theorem chunkHeap_back {h h' : Heap} {d : Nat} (hd : d < h.size) (hg : Grown (chunkHeap h d) h') :
    Grown h (h'.upd d (fun x => { x with first := (h.at' d).first, last := (h.at' d).last })) := by
  obtain ⟨s1, _, _, _, s5, s6⟩ := chunkHeap_spec hd
  refine ⟨?_, fun i hi => ?_⟩
  · have := hg.1
    rw [s1] at this
    show h.size ≤ h'.size
    omega
  · have h1 := hg.2 i (by omega)
    by_cases hid : i = d
    · subst hid
      simp only [Heap.upd, Heap.put, if_true, h1]
      exact s6
    · simp only [Heap.upd, Heap.put, if_neg hid, h1]
      exact s5 i hi hid

/-! ### states of the handler -/

variable {E : Env} {H : Handler σ} {I : List (Bytes × Bytes) → σ → Prop}

/-- the handler knows the entities `m`, the nodes of `h0` are untouched, and so is the document. -/
def Knowing (I : List (Bytes × Bytes) → σ → Prop) (m : List (Bytes × Bytes)) (h0 : Heap) (d0 : Option Nat) (c : HC σ) : Prop :=
  I m c.usr ∧ Grown h0 c.heap ∧ (∀ d, d0 = some d → c.doc = some d) ∧ ∀ d, c.doc = some d → d < c.heap.size ∧ (c.heap.at' d).kind = .doc

theorem Knowing.step {m : List (Bytes × Bytes)} {h0 : Heap} {d0 : Option Nat} (K : Remembers H I) {c : HC σ} (h : Knowing I m h0 d0 c) (v : HV) (ev : Ev)
    (he : ∀ n x, ev ≠ .entityDecl n 1 [] [] x) : Knowing I m h0 d0 (H v ev c).2 := by
  obtain ⟨a1, a2, a3, a4⟩ := h
  obtain ⟨b1, b2⟩ := K.room v ev c
  refine ⟨K.stays a1 (fun n x hx => absurd hx (he n x)), a2.trans b1, fun d hd => b2.trans (a3 d hd), fun d hd => ?_⟩
  obtain ⟨c1, c2⟩ := a4 d (b2.symm.trans hd)
  exact ⟨Nat.lt_of_lt_of_le c1 b1.1, by rw [b1.2 d c1]; exact c2⟩

/-- such a handler takes what a document may bring. -/
theorem Spec.Remembers.willing (K : Remembers H I) (B : Nat) (D : HV) (m : List (Bytes × Bytes)) (h0 : Heap) (d0 : Option Nat) :
    Willing B D H (Knowing I m h0 d0) (fun _ => Knowing I m h0 d0) where
  locator := fun h => ⟨takes_took K.takes (by simp) _ _, h.step K _ _ (by simp)⟩
  startDoc := fun h => ⟨takes_took K.takes (by simp) _ _, h.step K _ _ (by simp)⟩
  endDoc := fun h => ⟨takes_took K.takes (by simp) _ _, h.step K _ _ (by simp)⟩
  start := fun _ h _ _ => ⟨takes_took K.takes (by simp) _ _, h.step K _ _ (by simp)⟩
  stop := fun _ h => ⟨takes_took K.takes (by simp) _ _, h.step K _ _ (by simp)⟩
  comment := fun _ h => ⟨takes_took K.takes (by simp) _ _, h.step K _ _ (by simp)⟩
  pi := fun _ h => ⟨takes_took K.takes (by simp) _ _, h.step K _ _ (by simp)⟩
  text := fun _ h => ⟨takes_took K.takes (by simp) _ _, h.step K _ _ (by simp)⟩
  blank := fun _ h => ⟨takes_took K.takes (by simp) _ _, h.step K _ _ (by simp)⟩
  cdata := fun _ h => ⟨takes_took K.takes (by simp) _ _, h.step K _ _ (by simp)⟩

theorem Spec.Remembers.supplied (K : Remembers H I) (E : Env) (B : Nat) (m : List (Bytes × Bytes)) (h0 : Heap) (d0 : Option Nat) :
    Supplied B H (fun _ => Knowing I m h0 d0) (defaultAttrs E []) := by
  intro n v c l p u as ds h1 h2 h3 h4
  exact (K.willing B ⟨[], [], 0, 0⟩ m h0 d0).supplied (E := E) (n := n) h1 h2 h3 h4

/-- from `s` the parser went to `s'` by reporting `evs`, and the handler is still in order. -/
def Passed (G : HC σ → Prop) (w : List Nat) (ns : List (Bytes × Bytes)) (nodes : List EInfo) (evs : List Ev) (s s' : St σ) : Prop :=
  ∃ tr hc, s' = { s with cur := w, ns := ns, nodes := nodes, hc := hc, trace := s.trace ++ tr } ∧ tr.map (fun x => plainEv x.1) = evs ∧ G hc

theorem Went.passed {G : HC σ → Prop} {n : Nat} {w : List Nat} {ns : List (Bytes × Bytes)} {k : List EInfo} {evs : List Ev} {s s' : St σ}
    (h : Went (fun _ => G) n w ns k evs s s') : Passed G w ns k evs s s' := by
  obtain ⟨tr, hc, h1, h2, _, h3⟩ := h
  exact ⟨tr, hc, h1, h2, h3⟩

theorem Passed.trans {G : HC σ → Prop} {w1 w2 : List Nat} {ns1 ns2 : List (Bytes × Bytes)} {k1 k2 : List EInfo} {e1 e2 : List Ev} {s s1 s2 : St σ}
    (h1 : Passed G w1 ns1 k1 e1 s s1) (h2 : Passed G w2 ns2 k2 e2 s1 s2) : Passed G w2 ns2 k2 (e1 ++ e2) s s2 := by
  obtain ⟨t1, c1, rfl, rfl, _⟩ := h1
  obtain ⟨t2, c2, rfl, rfl, g2⟩ := h2
  exact ⟨t1 ++ t2, c2, by simp, by simp, g2⟩

theorem Worded.nothing (ev : Ev) : Worded (tokOf []) ev := by
  cases ev with
  | startElement l p u ns as => exact ⟨fun _ _ _ _ h => by simp [tokOf, mapGet] at h, fun _ _ _ => by simp [tokOf, mapGet]⟩
  | _ => trivial

/-- a reference to an entity of the table is read: the lookup, the replacement text, the notice. -/
theorem reference_run (K : Remembers H I) {m : List (Bytes × Bytes)} {h0 : Heap} {d0 : Option Nat} {n x r : List Nat} {xevs : List Ev} {u : List (Bytes × Bytes)}
    {body : P σ Unit} (hn : Name E n) (hp : encodeRunes n ∉ [b!"lt", b!"gt", b!"amp", b!"apos", b!"quot"]) (hm : (encodeRunes n, encodeRunes x) ∈ m)
    (hx : ∀ c ∈ x, Legal c) (s : St σ) (hs : s.cur = 38 :: (n ++ 59 :: r)) (hdf : s.attsDefault = []) (hd : s.depth + 2 ≤ 40) (hg : Knowing I m h0 d0 s.hc)
    (hb : ∀ (h1 : Heap) (d1 : Option Nat) (s1 : St σ), s1.cur = x → s1.ns = [] → s1.inSubset = 0 → s1.attsSpecial = [] → s1.attsDefault = [] →
      s1.depth = s.depth + 2 → Knowing I m h1 d1 s1.hc → ∃ s2, body s1 = .ok () s2 ∧ Passed (Knowing I m h1 d1) [] u s1.nodes xevs s1 s2) :
    ∃ s', parseReference E H body s = .ok () s' ∧
      Passed (Knowing I m h0 d0) r s.ns s.nodes (.getEntity (encodeRunes n) :: (xevs ++ [.reference (encodeRunes n)])) s s' := by
  obtain ⟨i, k1, k2, k3, k4, k5, k6⟩ := K.knows (v := s.view) hg.1 hm
  have hg1 := hg.step K s.view (.getEntity (encodeRunes n)) (by simp)
  generalize hc' : (H s.view (.getEntity (encodeRunes n)) s.hc).2 = c' at *
  have h1 : H s.view (.getEntity (encodeRunes n)) s.hc = (.ent (some (.ptr i)), c') := by rw [← k1, ← hc']
  have hne : encodeRunes n ≠ [] := by
    obtain ⟨y, t, rfl, _⟩ := hn.start
    exact encodeRunes_ne (by simp)
  have h35 : (n ++ 59 :: r).getD 0 E.eof ≠ 35 := by
    obtain ⟨y, t, rfl, hy⟩ := hn.start
    rw [List.cons_append, List.getD_cons_zero]
    rintro rfl
    rcases hy with hy | hy | hy
    · rw [E.letter_ascii 35 (by decide)] at hy; simp at hy
    · cases hy
    · cases hy
  unfold parseReference
  run
  rw [hs, need_bind (by rfl)]
  run
  rw [hs]
  have h35' : ¬ (38 :: (n ++ 59 :: r)).getD (2 - 1) E.eof = 35 := h35
  rw [if_neg h35']
  rw [bind_run (wrap_run (parseEntityRef_answered E hn (resolvePredef_none hp) hs h1))]
  run
  have hcond : ¬ ((ERef.ptr i).name c'.heap = [] ∨ (ERef.ptr i).typ c'.heap = 6) := by
    simp only [ERef.name, ERef.typ, k3, k4]
    simp [hne]
  rw [if_neg hcond, if_pos ⟨k5, by rw [k4]; decide⟩, if_pos k4]
  generalize hs2 : ({ s with cur := r, hc := c', trace := s.trace ++ [(.getEntity (encodeRunes n), .ent (some (.ptr i)))] } : St σ) = s2
  have e1 : s2.hc = c' := by rw [← hs2]
  have e2 : s2.depth = s.depth := by rw [← hs2]
  have e3 : s2.attsDefault = [] := by rw [← hs2]; exact hdf
  have hdh : ∃ d h, chunkDoc s2 = (d, h) ∧ Grown c'.heap h ∧ d < h.size ∧ (h.at' d).kind = .doc ∧ (∀ e, d0 = some e → d = e) := by
    unfold chunkDoc
    rw [e1]
    cases hdoc : c'.doc with
    | none =>
      refine ⟨_, _, rfl, .alloc _ _, Nat.lt_succ_self _, by simp [Heap.alloc, mkDoc], fun e he => ?_⟩
      have := hg1.2.2.1 e he
      rw [hdoc] at this
      cases this
    | some d =>
      obtain ⟨p1, p2⟩ := hg1.2.2.2 d hdoc
      refine ⟨_, _, rfl, .refl _, p1, p2, fun e he => ?_⟩
      have := hg1.2.2.1 e he
      rw [hdoc] at this
      exact Option.some.inj this
  obtain ⟨d, h, q1, q2, q3, q4, q5⟩ := hdh
  obtain ⟨z1, z2, z3, z4, z5, z6⟩ := chunkHeap_spec q3
  have hdec : E.decode .utf8 (c'.heap.at' i).content = x := by
    rw [k6]
    exact E.decode_utf8 _ (fun c hc => (hx c hc).scalar)
  obtain ⟨s3, b1, tr3, hc3, rfl, b3, b4⟩ := hb (chunkHeap h d) (some d) (chunkSt s2 d (chunkHeap h d) x) rfl rfl rfl rfl e3 (by rw [← e2]; rfl)
    ⟨by show I m s2.hc.usr; rw [e1]; exact hg1.1, .refl _, fun _ he => he, fun e he => by
      cases he
      exact ⟨by rw [show (chunkSt s2 d (chunkHeap h d) x).hc.heap = chunkHeap h d from rfl, z1]; omega,
        by rw [show (chunkSt s2 d (chunkHeap h d) x).hc.heap = chunkHeap h d from rfl, z4]; exact q4⟩⟩
  obtain ⟨c1, c2, c3, c4⟩ := b4
  have had : ∀ t : St σ, t.hc = hc3 → chunkAdopt d t = .ok () t := by
    intro t ht
    unfold chunkAdopt
    run
    rw [ht, c3 d rfl]
    run
    rw [c2.2 d (by omega), z2]
    simp only []
    rw [c2.2 h.size (by omega), z3]
    cases hc3.heap.size <;> rfl
  have hchunk : parseChunk E body (c'.heap.at' i).content s2 = .ok () (chunkBack s2 d (h.at' d).first (h.at' d).last
      { chunkSt s2 d (chunkHeap h d) x with cur := [], ns := u, hc := hc3, trace := s2.trace ++ tr3 }) := by
    unfold parseChunk
    rw [if_neg (by omega)]
    simp only [q1, hdec]
    rw [chunkHeap_run q3 q4]
    simp only []
    rw [bind_run b1, had _ rfl]
    rfl
  rw [bind_run hchunk]
  run
  have hfin := chunkHeap_back q3 c2
  have hni : ((hc3.heap.upd d (fun x => { x with first := (h.at' d).first, last := (h.at' d).last })).at' i).name = encodeRunes n := by
    rw [(q2.trans hfin).2 i k2, k3]
  have hg4 : Knowing I m h0 d0 ⟨hc3.usr, hc3.heap.upd d (fun x => { x with first := (h.at' d).first, last := (h.at' d).last }), some d, s2.hc.elem⟩ := by
    refine ⟨c1, (hg1.2.1.trans q2).trans hfin, fun e he => by rw [q5 e he], fun e he => ?_⟩
    cases he
    exact ⟨Nat.lt_of_lt_of_le q3 hfin.1, by rw [hfin.2 d q3]; exact q4⟩
  have hname : ((chunkBack s2 d (h.at' d).first (h.at' d).last
      { chunkSt s2 d (chunkHeap h d) x with cur := [], ns := u, hc := hc3, trace := s2.trace ++ tr3 }).hc.heap.at' i).name = encodeRunes n := hni
  rw [hname]
  generalize hs5 : chunkBack s2 d (h.at' d).first (h.at' d).last
      { chunkSt s2 d (chunkHeap h d) x with cur := [], ns := u, hc := hc3, trace := s2.trace ++ tr3 } = s5
  have hs5c : s5.hc = ⟨hc3.usr, hc3.heap.upd d (fun x => { x with first := (h.at' d).first, last := (h.at' d).last }), some d, s2.hc.elem⟩ := by rw [← hs5]; rfl
  have ht := takes_took K.takes (ev := .reference (encodeRunes n)) (by simp) s5.view s5.hc
  refine ⟨cbSt H (.reference (encodeRunes n)) s5, ?_, ?_⟩
  · unfold cbRaw callback
    rcases ht with h1 | h1 <;> simp only [Bind.bind, M.bind, h1] <;> simp [cbSt, h1, Pure.pure, M.pure]
  · refine ⟨(.getEntity (encodeRunes n), .ent (some (.ptr i))) :: (tr3 ++ [(.reference (encodeRunes n), (H s5.view (.reference (encodeRunes n)) s5.hc).1)]), _, ?_, ?_,
      (hs5c ▸ hg4 : Knowing I m h0 d0 s5.hc).step K s5.view (.reference (encodeRunes n)) (by simp)⟩
    · rw [← hs5, ← hs2]
      simp [cbSt, chunkBack]
    · simp only [List.map_cons, List.map_append, List.map_nil, b3]
      rfl

/-- the parser on an element, and on the content of an element, with references nested at most `k` deep. -/
def RefRuns (E : Env) (H : Handler σ) (I : List (Bytes × Bytes) → σ → Prop) (m : List (Bytes × Bytes)) (k : Nat) (elem : Bool) (scope used : List (Bytes × Bytes))
    (t : List Nat) (evs : List Ev) (used' : List (Bytes × Bytes)) : Prop :=
  (NsOK used → (∀ x ∈ scope, x ∈ used) → NsOK used' ∧ ∀ x ∈ used, x ∈ used') ∧
  ∃ N, ∀ (fuel : Nat) (h0 : Heap) (d0 : Option Nat) (w : List Nat) (s : St σ), N ≤ fuel → s.cur = t ++ w → s.ns = used → NsOK used →
    (∀ x ∈ scope, x ∈ used) → s.inSubset = 0 → s.attsSpecial = [] → s.attsDefault = [] → s.depth + 2 * k ≤ 40 → Knowing I m h0 d0 s.hc →
    (elem = false → w = [] ∨ ∃ r, w = b!"</" ++ r) →
    ∃ s', (if elem then parseElementW E H (parseContent E H fuel) else parseContent E H fuel) s = .ok () s' ∧
      Passed (Knowing I m h0 d0) w used' s.nodes evs s s'

theorem reads_cons {m : List (Bytes × Bytes)} {k : Nat} {scope used used1 used2 : List (Bytes × Bytes)} {t r : List Nat} {evs evs' : List Ev}
    (hne : t ≠ []) (h1 : ∀ w, (b!"</").isPrefixOf (t ++ (r ++ w)) = false) (ih : RefRuns E H I m k false scope used1 r evs' used2)
    (hu1 : NsOK used → (∀ x ∈ scope, x ∈ used) → NsOK used1 ∧ ∀ x ∈ used, x ∈ used1)
    (h2 : ∃ N, ∀ (fuel : Nat) (h0 : Heap) (d0 : Option Nat) (w : List Nat) (s : St σ), N ≤ fuel → s.cur = t ++ (r ++ w) → s.ns = used → NsOK used →
      (∀ x ∈ scope, x ∈ used) → s.inSubset = 0 → s.attsSpecial = [] → s.attsDefault = [] → s.depth + 2 * k ≤ 40 → Knowing I m h0 d0 s.hc →
      (w = [] ∨ ∃ r, w = b!"</" ++ r) →
      ∃ s', contentStep E H (parseContent E H fuel) s = .ok () s' ∧ Passed (Knowing I m h0 d0) (r ++ w) used1 s.nodes evs s s') :
    RefRuns E H I m k false scope used (t ++ r) (evs ++ evs') used2 := by
  obtain ⟨N1, h2⟩ := h2
  obtain ⟨hn, N2, ih⟩ := ih
  refine ⟨fun hu hsc => ?_, N1 + N2 + 1, ?_⟩
  · obtain ⟨a1, a2⟩ := hu1 hu hsc
    obtain ⟨b1, b2⟩ := hn a1 (fun x hx => a2 x (hsc x hx))
    exact ⟨b1, fun x hx => b2 x (a2 x hx)⟩
  · intro fuel h0 d0 w s hf hs hns hu hsc hi hsp hdf hd hg hw
    cases fuel with
    | zero => omega
    | succ fuel =>
      obtain ⟨a1, a2⟩ := hu1 hu hsc
      obtain ⟨s1, e1, w1⟩ := h2 fuel h0 d0 w s (by omega) (by rw [hs]; simp) hns hu hsc hi hsp hdf hd hg (hw rfl)
      obtain ⟨tr, hc, hs1, _, hg1⟩ := id w1
      obtain ⟨s2, e2, w2⟩ := ih fuel h0 d0 w s1 (by omega) (by rw [hs1]) (by rw [hs1]) a1 (fun x hx => a2 x (hsc x hx)) (by rw [hs1]; exact hi)
        (by rw [hs1]; exact hsp) (by rw [hs1]; exact hdf) (by rw [hs1]; exact hd) (by rw [hs1]; exact hg1) hw
      simp only [Bool.false_eq_true, if_false] at e2 ⊢
      refine ⟨s2, ?_, ?_⟩
      · rw [content_step (by rw [hs]; simp [hne]) (by rw [hs, List.append_assoc]; exact h1 w) e1]
        exact e2
      · have h3 : s1.nodes = s.nodes := by rw [hs1]
        rw [h3] at w2
        exact w1.trans w2

theorem refsrc_elem_head {ents : List (Bytes × Bytes)} {k : Nat} {elem : Bool} {scope used used' : List (Bytes × Bytes)} {t : List Nat} {evs : List Ev}
    (h : RefSrc E false ents k elem scope used t evs used') (he : elem = true) : ∃ c t', t = 60 :: c :: t' ∧ c ≠ 47 ∧ c ≠ 63 ∧ c ≠ 33 := by
  cases h with
  | empty hn ha hd hb => exact src_elem_head (Src.empty hn ha hd hb) rfl
  | @full k scope used n p l a as ds u x evs used' hn ha hd hb =>
    obtain ⟨c, t, h1, h2⟩ := src_elem_head (Src.empty hn ha hd hb) rfl
    obtain ⟨c', t', rfl⟩ : ∃ c t, n = c :: t := by
      cases n with
      | nil =>
        obtain ⟨hl, ⟨rfl, rfl⟩ | ⟨hp, hx⟩⟩ := hn
        · obtain ⟨_, _, h, _⟩ := hl.start; cases h
        · cases p <;> cases hx
      | cons c t => exact ⟨c, t, rfl⟩
    simp at h1
    obtain ⟨rfl, _⟩ := h1
    exact ⟨_, _, rfl, h2⟩
  | _ => cases he

theorem refsrc_run (K : Remembers H I) {ents : List (Bytes × Bytes)} {k : Nat} {elem : Bool} {scope used used' : List (Bytes × Bytes)} {t : List Nat} {evs : List Ev}
    (h : RefSrc E false ents k elem scope used t evs used') : RefRuns E H I ents k elem scope used t evs used' := by
  have key : ∀ {used : List (Bytes × Bytes)} {scope : List (Bytes × Bytes)}, NsOK used → (∀ x ∈ scope, x ∈ used) → NsOK used ∧ ∀ x ∈ used, x ∈ used :=
    fun hu _ => ⟨hu, fun x hx => hx⟩
  have lt : ∀ {s : St σ} {r : List Nat} (l : List Nat), s.cur = 38 :: r → (60 :: l).isPrefixOf s.cur = false := by
    intro s r l hs
    rw [hs]
    simp [List.isPrefixOf]
  have amp : ∀ {s s' : St σ} {r : List Nat} {body : P σ Unit}, s.cur = 38 :: r → parseReference E H body s = .ok () s' → contentStep E H body s = .ok () s' := by
    intro s s' r body hs h
    have p4 : (b!"&").isPrefixOf s.cur = true := by rw [hs]; rfl
    unfold contentStep
    run
    simp only [lt _ hs, p4, Bool.false_eq_true, if_false, if_true]
    exact wrap_run h
  induction h with
  | @empty k scope used n p l a as ds u hn ha hd hb =>
    refine ⟨fun hu _ => ⟨atts_ns E ha hu, fun x hx => List.mem_append.2 (Or.inl hx)⟩, 0, ?_⟩
    intro fuel h0 d0 w s _ hs hns hu hsc hi hsp hdf _ hg _
    simp only [if_true]
    let B := (encodeRunes a).length + 2
    have W := K.willing B ⟨[], [], 0, 0⟩ ents h0 d0
    obtain ⟨s1, e1, w1⟩ := startTag_went (G := fun _ => Knowing I ents h0 d0) (n := 0) (E := E) (@Remembers.supplied σ H I K E B ents h0 d0) hn ha hd hb hsc hu (tail := b!"/>" ++ w) (out := b!"/>" ++ w) (Or.inr ⟨rfl, w, rfl⟩) s
      (by rw [hs]; simp) hns hsp hdf hi (Nat.lt_succ_self _) hg (Worded.nothing _)
    obtain ⟨tr, hc, hs1, _, _, hg1⟩ := id w1
    obtain ⟨s2, e2, w2⟩ := end_went (E := E) W (n := 0) (w := w) (x := ⟨encodeRunes l, encodeRunes p, u⟩) (ks := s.nodes) s1
      (parseEndTag_run_empty E H s1 (by rw [hs1]) (by rw [hs1])) (by rw [hs1]) (by rw [hs1]; exact hi) (by rw [hs1]; exact hg1)
    refine ⟨s2, ?_, ?_⟩
    · unfold parseElementW
      rw [bind_run (wrap_run e1)]
      run
      have : (b!"/>").isPrefixOf s1.cur = true := by rw [hs1]; rfl
      rw [this]
      simp only [if_true]
      exact (wrap_run e2)
    · have := (w1.trans w2).passed
      have h3 : s1.ns = used ++ ds := by rw [hs1]
      rw [h3, declared_none] at this
      exact this
  | @full k scope used n p l a as ds u x evs used' hn ha hd hb hk hsl ih =>
    obtain ⟨hns', N, ih⟩ := ih
    have hsc' : ∀ {scope used : List (Bytes × Bytes)}, (∀ x ∈ scope, x ∈ used) → ∀ x ∈ scope ++ ds, x ∈ used ++ ds := by
      intro scope used hsc x hx
      rcases List.mem_append.1 hx with hx | hx
      · exact List.mem_append.2 (Or.inl (hsc x hx))
      · exact List.mem_append.2 (Or.inr hx)
    refine ⟨fun hu hsc => ?_, N, ?_⟩
    · obtain ⟨a1, a2⟩ := hns' (atts_ns E ha hu) (hsc' hsc)
      exact ⟨a1, fun x hx => a2 x (List.mem_append.2 (Or.inl hx))⟩
    intro fuel h0 d0 w s hf hs hns hu hsc hi hsp hdf hdp hg _
    simp only [if_true]
    let B := (encodeRunes a).length + 2
    have W := K.willing B ⟨[], [], 0, 0⟩ ents h0 d0
    obtain ⟨s1, e1, w1⟩ := startTag_went (G := fun _ => Knowing I ents h0 d0) (n := 0) (E := E) (@Remembers.supplied σ H I K E B ents h0 d0) hn ha hd hb hsc hu (tail := 62 :: (x ++ (b!"</" ++ (n ++ 62 :: w)))) (out := x ++ (b!"</" ++ (n ++ 62 :: w))) (Or.inl rfl) s
      (by rw [hs]; simp) hns hsp hdf hi (Nat.lt_succ_self _) hg (Worded.nothing _)
    obtain ⟨tr, hc, hs1, _, _, hg1⟩ := id w1
    obtain ⟨s2, e2, w2⟩ := ih fuel h0 d0 (b!"</" ++ (n ++ 62 :: w)) s1 hf (by rw [hs1]) (by rw [hs1])
      (atts_ns E ha hu) (hsc' hsc) (by rw [hs1]; exact hi) (by rw [hs1]; exact hsp) (by rw [hs1]; exact hdf) (by rw [hs1]; exact hdp)
      (by rw [hs1]; exact hg1) (fun _ => Or.inr ⟨_, rfl⟩)
    obtain ⟨tr2, hc2, hs2, _, hg2⟩ := id w2
    have hk2 : s2.nodes = s.nodes ++ [⟨encodeRunes l, encodeRunes p, u⟩] := by rw [hs2, hs1]
    obtain ⟨s3, e3, w3⟩ := end_went (E := E) W (n := 0) (w := w) (x := ⟨encodeRunes l, encodeRunes p, u⟩) (ks := s.nodes) s2
      (parseEndTag_run E H hn s2 (by rw [hs2]) hk2) hk2 (by rw [hs2, hs1]; exact hi) (by rw [hs2]; exact hg2)
    refine ⟨s3, ?_, ?_⟩
    · unfold parseElementW
      rw [bind_run (wrap_run e1)]
      run
      have : (b!"/>").isPrefixOf s1.cur = false := by
        rw [hs1]
        match x, hsl with
        | [], _ => rfl
        | [c], _ => simp [List.isPrefixOf]
        | c :: d :: x, hsl =>
          by_cases hc : 47 = c ∧ 62 = d
          · exact absurd ⟨x, by rw [← hc.1, ← hc.2]; rfl⟩ hsl
          · simp [List.isPrefixOf]
            omega
      rw [this]
      simp only [Bool.false_eq_true, if_false] at e2 ⊢
      rw [bind_run (wrap_run e2)]
      exact (wrap_run e3)
    · have := (w1.passed.trans w2).trans w3.passed
      have h3 : s2.ns = used' := by rw [hs2]
      rw [h3, declared_none] at this
      simpa using this
  | @nil k scope used =>
    refine ⟨fun hu _ => ⟨hu, fun x hx => hx⟩, 1, ?_⟩
    intro fuel h0 d0 w s hf hs hns hu hsc hi hsp hdf hd hg hw
    refine ⟨s, ?_, [], s.hc, ?_, rfl, hg⟩
    · simp only [Bool.false_eq_true, if_false]
      cases fuel with
      | zero => simp at hf
      | succ fuel =>
        rw [parseContent]
        run
        rw [hs]
        rcases hw rfl with rfl | ⟨r, rfl⟩
        · rfl
        · rfl
    · subst hns
      simp at hs
      simp [← hs]
  | @element k scope used t evs used1 r evs' used2 h1 h2 ih1 ih2 =>
    obtain ⟨c, t', ht, c1, c2, c3⟩ := refsrc_elem_head h1 rfl
    obtain ⟨hn1, N, ih1⟩ := ih1
    refine reads_cons (by rw [ht]; simp) (by intro w; rw [ht]; simp [List.isPrefixOf]; omega) ih2 hn1 ⟨N, ?_⟩
    intro fuel h0 d0 w s hf hs hns hu hsc hi hsp hdf hd hg hw
    obtain ⟨s1, e1, w1⟩ := ih1 fuel h0 d0 (r ++ w) s hf hs hns hu hsc hi hsp hdf hd hg (fun he => by cases he)
    simp only [if_true] at e1
    refine ⟨s1, ?_, w1⟩
    unfold contentStep
    run
    have p1 : (b!"<?").isPrefixOf s.cur = false := by rw [hs, ht]; simp [List.isPrefixOf]; omega
    have p2 : (b!"<![CDATA[").isPrefixOf s.cur = false := by rw [hs, ht]; simp [List.isPrefixOf]; omega
    have p3 : (b!"<!--").isPrefixOf s.cur = false := by rw [hs, ht]; simp [List.isPrefixOf]; omega
    have p4 : (b!"<").isPrefixOf s.cur = true := by rw [hs, ht]; rfl
    rw [p1, p2, p3, p4]
    simp only [Bool.false_eq_true, if_false, if_true]
    exact wrap_run e1
  | @text k scope used l r evs used' hl hr hk ih =>
    obtain ⟨c, l', rfl⟩ := List.exists_cons_of_ne_nil hl.ne
    have hc := (hl.legal c (by simp)).2
    refine reads_cons (t := c :: l') (evs := [_]) (by simp) (by intro w; simp [List.isPrefixOf, Ne.symm hc.1]) ih key ⟨0, ?_⟩
    intro fuel h0 d0 w s hf hs hns hu hsc hi hsp hdf hd hg hw
    have W := K.willing 0 ⟨[], [], 0, 0⟩ ents h0 d0
    obtain ⟨ev, hev, hpl, hrun⟩ := parseCharData_run E H hl (r := r ++ w) (by
      intro x hx
      cases r with
      | nil =>
        rcases hw with rfl | ⟨r, rfl⟩
        · cases hx
        · cases hx; exact Or.inl rfl
      | cons y r => cases hx; exact hr _ rfl) s hs
    obtain ⟨s1, e1, w1⟩ := cb_took (H := H) (G := fun _ => Knowing I ents h0 d0) (n := 0) (ev := ev) (s := { s with cur := r ++ w }) (by
      rcases hev with rfl | rfl
      · exact W.text (n := 0) hi hg
      · exact W.blank (n := 0) hi hg)
    rw [hpl] at w1
    refine ⟨s1, ?_, hns ▸ w1.passed⟩
    have p : ∀ x, (60 :: x).isPrefixOf s.cur = false := by intro x; rw [hs]; simp [List.isPrefixOf, Ne.symm hc.1]
    have p4 : (b!"&").isPrefixOf s.cur = false := by rw [hs]; simp [List.isPrefixOf, Ne.symm hc.2]
    unfold contentStep
    run
    simp only [p, p4, Bool.false_eq_true, if_false]
    exact hrun.trans e1
  | @ref k scope used b v r evs used' hb h59 hv hk ih =>
    have ht : 38 :: (b ++ 59 :: r) = (38 :: (b ++ [59])) ++ r := by simp
    rw [ht]
    refine reads_cons (t := 38 :: (b ++ [59])) (evs := [_]) (by simp) (by intro w; simp [List.isPrefixOf]) ih key ⟨0, ?_⟩
    intro fuel h0 d0 w s hf hs hns hu hsc hi hsp hdf hd hg hw
    have W := K.willing 0 ⟨[], [], 0, 0⟩ ents h0 d0
    obtain ⟨s1, e1, w1⟩ := cb_took (H := H) (G := fun _ => Knowing I ents h0 d0) (n := 0) (ev := .characters (encodeRunes [v])) (s := { s with cur := r ++ w }) (W.text (n := 0) hi hg)
    refine ⟨s1, amp (by rw [hs]; rfl) ((parseReference_run E H _ hb hv s (by rw [hs]; simp)).trans e1), hns ▸ w1.passed⟩
  | @comment k scope used b r evs used' hb hk ih =>
    have ht : b!"<!--" ++ (b ++ (b!"-->" ++ r)) = (b!"<!--" ++ (b ++ b!"-->")) ++ r := by simp
    rw [ht]
    refine reads_cons (t := b!"<!--" ++ (b ++ b!"-->")) (evs := [_]) (by simp) (by intro w; simp [List.isPrefixOf]) ih key ⟨0, ?_⟩
    intro fuel h0 d0 w s hf hs hns hu hsc hi hsp hdf hd hg hw
    have W := K.willing 0 ⟨[], [], 0, 0⟩ ents h0 d0
    obtain ⟨s1, e1, w1⟩ := cb_took (H := H) (G := fun _ => Knowing I ents h0 d0) (n := 0) (ev := .comment (encodeRunes (unixLines b))) (s := { s with cur := r ++ w }) (W.comment (n := 0) hi hg)
    refine ⟨s1, ?_, hns ▸ w1.passed⟩
    have p1 : (b!"<?").isPrefixOf s.cur = false := by rw [hs]; simp [List.isPrefixOf]
    have p2 : (b!"<![CDATA[").isPrefixOf s.cur = false := by rw [hs]; simp [List.isPrefixOf]
    have p3 : (b!"<!--").isPrefixOf s.cur = true := by rw [hs]; rfl
    unfold contentStep
    run
    simp only [p1, p2, p3, Bool.false_eq_true, if_false, if_true]
    have := parseComment_run H (w := r ++ w) (fun c hc => (hb.legal c hc).isChar) hb.hyphen s (by rw [hs]; simp)
    rw [replaceCRLF_encodeRunes, ← unixLines_eq] at this
    exact wrap_eq this e1
  | @pi k scope used t n d r evs used' ht0 hk ih =>
    have ht : b!"<?" ++ (t ++ (b!"?>" ++ r)) = (b!"<?" ++ (t ++ b!"?>")) ++ r := by simp
    rw [ht]
    refine reads_cons (t := b!"<?" ++ (t ++ b!"?>")) (evs := [_]) (by simp) (by intro w; simp [List.isPrefixOf]) ih key ⟨0, ?_⟩
    intro fuel h0 d0 w s hf hs hns hu hsc hi hsp hdf hd hg hw
    have W := K.willing 0 ⟨[], [], 0, 0⟩ ents h0 d0
    obtain ⟨s1, e1, w1⟩ := cb_took (H := H) (G := fun _ => Knowing I ents h0 d0) (n := 0) (ev := .pi (encodeRunes n) (encodeRunes d)) (s := { s with cur := r ++ w }) (W.pi (n := 0) hi hg)
    refine ⟨s1, ?_, hns ▸ w1.passed⟩
    have p1 : (b!"<?").isPrefixOf s.cur = true := by rw [hs]; rfl
    unfold contentStep
    run
    simp only [p1, if_true]
    exact wrap_eq (pi_run E H ht0 s (by rw [hs]; simp)) e1
  | @cdata k scope used l r evs used' hl hk ih =>
    have ht : b!"<![CDATA[" ++ (l ++ (b!"]]>" ++ r)) = (b!"<![CDATA[" ++ (l ++ b!"]]>")) ++ r := by simp
    rw [ht]
    refine reads_cons (t := b!"<![CDATA[" ++ (l ++ b!"]]>")) (evs := [_]) (by simp) (by intro w; simp [List.isPrefixOf]) ih key ⟨0, ?_⟩
    intro fuel h0 d0 w s hf hs hns hu hsc hi hsp hdf hd hg hw
    have W := K.willing 0 ⟨[], [], 0, 0⟩ ents h0 d0
    obtain ⟨s1, e1, tr, hc, rfl, w1, _, w2⟩ := cb_took (H := H) (G := fun _ => Knowing I ents h0 d0) (n := 0) (ev := .cdata (encodeRunes (unixLines l))) (s := { s with cur := b!"]]>" ++ (r ++ w) }) (W.cdata (n := 0) hi hg)
    refine ⟨{ s with cur := r ++ w, hc := hc, trace := s.trace ++ tr }, ?_, hns ▸ ⟨tr, hc, rfl, w1, w2⟩⟩
    have p1 : (b!"<?").isPrefixOf s.cur = false := by rw [hs]; simp [List.isPrefixOf]
    have p2 : (b!"<![CDATA[").isPrefixOf s.cur = true := by rw [hs]; rfl
    unfold contentStep
    run
    simp only [p1, p2, Bool.false_eq_true, if_false, if_true]
    apply wrap_run
    rw [parseCDSect_run E H hl.ne (fun c hc => by have := (hl.legal c hc).1; unfold XmlChar at this; omega) hl.noEnd s (w := r ++ w) (by rw [hs]; simp)]
    rw [replaceCRLF_encodeRunes, ← unixLines_eq]
    rw [bind_run (wrap_run e1)]
    rw [bind_run (consume_run (l := b!"]]>") (r := r ++ w) rfl)]
    rfl
  | @entity k scope used n x xevs u r evs used' hn hp hm hx h1 h2 ih1 ih2 =>
    obtain ⟨_, N, ih1⟩ := ih1
    have ht : 38 :: (n ++ 59 :: r) = (38 :: (n ++ [59])) ++ r := by simp
    have he : Ev.getEntity (encodeRunes n) :: (xevs ++ Ev.reference (encodeRunes n) :: evs) = (.getEntity (encodeRunes n) :: (xevs ++ [.reference (encodeRunes n)])) ++ evs := by simp
    rw [ht, he]
    refine reads_cons (t := 38 :: (n ++ [59])) (by simp) (by intro w; simp [List.isPrefixOf]) ih2 key ⟨N, ?_⟩
    intro fuel h0 d0 w s hf hs hns hu hsc hi hsp hdf hd hg hw
    obtain ⟨s1, e1, w1⟩ := reference_run (E := E) K (r := r ++ w) (xevs := xevs) (u := u) (body := parseContent E H fuel) hn hp hm hx s (by rw [hs]; simp) hdf (by omega) hg (by
      intro h1 d1 s1 q1 q2 q3 q4 q5 q6 q7
      obtain ⟨s2, r1, r2⟩ := ih1 fuel h1 d1 [] s1 hf (by rw [q1]; simp) q2 ⟨by simp, by simp⟩ (by simp) q3 q4 q5 (by omega) q7 (fun _ => Or.inl rfl)
      exact ⟨s2, r1, r2⟩)
    exact ⟨s1, amp (by rw [hs]; rfl) e1, hns ▸ w1⟩

/-! ### the document -/

/-- what a declaration teaches the handler. -/
theorem declare_known (K : Remembers H I) {snl : Nat} {d : Decl} (hd : d.NoAttrs) {m : List (Bytes × Bytes)} {s s' : St σ}
    (hi : I m s.hc.usr ∧ s.hc.doc = none) (h : declare H snl d s = .ok () s') : I (entityTable m [d]) s'.hc.usr ∧ s'.hc.doc = none := by
  have step : ∀ {m ev} {s s' : St σ}, I m s.hc.usr ∧ s.hc.doc = none → (∀ n x, ev = .entityDecl n 1 [] [] x → n ∈ m.map (·.1)) → s' = cbSt H ev s →
      I m s'.hc.usr ∧ s'.hc.doc = none := by
    intro m ev s s' hi he hs
    subst hs
    exact ⟨K.stays hi.1 he, (K.room _ _ _).2.trans hi.2⟩
  cases d with
  | element n typ e => exact step hi (by simp) (cb_eq h)
  | comment b => exact step hi (by simp) (cb_eq h)
  | pi n d => exact step hi (by simp) (cb_eq h)
  | attlist n as => exact absurd hd id
  | entity p n l v =>
    obtain ⟨_, s1, h1, h⟩ := bind_ok.1 h
    obtain ⟨x, s2, h2, h3⟩ := bind_ok.1 h
    have e1 := cb_eq h1
    have e2 := (ask_ok h2).1
    have e3 : s'.hc.usr = s2.hc.usr ∧ s'.hc.doc = s2.hc.doc := by
      unfold setOrig at h3
      split at h3
      · cases h3; exact ⟨rfl, rfl⟩
      · cases h3; exact ⟨rfl, rfl⟩
    have k1 : I (entityTable m [.entity p n l v]) s1.hc.usr ∧ s1.hc.doc = none := by
      cases p with
      | true => exact step hi (by simp) e1
      | false =>
        by_cases hn : n ∈ m.map (·.1)
        · have : entityTable m [.entity false n l v] = m := by simp only [entityTable, if_pos hn]
          rw [this]
          exact step hi (by intro n' x' he; cases he; exact hn) e1
        · have : entityTable m [.entity false n l v] = m ++ [(n, v)] := by simp only [entityTable, if_neg hn]
          rw [this, e1]
          exact ⟨K.learns hi.1 hn, (K.room _ _ _).2.trans hi.2⟩
    have k2 := step k1 (ev := if p then .getParameterEntity n else .getEntity n) (by cases p <;> simp) e2
    rw [e3.1, e3.2]
    exact k2

theorem entityTable_cons (m : List (Bytes × Bytes)) (d : Decl) (ds : List Decl) : entityTable m (d :: ds) = entityTable (entityTable m [d]) ds := by
  cases d with
  | entity p n l v => cases p <;> rfl
  | _ => rfl

theorem declareAll_known (K : Remembers H I) {snl : Nat} : ∀ {ds : List Decl}, (∀ d ∈ ds, d.NoAttrs) → ∀ {m : List (Bytes × Bytes)} {s s' : St σ},
    I m s.hc.usr ∧ s.hc.doc = none → declareAll H snl ds s = .ok () s' → I (entityTable m ds) s'.hc.usr ∧ s'.hc.doc = none
  | [], _, _, _, _, hi, h => by cases h; exact hi
  | d :: ds, hd, m, s, s', hi, h => by
    obtain ⟨_, s1, h1, h2⟩ := bind_ok.1 h
    rw [entityTable_cons]
    exact declareAll_known K (fun x hx => hd x (by simp [hx])) (declare_known K (hd d (by simp)) hi h1) h2

theorem declareDoctype_known (K : Remembers H I) {snl : Nat} {n : Bytes} {ds : List Decl} (hd : ∀ d ∈ ds, d.NoAttrs) {m : List (Bytes × Bytes)} {s s' : St σ}
    (hi : I m s.hc.usr ∧ s.hc.doc = none) (h : declareDoctype H snl n ds s = .ok () s') : I (entityTable m ds) s'.hc.usr ∧ s'.hc.doc = none := by
  unfold declareDoctype at h
  run at h
  obtain ⟨_, s1, h1, h⟩ := bind_ok.1 h
  obtain ⟨_, s2, h2, h⟩ := bind_ok.1 h
  run at h
  obtain ⟨_, s3, h3, h⟩ := bind_ok.1 h
  cases h
  have e1 := cb_eq h1
  have k1 : I m s1.hc.usr ∧ s1.hc.doc = none := by
    rw [e1]
    exact ⟨K.stays hi.1 (by simp), (K.room _ _ _).2.trans hi.2⟩
  have k2 := declareAll_known K hd k1 h2
  have e3 := cb_eq h3
  rw [e3]
  exact ⟨K.stays k2.1 (by simp), (K.room _ _ _).2.trans k2.2⟩

theorem declare_depth {snl : Nat} {d : Decl} (hd : d.NoAttrs) {s s' : St σ} (h : declare H snl d s = .ok () s') : s'.depth = s.depth := by
  cases d with
  | element n typ e => rw [cb_eq h]; rfl
  | comment b => rw [cb_eq h]; rfl
  | pi n d => rw [cb_eq h]; rfl
  | attlist n as => exact absurd hd id
  | entity p n l v =>
    obtain ⟨_, s1, h1, h⟩ := bind_ok.1 h
    obtain ⟨x, s2, h2, h3⟩ := bind_ok.1 h
    have e1 : s1.depth = s.depth := by rw [cb_eq h1]; rfl
    have e2 : s2.depth = s1.depth := by rw [(ask_ok h2).1]; rfl
    have e3 : s'.depth = s2.depth := by
      unfold setOrig at h3
      split at h3
      · cases h3; rfl
      · cases h3; rfl
    exact e3.trans (e2.trans e1)

theorem declareAll_depth {snl : Nat} : ∀ {ds : List Decl}, (∀ d ∈ ds, d.NoAttrs) → ∀ {s s' : St σ}, declareAll H snl ds s = .ok () s' → s'.depth = s.depth
  | [], _, _, _, h => by cases h; rfl
  | d :: ds, hd, s, s', h => by
    obtain ⟨_, s1, h1, h2⟩ := bind_ok.1 h
    exact (declareAll_depth (fun x hx => hd x (by simp [hx])) h2).trans (declare_depth (hd d (by simp)) h1)

theorem declareDoctype_depth {snl : Nat} {n : Bytes} {ds : List Decl} (hd : ∀ d ∈ ds, d.NoAttrs) {s s' : St σ}
    (h : declareDoctype H snl n ds s = .ok () s') : s'.depth = s.depth := by
  unfold declareDoctype at h
  run at h
  obtain ⟨_, s1, h1, h⟩ := bind_ok.1 h
  obtain ⟨_, s2, h2, h⟩ := bind_ok.1 h
  run at h
  obtain ⟨_, s3, h3, h⟩ := bind_ok.1 h
  cases h
  have e1 := cb_eq h1
  have k2 := declareAll_depth hd h2
  have e3 := cb_eq h3
  rw [e1] at k2
  rw [e3]
  exact k2

theorem reftail_run (K : Remembers H I) {ents : List (Bytes × Bytes)} {root m2 : List Nat} {e2 e3 : List Ev} {used : List (Bytes × Bytes)}
    (hroot : RefSrc E false ents 20 true [] [] root e2 used) (hm2 : Misc E m2 e3) : ∃ N, ∀ fuel, N ≤ fuel → ∀ (h0 : Heap) (d0 : Option Nat) (s2 : St σ),
    s2.cur = root ++ m2 → s2.ns = [] → s2.inSubset = 0 → s2.attsSpecial = [] → s2.attsDefault = [] → s2.depth = 0 → Knowing I ents h0 d0 s2.hc →
    ∃ s', parseTail E H fuel s2 = .ok () s' ∧ Passed (Knowing I ents h0 d0) [] used s2.nodes (e2 ++ (e3 ++ [.endDocument])) s2 s' := by
  obtain ⟨c, r, hr, c1, c2, c3⟩ := refsrc_elem_head hroot rfl
  obtain ⟨_, N, hrun⟩ := refsrc_run K hroot
  refine ⟨N, fun fuel hf h0 d0 s2 b1 b2 b4 b5 b6 b8 b7 => ?_⟩
  have W := K.willing 0 ⟨[], [], 0, 0⟩ ents h0 d0
  unfold parseTail
  have hblank : s2.cur.dropWhile isBlank = s2.cur := by rw [b1, hr]; rfl
  run
  obtain ⟨s3, r4, w3⟩ := hrun fuel h0 d0 m2 s2 hf b1 b2 ⟨by simp, by simp⟩ (by simp) b4 b5 b6 (by omega) b7 (by simp)
  rw [hblank, need_bind (by rw [b1, hr]; rfl)]
  show ∃ s', (M.wrap (parseElement E H fuel) >>= _) s2 = _ ∧ _
  rw [bind_run (wrap_run (show parseElement E H fuel s2 = _ from r4))]
  have g3 : s3.cur = m2 ++ [] ∧ s3.ns = used ∧ s3.nodes = s2.nodes ∧ s3.inSubset = 0 ∧ Knowing I ents h0 d0 s3.hc := by
    obtain ⟨tr, hc, h1, h2, h4⟩ := w3
    rw [h1]
    exact ⟨(List.append_nil _).symm, rfl, rfl, b4, h4⟩
  obtain ⟨d1, d2, d3, d4, d5⟩ := g3
  obtain ⟨s4, r5, w4⟩ := parseMisc_run W hm2 (Or.inl rfl) 0 s3 d1 d4 d5
  rw [bind_run (wrap_run r5)]
  have g4 : s4.cur = [] ∧ s4.ns = used ∧ s4.nodes = s2.nodes ∧ s4.inSubset = 0 ∧ Knowing I ents h0 d0 s4.hc := by
    obtain ⟨tr, hc, h1, h2, h3, h4⟩ := w4
    rw [h1]
    exact ⟨rfl, d2, d3, d4, h4⟩
  obtain ⟨f1, f2, f3, f4, f5⟩ := g4
  run
  rw [f1, need_bind (by rfl)]
  obtain ⟨s5, r6, w5⟩ := cb_took (H := H) (G := fun _ => Knowing I ents h0 d0) (n := 0) (s := s4) (ev := .endDocument) (W.endDoc f5)
  refine ⟨s5, r6, ?_⟩
  rw [f1, f2, f3] at w5
  exact w3.trans (w4.passed.trans w5.passed)

theorem Spec.Remembers.blank (K : Remembers H I) (B : Nat) (D : HV) : Willing B D H (fun c => I [] c.usr ∧ c.doc = none) (fun _ c => I [] c.usr ∧ c.doc = none) := by
  have st : ∀ {c : HC σ} {v ev}, I [] c.usr ∧ c.doc = none → (∀ n x, ev ≠ .entityDecl n 1 [] [] x) →
      I [] (H v ev c).2.usr ∧ (H v ev c).2.doc = none := fun h he => ⟨K.stays h.1 (fun n x hx => absurd hx (he n x)), (K.room _ _ _).2.trans h.2⟩
  exact {
    locator := fun h => ⟨takes_took K.takes (by simp) _ _, st h (by simp)⟩
    startDoc := fun h => ⟨takes_took K.takes (by simp) _ _, st h (by simp)⟩
    endDoc := fun h => ⟨takes_took K.takes (by simp) _ _, st h (by simp)⟩
    start := fun _ h _ _ => ⟨takes_took K.takes (by simp) _ _, st h (by simp)⟩
    stop := fun _ h => ⟨takes_took K.takes (by simp) _ _, st h (by simp)⟩
    comment := fun _ h => ⟨takes_took K.takes (by simp) _ _, st h (by simp)⟩
    pi := fun _ h => ⟨takes_took K.takes (by simp) _ _, st h (by simp)⟩
    text := fun _ h => ⟨takes_took K.takes (by simp) _ _, st h (by simp)⟩
    blank := fun _ h => ⟨takes_took K.takes (by simp) _ _, st h (by simp)⟩
    cdata := fun _ h => ⟨takes_took K.takes (by simp) _ _, st h (by simp)⟩ }

theorem refDocument_run (K : Remembers H I) {t v e : List Nat} {sd : Int} {ds : List Decl} {evs : List Ev} (h : RefDocument E false 20 t v e sd ds evs)
    (hds : ∀ d ∈ ds, d.NoAttrs) : ∃ N, ∀ fuel, N ≤ fuel → ∀ (usr : σ) (snl : Nat), I [] usr →
      ∃ s', parseDocument E H fuel snl (initSt usr Heap.empty (encodeRunes t)) = .ok () s' ∧
      s'.trace.map (fun x => plainEv x.1) = evs ∧ s'.version = v ∧ s'.encoding = e ∧ s'.standalone = sd := by
  obtain ⟨h0, m1, n, dt, m2, root, m3, e1, e2, e3, e4, used, rfl, hh, hm1, hdt, hm2, hroot, hm3, hl, rfl⟩ := h
  obtain ⟨N, htail⟩ := reftail_run K hroot hm3
  refine ⟨N, fun fuel hf usr snl hI => ?_⟩
  have W := K.blank 0 ⟨v, e, sd, 0⟩
  have hF : I [] (⟨usr, Heap.empty, none, none⟩ : HC σ).usr ∧ (⟨usr, Heap.empty, none, none⟩ : HC σ).doc = none := ⟨hI, rfl⟩
  obtain ⟨dt', hdt'⟩ := doctype_head hdt
  obtain ⟨c, r, hr, c1, c2, c3⟩ := refsrc_elem_head hroot rfl
  have hne : m1 ++ (dt ++ (m2 ++ (root ++ m3))) ≠ [] := by simp [hdt']
  have hhd : ∀ c, (m1 ++ (dt ++ (m2 ++ (root ++ m3)))).head? = some c → Ws c ∨ c = 60 := by
    intro x hx
    cases m1 with
    | nil => rw [hdt'] at hx; cases hx; exact Or.inr rfl
    | cons y m => cases hx; exact misc_head hm1 _ rfl
  obtain ⟨o, hc, ho, hFc, r1⟩ := start_run W hh hhd hne hl usr fuel snl hF
  rw [r1]
  generalize hs0 : ({ (initSt usr Heap.empty (encodeRunes (h0 ++ (m1 ++ (dt ++ (m2 ++ (root ++ m3))))))) with
      cur := m1 ++ (dt ++ (m2 ++ (root ++ m3))), version := v, encoding := e, standalone := sd, hc := hc, trace := [] ++ [(.setDocumentLocator, o)] } : St σ) = s0
  have i1 : s0.cur = m1 ++ (dt ++ (m2 ++ (root ++ m3))) := by rw [← hs0]
  have i2 : s0.ns = [] := by rw [← hs0]; rfl
  have i3 : s0.inSubset = 0 := by rw [← hs0]; rfl
  have i4 : s0.attsSpecial = [] := by rw [← hs0]; rfl
  have i5 : s0.attsDefault = [] := by rw [← hs0]; rfl
  have i6 : s0.view = ⟨v, e, sd, 0⟩ := by rw [← hs0]; rfl
  have i7 : I [] s0.hc.usr ∧ s0.hc.doc = none := by rw [← hs0]; exact hFc
  have i8 : s0.trace = [(.setDocumentLocator, o)] := by rw [← hs0]; rfl
  have i9 : s0.depth = 0 := by rw [← hs0]; rfl
  clear hs0 r1
  obtain ⟨s1, r2, w1⟩ := cb_took (H := H) (G := fun _ c => I [] c.usr ∧ c.doc = none) (n := 0) (s := s0) (ev := .startDocument) (by rw [i6]; exact W.startDoc i7)
  rw [bind_run r2]
  obtain ⟨tr1, hc1, rfl, q1, _, g1⟩ := w1
  obtain ⟨s2, r3, w2⟩ := parseMisc_run W hm1 (w := dt ++ (m2 ++ (root ++ m3)))
    (Or.inr ⟨33, 68 :: (dt' ++ (m2 ++ (root ++ m3))), by rw [hdt']; rfl, by decide, .inr rfl⟩) 0 ({ s0 with hc := hc1, trace := s0.trace ++ tr1 } : St σ) i1 i3 g1
  rw [bind_run (wrap_run r3)]
  obtain ⟨tr2, hc2, rfl, q2, _, g2⟩ := w2
  have hm2h : (m2 ++ (root ++ m3)).head? ≠ some 91 := by
    cases hm2 with
    | nil => rw [hr]; simp
    | space h => intro hx; cases hx; exact absurd h (by decide)
    | comment => simp
    | pi => simp
  generalize hs2 : ({ s0 with cur := dt ++ (m2 ++ (root ++ m3)), hc := hc2, trace := s0.trace ++ tr1 ++ tr2 } : St σ) = s2
  have j1 : s2.cur = dt ++ (m2 ++ (root ++ m3)) := by rw [← hs2]
  have j2 : s2.ns = [] := by rw [← hs2]; exact i2
  have j3 : s2.inSubset = 0 := by rw [← hs2]; exact i3
  have j4 : s2.attsSpecial = [] := by rw [← hs2]; exact i4
  have j5 : s2.attsDefault = [] := by rw [← hs2]; exact i5
  have j6 : s2.view = ⟨v, e, sd, 0⟩ := by rw [← hs2]; exact i6
  have j7 : I [] s2.hc.usr ∧ s2.hc.doc = none := by rw [← hs2]; exact g2
  have j8 : s2.trace = [(.setDocumentLocator, o)] ++ tr1 ++ tr2 := by rw [← hs2, ← i8]
  have j9 : s2.depth = 0 := by rw [← hs2]; exact i9
  have goal2 : ∃ s', (do parseDoctypePart E H snl; parseTail E H fuel : P σ Unit) s2 = .ok () s' ∧
      s'.trace.map (fun x => plainEv x.1) = s2.trace.map (fun x => plainEv x.1) ++ (doctypeEvents (encodeRunes n) ds ++
        (e2 ++ (e3 ++ (e4 ++ [.endDocument])))) ∧ s'.version = v ∧ s'.encoding = e ∧ s'.standalone = sd := by
    obtain ⟨s3', hd1, k1, k2, k3, k4, ⟨tr3, k5, k6⟩, k7⟩ := declareDoctype_noted K.takes (snl := snl) (encodeRunes n) (ds := ds)
      (fun d hd => ⟨doctype_spelled hdt d hd, by
        have := hds d hd
        cases d <;> trivial⟩) { s2 with cur := m2 ++ (root ++ m3) } j3
    obtain ⟨k7, k8⟩ := k7 hds
    have k9 := declareDoctype_known (s := { s2 with cur := m2 ++ (root ++ m3) }) K hds j7 hd1
    have k10 := declareDoctype_depth hds hd1
    obtain ⟨u, hsame, hpd⟩ := doctype_run E H snl hdt hm2h s2 j1 (m2 ++ (root ++ m3))
    rw [hd1] at hsame
    generalize hrhs : Out.ok () s3' = rhs at hsame
    cases hsame with
    | err e s s' ht => cases hrhs
    | panic => cases hrhs
    | diverge => cases hrhs
    | ok a s3 hs3 =>
    cases hrhs
    have k1 : s3.cur = m2 ++ (root ++ m3) := hs3
    have k2 : s3.ns = [] := k2.trans j2
    have k4 : s3.view = ⟨v, e, sd, 0⟩ := k4.trans j6
    have k3i : s3.inSubset = 0 := congrArg HV.inSubset k4
    have k7 : s3.attsDefault = [] := k7.trans j5
    have k8 : s3.attsSpecial = [] := by
      refine Eq.trans k8 ?_
      rw [show ({ s2 with cur := m2 ++ (root ++ m3) } : St σ).attsSpecial = [] from j4]; rfl
    have k9 : I (entityTable [] ds) s3.hc.usr ∧ s3.hc.doc = none := k9
    have k10 : s3.depth = 0 := k10.trans j9
    have k11 : Knowing I (entityTable [] ds) Heap.empty none s3.hc :=
      ⟨k9.1, ⟨Nat.zero_le _, fun i hi => absurd hi (Nat.not_lt_zero _)⟩, by simp, fun d hd => by rw [k9.2] at hd; cases hd⟩
    have k5 : s3.trace = s2.trace ++ tr3 := k5
    have W' := K.willing 0 ⟨v, e, sd, 0⟩ (entityTable [] ds) Heap.empty none
    obtain ⟨s4, r4, w4⟩ := parseMisc_run W' hm2 (w := root ++ m3) (Or.inr ⟨c, r ++ m3, by rw [hr]; rfl, c2, .inl c3⟩) 0 s3 k1 k3i k11
    obtain ⟨tr4, hc4, rfl, q4, _, g4⟩ := w4
    obtain ⟨s5, r5, tr5, hc5, h5, q5, g5⟩ := htail fuel hf Heap.empty none ({ s3 with cur := root ++ m3, hc := hc4, trace := s3.trace ++ tr4 } : St σ) rfl k2 k3i k8 k7 k10 g4
    refine ⟨s5, ?_, ?_, ?_, ?_, ?_⟩
    · rw [bind_run (a := ()) (t := ({ s3 with cur := root ++ m3, hc := hc4, trace := s3.trace ++ tr4 } : St σ)) (by rw [hpd]; exact wrap_run r4)]
      exact r5
    · simp only [h5, List.map_append, k5, q4, q5]
      have : tr3.map (fun x => plainEv x.1) = doctypeEvents (encodeRunes n) ds := by
        rw [← doctype_plain, ← k6, List.map_map]; rfl
      rw [this]
      simp only [List.append_assoc]
    · rw [h5]; exact congrArg HV.version k4
    · rw [h5]; exact congrArg HV.encoding k4
    · rw [h5]; exact congrArg HV.standalone k4
  obtain ⟨s', r', t', rst⟩ := goal2
  refine ⟨s', r', ?_, rst⟩
  rw [t', j8]
  simp only [List.map_append, q1, q2, List.map_cons, List.map_nil]
  simp [plainEv, doctypeEvents]

end
end Helium
