import Verif.Spec.NsNames
import Verif.Lemmas.NsLogic
/-! The namespace table of the parser holds checked bindings only. -/
namespace Helium
open Spec
section
variable {σ : Type} {H : Handler σ} (E : Env)

/-- the bindings of a table. -/
def BindTab (ns : List (Bytes × Bytes)) : Prop := ∀ p u, (p, u) ∈ ns → p ≠ [] → Checked E p u

/-- the invariant of the parser. -/
structure ResState (s : St σ) : Prop where
  evs : ∀ x ∈ s.trace, ReservedChecked E x.1
  tab : BindTab E s.ns

theorem ResState.append {s s' : St σ} {mid : List (Ev × HOut)} (h : ResState E s) (ht : s'.trace = s.trace ++ mid) (hn : s'.ns = s.ns)
    (hm : ∀ x ∈ mid, ¬ Opening x.1) : ResState E s' := by
  refine ⟨fun x hx => ?_, by rw [hn]; exact h.tab⟩
  rw [ht] at hx
  rcases List.mem_append.1 hx with hx | hx
  · exact h.evs x hx
  · have := hm x hx
    cases hxe : x.1 <;> first | trivial | (rw [hxe] at this; exact absurd trivial this)

/-- the invariant is kept. -/
def resL (H : Handler σ) : Logic false H where
  R s s' := ResState E s → ResState E s'
  X s _ s' := ResState E s → ∀ x ∈ s'.trace, ReservedChecked E x.1
  Q ev := ¬ Opening ev
  quiet h := fun k => k.append E (mid := []) (by simp [h.trace]) h.ns (by simp)
  trans h h' k := h' (h k)
  transX h k x := k (h x)
  xquiet h k x := by rw [k.trace]; exact h x
  fail _ h := h.evs
  wrap h := h
  call hq _ := fun k => k.append E rfl rfl (by simpa using hq)
  callX hq _ k := by
    exact (k.append E (s' := cbSt H _ _) rfl rfl (by simpa using hq)).evs
  look := by
    intro s ev h
    refine fun k => k.append E rfl rfl ?_
    have : ¬ Opening ev := by cases ev <;> first | exact id | exact h.elim
    simpa using this

theorem resL_admits : Admits (resL E H) := by
  refine Admits.of (fun ev h1 _ h2 => ?_)
  cases ev <;> first | exact h2 | exact h1

/-! ### attributes -/

/-- only checked bindings are added, and no declaration of a prefix is among the attributes. -/
def ResPost (s : St σ) : Out (St σ) (Nat × List AttrD) → Prop
  | .ok x s' => (ResState E s → ResState E s') ∧ ∀ q l v, .parsed q l v ∈ x.2 → q ≠ b!"xmlns"
  | .err _ s' => ResState E s → ∀ x ∈ s'.trace, ReservedChecked E x.1
  | _ => True

theorem ResPost.after {s t : St σ} (h : ResState E s → ResState E t) {o : Out (St σ) (Nat × List AttrD)} (ho : ResPost E t o) : ResPost E s o := by
  cases o with
  | ok x s' => exact ⟨fun k => ho.1 (h k), ho.2⟩
  | err e s' => exact fun k => ho (h k)
  | panic => trivial
  | diverge => trivial

theorem resPost_bind {α : Type} {p : P σ α} {f : α → P σ (Nat × List AttrD)} {s : St σ} (hp : Sat (resL E H) p)
    (hf : ∀ a t, ResPost E t (f a t)) : ResPost E s ((p >>= f) s) := by
  have h1 := hp s
  show ResPost E s (M.bind p f s)
  unfold M.bind
  cases hps : p s with
  | ok a s' =>
    rw [hps] at h1
    exact ResPost.after E h1 (hf a s')
  | err e s' => rw [hps] at h1; exact h1
  | panic => trivial
  | diverge => trivial

theorem ResState.push {s : St σ} (h : ResState E s) {p u : Bytes} (hc : p ≠ [] → Checked E p u) : ResState E { s with ns := nsPush s.ns p u } := by
  refine ⟨h.evs, fun q v hm hq => ?_⟩
  have hm : (q, v) ∈ nsPush s.ns p u := hm
  rcases nsPush_cases s.ns p u with he | ⟨he, -⟩
  · rw [he] at hm; exact h.tab q v hm hq
  · rw [he] at hm
    rcases List.mem_append.1 hm with hm | hm
    · exact h.tab q v hm hq
    · cases List.mem_singleton.1 hm
      exact hc hq

theorem nsDeclCheck_checked {ns : List (Bytes × Bytes)} {p u : Bytes} (h : nsDeclCheck E ns p u = none) : Checked E p u := by
  unfold nsDeclCheck at h
  split at h
  · split at h <;> cases h
  · next h1 =>
    split at h
    · cases h
    · next h2 =>
      split at h
      · cases h
      · next h3 =>
        split at h
        · cases h
        · next h4 =>
          split at h
          · cases h
          · next h5 =>
            refine ⟨h1, h2, h4, h3, ?_⟩
            cases hu : E.urlOk u with
            | true => rfl
            | false => exact absurd hu h5

theorem attrsLoop_res (loc : Bytes) : ∀ fuel nb attrs (s : St σ), (∀ q l v, .parsed q l v ∈ attrs → q ≠ b!"xmlns") →
    ResPost E s (attrsLoop E H loc fuel nb attrs s) := by
  have hQ : Admits (resL E H) := resL_admits E
  intro fuel
  induction fuel with
  | zero => intro nb attrs s _; trivial
  | succ fuel ih =>
    intro nb attrs s ha
    have hA : Sat (resL E H) (afterNs E : P σ Bool) := by unfold afterNs; sat
    have snoc : ∀ {q l v : Bytes}, q ≠ b!"xmlns" → ∀ q' l' v', .parsed q' l' v' ∈ attrs ++ [.parsed q l v] → q' ≠ b!"xmlns" := by
      intro q l v hq q' l' v' hm
      rcases List.mem_append.1 hm with hm | hm
      · exact ha q' l' v' hm
      · cases List.mem_singleton.1 hm; exact hq
    unfold attrsLoop
    refine resPost_bind E (H := H) (Silent.sat Silent.skipBlanks _) (fun _ s => ?_)
    refine resPost_bind E (H := H) (Silent.sat (Silent.consume _) _) (fun b s => ?_)
    cases b with
    | true => exact ⟨id, ha⟩
    | false =>
      simp only [Bool.false_eq_true, if_false]
      refine resPost_bind E (H := H) (Silent.sat (Silent.hasPrefix _) _) (fun b s => ?_)
      cases b with
      | true => exact ⟨id, ha⟩
      | false =>
        simp only [Bool.false_eq_true, if_false]
        refine resPost_bind E (H := H) (Sat.wrap (Sat.parseAttribute E hQ loc)) (fun a s => ?_)
        split
        · next h0 =>
          rw [modify_bind]
          refine ResPost.after E (fun k => k.push E (p := []) (u := a.2.2) (fun h => absurd rfl h)) ?_
          refine resPost_bind E (H := H) hA (fun b s => ?_)
          cases b
          · exact ih _ _ _ ha
          · exact ih _ _ _ (snoc (by rw [h0.2]; decide))
        · split
          · rw [get_bind]
            cases hc : nsDeclCheck E s.ns a.1 a.2.2 with
            | some o =>
              cases o with
              | some e => exact fun k => k.evs
              | none => exact resPost_bind E (H := H) hA (fun _ s => ih _ _ _ ha)
            | none =>
              simp only
              rw [modify_bind]
              refine ResPost.after E (fun k => k.push E (p := a.1) (u := a.2.2) (fun _ => nsDeclCheck_checked E hc)) ?_
              exact resPost_bind E (H := H) hA (fun _ s => ih _ _ _ ha)
          · next hx => exact ih _ _ _ (snoc hx)

/-! ### tags -/

theorem nsLookup_mem {ns : List (Bytes × Bytes)} {p : Bytes} (h : nsLookup ns p ≠ []) : (p, nsLookup ns p) ∈ ns := by
  unfold nsLookup at h ⊢
  cases hu : uniqueLookup ns p with
  | none => rw [hu] at h; exact absurd rfl h
  | some x =>
    unfold uniqueLookup at hu
    have h1 := List.find?_some hu
    have h2 := List.mem_reverse.1 (List.mem_of_find?_eq_some hu)
    obtain ⟨a, b⟩ := x
    simp only [beq_iff_eq] at h1
    subst h1
    exact h2

/-- the event of a start tag. -/
theorem ResState.start {s s2 : St σ} {nb : Nat} (h : ResState E s) {l p : Bytes} {as : List AttrD} {o : HOut}
    (hp : p ≠ [] → nsLookup s.ns p ≠ []) (ha : ∀ q l v, .parsed q l v ∈ as → q ≠ b!"xmlns")
    (ht : s2.trace = s.trace ++ [(.startElement l p (nsLookup s.ns p) (nsList s.ns nb) as, o)]) (hn : s2.ns = s.ns) : ResState E s2 := by
  refine ⟨fun x hx => ?_, by rw [hn]; exact h.tab⟩
  rw [ht] at hx
  rcases List.mem_append.1 hx with hx | hx
  · exact h.evs x hx
  · cases List.mem_singleton.1 hx
    refine ⟨fun q v hm hq => h.tab q v ?_ hq, fun hq => h.tab p _ (nsLookup_mem (hp hq)) hq, ha⟩
    unfold nsList at hm
    rcases List.mem_append.1 hm with hm | hm
    · obtain ⟨y, hy, he⟩ := List.mem_map.1 hm
      cases he
      exact (nsPeek_suffix _ _).subset hy
    · cases List.eq_of_mem_replicate hm

theorem defaultAttrs_noParsed {defs : List (Bytes × List (Bytes × Nat))} {p l q l' v : Bytes} : AttrD.parsed q l' v ∉ defaultAttrs E defs p l := by
  intro h
  unfold defaultAttrs at h
  simp only at h
  split at h
  · obtain ⟨_, _, e⟩ := List.mem_map.1 h; cases e
  · cases h

theorem resL_startTag : Sat (resL E H) (parseStartTag E H) := by
  unfold Helium.parseStartTag
  refine Sat.bind (Silent.sat (Silent.peek E) _) (fun _ => ?_)
  refine Sat.bind (Silent.sat (Silent.need _ _) _) (fun _ => ?_)
  refine Sat.bind (Silent.sat (Silent.adv _) _) (fun _ => ?_)
  refine Sat.bind (Silent.sat (Silent.orElse (Silent.parseQName E)) _) (fun q => ?_)
  refine Sat.bind (Silent.sat (Silent.need _ _) _) (fun _ => ?_)
  refine Sat.bind (Silent.sat Silent.rest _) (fun r => ?_)
  intro s
  have h1 := attrsLoop_res E (H := H) q.1 (r.length + 1) 0 [] s (by simp)
  show post (M.bind _ _ s) _ _
  unfold M.bind
  cases hr : attrsLoop E H q.1 (r.length + 1) 0 [] s with
  | panic => trivial
  | diverge => trivial
  | err e t => rw [hr] at h1; exact h1
  | ok na t =>
    rw [hr] at h1
    obtain ⟨hA, hB⟩ := h1
    simp only
    rw [get_bind]
    split
    · exact fun h => (hA h).evs
    · rename_i hc
      have hp : q.2 ≠ [] → nsLookup t.ns q.2 ≠ [] := fun h1 h2 => hc ⟨h1, h2⟩
      have hat : ∀ q' l v, .parsed q' l v ∈ na.2 ++ defaultAttrs E t.attsDefault q.2 q.1 → q' ≠ b!"xmlns" := fun q' l v hm =>
        (List.mem_append.1 hm).elim (hB q' l v) (fun hm => absurd hm (defaultAttrs_noParsed E))
      have hst : ∀ ev, ResState E s → ev = .startElement q.1 q.2 (nsLookup t.ns q.2) (nsList t.ns na.1) (na.2 ++ defaultAttrs E t.attsDefault q.2 q.1) →
          ResState E (cbSt H ev t) := fun ev h e => by subst e; exact (hA h).start E hp hat rfl rfl
      generalize hev : Ev.startElement q.1 q.2 (nsLookup t.ns q.2) (nsList t.ns na.1) (na.2 ++ defaultAttrs E t.attsDefault q.2 q.1) = ev at *
      have hst := fun h => hst ev h rfl
      unfold cbSt at hst
      simp only [Bind.bind, M.bind, Helium.cb, callback]
      cases hr : (H t.view ev t.hc).1 <;> simp only [hr, Pure.pure, M.pure, M.fail, M.panic, M.diverge, M.modify] at hst ⊢
      case err e => exact fun h => (hst h).evs
      case panic => trivial
      case diverge => trivial
      all_goals exact fun h => ⟨(hst h).evs, (hst h).tab⟩

theorem resL_nodes (f : St σ → List EInfo) : Sat (resL E H) (M.modify (fun s => { s with nodes := f s }) : P σ Unit) :=
  Sat.modify (fun s => fun h => h.append E (mid := []) (by simp) rfl (by simp))

theorem resL_endTag : Sat (resL E H) (parseEndTag E H) := by
  have hQ : Admits (resL E H) := resL_admits E
  have h1 : ∀ l p u, Sat (resL E H) (Helium.cb H (.endElement l p u)) := fun l p u => Sat.cb (fun h => h)
  have h2 := resL_nodes E (H := H)
  unfold Helium.parseEndTag
  repeat first | with_reducible exact h1 _ _ _ | exact h2 _ | sat1

theorem resL_frame : Frame (resL E H) (fun _ => True) := ⟨resL_admits E, fun _ _ => trivial, fun _ _ => trivial⟩

theorem resL_element {body : P σ Unit} (hb : SatI (resL E H) (fun _ => True) body) : SatI (resL E H) (fun _ => True) (parseElementW E H body) := by
  unfold Helium.parseElementW
  refine SatI.bind (resL_frame E) (Sat.satI (Sat.wrap (resL_startTag E))) (fun _ => ?_)
  refine SatI.bind (resL_frame E) (Sat.satI (Silent.sat (Silent.hasPrefix _) _)) (fun c => ?_)
  have h2 : SatI (resL E H) (fun _ => True) (M.wrap (Helium.parseEndTag E H)) := Sat.satI (Sat.wrap (resL_endTag E))
  split
  · exact h2
  · exact SatI.bind (resL_frame E) (SatI.wrap hb) (fun _ => h2)

theorem resL_reference {body : P σ Unit} (hb : SatI (resL E H) (fun _ => True) body) : SatI (resL E H) (fun _ => True) (parseReference E H body) := by
  refine SatI.parseReferenceG E (resL_frame E) (fun _ _ _ _ _ _ _ => id) (fun s i s' _ h c => post_seq ?_ (fun _ t =>
    Sat.bind (Silent.sat Silent.get _) (fun _ => Sat.cbRaw ((resL_admits E).ev (.reference _) trivial nofun trivial trivial)) t))
  refine post_parseChunk E (resL_frame E) hb c s' trivial (fun _ _ _ _ _ => trivial) ?_ ?_
  · rintro d h c fc lc t - h2
    exact fun k => ⟨(h2 ⟨k.evs, fun _ _ hm => by cases hm⟩).evs, k.tab⟩
  · rintro d h c fc lc t e - h2 k
    exact h2 ⟨k.evs, fun _ _ hm => by cases hm⟩

theorem resL_document (fuel snl : Nat) : Sat (resL E H) (parseDocument E H fuel snl) := by
  rw [parseDocument_eq]
  refine Sat.bind (Sat.parseProlog E (resL_admits E) (Sat.attlistLoop E (resL_admits E) (fun _ _ _ _ _ _ _ => id)) id id (fun _ _ _ => ⟨id, id⟩) (fun s c => fun h => h.append E (mid := []) (by simp) rfl (by simp))
    (fun s n => fun h => h.append E (mid := []) (by simp) rfl (by simp)) snl) (fun _ => ?_)
  exact (SatI.parseTail E (resL_frame E) (fun _ h => resL_reference E h) (fun _ h => resL_element E h) id fuel).sat

theorem reserved_parse {usr : σ} {fuel snl : Nat} {input : Bytes} {d : Option Nat} {e : Option Err} {h : Heap} {t : List (Ev × HOut)}
    (hp : parserParse E H usr fuel snl input = .done d e h t) : ∀ x ∈ t, ReservedChecked E x.1 := by
  have := resL_document E (H := H) fuel snl (initSt usr Heap.empty input)
  have h0 : ResState E (initSt usr Heap.empty input) := ⟨by simp [initSt], fun _ _ hm => by cases hm⟩
  unfold parserParse at hp
  cases hr : parseDocument E H fuel snl (initSt usr Heap.empty input) with
  | ok a s =>
    rw [hr] at hp this
    cases hp
    exact (this h0).evs
  | err e s =>
    rw [hr] at hp this
    cases hp
    exact this h0
  | panic => rw [hr] at hp; cases hp
  | diverge => rw [hr] at hp; cases hp

end
end Helium
