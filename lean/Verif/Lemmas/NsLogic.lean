import Verif.Spec.Ns
import Verif.Lemmas.DocLogic
import Verif.Lemmas.SourceRun
import Verif.Lemmas.TotalContent
/-! The namespace table of the parser holds the first declaration of each prefix. -/
namespace Helium
open Spec
section
variable {σ : Type} {H : Handler σ} (E : Env)

/-! ### the event side -/

/-- a start tag event. -/
def Opening : Ev → Prop
  | .startElement .. => True
  | _ => False

theorem firstDecl_append (p : Bytes) : ∀ a b : List Ev, firstDecl p (a ++ b) = (firstDecl p a).or (firstDecl p b)
  | [], b => by simp [firstDecl]
  | ev :: a, b => by
    have ih := firstDecl_append p a b
    cases ev <;> simp only [List.cons_append, firstDecl, ih, Option.or_assoc]

theorem firstDecl_other {p : Bytes} : ∀ {l : List Ev}, (∀ e ∈ l, ¬ Opening e) → firstDecl p l = none
  | [], _ => rfl
  | ev :: l, h => by
    have ih := firstDecl_other (p := p) (l := l) (fun e he => h e (List.mem_cons_of_mem _ he))
    have h0 := h ev (List.mem_cons_self ..)
    cases ev <;> first | exact ih | exact absurd trivial h0

/-- what the property says of a trace. -/
def NsClaims (tr : List (Ev × HOut)) : Prop :=
  ∀ pre l p u ns as o suf, tr = pre ++ (.startElement l p u ns as, o) :: suf → NoEntities pre →
    u = (firstDecl p (pre.map (·.1) ++ [.startElement l p u ns as])).getD [] ∧ (p ≠ [] → u ≠ [])

theorem NsClaims.append {tr mid : List (Ev × HOut)} (h : NsClaims tr) (hm : ∀ x ∈ mid, ¬ Opening x.1) : NsClaims (tr ++ mid) := by
  intro pre l p u ns as o suf e
  rcases List.append_eq_append_iff.1 e with ⟨a, h1, h2⟩ | ⟨a, h1, h2⟩
  · exact absurd trivial (hm (.startElement l p u ns as, o) (by rw [h2]; simp))
  · cases a with
    | nil =>
      simp only [List.nil_append] at h2
      exact absurd trivial (hm (.startElement l p u ns as, o) (by rw [← h2]; simp))
    | cons x a =>
      simp only [List.cons_append, List.cons.injEq] at h2
      obtain ⟨rfl, -⟩ := h2
      exact h pre l p u ns as o a h1

/-- the table holds the first declarations. -/
structure NsInv (s : St σ) : Prop where
  nodup : (s.ns.map (·.1)).Nodup
  mem : ∀ p u, (p, u) ∈ s.ns ↔ firstDecl p (s.trace.map (·.1)) = some u

theorem NsInv.lookup {s : St σ} (h : NsInv s) (p : Bytes) : nsLookup s.ns p = (firstDecl p (s.trace.map (·.1))).getD [] := by
  cases hf : firstDecl p (s.trace.map (·.1)) with
  | some u => exact nsLookup_some h.nodup ((h.mem p u).2 hf)
  | none =>
    refine nsLookup_none fun hm => ?_
    obtain ⟨⟨q, u⟩, h1, rfl⟩ := List.mem_map.1 hm
    rw [(h.mem q u).1 h1] at hf
    cases hf

/-- the invariant of the parser. -/
structure NsState (s : St σ) : Prop where
  claims : NsClaims s.trace
  inv : NoEntities s.trace → NsInv s

theorem noEntities_left {a b : List (Ev × HOut)} (h : NoEntities (a ++ b)) : NoEntities a := fun x hx => h x (List.mem_append_left _ hx)

theorem NsState.append {s s' : St σ} {mid : List (Ev × HOut)} (h : NsState s) (ht : s'.trace = s.trace ++ mid) (hn : s'.ns = s.ns)
    (hm : ∀ x ∈ mid, ¬ Opening x.1) : NsState s' := by
  refine ⟨by rw [ht]; exact h.claims.append hm, fun hne => ?_⟩
  rw [ht] at hne
  have hi := h.inv (noEntities_left hne)
  refine ⟨by rw [hn]; exact hi.nodup, fun p u => ?_⟩
  rw [hn, ht, List.map_append, firstDecl_append, firstDecl_other (l := mid.map (·.1)) (by
    intro e he
    obtain ⟨x, hx, rfl⟩ := List.mem_map.1 he
    exact hm x hx), Option.or_none]
  exact hi.mem p u

/-- the trace grows and the invariant is kept. -/
def nsL (H : Handler σ) : Logic false H where
  R s s' := (∃ mid, s'.trace = s.trace ++ mid) ∧ (NsState s → NsState s')
  X s _ s' := NsState s → NsClaims s'.trace
  Q ev := ¬ Opening ev
  quiet h := ⟨⟨[], by simp [h.trace]⟩, fun k => k.append (mid := []) (by simp [h.trace]) h.ns (by simp)⟩
  trans := by
    rintro a b c ⟨⟨m, h1⟩, h2⟩ ⟨⟨m', h1'⟩, h2'⟩
    exact ⟨⟨m ++ m', by rw [h1', h1, List.append_assoc]⟩, fun k => h2' (h2 k)⟩
  transX h k x := k (h.2 x)
  xquiet h k x := by rw [k.trace]; exact h x
  fail _ h := h.claims
  wrap h := h
  call hq _ := ⟨⟨_, rfl⟩, fun k => k.append rfl rfl (by simpa using hq)⟩
  callX hq _ k := by
    exact (k.append (s' := cbSt H _ _) rfl rfl (by simpa using hq)).claims
  look := by
    intro s ev h
    refine ⟨⟨_, rfl⟩, fun k => k.append rfl rfl ?_⟩
    have : ¬ Opening ev := by cases ev <;> first | exact id | exact h.elim
    simpa using this

theorem nsL_admits : Admits (nsL H) := by
  refine Admits.of (fun ev h1 _ h2 => ?_)
  cases ev <;> first | exact h2 | exact h1

/-! ### attributes -/

/-- only lookups are made, the table stays. -/
def sameNs (H : Handler σ) : Logic false H where
  R s s' := s'.ns = s.ns ∧ ∃ mid, s'.trace = s.trace ++ mid ∧ ∀ x ∈ mid, ¬ Opening x.1
  X s _ s' := ∃ mid, s'.trace = s.trace ++ mid ∧ ∀ x ∈ mid, ¬ Opening x.1
  Q ev := ¬ Opening ev
  quiet h := ⟨h.ns, [], by simp [h.trace], by simp⟩
  trans := by
    rintro a b c ⟨h0, m, h1, h2⟩ ⟨h0', m', h1', h2'⟩
    exact ⟨h0'.trans h0, m ++ m', by rw [h1', h1, List.append_assoc], fun x hx => (List.mem_append.1 hx).elim (h2 x) (h2' x)⟩
  transX := by
    rintro a b e c ⟨h0, m, h1, h2⟩ ⟨m', h1', h2'⟩
    exact ⟨m ++ m', by rw [h1', h1, List.append_assoc], fun x hx => (List.mem_append.1 hx).elim (h2 x) (h2' x)⟩
  xquiet := by
    rintro a e b c ⟨m, h1, h2⟩ h
    exact ⟨m, by rw [h.trace, h1], h2⟩
  fail _ := ⟨[], by simp, by simp⟩
  wrap h := h
  call hq _ := ⟨rfl, _, rfl, by simpa using hq⟩
  callX hq _ := ⟨_, rfl, by simpa using hq⟩
  look := by
    intro s ev h
    refine ⟨rfl, _, rfl, ?_⟩
    have : ¬ Opening ev := by cases ev <;> first | exact id | exact h.elim
    simpa using this

theorem sameNs_admits : Admits (sameNs H) := by
  refine Admits.of (fun ev h1 _ h2 => ?_)
  cases ev <;> first | exact h2 | exact h1

theorem uniqueLookup_some_of_mem {ns : List (Bytes × Bytes)} {p : Bytes} (h : uniqueLookup ns p = none) : p ∉ ns.map (·.1) := by
  intro hm
  obtain ⟨x, h1, rfl⟩ := List.mem_map.1 hm
  unfold uniqueLookup at h
  have := List.find?_eq_none.1 h x (List.mem_reverse.2 h1)
  simp at this

theorem nsPush_cases (ns : List (Bytes × Bytes)) (p u : Bytes) :
    nsPush ns p u = ns ∨ (nsPush ns p u = ns ++ [(p, u)] ∧ p ∉ ns.map (·.1)) := by
  unfold nsPush uniquePush
  cases h : uniqueLookup ns (p, u).1 with
  | some x => exact .inl rfl
  | none => exact .inr ⟨rfl, uniqueLookup_some_of_mem h⟩

/-- between the start of a tag and its event: lookups were made and at most `nb` declarations added to the table. -/
structure Adds (s s' : St σ) (nb : Nat) : Prop where
  trace : ∃ mid, s'.trace = s.trace ++ mid ∧ ∀ x ∈ mid, ¬ Opening x.1
  ns : ∃ new, s'.ns = s.ns ++ new ∧ new.length ≤ nb
  nodup : (s.ns.map (·.1)).Nodup → (s'.ns.map (·.1)).Nodup

theorem Adds.refl (s : St σ) : Adds s s 0 := ⟨⟨[], by simp, by simp⟩, ⟨[], by simp, by simp⟩, id⟩

theorem Adds.trans {a b c : St σ} {m n : Nat} (h : Adds a b m) (k : Adds b c n) : Adds a c (m + n) := by
  obtain ⟨t1, a1, b1⟩ := h.trace
  obtain ⟨t2, a2, b2⟩ := k.trace
  obtain ⟨n1, c1, d1⟩ := h.ns
  obtain ⟨n2, c2, d2⟩ := k.ns
  exact ⟨⟨t1 ++ t2, by rw [a2, a1, List.append_assoc], fun x hx => (List.mem_append.1 hx).elim (b1 x) (b2 x)⟩,
    ⟨n1 ++ n2, by rw [c2, c1, List.append_assoc], by simp; omega⟩, fun x => k.nodup (h.nodup x)⟩

theorem Adds.of_same {s s' : St σ} (h : (sameNs H).R s s') : Adds s s' 0 := by
  obtain ⟨h0, m, h1, h2⟩ := h
  exact ⟨⟨m, h1, h2⟩, ⟨[], by simp [h0], by simp⟩, fun x => by rw [h0]; exact x⟩

theorem Adds.push (s : St σ) (p u : Bytes) : Adds s { s with ns := nsPush s.ns p u } 1 := by
  rcases nsPush_cases s.ns p u with h | ⟨h, hn⟩
  · exact ⟨⟨[], by simp, by simp⟩, ⟨[], by simp [h], by simp⟩, fun x => by rw [h]; exact x⟩
  · refine ⟨⟨[], by simp, by simp⟩, ⟨[(p, u)], h, by simp⟩, fun x => ?_⟩
    show ((nsPush s.ns p u).map (·.1)).Nodup
    rw [h, List.map_append]
    exact List.nodup_append.2 ⟨x, by simp, fun a ha b hb e => by simp at hb; subst hb; subst e; exact hn ha⟩

/-- only lookups. -/
def Looks (s s' : St σ) : Prop := ∃ mid, s'.trace = s.trace ++ mid ∧ ∀ x ∈ mid, ¬ Opening x.1

theorem Adds.looks {a b c : St σ} {n : Nat} (h : Adds a b n) (k : Looks b c) : Looks a c := by
  obtain ⟨t1, a1, b1⟩ := h.trace
  obtain ⟨t2, a2, b2⟩ := k
  exact ⟨t1 ++ t2, by rw [a2, a1, List.append_assoc], fun x hx => (List.mem_append.1 hx).elim (b1 x) (b2 x)⟩

/-- result of the attribute loop. -/
def AttrsPost (s : St σ) (nb : Nat) : Out (St σ) (Nat × List AttrD) → Prop
  | .ok x s' => nb ≤ x.1 ∧ Adds s s' (x.1 - nb)
  | .err _ s' => Looks s s'
  | _ => True

theorem AttrsPost.after {s t : St σ} {nb k : Nat} (h : Adds s t k) {o : Out (St σ) (Nat × List AttrD)} (ho : AttrsPost t (nb + k) o) : AttrsPost s nb o := by
  cases o with
  | ok x s' =>
    refine ⟨by have := ho.1; omega, ?_⟩
    have := h.trans ho.2
    rwa [show k + (x.1 - (nb + k)) = x.1 - nb by have := ho.1; omega] at this
  | err e s' => exact h.looks ho
  | panic => trivial
  | diverge => trivial

theorem attrsPost_bind {α : Type} {p : P σ α} {f : α → P σ (Nat × List AttrD)} {s : St σ} {nb : Nat} (hp : Sat (sameNs H) p)
    (hf : ∀ a t, AttrsPost t nb (f a t)) : AttrsPost s nb ((p >>= f) s) := by
  have h1 := hp s
  show AttrsPost s nb (M.bind p f s)
  unfold M.bind
  cases hps : p s with
  | ok a s' =>
    rw [hps] at h1
    exact AttrsPost.after (Adds.of_same h1) (hf a s')
  | err e s' => rw [hps] at h1; exact h1
  | panic => trivial
  | diverge => trivial

theorem attrsPost_pure (s : St σ) (x : Nat × List AttrD) : AttrsPost s x.1 ((pure x : P σ _) s) :=
  ⟨Nat.le_refl _, by rw [Nat.sub_self]; exact Adds.refl s⟩

theorem attrsLoop_ns (loc : Bytes) : ∀ fuel nb attrs (s : St σ), AttrsPost s nb (attrsLoop E H loc fuel nb attrs s) := by
  have hQ : Admits (sameNs H) := sameNs_admits
  intro fuel
  induction fuel with
  | zero => intro nb attrs s; trivial
  | succ fuel ih =>
    intro nb attrs s
    have hA : Sat (sameNs H) (afterNs E : P σ Bool) := by unfold afterNs; sat
    unfold attrsLoop
    refine attrsPost_bind (H := H) (Silent.sat Silent.skipBlanks _) (fun _ s => ?_)
    refine attrsPost_bind (H := H) (Silent.sat (Silent.consume _) _) (fun b s => ?_)
    cases b with
    | true => exact attrsPost_pure s (nb, attrs)
    | false =>
      simp only [Bool.false_eq_true, if_false]
      refine attrsPost_bind (H := H) (Silent.sat (Silent.hasPrefix _) _) (fun b s => ?_)
      cases b with
      | true => exact attrsPost_pure s (nb, attrs)
      | false =>
        simp only [Bool.false_eq_true, if_false]
        refine attrsPost_bind (H := H) (Sat.wrap (Sat.parseAttribute E hQ loc)) (fun a s => ?_)
        split
        · rw [modify_bind]
          refine AttrsPost.after (Adds.push s [] a.2.2) ?_
          refine attrsPost_bind (H := H) hA (fun b s => ?_)
          cases b <;> exact ih _ _ _
        · split
          · rw [get_bind]
            cases nsDeclCheck E s.ns a.1 a.2.2 with
            | some o =>
              cases o with
              | some e => exact ⟨[], by simp, by simp⟩
              | none => exact attrsPost_bind (H := H) hA (fun _ s => ih _ _ _)
            | none =>
              simp only
              rw [modify_bind]
              refine AttrsPost.after (Adds.push s a.1 a.2.2) ?_
              exact attrsPost_bind (H := H) hA (fun _ s => ih _ _ _)
          · exact ih _ _ _

/-! ### tags -/

theorem declIn_eq {K : List (Bytes × Bytes)} {n : Nat} (hK : (K.map (·.1)).Nodup) (p u : Bytes) :
    declIn p (K.map some ++ List.replicate n none) = some u ↔ (p, u) ∈ K := by
  have e : (K.map some ++ List.replicate n none).filterMap id = K := by
    rw [List.filterMap_append, List.filterMap_map]
    have : (List.replicate n (none : Option (Bytes × Bytes))).filterMap id = [] := by
      rw [List.filterMap_eq_nil_iff]
      intro a ha
      exact List.eq_of_mem_replicate ha
    rw [this, List.append_nil]
    induction K with
    | nil => rfl
    | cons x t ih => simpa using ih (by simp only [List.map_cons, List.nodup_cons] at hK; exact hK.2)
  unfold declIn
  rw [e]
  constructor
  · intro h
    cases hf : K.find? (fun x => x.1 == p) with
    | none => rw [hf] at h; cases h
    | some x =>
      rw [hf] at h
      simp only [Option.map_some, Option.some.injEq] at h
      have h1 := List.find?_some hf
      have h2 := List.mem_of_find?_eq_some hf
      obtain ⟨a, b⟩ := x
      simp only [beq_iff_eq] at h1
      simp only at h
      subst h1; subst h
      exact h2
  · intro h
    induction K with
    | nil => cases h
    | cons x t ih =>
      simp only [List.map_cons, List.nodup_cons] at hK
      rcases List.mem_cons.1 h with rfl | h
      · simp
      · have hne : x.1 ≠ p := by
          rintro rfl
          exact hK.1 (List.mem_map.2 ⟨_, h, rfl⟩)
        rw [List.find?_cons_of_neg (by simpa using hne)]
        refine ih hK.2 ?_ h
        rw [List.filterMap_append, List.filterMap_map] at e ⊢
        simp at e ⊢

theorem nsPeek_suffix (ns : List (Bytes × Bytes)) (n : Nat) : nsPeek ns n <:+ ns := by
  unfold nsPeek stackPeek
  split
  · exact List.drop_suffix _ _
  · exact List.suffix_refl _

theorem mem_nsPeek {old new : List (Bytes × Bytes)} {n : Nat} (hn : new.length ≤ n) {x : Bytes × Bytes} (hx : x ∈ new) : x ∈ nsPeek (old ++ new) n := by
  unfold nsPeek stackPeek
  split
  · rw [List.drop_append]
    refine List.mem_append_right _ ?_
    have : (old ++ new).length - n - old.length = 0 := by simp; omega
    rw [this]
    exact hx
  · exact List.mem_append_right _ hx

theorem declIn_nsList {ns : List (Bytes × Bytes)} {n : Nat} (h : (ns.map (·.1)).Nodup) (p u : Bytes) :
    declIn p (nsList ns n) = some u ↔ (p, u) ∈ nsPeek ns n :=
  declIn_eq (((nsPeek_suffix ns n).map (·.1)).sublist.nodup h) p u

/-- the event of a start tag. -/
theorem NsState.start {s s1 : St σ} {nb : Nat} (h : NsState s) (hA : Adds s s1 nb) {l p : Bytes} {as : List AttrD} {o : HOut} {s2 : St σ}
    (hp : p ≠ [] → nsLookup s1.ns p ≠ [])
    (ht : s2.trace = s1.trace ++ [(.startElement l p (nsLookup s1.ns p) (nsList s1.ns nb) as, o)]) (hn : s2.ns = s1.ns) : NsState s2 := by
  obtain ⟨mid, t1, t2⟩ := hA.trace
  obtain ⟨new, n1, n2⟩ := hA.ns
  have hc1 : NsClaims s1.trace := by rw [t1]; exact h.claims.append t2
  -- the table after the event
  have key : NoEntities s1.trace → (s1.ns.map (·.1)).Nodup ∧ ∀ q v, (q, v) ∈ s1.ns ↔
      firstDecl q (s1.trace.map (·.1) ++ [.startElement l p (nsLookup s1.ns p) (nsList s1.ns nb) as]) = some v := by
    intro hne
    rw [t1] at hne
    have hi := h.inv (noEntities_left hne)
    have hd := hA.nodup hi.nodup
    refine ⟨hd, fun q v => ?_⟩
    have h0 : firstDecl q (s1.trace.map (·.1)) = firstDecl q (s.trace.map (·.1)) := by
      rw [t1, List.map_append, firstDecl_append, firstDecl_other (l := mid.map (·.1)), Option.or_none]
      intro e he
      obtain ⟨x, hx, rfl⟩ := List.mem_map.1 he
      exact t2 x hx
    rw [firstDecl_append, h0]
    simp only [firstDecl, Option.or_none]
    have hdl := declIn_nsList (n := nb) hd q v
    constructor
    · intro hm
      by_cases hold : (q, v) ∈ s.ns
      · rw [(hi.mem q v).1 hold]; rfl
      · have hnew : (q, v) ∈ new := by rw [n1] at hm; exact (List.mem_append.1 hm).resolve_left hold
        cases hf : firstDecl q (s.trace.map (·.1)) with
        | none =>
          rw [Option.none_or]
          refine hdl.2 ?_
          rw [n1]
          exact mem_nsPeek n2 hnew
        | some w =>
          exfalso
          have hw := (hi.mem q w).2 hf
          rw [n1, List.map_append] at hd
          exact (List.nodup_append.1 hd).2.2 q (List.mem_map.2 ⟨_, hw, rfl⟩) q (List.mem_map.2 ⟨_, hnew, rfl⟩) rfl
    · intro hm
      cases hf : firstDecl q (s.trace.map (·.1)) with
      | none =>
        rw [hf, Option.none_or] at hm
        exact (nsPeek_suffix _ _).subset (hdl.1 hm)
      | some w =>
        rw [hf, Option.some_or] at hm
        cases hm
        rw [n1]
        exact List.mem_append_left _ ((hi.mem q v).2 hf)
  have hlk : NoEntities s1.trace → nsLookup s1.ns p =
      (firstDecl p (s1.trace.map (·.1) ++ [.startElement l p (nsLookup s1.ns p) (nsList s1.ns nb) as])).getD [] := by
    intro hne
    obtain ⟨k1, k2⟩ := key hne
    cases hf : firstDecl p (s1.trace.map (·.1) ++ [.startElement l p (nsLookup s1.ns p) (nsList s1.ns nb) as]) with
    | some u => exact nsLookup_some k1 ((k2 p u).2 hf)
    | none =>
      refine nsLookup_none fun hm => ?_
      obtain ⟨⟨q, u⟩, h1, rfl⟩ := List.mem_map.1 hm
      rw [(k2 q u).1 h1] at hf
      cases hf
  refine ⟨?_, fun hne => ?_⟩
  · rw [ht]
    intro pre l' p' u' ns' as' o' suf e hne
    rcases List.eq_nil_or_concat suf with rfl | ⟨suf', x, rfl⟩
    · have := List.append_inj_right' e rfl
      have he := List.append_inj_left' e rfl
      simp only [List.cons.injEq, Prod.mk.injEq, Ev.startElement.injEq, and_true] at this
      obtain ⟨⟨rfl, rfl, rfl, rfl, rfl⟩, rfl⟩ := this
      subst he
      exact ⟨hlk hne, hp⟩
    · rw [List.concat_eq_append, ← List.cons_append, ← List.append_assoc] at e
      have he := List.append_inj_left' e rfl
      exact hc1 pre l' p' u' ns' as' o' suf' he hne
  · rw [ht] at hne
    obtain ⟨k1, k2⟩ := key (noEntities_left hne)
    refine ⟨by rw [hn]; exact k1, fun q v => ?_⟩
    rw [hn, ht, List.map_append]
    exact k2 q v

theorem nsL_startTag : Sat (nsL H) (parseStartTag E H) := by
  unfold Helium.parseStartTag
  refine Sat.bind (Silent.sat (Silent.peek E) _) (fun _ => ?_)
  refine Sat.bind (Silent.sat (Silent.need _ _) _) (fun _ => ?_)
  refine Sat.bind (Silent.sat (Silent.adv _) _) (fun _ => ?_)
  refine Sat.bind (Silent.sat (Silent.orElse (Silent.parseQName E)) _) (fun q => ?_)
  refine Sat.bind (Silent.sat (Silent.need _ _) _) (fun _ => ?_)
  refine Sat.bind (Silent.sat Silent.rest _) (fun r => ?_)
  intro s
  have h1 := attrsLoop_ns E (H := H) q.1 (r.length + 1) 0 [] s
  show post (M.bind _ _ s) _ _
  unfold M.bind
  cases hr : attrsLoop E H q.1 (r.length + 1) 0 [] s with
  | panic => trivial
  | diverge => trivial
  | err e t =>
    rw [hr] at h1
    obtain ⟨m, e1, e2⟩ := h1
    intro h
    show NsClaims t.trace
    rw [e1]
    exact h.claims.append e2
  | ok na t =>
    rw [hr] at h1
    obtain ⟨-, hA⟩ := h1
    rw [Nat.sub_zero] at hA
    simp only
    rw [get_bind]
    split
    · intro h
      obtain ⟨m, e1, e2⟩ := hA.trace
      show NsClaims t.trace
      rw [e1]
      exact h.claims.append e2
    · rename_i hc
      have hp : q.2 ≠ [] → nsLookup t.ns q.2 ≠ [] := fun h1 h2 => hc ⟨h1, h2⟩
      have hst : ∀ ev, NsState s → ev = .startElement q.1 q.2 (nsLookup t.ns q.2) (nsList t.ns na.1) (na.2 ++ defaultAttrs E t.attsDefault q.2 q.1) →
          NsState (cbSt H ev t) := fun ev h e => by subst e; exact h.start hA hp rfl rfl
      obtain ⟨m, e1, -⟩ := hA.trace
      generalize hev : Ev.startElement q.1 q.2 (nsLookup t.ns q.2) (nsList t.ns na.1) (na.2 ++ defaultAttrs E t.attsDefault q.2 q.1) = ev at *
      have hst := fun h => hst ev h rfl
      unfold cbSt at hst
      simp only [Bind.bind, M.bind, Helium.cb, callback]
      cases hr : (H t.view ev t.hc).1 <;> simp only [hr, Pure.pure, M.pure, M.fail, M.panic, M.diverge, M.modify] at hst ⊢
      case err e => exact fun h => (hst h).claims
      case panic => trivial
      case diverge => trivial
      all_goals exact ⟨⟨m ++ _, by rw [← List.append_assoc, ← e1]⟩, fun h => ⟨(hst h).claims, fun hn => ⟨((hst h).inv hn).nodup, ((hst h).inv hn).mem⟩⟩⟩

theorem nsL_nodes (f : St σ → List EInfo) : Sat (nsL H) (M.modify (fun s => { s with nodes := f s }) : P σ Unit) :=
  Sat.modify (fun s => ⟨⟨[], by simp⟩, fun h => h.append (mid := []) (by simp) rfl (by simp)⟩)

theorem nsL_endTag : Sat (nsL H) (parseEndTag E H) := by
  have hQ : Admits (nsL H) := nsL_admits
  have h1 : ∀ l p u, Sat (nsL H) (Helium.cb H (.endElement l p u)) := fun l p u => Sat.cb (fun h => h)
  have h2 := nsL_nodes (H := H)
  unfold Helium.parseEndTag
  repeat first | with_reducible exact h1 _ _ _ | exact h2 _ | sat1

theorem nsL_frame : Frame (nsL H) (fun _ => True) := ⟨nsL_admits, fun _ _ => trivial, fun _ _ => trivial⟩

theorem nsL_element {body : P σ Unit} (hb : SatI (nsL H) (fun _ => True) body) : SatI (nsL H) (fun _ => True) (parseElementW E H body) := by
  unfold Helium.parseElementW
  refine SatI.bind nsL_frame (Sat.satI (Sat.wrap (nsL_startTag E))) (fun _ => ?_)
  refine SatI.bind nsL_frame (Sat.satI (Silent.sat (Silent.hasPrefix _) _)) (fun c => ?_)
  have h2 : SatI (nsL H) (fun _ => True) (M.wrap (Helium.parseEndTag E H)) := Sat.satI (Sat.wrap (nsL_endTag E))
  split
  · exact h2
  · exact SatI.bind nsL_frame (SatI.wrap hb) (fun _ => h2)

/-- looking an entity up leaves a mark in the trace. -/
theorem parseEntityRef_asks {s s' : St σ} {i : Nat} (h : parseEntityRef E H s = .ok (.ptr i) s') : ¬ NoEntities s'.trace := by
  unfold parseEntityRef at h
  run at h
  obtain ⟨_, s1, h1, h⟩ := bind_ok.1 h
  run at h
  obtain ⟨n, s2, h2, h⟩ := bind_ok.1 h
  run at h
  obtain ⟨_, s3, h3, h⟩ := bind_ok.1 h
  run at h
  cases hpd : resolvePredef n with
  | some p => rw [hpd] at h; cases h
  | none =>
    rw [hpd] at h
    obtain ⟨r, s4, h4, h⟩ := bind_ok.1 h
    have ht : ∃ o, (Ev.getEntity n, o) ∈ s4.trace := by
      unfold ask callback at h4
      simp only [Bind.bind, M.bind] at h4
      cases hr : (H (St.view { s3 with cur := s3.cur.drop 1 }) (.getEntity n) s3.hc).1 <;>
        rw [hr] at h4 <;> simp only [Pure.pure, M.pure, M.panic, M.diverge, Out.ok.injEq, reduceCtorEq] at h4
      all_goals
        obtain ⟨-, rfl⟩ := h4
        exact ⟨_, List.mem_append_right _ (List.mem_singleton.2 rfl)⟩
    obtain ⟨o, ht⟩ := ht
    intro hn
    have hs : s'.trace = s4.trace := by
      cases r with
      | ok e => cases e with
        | some e => cases h; rfl
        | none => cases h
      | error e =>
        simp only at h
        obtain ⟨x, s5, h5, h⟩ := bind_ok.1 h
        have e5 : s5.trace = s4.trace := by
          have := (Silent.ctxGetEntity n) s4
          rw [h5] at this
          exact this.trace
        cases x with
        | none =>
          simp only at h
          run at h
          split at h
          · cases h
          · split at h
            · obtain ⟨_, s6, h6, h⟩ := bind_ok.1 h
              cases h
            · cases h
        | some x =>
          simp only at h
          run at h
          split at h
          · cases h
          · split at h
            · cases h
            · cases h; exact e5
    rw [hs] at hn
    exact hn _ ht n rfl

theorem nsL_reference {body : P σ Unit} (hb : SatI (nsL H) (fun _ => True) body) : SatI (nsL H) (fun _ => True) (parseReference E H body) := by
  refine SatI.parseReferenceG E nsL_frame (fun _ _ _ _ _ _ _ => id) (fun s i s' _ h c => post_seq ?_ (fun _ t =>
    Sat.bind (Silent.sat Silent.get _) (fun _ => Sat.cbRaw (nsL_admits.ev (.reference _) trivial nofun trivial trivial)) t))
  have hne := parseEntityRef_asks E h
  refine post_parseChunk E nsL_frame hb c s' trivial (fun _ _ _ _ _ => trivial) ?_ ?_
  · rintro d h c fc lc t - ⟨⟨m, h1⟩, h2⟩
    refine ⟨⟨m, h1⟩, fun k => ⟨(h2 ⟨k.claims, fun hn => absurd hn hne⟩).claims, fun hn => absurd ?_ hne⟩⟩
    have hn : NoEntities t.trace := hn
    rw [h1] at hn
    exact noEntities_left hn
  · rintro d h c fc lc t e - h2 k
    exact h2 ⟨k.claims, fun hn => absurd hn hne⟩

theorem nsL_document (fuel snl : Nat) : Sat (nsL H) (parseDocument E H fuel snl) := by
  rw [parseDocument_eq]
  refine Sat.bind (Sat.parseProlog E nsL_admits (Sat.attlistLoop E nsL_admits (fun _ _ _ _ _ _ _ => id)) id id (fun _ _ _ => ⟨id, id⟩) (fun s c => ⟨⟨[], by simp⟩, fun h => h.append (mid := []) (by simp) rfl (by simp)⟩)
    (fun s n => ⟨⟨[], by simp⟩, fun h => h.append (mid := []) (by simp) rfl (by simp)⟩) snl) (fun _ => ?_)
  exact (SatI.parseTail E nsL_frame (fun _ h => nsL_reference E h) (fun _ h => nsL_element E h) id fuel).sat

theorem nsState_init (usr : σ) (heap : Heap) (input : Bytes) : NsState (initSt usr heap input) :=
  ⟨fun pre _ _ _ _ _ _ _ h => (by cases pre <;> cases h), fun _ => ⟨List.nodup_nil, fun p u => by simp [initSt, firstDecl]⟩⟩

theorem nsClaims_parse {usr : σ} {fuel snl : Nat} {input : Bytes} {d : Option Nat} {e : Option Err} {h : Heap} {t : List (Ev × HOut)}
    (hp : parserParse E H usr fuel snl input = .done d e h t) : NsClaims t := by
  have := nsL_document E (H := H) fuel snl (initSt usr Heap.empty input)
  unfold parserParse at hp
  cases hr : parseDocument E H fuel snl (initSt usr Heap.empty input) with
  | ok a s =>
    rw [hr] at hp this
    cases hp
    exact (this.2 (nsState_init _ _ _)).claims
  | err e s =>
    rw [hr] at hp this
    cases hp
    exact this (nsState_init _ _ _)
  | panic => rw [hr] at hp; cases hp
  | diverge => rw [hr] at hp; cases hp

end
end Helium
