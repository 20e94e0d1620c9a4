import Verif.Spec.Order
import Verif.Spec.Sax2
import Verif.Lemmas.SimBudget
import Verif.Lemmas.EntLogic
import Verif.Props.Sax
import Verif.Lemmas.KernelRfl
/-! The tree does not depend on the order in which the map of default attributes is gone through (C59). -/
namespace Helium
open Spec
variable {σ : Type}

theorem bind_congrAt {S α β : Type} {p : M S α} {f g : α → M S β} {s : S} (h : ∀ a s', p s = .ok a s' → f a s' = g a s') :
    (p >>= f) s = (p >>= g) s := by
  show M.bind p f s = M.bind p g s
  unfold M.bind
  cases hp : p s with
  | ok a s' => exact h a s' hp
  | _ => rfl

/-- all default attributes in the list are marked. -/
def AllMarked (as : List AttrD) (h : Heap) : Prop := ∀ i, AttrD.dflt i ∈ as → i < h.size ∧ (h.at' i).isDefault = true

theorem AllMarked.grows {as : List AttrD} {h h' : Heap} (hm : AllMarked as h) (hg : Grows h h') : AllMarked as h' :=
  fun i hi => ⟨Nat.lt_of_lt_of_le (hm i hi).1 hg.1, hg.2 i (hm i hi).1 (hm i hi).2⟩

theorem tbAttrs_written (fuel e : Nat) : ∀ (as : List AttrD) (c : HC σ), AllMarked as c.heap →
    (as.forM (tbAttr fuel e)) c = ((as.filter written?).forM (tbAttr fuel e)) c
  | [], _, _ => rfl
  | .parsed p l v :: as, c, h => by
    show ((tbAttr fuel e (.parsed p l v) >>= fun _ => as.forM (tbAttr fuel e)) c) =
      ((tbAttr fuel e (.parsed p l v) >>= fun _ => (as.filter written?).forM (tbAttr fuel e)) c)
    refine bind_congrAt (fun a c' hc => tbAttrs_written fuel e as c' ?_)
    have hg := ((KeepB.tbAttr (N := fun _ => False) fuel e (.parsed p l v) c).1 _ _ hc).grows
    exact AllMarked.grows (fun i hi => h i (List.mem_cons_of_mem _ hi)) hg
  | .dflt i :: as, c, h => by
    have hd : (AttrD.dflt i).isDefault c.heap = true := (h i List.mem_cons_self).2
    have ht : tbAttr fuel e (.dflt i) c = .ok () c := by
      show (if (AttrD.dflt i).isDefault c.heap then (pure () : TB σ Unit) else _) c = _
      rw [if_pos hd]; rfl
    show M.bind (tbAttr fuel e (.dflt i)) (fun _ => as.forM (tbAttr fuel e)) c = ((as.filter written?).forM (tbAttr fuel e)) c
    unfold M.bind
    rw [ht]
    exact tbAttrs_written fuel e as c (fun i hi => h i (List.mem_cons_of_mem _ hi))

theorem tbStartElement_written (fuel : Nat) (l p u : Bytes) (ns : List (Option (Bytes × Bytes))) (as : List AttrD) (c : HC σ)
    (h : AllMarked as c.heap) : tbStartElement fuel l p u ns as c = tbStartElement fuel l p u ns (as.filter written?) c := by
  unfold tbStartElement
  have grow : ∀ {α : Type} {q : TB σ α} {a c c'}, KeepB (fun _ => False) q → AllMarked as c.heap → q c = .ok a c' → AllMarked as c'.heap :=
    fun hk hm hc => hm.grows ((hk _).1 _ _ hc).grows
  refine bind_congrAt (fun d c1 h1 => ?_)
  have m1 := grow KeepB.tbDoc h h1
  refine bind_congrAt (fun e c2 h2 => ?_)
  have m2 := grow (KeepB.tbH (KeepT.newNode rfl)) m1 h2
  have last : ∀ c3 : HC σ, AllMarked as c3.heap →
      (do ns.forM fun n => do let n ← M.deref n; tbH (setNamespace e n.fst n.snd false)
          as.forM (tbAttr fuel e)
          tbAttach d e
          M.modify fun c => { c with elem := some e } : TB σ Unit) c3 =
      (do ns.forM fun n => do let n ← M.deref n; tbH (setNamespace e n.fst n.snd false)
          (as.filter written?).forM (tbAttr fuel e)
          tbAttach d e
          M.modify fun c => { c with elem := some e } : TB σ Unit) c3 := by
    intro c3 m3
    refine bind_congrAt (fun _ c4 h4 => ?_)
    have m4 := grow (by keepB) m3 h4
    show M.bind _ _ c4 = M.bind _ _ c4
    unfold M.bind
    rw [tbAttrs_written fuel e as c4 m4]
  split
  · exact bind_congrAt (fun _ c3 h3 => last c3 (grow (by keepB) m2 h3))
  · exact last c2 m2

/-- the tree builder passes over default attributes. -/
theorem treeBuilder_written (fuel : Nat) (v : HV) (ev : Ev) (c : HC σ) (h : ev.marked c.heap) :
    treeBuilder fuel v ev c = treeBuilder fuel v (undefaulted ev) c := by
  cases ev with
  | startElement l p u ns as =>
    show tbOut (M.bind (tbStartElement fuel l p u ns as) _) c = tbOut (M.bind (tbStartElement fuel l p u ns (as.filter written?)) _) c
    unfold tbOut M.bind
    rw [tbStartElement_written fuel l p u ns as c h]
  | _ => rfl

theorem filter_dflt (as : List AttrD) (is : List Nat) : (as ++ is.map AttrD.dflt).filter written? = as.filter written? := by
  rw [List.filter_append]
  have : (is.map AttrD.dflt).filter written? = [] := by
    apply List.filter_eq_nil_iff.mpr
    intro a ha
    obtain ⟨i, _, rfl⟩ := List.mem_map.mp ha
    simp [written?]
  rw [this, List.append_nil]

theorem shuffled_refl (ev : Ev) : Shuffled ev ev := by
  cases ev with
  | startElement l p u ns as => exact ⟨as, rfl, List.Perm.refl _, rfl⟩
  | _ => rfl

theorem shuffled_of {ev ev' : Ev} (h : ev.Reordered ev') : Shuffled ev ev' ∧ undefaulted ev' = undefaulted ev ∧
    ∀ hp, ev.marked hp → ev'.marked hp := by
  obtain ⟨l, p, u, ns, as, is, js, hp, rfl, rfl⟩ := h
  refine ⟨⟨_, rfl, (hp.map _).append_left as, by rw [filter_dflt, filter_dflt]⟩, ?_, fun hp' hm i hi => ?_⟩
  · show Ev.startElement _ _ _ _ _ = Ev.startElement _ _ _ _ _
    rw [filter_dflt, filter_dflt]
  · exact hm i (((hp.map _).append_left as).mem_iff.mpr hi)

theorem allShuffled_snoc : ∀ {l m : List (Ev × HOut)} {a b : Ev × HOut}, AllShuffled l m → Shuffled a.1 b.1 → b.2 = a.2 →
    AllShuffled (l ++ [a]) (m ++ [b])
  | [], [], _, _, _, h1, h2 => ⟨h1, h2, trivial⟩
  | _ :: _, _ :: _, _, _, h, h1, h2 => ⟨h.1, h.2.1, allShuffled_snoc h.2.2 h1 h2⟩
  | [], _ :: _, _, _, h, _, _ => h.elim
  | _ :: _, [], _, _, h, _, _ => h.elim

/-- related by having the same state and, but for the order of default attributes, the same record. -/
def byOrder : Sync σ σ where
  perm := True
  strict := True
  rel u tr w tr' := u = w ∧ AllShuffled tr tr'

theorem treeBuilder_byOrder (n : Nat) : InStep (σ := σ) byOrder (treeBuilder n) (treeBuilder n) := by
  rintro v ev ev' c _ tr tr' ⟨rfl, ht⟩ he hm
  have hm := hm trivial
  have hs : Shuffled ev ev' ∧ undefaulted ev' = undefaulted ev ∧ ∀ hp, ev.marked hp → ev'.marked hp := by
    rcases he with rfl | ⟨_, h⟩
    · exact ⟨shuffled_refl _, rfl, fun _ x => x⟩
    · exact shuffled_of h
  have e : treeBuilder n v ev' c = treeBuilder n v ev c := by
    rw [treeBuilder_written n v ev c hm, treeBuilder_written n v ev' c (hs.2.2 _ hm), hs.2.1]
  right
  refine ⟨?_, fun _ => (treeBuilder_tabs n v ev c).grows, (treeBuilder n v ev c).2.usr, ?_, rfl, ?_⟩
  · rw [show (⟨c.usr, c.heap, c.doc, c.elem⟩ : HC σ) = c from rfl, e]
  · rw [show (⟨c.usr, c.heap, c.doc, c.elem⟩ : HC σ) = c from rfl, e]
  · exact allShuffled_snoc ht hs.1 (by rw [show (⟨c.usr, c.heap, c.doc, c.elem⟩ : HC σ) = c from rfl, e])

/-- **C59** `Parse` gives the same document and the same error whatever the order in which the map of default attributes is gone
through; the callbacks differ in the order of default attributes at most. -/
theorem C59_parse (E : Env) (o : List Nat → List Nat) (ho : ∀ l, (o l).Perm l) (n : Nat) (b : Bytes) :
    SameUpToOrder (parse E n b) (parse { E with order := o, order_perm := ho } n b) := by
  have := parserParse_sim E (o := o) (ho := ho) (treeBuilder_byOrder n) (.inl trivial) (u := ()) (w := ()) (Nat.le_refl n) (.inr rfl)
    (Nat.le_refl n) (.inr rfl) b ⟨rfl, trivial⟩
  unfold parse
  revert this
  cases parserParse E (treeBuilder n) () n n b with
  | done d er h tr =>
    rintro ⟨u', w', tr', e1, _, e2⟩
    rw [e1]
    exact ⟨rfl, rfl, rfl, e2⟩
  | panic => intro e1; rw [e1]; trivial
  | diverge =>
    rintro (h | e1)
    · exact absurd h id
    · rw [e1]; trivial

/-- related by having the same state and the same record but for what the callbacks returned. -/
def byMark : Sync σ σ where
  strict := True
  rel u tr w tr' := u = w ∧ tr = tr'

/-- **C59** Default attributes never get into the tree: `Parse` builds the same document, with the same error and callbacks, if
the tree builder is not told about them. -/
theorem C59_no_defaults (E : Env) (n : Nat) (b : Bytes) :
    parserParse E (withoutDefaults (treeBuilder n)) () n n b = parse E n b := by
  have hA : InStep (σ := Unit) byMark (treeBuilder n) (withoutDefaults (treeBuilder n)) := by
    rintro v ev ev' c _ tr tr' ⟨rfl, rfl⟩ he hm
    rcases he with rfl | ⟨x, _⟩
    · have e : withoutDefaults (treeBuilder n) v ev' c = treeBuilder n v ev' c := (treeBuilder_written n v ev' c (hm trivial)).symm
      right
      refine ⟨?_, fun _ => (treeBuilder_tabs n v ev' c).grows, (treeBuilder n v ev' c).2.usr, ?_, rfl, ?_⟩ <;>
        rw [show (⟨c.usr, c.heap, c.doc, c.elem⟩ : HC Unit) = c from rfl, e]
    · exact x.elim
  have := parserParse_same E hA (u := ()) (w := ()) (Nat.le_refl n) (.inr rfl) (Nat.le_refl n) (.inr rfl) b ⟨rfl, rfl⟩
  unfold parse
  revert this
  cases parserParse E (treeBuilder n) () n n b with
  | done d er h tr => rintro ⟨u', w', tr', e1, _, rfl⟩; exact e1
  | panic => exact id
  | diverge => exact fun h => h.resolve_left id

/-! ### the order does show in the callbacks -/

/-- the last first. -/
def lastFirst (l : List Nat) : List Nat := l.reverse

/-- two default attributes. -/
def twoDefaults : Bytes := b!"<!DOCTYPE a [<!ATTLIST a b CDATA \"1\" c CDATA \"2\">]><a d=\"3\"/>"

/-- the attributes handed over with the first start tag. -/
def firstTag : ParseRes → Option (List AttrD)
  | .done _ _ _ tr => tr.findSome? (fun x => match x.1 with | .startElement _ _ _ _ as => some as | _ => none)
  | _ => none

/-- what a handler is told of default attributes does depend on the order: `<a d="3"/>` with `b` and `c` declared for `a`. -/
theorem C59_callbacks_depend : ∃ (E : Env) (o : List Nat → List Nat) (ho : ∀ l, (o l).Perm l),
    firstTag (parse E 60 twoDefaults) ≠ firstTag (parse { E with order := o, order_perm := ho } 60 twoDefaults) := by
  refine ⟨env0, lastFirst, fun l => List.reverse_perm l, ?_⟩
  have h1 : firstTag (parse env0 60 twoDefaults) = some [.parsed [] b!"d" b!"3", .dflt 3, .dflt 6] := by kernel_rfl
  have h2 : firstTag (parse { env0 with order := lastFirst, order_perm := fun l => List.reverse_perm l } 60 twoDefaults) =
      some [.parsed [] b!"d" b!"3", .dflt 6, .dflt 3] := by kernel_rfl
  rw [h1, h2]
  intro h
  injection h with h
  injection h with _ h
  injection h with h _
  injection h with h
  exact absurd h (by decide)

/-- the name of the element of a document, and that of its only attribute. -/
def onlyAttr : ParseRes → Option (Bytes × Bytes)
  | .done (some d) none h _ => do
    let e ← (h.at' d).last
    let a ← (h.at' e).props
    if (h.at' a).next = none then some ((h.at' e).name, (h.at' a).name) else none
  | _ => none

/-- this document is accepted, with or without the tree builder being told about default attributes, and its element has the
written attribute only. -/
example : onlyAttr (parse env0 60 twoDefaults) = some (b!"a", b!"d") := by kernel_rfl
example : onlyAttr (parserParse env0 (withoutDefaults (treeBuilder 60)) () 60 60 twoDefaults) = some (b!"a", b!"d") := by kernel_rfl

end Helium
