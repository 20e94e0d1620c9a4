import Verif.Props.Dtd
import Verif.Props.Ns
import Verif.Props.Total
/-! White space in elements with declared content (C52). -/
namespace Helium
open Spec

/-! ### C52 -/

/-- the name of an element as written. -/
def writtenName (l p : Bytes) : Bytes := if p = [] then l else p ++ 58 :: l

/-- C52 in full: in an accepted document, white space reported as ignorable is not inside an element declared with mixed content. -/
def C52_statement : Prop := ∀ (E : Env) (fuel : Nat) (input : Bytes) (evs pre post : List Ev) (w l p u : Bytes) (st : List (Bytes × Bytes × Bytes)) (ec : EC),
  (parse E fuel input).accepted = some evs → evs = pre ++ .ignorable w :: post → nest [] pre = some ((l, p, u) :: st) →
  Ev.elementDecl (writtenName l p) 3 ec ∉ pre

/-- `<!DOCTYPE a [<!ELEMENT a (#PCDATA)>]><a> <b/></a>` -/
theorem C52_witness : (parse env0 30 b!"<!DOCTYPE a [<!ELEMENT a (#PCDATA)>]><a> <b/></a>").accepted =
    some ([.setDocumentLocator, .startDocument, .internalSubset b!"a" [] [], .elementDecl b!"a" 3 (.mk 1 1 [] [] .nil .nil), .externalSubset b!"a" [] [],
      .startElement b!"a" [] [] [] []] ++ .ignorable b!" " :: [.startElement b!"b" [] [] [] [], .endElement b!"b" [] [], .endElement b!"a" [] [],
      .endDocument]) := by kernel_rfl

/-- C52 fails: the white space in the element `a`, declared `(#PCDATA)`, is reported as ignorable. -/
theorem C52_refuted : ¬ C52_statement := fun h => h env0 30 _ _ _ _ _ b!"a" [] [] [] (.mk 1 1 [] [] .nil .nil) C52_witness rfl (by decide) (by simp [writtenName])

/-- the name used to look up the declaration of the innermost element is that of no declaration unless it has a prefix: whatever was declared, an
element without prefix is not found to have mixed content. -/
theorem C52_unprefixed_never_mixed {h : Heap} {t : Nat} (F : FreshDtd h t) (ops : List DOp) {rs : List (Except Err Nat)} {h' : Heap}
    (hh : history t ops h = .ok rs h') {d : Nat} (hd : (h'.at' d).intSubset = some t) {n : Bytes} (hn : 58 ∉ n) : isMixedElement h' d n = false := by
  obtain ⟨_, _, h1, I, -⟩ := history_run ops (DInv.fresh F)
  rw [hh] at h1; cases h1
  have hk := I.el n
  have : ([] ++ ops).findSome? (elSel n) = none := by
    rw [List.findSome?_eq_none_iff]
    intro op _
    cases op with
    | element m typ ec =>
      refine if_neg (fun hx => hn ?_)
      rw [← hx.1]
      simp [elemKey]
    | entity => rfl
    | attr => rfl
  rw [this] at hk
  unfold isMixedElement
  rw [hd]
  cases hg : mapGet (h'.at' t).elements n with
  | none => simp only [hg]
  | some i => rw [look, hg] at hk; cases hk

/-- an element with prefix `p` and local name `l` is treated as having mixed content exactly when `l:p` (not `p:l`) has been declared with other
than element content. -/
theorem C52_prefixed_swapped {h : Heap} {t : Nat} (F : FreshDtd h t) (ops : List DOp) {rs : List (Except Err Nat)} {h' : Heap}
    (hh : history t ops h = .ok rs h') {d : Nat} (hd : (h'.at' d).intSubset = some t) {l p : Bytes} (hl : 58 ∉ l) :
    isMixedElement h' d (p ++ 58 :: l) = true ↔ ∃ typ ec, ops.findSome? (DOp.elementType (l, p)) = some (typ, ec) ∧ typ ≠ 4 := by
  obtain ⟨_, _, h1, I, -⟩ := history_run ops (DInv.fresh F)
  rw [hh] at h1; cases h1
  have hk := I.el (p ++ 58 :: l)
  have hs : ∀ op, elSel (p ++ 58 :: l) op = op.elementType (l, p) := by
    intro op
    cases op with
    | element m typ ec =>
      simp only [elSel, DOp.elementType]
      by_cases hm : splitColon m = (l, p)
      · simp [hm, elemKey]
      · rw [if_neg, if_neg]
        · exact fun hx => hm hx.1
        · exact fun hx => hm (elemKey_inj (q' := (l, p)) (splitColon_fst m) hl hx.1)
    | entity => rfl
    | attr => rfl
  rw [List.nil_append, show elSel (p ++ 58 :: l) = DOp.elementType (l, p) from funext hs] at hk
  unfold isMixedElement
  rw [hd]
  simp only
  cases hg : mapGet (h'.at' t).elements (p ++ 58 :: l) with
  | none => rw [look, hg] at hk; simp [← hk]
  | some i =>
    rw [look, hg] at hk
    have hk : some ((h'.at' i).declType, (h'.at' i).ec) = ops.findSome? (DOp.elementType (l, p)) := hk
    rw [← hk]
    have h0 : (h'.at' i).declType ≠ 0 := by
      obtain ⟨op, _, hop⟩ := List.exists_of_findSome?_eq_some hk.symm
      cases op with
      | element m typ ec =>
        simp only [DOp.elementType] at hop
        split at hop
        · rename_i hc
          obtain ⟨-, hc⟩ := hc
          cases hop
          intro h0
          rw [h0] at hc
          rcases hc with ⟨h1 | h1, _⟩ | ⟨h1 | h1, _⟩ <;> cases h1
        · cases hop
      | entity => cases hop
      | attr => cases hop
    simp [h0]

/-- what is left of C52: whatever the document and the handler, only white space is reported as ignorable; text with anything else in it is reported as
character data. -/
theorem C52_only_white_space_partial {σ : Type} (E : Env) (H : Handler σ) (usr : σ) (fuel snl : Nat) (input : Bytes) {doc : Option Nat} {e : Option Err}
    {h : Heap} {tr : List (Ev × HOut)} (hr : parserParse E H usr fuel snl input = .done doc e h tr) :
    ∀ x ∈ tr, ∀ w, x.1 = .ignorable w → ∀ c ∈ decodeRunes w, Ws c := by
  have hb : ∀ c, isBlank c = true → Ws c := by
    intro c hc
    simp [isBlank] at hc
    unfold Ws
    omega
  have hQ : ∀ ev : Ev, ev.White → ∀ w, ev = .ignorable w → ∀ c ∈ decodeRunes w, Ws c := by
    rintro ev hw w rfl c hc
    exact hb c (hw c hc)
  have h1 := (TL_wide (H := H) hQ (by rintro ev hl w rfl; exact hl.elim)).document E fuel snl (initSt usr Heap.empty input)
  unfold parserParse at hr
  cases hp : parseDocument E H fuel snl (initSt usr Heap.empty input) with
  | ok a s => rw [hp] at hr h1; cases hr; obtain ⟨-, m, h2, h3⟩ := h1; rw [h2]; exact fun x hx => (h3 x (by simpa [initSt] using hx)).1
  | err e0 s => rw [hp] at hr h1; cases hr; obtain ⟨m, h2, h3, -⟩ := h1; rw [h2]; exact fun x hx => h3 x (by simpa [initSt] using hx)
  | panic => rw [hp] at hr; cases hr
  | diverge => rw [hp] at hr; cases hr

/-- and nothing is lost in the tree: the tree builder takes ignorable white space for character data. -/
theorem C52_tree_keeps {σ : Type} (fuel : Nat) (v : HV) (w : Bytes) (c : HC σ) : treeBuilder fuel v (.ignorable w) c = treeBuilder fuel v (.characters w) c := rfl

section Example

/-- a history with a mixed element and a prefixed one. -/
def mixedOps : List DOp := [.element b!"a" 3 (.mk 1 1 [] [] .nil .nil), .element b!"p:a" 3 (.mk 1 1 [] [] .nil .nil)]

/-- a document and its internal subset. -/
def mixedHeap : Heap := (Heap.empty.alloc { kind := .dtd, name := b!"r" }).alloc { kind := .doc, intSubset := some 0 }

theorem mixedHeap_fresh : FreshDtd mixedHeap 0 := by
  refine ⟨by decide, rfl, rfl, rfl, rfl, rfl, rfl, rfl, ?_⟩
  intro d
  show (if d = 1 then _ else if d = 0 then _ else _ : Node).extSubset ≠ _
  split
  · exact nofun
  · split <;> exact nofun

/-- the tables after a history. -/
def Out.heapAt {S α : Type} (f : S → β) : Out S α → Option β
  | .ok _ s => some (f s)
  | _ => none

example : (history 0 mixedOps mixedHeap).heapAt (fun h' => ((h'.at' 1).intSubset, isMixedElement h' 1 b!"a", isMixedElement h' 1 b!"p:a", isMixedElement h' 1 b!"a:p")) =
    some (some 0, false, false, true) := by kernel_rfl

example : (parserParse env0 nullHandler () 9 9 b!"<a> <b/> x</a>").accepted = some [.setDocumentLocator, .startDocument, .startElement b!"a" [] [] [] [],
    .ignorable b!" ", .startElement b!"b" [] [] [] [], .endElement b!"b" [] [], .characters b!" x", .endElement b!"a" [] [], .endDocument] := by kernel_rfl

end Example

end Helium
