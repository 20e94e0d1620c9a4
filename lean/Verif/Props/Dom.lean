import Verif.Lemmas.DomText
import Verif.Lemmas.DocElem
import Verif.Lemmas.SetDoc
/-!
Tree properties C25 – C30. Histories and the abstract forest are in Verif/Spec/DomOp.lean and Verif/Spec/Dom.lean; the pointer view of
"`l` are the children of `p`" is `Spec.ChildList`, the pointer view of a whole tree is `Spec.Shows` / `Spec.AShows`.
-/
namespace Helium
open Spec

/-! ### C25: links stay consistent -/

/-- C25. After any history of calls linking new nodes, every call reported what it should, the children of every node are one doubly
linked list from first to last child with the right parents, and these children are the ones of the abstract forest, where every call
puts its node at the end of the list (or in the place of the replaced one). -/
theorem C25_links_consistent (ops : List DomOp) (hv : Forest.empty.validAll ops = true) :
    ∃ h, execAll ops Heap.empty = .ok (Forest.empty.outcomes ops) h ∧
      ∀ p, (Forest.empty.steps ops).tree p = true → tracked ((Forest.empty.steps ops).data p).kind = true →
        ChildList h p ((Forest.empty.steps ops).kids p) ∧ info (h.at' p) = (Forest.empty.steps ops).data p := by
  obtain ⟨h, e, R, _⟩ := steps_refine ops rel_empty (by intro p c hc; simp [Forest.empty] at hc) hv
  exact ⟨h, e, fun p hp ht => ⟨R.childList hp ht, R.data p hp⟩⟩

/-- C25, as a client sees it: walking from the first child along `NextSibling` meets exactly the children in order, and every one of
them names `p` as its parent. -/
theorem C25_walk_children (ops : List DomOp) (hv : Forest.empty.validAll ops = true) {h : Heap} {rs : List (Option Err)}
    (he : execAll ops Heap.empty = .ok rs h) (p : Nat) (hp : (Forest.empty.steps ops).tree p = true)
    (ht : tracked ((Forest.empty.steps ops).data p).kind = true) :
    chain h (h.size + 1) (h.at' p).first = some ((Forest.empty.steps ops).kids p) ∧
      ∀ c ∈ (Forest.empty.steps ops).kids p, (h.at' c).parent = some p := by
  obtain ⟨h', e, H⟩ := C25_links_consistent ops hv
  rw [e] at he
  cases he
  exact ⟨(H p hp ht).1.chain_eq, (H p hp ht).1.parent⟩

/-- a history with every kind of call: document 0 with element 1, which gets text 2, element 3, comment 4 as sibling of 3, more content
(text 5), and finally element 3 is replaced by element 6. -/
def sampleOps : List DomOp :=
  [.new .doc, .new (.element none b!"a"), .setDocumentElement 0 1, .new (.text b!"x"), .addChild 1 2, .new (.element none b!"b"),
   .addChild 1 3, .new (.comment b!"c"), .addSibling 3 4, .addContent 1 b!"y", .new (.element none b!"d"), .replace 3 6, .addChild 2 5]

example : Forest.empty.validAll (sampleOps.take 12) = true := by decide
example : (Forest.empty.steps (sampleOps.take 12)).kids 1 = [2, 6, 4, 5] := by decide
example : (Forest.empty.steps (sampleOps.take 12)).kids 0 = [1] := by decide
-- a text refuses an element: the call reports it and nothing changes
example : Forest.empty.outcomes [.new (.text b!"x"), .new (.element none b!"b"), .addChild 0 1] = [none, none, some (.k .invalidOperation)] := by decide

/-! ### C26: Replace -/

/-- C26. Replacing child `n` of `p` by a node `c` that has no siblings yet: the children of `p` are the same with `c` in the place of
`n`, the children of every other node are as before, no node changes any of its own data, and except for `c`, `p` and the two neighbours
nothing at all is written. -/
theorem C26_replace_substitutes {h : Heap} {p n c : Nat} {l r : List Nat} (C : ChildList h p (l ++ n :: r)) (hn : (h.at' n).kind ≠ .doc)
    (hc : c < h.size) (hcm : c ∉ l ++ n :: r) (c1 : (h.at' c).next = none) (c2 : (h.at' c).prev = none) :
    ∃ h', nodeReplace n c h = .ok () h' ∧ ChildList h' p (l ++ c :: r) ∧
      (∀ q m, q ≠ p → c ∉ m → ChildList h q m → ChildList h' q m) ∧ (∀ x, info (h'.at' x) = info (h.at' x)) ∧
      (∀ x, x ≠ c → x ≠ p → l.getLast? ≠ some x → r.head? ≠ some x → h'.at' x = h.at' x) := by
  obtain ⟨h', e, X⟩ := replaceNode_links C hcm (fun _ => c1) (fun _ => c2)
  refine ⟨h', ?_, C.replaced hcm hc X, ?_, X.info, X.frame⟩
  · unfold nodeReplace
    simp only [node_bind, if_neg hn]
    exact e
  · intro q m hq hcm' hC
    refine ChildList.untouched X ?_ hq hC hcm'
    intro x hx
    apply C.parent
    simp only [List.mem_append, List.mem_cons] at hx ⊢
    rcases hx with hx | hx
    · exact Or.inl hx
    · exact Or.inr (Or.inr hx)

/-- documents cannot be replaced: the call panics (/repo/document.go:82-84). -/
theorem C26_document_panics {h : Heap} {n c : Nat} (hn : (h.at' n).kind = .doc) : nodeReplace n c h = .panic := by
  unfold nodeReplace
  simp only [node_bind, if_pos hn]
  rfl

example : ∃ h : Heap, execAll [.new .doc, .new (.element none b!"a")] Heap.empty = .ok [none, none] h ∧ (h.at' 0).kind = .doc := ⟨_, rfl, rfl⟩

/-- the hypotheses are met, with neighbours on both sides: element 0 with children 1, 2, 3 and a fresh node 4. -/
example : ∃ h : Heap, ChildList h 0 ([1] ++ 2 :: [3]) ∧ (h.at' 2).kind ≠ .doc ∧ 4 < h.size ∧ (h.at' 4).next = none ∧ (h.at' 4).prev = none := by
  have hv : Forest.empty.validAll [.new (.element none b!"a"), .new (.comment b!"x"), .addChild 0 1, .new (.element none b!"b"), .addChild 0 2,
    .new (.comment b!"y"), .addChild 0 3, .new (.element none b!"c")] = true := by decide
  obtain ⟨h, e, R, _⟩ := steps_refine _ rel_empty (by intro p c hc; simp [Forest.empty] at hc) hv
  refine ⟨h, R.childList (p := 0) (by decide) (by decide), ?_, ?_, (R.loose 4 (by decide)).1, (R.loose 4 (by decide)).2.1⟩
  · rw [R.kind (n := 2) (by decide)]; decide
  · rw [R.size]; decide

/-! ### C27: adjacent text is merged -/

/-- C27, first half. A tree built by `AddChild` and `AddContent` alone never has two neighbouring text nodes. -/
theorem C27_no_adjacent_text (ops : List DomOp) (hv : Forest.empty.validAll ops = true) (ha : ops.all DomOp.appends = true)
    {h : Heap} {rs : List (Option Err)} (he : execAll ops Heap.empty = .ok rs h) {p x y : Nat} {l r : List Nat}
    (hp : p < h.size) (ht : tracked (h.at' p).kind = true) (hc : chain h (h.size + 1) (h.at' p).first = some (l ++ x :: y :: r)) :
    ¬ ((h.at' x).kind = .text ∧ (h.at' y).kind = .text) := by
  obtain ⟨h', e, R, N⟩ := steps_refine ops rel_empty (by intro p c hc; simp [Forest.empty] at hc) hv
  rw [e] at he
  cases he
  have M := merged_steps ops rel_empty (by intro p c hc; simp [Forest.empty] at hc) (by intro p; rfl) hv ha
  have htree : ∀ (ops : List DomOp) (a : Forest), (∀ n, n < a.size → a.tree n = true) → ∀ n, n < (a.steps ops).size → (a.steps ops).tree n = true := by
    intro ops
    induction ops with
    | nil => intro a h; exact h
    | cons op ops ih =>
      intro a h
      have alloc : ∀ (a : Forest) x, (∀ n, n < a.size → a.tree n = true) → ∀ n, n < (a.alloc x).size → (a.alloc x).tree n = true := by
        intro a x h n hn
        simp only [Forest.alloc] at hn ⊢
        split
        · rfl
        · exact h n (by omega)
      have child : ∀ (a : Forest) p c, (∀ n, n < a.size → a.tree n = true) → ∀ n, n < (a.addChild p c).size → (a.addChild p c).tree n = true := by
        intro a p c h n
        unfold Forest.addChild
        split
        · split <;> exact h n
        · split
          · exact h n
          · split <;> exact h n
      refine ih _ ?_
      cases op with
      | new x => exact alloc a _ h
      | addChild p c => exact child a p c h
      | addSibling q c =>
        simp only [Forest.step]
        split
        · unfold Forest.addSibling; split <;> exact h
        · exact h
      | addContent q b =>
        simp only [Forest.step]
        unfold Forest.addContent
        split
        · exact h
        · exact child _ _ _ (alloc a _ h)
      | replace q c =>
        simp only [Forest.step]
        split <;> exact h
      | setDocumentElement d r =>
        simp only [Forest.step]
        unfold Forest.setDocumentElement
        split <;> exact h
  have ht' := htree ops Forest.empty (by intro n hn; simp [Forest.empty] at hn)
  have hpt := ht' p (by rw [← R.size]; exact hp)
  rw [R.kind hpt] at ht
  rw [R.chain_kids hpt ht] at hc
  have hk : (Forest.empty.steps ops).kids p = l ++ x :: y :: r := by simpa using hc
  have hx := (R.kid p x (by rw [hk]; simp)).1
  have hy := (R.kid p y (by rw [hk]; simp)).1
  rw [R.kind hx, R.kind hy]
  have hm := M p
  rw [hk] at hm
  have key : ∀ l : List Nat, noAdjacent (isText (Forest.empty.steps ops)) (l ++ x :: y :: r) = true →
      ¬ (isText (Forest.empty.steps ops) x = true ∧ isText (Forest.empty.steps ops) y = true) := by
    intro l
    induction l with
    | nil =>
      intro h hh
      simp [noAdjacent, hh.1, hh.2] at h
    | cons z l ih =>
      intro h
      apply ih
      cases l with
      | nil => simp only [List.cons_append, List.nil_append, noAdjacent, Bool.and_eq_true] at h ⊢; exact h.2
      | cons w l => simp only [List.cons_append, noAdjacent, Bool.and_eq_true] at h ⊢; exact h.2
  intro hh
  exact key l hm ⟨by simp [isText, hh.1], by simp [isText, hh.2]⟩

/-- C27, second half. Appending any sequence of texts, raw contents, comments and empty elements to an element without children succeeds;
its children are then the given items with neighbouring texts joined, and `Content()` is the concatenation of everything appended. -/
theorem C27_content_concatenated (ops : List DomOp) (hv : Forest.empty.validAll ops = true) {h : Heap} {rs : List (Option Err)}
    (he : execAll ops Heap.empty = .ok rs h) (p : Nat) (hp : (Forest.empty.steps ops).tree p = true) (hk : (h.at' p).kind = .element)
    (h0 : (h.at' p).first = none) (items : List Item) :
    ∃ h' l, (items.forM (Item.add p)) h = .ok () h' ∧ ChildList h' p l ∧
      l.map (fun c => ((h'.at' c).kind, (h'.at' c).content)) = merge items ∧ content p h' = .ok (items.map Item.bytes).flatten h' := by
  obtain ⟨h1, e, R, N⟩ := steps_refine ops rel_empty (by intro p c hc; simp [Forest.empty] at hc) hv
  rw [e] at he
  cases he
  have hkf : ((Forest.empty.steps ops).data p).kind = .element := by rw [← R.kind hp]; exact hk
  have hnil : (Forest.empty.steps ops).kids p = [] := by
    have := R.first p hp (by rw [hkf]; rfl)
    rw [h0] at this
    cases hx : (Forest.empty.steps ops).kids p with
    | nil => rfl
    | cons y r => rw [hx] at this; cases this
  have L : Leafy (Forest.empty.steps ops) p := { tree := hp, elem := hkf, leaf := by rw [hnil]; simp, self := by rw [hnil]; simp }
  obtain ⟨h', a', e', R', L', v'⟩ := items_run items R L
  have hview : view (Forest.empty.steps ops) p = [] := by simp [view, hnil]
  rw [hview] at v'
  refine ⟨h', a'.kids p, e', R'.childList L'.tree (by rw [L'.elem]; rfl), ?_, ?_⟩
  · show _ = merge items
    unfold merge
    rw [← v']
    unfold view
    apply List.map_congr_left
    intro c hc
    have := (R'.kid p c hc).1
    rw [R'.kind this, R'.content this]
  · rw [leafy_content R' L', v', merge_flatten]
    simp

/-- the merged list has no two neighbouring texts. -/
theorem C27_merge_separates (items : List Item) (a b : List (Kind × Bytes)) (x y : Kind × Bytes) (h : merge items = a ++ x :: y :: b) :
    ¬ (x.1 = .text ∧ y.1 = .text) :=
  merge_noText items [] (by intro a x y b h; simp at h) a x y b h

example : merge [.text b!"a", .content b!"b", .comment b!"c", .text b!"d", .elem b!"e", .text b!"f", .text b!""] =
    [(.text, b!"ab"), (.comment, b!"c"), (.text, b!"d"), (.element, []), (.text, b!"f")] := by decide
example : Forest.empty.validAll [.new (.element none b!"a")] = true ∧ (Forest.empty.steps [.new (.element none b!"a")]).tree 0 = true := by decide
example : Forest.empty.validAll [.new (.element none b!"a"), .new (.text b!"x"), .addChild 0 1, .addContent 0 b!"y"] = true := by decide

/-- the full claim, for every way of appending, `AddSibling` included. -/
def C27_statement : Prop := ∀ (ops : List DomOp), Forest.empty.validAll ops = true → ∀ h rs, execAll ops Heap.empty = .ok rs h →
  ∀ p x y l r, p < h.size → tracked (h.at' p).kind = true → chain h (h.size + 1) (h.at' p).first = some (l ++ x :: y :: r) →
    ¬ ((h.at' x).kind = .text ∧ (h.at' y).kind = .text)

/-- `AddSibling` on a node that is not a text goes to the end of the list without looking at what is there: with children element, text
the call `element.AddSibling(text)` makes two neighbouring texts. -/
theorem C27_refuted : ¬ C27_statement := by
  intro H
  have h := H [.new (.element none b!"a"), .new (.element none b!"b"), .addChild 0 1, .new (.text b!"x"), .addChild 0 2, .new (.text b!"y"),
    .addSibling 1 3] (by decide) _ _ rfl 0 2 3 [1] [] (by decide) (by decide) rfl
  exact h ⟨rfl, rfl⟩

/-! ### C28: Walk -/

/-- C28. `Walk` calls the function once for every node of the subtree in document order and stops at the first error, which it returns. -/
theorem C28_walk_preorder {τ : Type} (h : Heap) (f : Nat → τ → Option Err × τ) (n : Nat) (hn : n < h.size) (k : Trees)
    (hk : Shows h (h.at' n).first k) (t : τ) : walkTop h f (some n) t = visit f (n :: k.ids) t := by
  unfold walkTop
  simp only [walk]
  have := hk.depth_lt hn
  simp only [visit]
  cases f n t with
  | mk o t' =>
    cases o with
    | some e => rfl
    | none =>
      simp only [hk.chain_eq]
      exact walk_list h f k _ _ hk (by omega) t'

/-- C28, no two calls for the same node when the tree has no shared nodes, and an empty tree is an error. -/
theorem C28_walk_nil {τ : Type} (h : Heap) (f : Nat → τ → Option Err × τ) (t : τ) : walkTop h f none t = .err (.k .nilNode) t := rfl

/-- with a function that only records its argument, the record is the list of nodes in document order. -/
theorem C28_walk_records (h : Heap) (n : Nat) (hn : n < h.size) (k : Trees) (hk : Shows h (h.at' n).first k) :
    walkTop h (fun i (l : List Nat) => (none, l ++ [i])) (some n) [] = .ok () (n :: k.ids) := by
  rw [C28_walk_preorder h _ n hn k hk]
  have : ∀ (ids acc : List Nat), visit (fun i (l : List Nat) => ((none : Option Err), l ++ [i])) ids acc = .ok () (acc ++ ids) := by
    intro ids
    induction ids with
    | nil => intro acc; simp [visit]
    | cons i ids ih => intro acc; simp [visit, ih]
  rw [this]
  simp

/-- a tree with two levels: 0 has children 1 and 3, 1 has child 2. -/
example : ∃ h : Heap, 0 < h.size ∧ Shows h (h.at' 0).first (.node 1 (.node 2 .nil .nil) (.node 3 .nil .nil)) := by
  refine ⟨⟨4, fun i => match i with
    | 0 => { first := some 1, last := some 3 }
    | 1 => { first := some 2, last := some 2, next := some 3, parent := some 0 }
    | 2 => { parent := some 1 }
    | _ => { prev := some 1, parent := some 0 }⟩, by decide, ?_⟩
  simp [Shows]

/-! ### C29: SetTreeDoc -/

/-- the full claim: afterwards everything below `n`, attributes and their values included, belongs to `d`. -/
def C29_statement : Prop := ∀ (h : Heap) (n : Nat) (d : Option Nat) (a k : ATrees), n < h.size → AShows h (AShows.propsOf h n) a →
  (∀ x ∈ a.roots, (h.at' x).kind = .attr) → AShows h (h.at' n).first k →
  ∃ h', nodeSetTreeDoc n d h = .ok () h' ∧ ∀ x ∈ n :: (a.ids ++ k.ids), (h'.at' x).doc = d

/-- a node already owned by `d` is skipped together with everything below it, so an element of `d` that received a text by `AddContent`
(whose text has no owner) keeps an unowned child. -/
theorem C29_refuted : ¬ C29_statement := by
  intro H
  let h : Heap := ⟨3, fun i => match i with
    | 0 => { kind := .doc }
    | 1 => { kind := .element, doc := some 0, first := some 2, last := some 2 }
    | _ => { kind := .text, content := b!"x", parent := some 1 }⟩
  obtain ⟨h', e, hx⟩ := H h 1 (some 0) .nil (.node 2 .nil .nil .nil) (by decide) rfl (by simp [ATrees.roots]) (by
    simp [AShows, h, ATrees.roots])
  have e2 : nodeSetTreeDoc 1 (some 0) h = .ok () h := by
    unfold nodeSetTreeDoc
    simp only [get_bind]
    unfold setTreeDoc
    rfl
  rw [e2] at e
  cases e
  have := hx 2 (by simp [ATrees.ids])
  revert this
  decide

/-- C29 for every tree in which whoever already belongs to `d` has everything below it belong to `d` (in particular when nobody does):
exactly the nodes of the subtree, attributes and attribute values included, change owner, and nothing else changes. Missing for the full
claim: subtrees with an owned node above an unowned one (see `C29_refuted`). -/
theorem C29_setTreeDoc_owns_partial (h : Heap) (n : Nat) (d : Option Nat) (a k : ATrees) (ha : AShows h (AShows.propsOf h n) a)
    (hak : ∀ x ∈ a.roots, (h.at' x).kind = .attr) (hk : AShows h (h.at' n).first k)
    (hc : (h.at' n).doc = d → ∀ x ∈ a.ids ++ k.ids, (h.at' x).doc = d) (hca : OwnClosed h d a) (hck : OwnClosed h d k) :
    nodeSetTreeDoc n d h = .ok () (own h d (n :: (a.ids ++ k.ids))) := by
  unfold nodeSetTreeDoc
  simp only [get_bind]
  exact setDoc_node d ha hak hk hc hca hck ha.depth_size hk.depth_size

/-- with attributes: element 0 with attribute 1 (value text 2) and child 3, all owned by document 4, moved to document 5. -/
example : ∃ h : Heap, AShows h (AShows.propsOf h 0) (.node 1 .nil (.node 2 .nil .nil .nil) .nil) ∧
    AShows h (h.at' 0).first (.node 3 .nil .nil .nil) ∧ ¬ (h.at' 0).doc = some 5 ∧
    OwnClosed h (some 5) (.node 1 .nil (.node 2 .nil .nil .nil) .nil) ∧ OwnClosed h (some 5) (.node 3 .nil .nil .nil) := by
  refine ⟨⟨6, fun i => match i with
    | 0 => { kind := .element, doc := some 4, props := some 1, first := some 3, last := some 3 }
    | 1 => { kind := .attr, doc := some 4, first := some 2, last := some 2 }
    | 2 => { kind := .text, doc := some 4, parent := some 1 }
    | 3 => { kind := .comment, doc := some 4, parent := some 0 }
    | _ => { kind := .doc }⟩, ?_, ?_, ?_, ?_, ?_⟩ <;> simp [AShows, AShows.propsOf, OwnClosed, ATrees.ids, ATrees.roots]

/-! ### C30: one document element -/

/-- C30. A document whose children are `pre`, one element `e`, `post`: after any non-empty sequence of `SetDocumentElement` calls (the
same element may be set repeatedly, and also the current one) the children are `pre`, the element set last, `post`; no node changes its
own data, and no other child list is touched. -/
theorem C30_single_document_element {h : Heap} {d e : Nat} {pre post : List Nat} (C : ChildList h d (pre ++ e :: post))
    (he : (h.at' e).kind = .element) (hrest : ∀ x ∈ pre ++ post, (h.at' x).kind ≠ .element ∧ (h.at' x).kind ≠ .doc)
    (rs : List Nat) (last : Nat)
    (hr : ∀ q ∈ rs ++ [last], q < h.size ∧ (h.at' q).kind = .element ∧ (q = e ∨ ((h.at' q).next = none ∧ (h.at' q).prev = none))) :
    ∃ h', setDocElems d (rs ++ [last]) h = .ok () h' ∧ ChildList h' d (pre ++ last :: post) ∧
      (∀ x, info (h'.at' x) = info (h.at' x)) ∧
      (∀ q m, q ≠ d → (∀ x ∈ rs ++ [last], x ∉ m) → ChildList h q m → ChildList h' q m) := by
  have I : DocInv h h d pre e post (rs ++ [last]) := {
    kids := C, info := fun _ => rfl, size := rfl, elem := he, rest := hrest
    cand := fun q hq => by
      obtain ⟨a, b, c⟩ := hr q hq
      refine ⟨a, b, ?_⟩
      by_cases hqe : q = e
      · exact Or.inl hqe
      · have c := c.resolve_left hqe
        refine Or.inr ⟨?_, fun _ => c.1, fun _ => c.2⟩
        intro hm
        have : q ∈ pre ++ post := by
          simp only [List.mem_append, List.mem_cons, hqe, false_or] at hm ⊢
          exact hm
        exact (hrest q this).1 b
    other := fun p m _ hC _ => hC }
  obtain ⟨h', e', I'⟩ := DocInv.run (rs ++ [last]) I (fun q hq => hq)
  have hlast : (rs ++ [last]).getLast?.getD e = last := by simp
  rw [hlast] at I'
  exact ⟨h', e', I'.kids, I'.info, fun q m hq hm hC => I'.other q m hq hC hm⟩

/-- C30 for a document without element: the element goes behind the other children and stays there. -/
theorem C30_first_document_element {h : Heap} {d : Nat} {l : List Nat} (C : ChildList h d l) (hd : (h.at' d).kind = .doc)
    (hl : ∀ x ∈ l, (h.at' x).kind ≠ .element ∧ (h.at' x).kind ≠ .doc) (rs : List Nat) (last : Nat)
    (hr : ∀ q ∈ rs ++ [last], q < h.size ∧ (h.at' q).kind = .element ∧ (h.at' q).next = none ∧ (h.at' q).prev = none) :
    ∃ h', setDocElems d (rs ++ [last]) h = .ok () h' ∧ ChildList h' d (l ++ [last]) ∧ (∀ x, info (h'.at' x) = info (h.at' x)) ∧
      (∀ q m, q ≠ d → (∀ x ∈ rs ++ [last], x ∉ m) → ChildList h q m → ChildList h' q m) := by
  cases rs with
  | nil =>
    obtain ⟨h', e, I⟩ := DocInv.start C hd hl (q := last) (rs := [last]) (by simp) (by simpa using hr)
    exact ⟨h', by rw [List.nil_append, setDocElems_cons e]; rfl, I.kids, I.info, fun q m hq hm hC => I.other q m hq hC hm⟩
  | cons q rs =>
    obtain ⟨h1, e1, I1⟩ := DocInv.start C hd hl (q := q) (rs := q :: rs ++ [last]) (by simp) hr
    obtain ⟨h', e', I'⟩ := DocInv.run (rs ++ [last]) I1 (fun x hx => by simp at hx ⊢; exact Or.inr hx)
    have hlast : (rs ++ [last]).getLast?.getD q = last := by simp
    rw [hlast] at I'
    refine ⟨h', ?_, I'.kids, I'.info, fun q m hq hm hC => I'.other q m hq hC hm⟩
    rw [List.cons_append, setDocElems_cons e1, e']

/-- "exactly one element child": what the child lists of the two theorems above mean. -/
theorem C30_exactly_one {h : Heap} {e : Nat} {pre post : List Nat} (he : (h.at' e).kind = .element)
    (hrest : ∀ x ∈ pre ++ post, (h.at' x).kind ≠ .element) : (pre ++ e :: post).filter (fun x => (h.at' x).kind = .element) = [e] := by
  have key : ∀ l : List Nat, (∀ x ∈ l, (h.at' x).kind ≠ .element) → l.filter (fun x => (h.at' x).kind = .element) = [] := by
    intro l hl
    rw [List.filter_eq_nil_iff]
    intro x hx
    simpa using hl x hx
  rw [List.filter_append, List.filter_cons, key pre (fun x hx => hrest x (by simp [hx])), key post (fun x hx => hrest x (by simp [hx]))]
  simp [he]

/-- a document 0 with a comment 1 and three elements to choose from. -/
example : ∃ h : Heap, ChildList h 0 [1] ∧ (h.at' 0).kind = .doc ∧ (h.at' 1).kind = .comment ∧
    ∀ q ∈ [2, 3] ++ [4], q < h.size ∧ (h.at' q).kind = .element ∧ (h.at' q).next = none ∧ (h.at' q).prev = none := by
  have hv : Forest.empty.validAll [.new .doc, .new (.comment b!"x"), .addChild 0 1, .new (.element none b!"a"), .new (.element none b!"b"),
    .new (.element none b!"c")] = true := by decide
  obtain ⟨h, e, R, _⟩ := steps_refine _ rel_empty (by intro p c hc; simp [Forest.empty] at hc) hv
  refine ⟨h, R.childList (p := 0) (by decide) (by decide), ?_, ?_, ?_⟩
  · rw [R.kind (n := 0) (by decide)]; decide
  · rw [R.kind (n := 1) (by decide)]; decide
  · intro q hq
    have hq' : q = 2 ∨ q = 3 ∨ q = 4 := by simpa using hq
    rcases hq' with rfl | rfl | rfl <;>
    · refine ⟨by rw [R.size]; decide, by rw [R.kind (by decide)]; decide, (R.loose _ (by decide)).1, (R.loose _ (by decide)).2.1⟩

end Helium
