import Verif.Lemmas.DomHist
/-! Appending to one element. -/
namespace Helium
open Spec

theorem merge_flatten : ∀ (items : List Item) (l : List (Kind × Bytes)),
    ((items.foldl (fun l i => mergeOne l (i.kind, i.bytes)) l).map Prod.snd).flatten = (l.map Prod.snd).flatten ++ (items.map Item.bytes).flatten
  | [], l => by simp
  | i :: items, l => by
    rw [List.foldl_cons, merge_flatten items]
    have : ((mergeOne l (i.kind, i.bytes)).map Prod.snd).flatten = (l.map Prod.snd).flatten ++ i.bytes := by
      unfold mergeOne
      split
      · rename_i b hb
        have hl : l = l.dropLast ++ [(.text, b)] := by
          rcases List.eq_nil_or_concat l with rfl | ⟨l', y, rfl⟩
          · cases hb
          · simp at hb; subst hb; simp
        split
        · have : (l.map Prod.snd).flatten = (l.dropLast.map Prod.snd).flatten ++ b := by
            have h2 := congrArg (fun l => (l.map Prod.snd).flatten) hl
            simpa using h2
          rw [this]
          simp
        · simp
      · simp
    rw [this]
    simp

/-- children and their content. -/
def view (a : Forest) (p : Nat) : List (Kind × Bytes) := (a.kids p).map (fun c => ((a.data c).kind, (a.data c).content))

/-- the children of `p` are texts, comments and empty elements. -/
structure Leafy (a : Forest) (p : Nat) : Prop where
  tree : a.tree p = true
  elem : (a.data p).kind = .element
  leaf : ∀ c ∈ a.kids p, ((a.data c).kind = .text ∨ (a.data c).kind = .comment) ∨ ((a.data c).kind = .element ∧ a.kids c = [] ∧ (a.data c).content = [])
  self : p ∉ a.kids p

/-- the node an item makes. -/
def Spec.Item.node : Item → Node
  | .text b | .content b => mkText b
  | .comment b => mkComment b
  | .elem n => mkElement none n

theorem item_add (i : Item) {h : Heap} {p : Nat} (hp : (h.at' p).kind = .element) : i.add p h = nodeAddChild p h.size (h.alloc i.node) := by
  cases i with
  | content b =>
    simp only [Item.add, Item.node]
    unfold nodeAddContent
    simp only [node_bind, hp, newNode_bind]
  | text b => rfl
  | comment b => rfl
  | elem n => rfl

theorem dropLast_map_view {α β : Type} (f g : α → β) {l : List α} {y : α} (hl : l.getLast? = some y) (hnd : l.Nodup) (hfg : ∀ x, x ≠ y → f x = g x) :
    l.map f = (l.map g).dropLast ++ [f y] := by
  rcases List.eq_nil_or_concat l with rfl | ⟨l', z, rfl⟩
  · cases hl
  · simp at hl
    subst hl
    simp only [List.concat_eq_append, List.map_append, List.map_cons, List.map_nil, List.dropLast_concat]
    congr 1
    apply List.map_congr_left
    intro x hx
    apply hfg
    rintro rfl
    rw [List.concat_eq_append, List.nodup_append] at hnd
    exact hnd.2.2 x hx x (by simp) rfl

theorem item_step {h : Heap} {a : Forest} (R : Rel h a) {p : Nat} (L : Leafy a p) (i : Item) :
    ∃ h' a', i.add p h = .ok () h' ∧ Rel h' a' ∧ Leafy a' p ∧ view a' p = mergeOne (view a p) (i.kind, i.bytes) := by
  have hps : p ≠ a.size := by have := R.bound p L.tree; omega
  have hk : (h.at' p).kind = .element := by rw [R.kind L.tree]; exact L.elem
  have R1 := R.alloc i.node (by cases i <;> exact ⟨rfl, rfl, rfl, rfl⟩)
  have hkids : ∀ q, (a.alloc i.node).kids q = a.kids q := alloc_kids R i.node
  have hdat : ∀ q, q ≠ a.size → (a.alloc i.node).data q = a.data q := fun q hq => by simp [Forest.alloc, hq]
  have hnew : (a.alloc i.node).data a.size = info i.node := by simp [Forest.alloc]
  have hik : (info i.node).kind = i.kind ∧ (info i.node).content = i.bytes := by cases i <;> exact ⟨rfl, rfl⟩
  have hne : ∀ c ∈ a.kids p, c ≠ a.size := fun c hc => (kids_size R hc).1
  have hv : view (a.alloc i.node) p = view a p := by
    unfold view
    rw [hkids]
    apply List.map_congr_left
    intro c hc
    rw [hdat c (hne c hc)]
  have hk0 : a.kids a.size = [] := by
    cases hk : a.kids a.size with
    | nil => rfl
    | cons c r => exact absurd rfl (kids_size R (p := a.size) (c := c) (by rw [hk]; simp)).2
  have L1 : Leafy (a.alloc i.node) p := {
    tree := by simp [Forest.alloc, L.tree]
    elem := by rw [hdat p hps]; exact L.elem
    leaf := fun c hc => by
      rw [hkids] at hc
      rw [hdat c (hne c hc), hkids]
      exact L.leaf c hc
    self := by rw [hkids]; exact L.self }
  obtain ⟨h', e, R', _⟩ := R1.nodeAddChild_run (p := p) (c := a.size) L1.tree (by rw [L1.elem]; rfl) (by simp [Forest.alloc])
    (fun l hl => by
      rcases L1.leaf l (Rel.last_mem hl) with (hx | hx) | hx
      · rw [hx]; decide
      · rw [hx]; decide
      · rw [hx.1]; decide)
  have hrun : i.add p h = .ok () h' := by
    rw [item_add i hk, R.size]
    rcases e with e | ⟨e, _⟩
    · exact e
    · rw [L1.elem] at e; simp at e
  refine ⟨h', _, hrun, R', ?_⟩
  have happ : Leafy ((a.alloc i.node).append p a.size) p ∧ view ((a.alloc i.node).append p a.size) p = view a p ++ [(i.kind, i.bytes)] := by
    constructor
    · refine { tree := L1.tree, elem := L1.elem, leaf := ?_, self := ?_ }
      · intro c hc
        have hc' : c ∈ a.kids p ∨ c = a.size := by
          simpa [Forest.append, hkids] using hc
        rcases hc' with hc' | rfl
        · have hcp : c ≠ p := by rintro rfl; exact L.self hc'
          have := L1.leaf c (by rw [hkids]; exact hc')
          simpa [Forest.append, hcp] using this
        · show (((a.alloc i.node).data a.size).kind = .text ∨ _) ∨ _
          simp only [Forest.append, hnew, hik.1, hik.2, hkids, hk0, Ne.symm hps, if_false]
          cases i <;> simp [Item.kind, Item.bytes]
      · simp [Forest.append, hkids, L.self, hps]
    · unfold view
      simp only [Forest.append, if_true, List.map_append, List.map_cons, List.map_nil, hnew, hik.1, hik.2]
      have hv2 := hv
      unfold view at hv2
      rw [hv2]
  have hmt : ∀ l, (a.kids p).getLast? = some l → (view a p).getLast? = some ((a.data l).kind, (a.data l).content) := by
    intro l hl
    unfold view
    rw [List.getLast?_map, hl]
    rfl
  unfold Forest.addChild
  rw [if_neg (by rw [L1.elem]; simp), hkids]
  cases hl : (a.kids p).getLast? with
  | none =>
    simp only []
    refine ⟨happ.1, ?_⟩
    rw [happ.2]
    unfold mergeOne
    have : (view a p).getLast? = none := by
      unfold view
      rw [List.getLast?_map, hl]
      rfl
    rw [this]
  | some l =>
    simp only []
    have hlm := Rel.last_mem hl
    rw [hdat l (hne l hlm), hnew, hik.1, hik.2]
    unfold mergeOne
    rw [hmt l hl]
    by_cases hb : (a.data l).kind = .text ∧ i.kind = .text
    · rw [if_pos hb, hb.1]
      simp only [hb.2, if_true]
      constructor
      · have hlp : l ≠ p := by rintro rfl; exact L.self hlm
        refine { tree := L1.tree, elem := ?_, leaf := ?_, self := L1.self }
        · simp only [Forest.addText, Ne.symm hlp, if_false]; exact L1.elem
        · intro c hc
          have := L1.leaf c hc
          by_cases hcl : c = l
          · subst hcl
            left; left
            simp only [Forest.addText, if_true]
            rw [hdat c (hne c hlm)]
            exact hb.1
          · simpa [Forest.addText, hcl] using this
      · have hv2 := hv
        unfold view at hv2 ⊢
        rw [hkids] at hv2
        simp only [Forest.addText, hkids]
        rw [dropLast_map_view _ (fun c => (((a.alloc i.node).data c).kind, ((a.alloc i.node).data c).content)) hl (R.nodup p)
          (fun x hx => by simp only [hx, if_false]), hv2]
        simp only [if_true, hdat l (hne l hlm), hb.1]
    · rw [if_neg hb]
      refine ⟨happ.1, ?_⟩
      rw [happ.2]
      split
      · rename_i b hx
        have hx1 : (a.data l).kind = .text := by
          have := congrArg (Option.map Prod.fst) hx
          simpa using this
        rw [if_neg (fun hh => hb ⟨hx1, hh⟩)]
      · rfl

theorem items_run {p : Nat} : ∀ (items : List Item) {h : Heap} {a : Forest}, Rel h a → Leafy a p →
    ∃ h' a', (items.forM (Item.add p)) h = .ok () h' ∧ Rel h' a' ∧ Leafy a' p ∧
      view a' p = items.foldl (fun l i => mergeOne l (i.kind, i.bytes)) (view a p)
  | [], h, a, R, L => ⟨h, a, rfl, R, L, rfl⟩
  | i :: items, h, a, R, L => by
    obtain ⟨h1, a1, e1, R1, L1, v1⟩ := item_step R L i
    obtain ⟨h2, a2, e2, R2, L2, v2⟩ := items_run items R1 L1
    refine ⟨h2, a2, ?_, R2, L2, by rw [v2, v1]; rfl⟩
    show ((Item.add p i) >>= fun _ => items.forM (Item.add p)) h = _
    rw [bind_run e1, e2]

theorem mapM_some {α β : Type} {f : α → Option β} {g : α → β} : ∀ {l : List α}, (∀ x ∈ l, f x = some (g x)) → l.mapM f = some (l.map g)
  | [], _ => rfl
  | x :: l, hf => by
    rw [List.mapM_cons, hf x (by simp), mapM_some (l := l) (fun y hy => hf y (by simp [hy]))]
    rfl

theorem leafy_content {h : Heap} {a : Forest} {p : Nat} (R : Rel h a) (L : Leafy a p) : content p h = .ok ((view a p).map Prod.snd).flatten h := by
  have hk : (h.at' p).kind = .element := by rw [R.kind L.tree]; exact L.elem
  have hpos : ∃ f, h.size = f + 1 := ⟨h.size - 1, by have := R.bound p L.tree; rw [R.size]; omega⟩
  obtain ⟨f, hf⟩ := hpos
  have hleaf : ∀ c ∈ a.kids p, contentF h (f + 1) c = some (a.data c).content := by
    intro c hc
    have hct := (R.kid p c hc).1
    rw [contentF]
    have h1 := R.kind hct
    have h2 := R.content hct
    rcases L.leaf c hc with (hx | hx) | ⟨hx, hy, hz⟩
    · rw [h1, hx, h2]
    · rw [h1, hx, h2]
    · rw [h1, hx]
      simp only []
      rw [R.chain_kids hct (by rw [hx]; rfl), hy, hz]
      rfl
  unfold content
  rw [hf, contentF]
  simp only [hk]
  rw [R.chain_kids L.tree (by rw [L.elem]; rfl)]
  simp only []
  rw [mapM_some hleaf]
  simp [view, List.map_map, Function.comp_def]

theorem merge_noText : ∀ (items : List Item) (l : List (Kind × Bytes)),
    (∀ a x y b, l = a ++ x :: y :: b → ¬ (x.1 = .text ∧ y.1 = .text)) →
    ∀ a x y b, items.foldl (fun l i => mergeOne l (i.kind, i.bytes)) l = a ++ x :: y :: b → ¬ (x.1 = .text ∧ y.1 = .text)
  | [], _, h => h
  | i :: items, l, h => by
    rw [List.foldl_cons]
    refine merge_noText items _ ?_
    have happ : (∀ z, l.getLast? = some z → ¬ (z.1 = .text ∧ i.kind = .text)) →
        ∀ a x y b, l ++ [(i.kind, i.bytes)] = a ++ x :: y :: b → ¬ (x.1 = .text ∧ y.1 = .text) := by
      intro hz a x y b he
      rcases List.eq_nil_or_concat b with rfl | ⟨b', w, rfl⟩
      · have h1 := congrArg List.reverse he
        simp at h1
        have h2 : l = a ++ [x] := by
          have := congrArg List.reverse h1.2
          simpa using this
        have := hz x (by rw [h2]; simp)
        rw [← h1.1]
        exact this
      · have h1 := congrArg List.reverse he
        simp at h1
        have h2 := congrArg List.reverse h1.2
        simp at h2
        exact h a x y b' h2
    unfold mergeOne
    split
    · rename_i bb hb
      split
      · have hl : l = l.dropLast ++ [(.text, bb)] := by
          rcases List.eq_nil_or_concat l with rfl | ⟨l', y, rfl⟩
          · cases hb
          · simp at hb; subst hb; simp
        intro a x y b he
        rcases List.eq_nil_or_concat b with rfl | ⟨b', w, rfl⟩
        · have h1 := congrArg List.reverse he
          simp at h1
          have h2 : l.dropLast = a ++ [x] := by
            have := congrArg List.reverse h1.2
            simpa using this
          have := h a x (.text, bb) [] (by rw [hl, h2]; simp)
          rw [← h1.1]
          exact this
        · have h1 := congrArg List.reverse he
          simp at h1
          have h2 := congrArg List.reverse h1.2
          simp at h2
          exact h a x y (b' ++ [(.text, bb)]) (by rw [hl, h2]; simp)
      · rename_i hi
        exact happ (fun z _ hh => hi hh.2)
    · rename_i hn
      refine happ (fun z hz hh => ?_)
      obtain ⟨k, b⟩ := z
      simp at hh
      exact hn b (by rw [hz, hh.1])

end Helium
