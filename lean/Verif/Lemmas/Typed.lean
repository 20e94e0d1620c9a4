import Verif.Model.Dom
/-!
Pointers lead to nodes that exist, and children, siblings and declarations are never attributes. DOM operations keep this, and leave
attribute lists alone, whatever the document.
-/
namespace Helium

/-- an existing node that is not an attribute. -/
structure NAttr (h : Heap) (i : Nat) : Prop where
  lt : i < h.size
  kind : (h.at' i).kind ≠ .attr

/-- nil, or such a node. -/
def OptNA (h : Heap) (o : Option Nat) : Prop := ∀ i, o = some i → NAttr h i

/-- what pointers lead to. -/
structure Typed (h : Heap) : Prop where
  first : ∀ i, OptNA h (h.at' i).first
  last : ∀ i, OptNA h (h.at' i).last
  next : ∀ i, (h.at' i).kind ≠ .attr → OptNA h (h.at' i).next
  ents : ∀ i x, x ∈ (h.at' i).entities → NAttr h x.2
  elems : ∀ i x, x ∈ (h.at' i).elements → NAttr h x.2

/-- attribute lists are left alone. -/
structure Gentle (h h' : Heap) : Prop where
  typed : Typed h'
  size : h.size ≤ h'.size
  kind : ∀ i, i < h.size → (h'.at' i).kind = (h.at' i).kind
  attr : ∀ i, i < h.size → (h.at' i).kind = .attr →
    (h'.at' i).name = (h.at' i).name ∧ (h'.at' i).next = (h.at' i).next ∧ (h'.at' i).prev = (h.at' i).prev
  props : ∀ i, (h'.at' i).props = (h.at' i).props ∨ (h.size ≤ i ∧ (h'.at' i).props = none)

theorem Gentle.refl {h : Heap} (T : Typed h) : Gentle h h := ⟨T, Nat.le_refl _, fun _ _ => rfl, fun _ _ _ => ⟨rfl, rfl, rfl⟩, fun _ => .inl rfl⟩

theorem Gentle.trans {a b c : Heap} (h : Gentle a b) (k : Gentle b c) : Gentle a c := by
  refine ⟨k.typed, Nat.le_trans h.size k.size, fun i hi => ?_, fun i hi ha => ?_, fun i => ?_⟩
  · rw [k.kind i (Nat.lt_of_lt_of_le hi h.size), h.kind i hi]
  · have h1 := h.attr i hi ha
    have h2 := k.attr i (Nat.lt_of_lt_of_le hi h.size) (by rw [h.kind i hi, ha])
    exact ⟨h2.1.trans h1.1, h2.2.1.trans h1.2.1, h2.2.2.trans h1.2.2⟩
  · rcases k.props i with k1 | ⟨k1, k2⟩
    · rcases h.props i with h1 | ⟨h1, h2⟩
      · exact .inl (k1.trans h1)
      · exact .inr ⟨h1, k1.trans h2⟩
    · exact .inr ⟨Nat.le_trans h.size k1, k2⟩

theorem NAttr.calm {h h' : Heap} {i : Nat} (n : NAttr h i) (k : Gentle h h') : NAttr h' i :=
  ⟨Nat.lt_of_lt_of_le n.lt k.size, by rw [k.kind i n.lt]; exact n.kind⟩

theorem OptNA.calm {h h' : Heap} {o : Option Nat} (n : OptNA h o) (k : Gentle h h') : OptNA h' o := fun i hi => (n i hi).calm k

theorem OptNA.none {h : Heap} : OptNA h none := fun _ e => nomatch e
theorem OptNA.some {h : Heap} {i : Nat} (n : NAttr h i) : OptNA h (some i) := fun _ e => by cases e; exact n

theorem upd_at (h : Heap) (i j : Nat) (f : Node → Node) : (h.upd i f).at' j = if j = i then f (h.at' i) else h.at' j := rfl
theorem alloc_at (h : Heap) (j : Nat) (m : Node) : (h.alloc m).at' j = if j = h.size then m else h.at' j := rfl

/-- one node changed. -/
theorem Gentle.upd {h : Heap} (T : Typed h) (i : Nat) {f : Node → Node} (hk : (f (h.at' i)).kind = (h.at' i).kind)
    (hf : OptNA h (f (h.at' i)).first) (hl : OptNA h (f (h.at' i)).last) (hn : (h.at' i).kind ≠ .attr → OptNA h (f (h.at' i)).next)
    (ha : (h.at' i).kind = .attr → (f (h.at' i)).name = (h.at' i).name ∧ (f (h.at' i)).next = (h.at' i).next ∧ (f (h.at' i)).prev = (h.at' i).prev)
    (hp : (f (h.at' i)).props = (h.at' i).props) (he : ∀ x, x ∈ (f (h.at' i)).entities → NAttr h x.2)
    (hd : ∀ x, x ∈ (f (h.at' i)).elements → NAttr h x.2) : Gentle h (h.upd i f) := by
  have up : ∀ {j}, NAttr h j → NAttr (h.upd i f) j := fun {j} n => ⟨n.lt, by
    rw [upd_at]
    split
    · rename_i e; subst e; rw [hk]; exact n.kind
    · exact n.kind⟩
  have upo : ∀ {o}, OptNA h o → OptNA (h.upd i f) o := fun n j e => up (n j e)
  refine ⟨⟨fun j => ?_, fun j => ?_, fun j => ?_, fun j x => ?_, fun j x => ?_⟩, Nat.le_refl _, fun j _ => ?_, fun j _ hj => ?_, fun j => ?_⟩ <;>
    rw [upd_at] <;> by_cases e : j = i <;> simp only [e, if_true, if_false]
  · exact upo hf
  · exact upo (T.first j)
  · exact upo hl
  · exact upo (T.last j)
  · rw [hk]; exact fun a => upo (hn a)
  · exact fun a => upo (T.next j a)
  · exact fun a => up (he x a)
  · exact fun a => up (T.ents j x a)
  · exact fun a => up (hd x a)
  · exact fun a => up (T.elems j x a)
  · exact hk
  · subst e; exact ha hj
  · exact ⟨trivial, trivial, trivial⟩
  · exact .inl hp
  · exact .inl trivial

/-- the fields that matter. -/
def Node.sameLinks (x y : Node) : Prop :=
  y.kind = x.kind ∧ y.first = x.first ∧ y.last = x.last ∧ y.next = x.next ∧ y.prev = x.prev ∧ y.name = x.name ∧ y.props = x.props ∧
    y.entities = x.entities ∧ y.elements = x.elements

/-- another field changed. -/
theorem Gentle.upd_same {h : Heap} (T : Typed h) (i : Nat) {f : Node → Node} (hf : (h.at' i).sameLinks (f (h.at' i))) : Gentle h (h.upd i f) := by
  obtain ⟨h1, h2, h3, h4, h5, h6, h7, h8, h9⟩ := hf
  exact Gentle.upd T i h1 (by rw [h2]; exact T.first i) (by rw [h3]; exact T.last i) (by rw [h4]; exact T.next i) (fun _ => ⟨h6, h4, h5⟩) h7
    (by rw [h8]; exact T.ents i) (by rw [h9]; exact T.elems i)

/-- a node without relatives. -/
def Node.bare (m : Node) : Prop := m.first = none ∧ m.last = none ∧ m.next = none ∧ m.props = none ∧ m.entities = [] ∧ m.elements = []

theorem Gentle.alloc {h : Heap} (T : Typed h) {m : Node} (hm : m.bare) : Gentle h (h.alloc m) := by
  obtain ⟨h1, h2, h3, h4, h5, h6⟩ := hm
  have up : ∀ {j}, NAttr h j → NAttr (h.alloc m) j := fun {j} n => ⟨Nat.lt_succ_of_lt n.lt, by
    rw [alloc_at, if_neg (Nat.ne_of_lt n.lt)]; exact n.kind⟩
  have upo : ∀ {o}, OptNA h o → OptNA (h.alloc m) o := fun n j e => up (n j e)
  refine ⟨⟨fun j => ?_, fun j => ?_, fun j => ?_, fun j x => ?_, fun j x => ?_⟩, Nat.le_succ _, fun j hj => ?_, fun j hj _ => ?_, fun j => ?_⟩ <;>
    rw [alloc_at]
  · split
    · rw [h1]; exact OptNA.none
    · exact upo (T.first j)
  · split
    · rw [h2]; exact OptNA.none
    · exact upo (T.last j)
  · split
    · rw [h3]; exact fun _ => OptNA.none
    · exact fun a => upo (T.next j a)
  · split
    · rw [h5]; exact fun a => nomatch a
    · exact fun a => up (T.ents j x a)
  · split
    · rw [h6]; exact fun a => nomatch a
    · exact fun a => up (T.elems j x a)
  · rw [if_neg (Nat.ne_of_lt hj)]
  · rw [if_neg (Nat.ne_of_lt hj)]; exact ⟨rfl, rfl, rfl⟩
  · split
    · rename_i e; exact .inr ⟨Nat.le_of_eq e.symm, h4⟩
    · exact .inl rfl

/-! ### computations -/

/-- the computation `p` on `h` leaves attribute lists alone. -/
def Calms {α : Type} (h : Heap) (p : HM α) (Q : α → Heap → Prop) : Prop :=
  match p h with
  | .ok a h' => Gentle h h' ∧ Q a h'
  | .err _ h' => Gentle h h'
  | _ => True

/-- from every heap. -/
def KeepS {α : Type} (p : HM α) : Prop := ∀ h, Typed h → Calms h (p) (fun _ _ => True)

section
variable {α β : Type} {h : Heap}

theorem Calms.bind {p : HM α} {f : α → HM β} {Q : α → Heap → Prop} {Q' : β → Heap → Prop} (hp : Calms h (p) Q)
    (hf : ∀ a h', Gentle h h' → Q a h' → Calms h' (f a) Q') : Calms h ((p >>= f)) Q' := by
  unfold Calms at *
  rw [show (p >>= f) h = M.bind p f h from rfl]
  unfold M.bind
  cases hr : p h with
  | ok a h' =>
    rw [hr] at hp
    have := hf a h' hp.1 hp.2
    unfold Calms at this
    cases hr' : f a h' with
    | ok b h'' => rw [hr'] at this; simp only [hr']; exact ⟨hp.1.trans this.1, this.2⟩
    | err e h'' => rw [hr'] at this; simp only [hr']; exact hp.1.trans this
    | panic => simp only [hr']
    | diverge => simp only [hr']
  | err e h' => rw [hr] at hp; exact hp
  | panic => trivial
  | diverge => trivial

theorem Calms.mono {p : HM α} {Q Q' : α → Heap → Prop} (ho : Calms h p Q) (hq : ∀ a h', Gentle h h' → Q a h' → Q' a h') : Calms h p Q' := by
  unfold Calms at *
  cases hr : p h with
  | ok a h' => rw [hr] at ho; exact ⟨ho.1, hq _ _ ho.1 ho.2⟩
  | err e h' => rw [hr] at ho; exact ho
  | panic => trivial
  | diverge => trivial

theorem Calms.pure (T : Typed h) {a : α} {Q : α → Heap → Prop} (hq : Q a h) : Calms h ((Pure.pure a : HM α)) Q := ⟨Gentle.refl T, hq⟩
theorem Calms.fail (T : Typed h) {e : Err} {Q : α → Heap → Prop} : Calms h ((M.fail e : HM α)) Q := Gentle.refl T
theorem Calms.raw (T : Typed h) {e : EK} {Q : α → Heap → Prop} : Calms h ((M.raw e : HM α)) Q := Gentle.refl T
theorem Calms.panic {Q : α → Heap → Prop} : Calms h ((M.panic : HM α)) Q := trivial
theorem Calms.diverge {Q : α → Heap → Prop} : Calms h ((M.diverge : HM α)) Q := trivial
theorem Calms.get (T : Typed h) : Calms h ((M.get : HM Heap)) (fun a h' => a = h' ∧ h' = h) := ⟨Gentle.refl T, rfl, rfl⟩
theorem Calms.node (T : Typed h) (i : Nat) : Calms h ((node i : HM Node)) (fun a h' => a = h.at' i ∧ h' = h) := ⟨Gentle.refl T, rfl, rfl⟩
theorem Calms.deref (T : Typed h) {o : Option α} : Calms h ((M.deref o : HM α)) (fun a _ => o = some a) := by
  cases o with
  | none => trivial
  | some a => exact ⟨Gentle.refl T, rfl⟩
theorem Calms.content (T : Typed h) {i : Nat} : Calms h (content i) (fun _ _ => True) := by
  unfold Calms Helium.content
  cases contentF h (h.size + 1) i with
  | some b => exact ⟨Gentle.refl T, trivial⟩
  | none => trivial
theorem Calms.upd {i : Nat} {f : Node → Node} (hc : Gentle h (h.upd i f)) : Calms h (updNode i f) (fun _ _ => True) := ⟨hc, trivial⟩
theorem Calms.new (T : Typed h) {m : Node} (hm : m.bare) : Calms h (newNode m) (fun a h' => a = h.size ∧ h' = h.alloc m) :=
  ⟨Gentle.alloc T hm, rfl, rfl⟩

theorem Calms.newNA (T : Typed h) {m : Node} (hm : m.bare) (hk : m.kind ≠ .attr) : Calms h (newNode m) (fun a h' => NAttr h' a) := by
  refine (Calms.new T hm).mono ?_
  rintro a h' _ ⟨rfl, rfl⟩
  exact ⟨Nat.lt_succ_self _, by rw [alloc_at, if_pos rfl]; exact hk⟩

theorem Calms.attempt {p : HM α} {Q : α → Heap → Prop} (hp : Calms h (p) Q) : Calms h (M.attempt p) (fun _ _ => True) := by
  unfold Calms M.attempt at *
  cases hr : p h with
  | ok a h' => rw [hr] at hp; exact ⟨hp.1, trivial⟩
  | err e h' => rw [hr] at hp; exact ⟨hp, trivial⟩
  | panic => trivial
  | diverge => trivial

theorem Calms.forM {f : α → HM Unit} : ∀ {l : List α} {h : Heap}, Typed h → (∀ a h', Gentle h h' → Calms h' (f a) (fun _ _ => True)) →
    Calms h (l.forM f) (fun _ _ => True)
  | [], h, T, _ => Calms.pure T trivial
  | a :: l, h, T, hf => by
    show Calms h ((f a >>= fun _ => l.forM f)) _
    refine Calms.bind (hf a h (Gentle.refl T)) (fun _ h' k _ => ?_)
    exact Calms.forM k.typed (fun b h'' k' => hf b h'' (k.trans k'))

theorem lastSibling_NA (T : Typed h) : ∀ {f n l : Nat}, NAttr h n → lastSibling h f n = some l → NAttr h l
  | 0, _, _, _, e => nomatch e
  | f + 1, n, l, hn, e => by
    unfold lastSibling at e
    split at e
    · cases e; exact hn
    · rename_i m hm
      exact lastSibling_NA T (T.next n hn.kind m hm) e

theorem Calms.addSibling (T : Typed h) {n c : Nat} (hn : NAttr h n) (hc : NAttr h c) : Calms h (addSibling n c) (fun _ _ => True) := by
  unfold Calms Helium.addSibling
  cases hl : lastSibling h (h.size + 1) n with
  | none => trivial
  | some l =>
    have nl := lastSibling_NA T hn hl
    have k1 : Gentle h (h.upd l (fun x => { x with next := some c })) :=
      Gentle.upd T l rfl (T.first l) (T.last l) (fun _ => OptNA.some hc) (fun a => absurd a nl.kind) rfl (T.ents l) (T.elems l)
    have c1 := hc.calm k1
    have k2 := Gentle.upd k1.typed c (f := fun x => { x with prev := some l }) rfl (k1.typed.first c) (k1.typed.last c) (fun a => k1.typed.next c a)
      (fun a => absurd a c1.kind) rfl (k1.typed.ents c) (k1.typed.elems c)
    have c2 := c1.calm k2
    have k3 : ∀ p, Gentle _ _ := fun p => Gentle.upd_same k2.typed c (f := fun x => { x with parent := p }) ⟨rfl, rfl, rfl, rfl, rfl, rfl, rfl, rfl, rfl⟩
    dsimp only
    generalize (((h.upd l (fun x => { x with next := some c })).upd c (fun x => { x with prev := some l })).at' l).parent = p
    cases p with
    | none => exact ⟨(k1.trans k2).trans (k3 none), trivial⟩
    | some p =>
      have T3 := (k3 (some p)).typed
      have c3 := c2.calm (k3 (some p))
      exact ⟨((k1.trans k2).trans (k3 (some p))).trans (Gentle.upd T3 p rfl (T3.first p) (OptNA.some c3) (fun a => T3.next p a)
        (fun _ => ⟨rfl, rfl, rfl⟩) rfl (T3.ents p) (T3.elems p)), trivial⟩

theorem Calms.appendContent (T : Typed h) {n : Nat} {b : Bytes} : Calms h (appendContent n b) (fun _ _ => True) :=
  Calms.upd (Gentle.upd_same T n ⟨rfl, rfl, rfl, rfl, rfl, rfl, rfl, rfl, rfl⟩)

theorem Calms.nodeAddSibling (T : Typed h) {n c : Nat} (hn : NAttr h n) (hc : NAttr h c) : Calms h (nodeAddSibling n c) (fun _ _ => True) := by
  unfold Helium.nodeAddSibling
  refine Calms.bind (Calms.node T n) ?_
  rintro x _ _ ⟨rfl, rfl⟩
  split
  · refine Calms.bind (Calms.node T c) ?_
    rintro y _ _ ⟨rfl, rfl⟩
    split
    · exact Calms.bind (Calms.content T) (fun _ _ k _ => Calms.appendContent k.typed)
    · exact Calms.addSibling T hn hc
  · exact Calms.raw T
  · exact Calms.addSibling T hn hc

theorem Calms.addChild (T : Typed h) {n c : Nat} (hc : NAttr h c) : Calms h (addChild n c) (fun _ _ => True) := by
  unfold Helium.addChild
  refine Calms.bind (Calms.node T n) ?_
  rintro x _ _ ⟨rfl, rfl⟩
  split
  · refine Calms.bind (Calms.upd (Gentle.upd T n rfl (OptNA.some hc) (T.last n) (fun a => T.next n a) (fun _ => ⟨rfl, rfl, rfl⟩) rfl (T.ents n) (T.elems n)))
      (fun _ h1 k1 _ => ?_)
    have c1 := hc.calm k1
    have T1 := k1.typed
    refine Calms.bind (Calms.upd (Gentle.upd T1 n rfl (T1.first n) (OptNA.some c1) (fun a => T1.next n a) (fun _ => ⟨rfl, rfl, rfl⟩) rfl (T1.ents n) (T1.elems n)))
      (fun _ h2 k2 _ => ?_)
    exact Calms.upd (Gentle.upd_same k2.typed c ⟨rfl, rfl, rfl, rfl, rfl, rfl, rfl, rfl, rfl⟩)
  · rename_i l hl
    have nl := T.last n l hl
    refine Calms.bind (Calms.nodeAddSibling T nl hc) (fun _ h1 k1 _ => ?_)
    refine Calms.bind (Calms.node k1.typed c) ?_
    rintro y _ _ ⟨rfl, rfl⟩
    refine Calms.bind (Calms.node k1.typed l) ?_
    rintro z _ _ ⟨rfl, rfl⟩
    have T1 := k1.typed
    split
    · exact Calms.upd (Gentle.upd T1 n rfl (T1.first n) (OptNA.some (nl.calm k1)) (fun a => T1.next n a) (fun _ => ⟨rfl, rfl, rfl⟩) rfl (T1.ents n) (T1.elems n))
    · exact Calms.pure T1 trivial

theorem Calms.nodeAddChild (T : Typed h) {n c : Nat} (hc : NAttr h c) : Calms h (nodeAddChild n c) (fun _ _ => True) := by
  unfold Helium.nodeAddChild
  refine Calms.bind (Calms.node T n) ?_
  rintro x _ _ ⟨rfl, rfl⟩
  split
  · refine Calms.bind (Calms.node T c) ?_
    rintro y _ _ ⟨rfl, rfl⟩
    split
    · exact Calms.appendContent T
    · exact Calms.raw T
  · refine Calms.bind (Calms.node T c) ?_
    rintro y _ _ ⟨rfl, rfl⟩
    split
    · exact Calms.appendContent T
    · exact Calms.raw T
  · exact Calms.addChild T hc

theorem bare_mk {m : Node} (h1 : m.first = none) (h2 : m.last = none) (h3 : m.next = none) (h4 : m.props = none) (h5 : m.entities = [])
    (h6 : m.elements = []) : m.bare := ⟨h1, h2, h3, h4, h5, h6⟩

theorem Calms.nodeAddContent (T : Typed h) {n : Nat} {b : Bytes} : Calms h (nodeAddContent n b) (fun _ _ => True) := by
  unfold Helium.nodeAddContent
  refine Calms.bind (Calms.node T n) ?_
  rintro x _ _ ⟨rfl, rfl⟩
  split
  · exact Calms.appendContent T
  · exact Calms.appendContent T
  · exact Calms.bind (Calms.newNA T (m := mkText b) ⟨rfl, rfl, rfl, rfl, rfl, rfl⟩ (by simp [mkText])) (fun t h1 k1 ht => Calms.nodeAddChild k1.typed ht)

theorem Calms.createCharRef (T : Typed h) {d : Option Nat} {name : Bytes} : Calms h (createCharRef d name) (fun a h' => NAttr h' a) := by
  unfold Helium.createCharRef
  split
  · exact Calms.raw T
  · exact Calms.newNA T ⟨rfl, rfl, rfl, rfl, rfl, rfl⟩ (by simp)

theorem mapGet_in {α : Type} : ∀ {m : List (Bytes × α)} {k : Bytes} {v : α}, mapGet m k = some v → ∃ x ∈ m, x.2 = v
  | [], _, _, e => nomatch e
  | (k', v') :: m, k, v, e => by
    unfold mapGet at e
    rw [List.find?_cons] at e
    split at e
    · cases e; exact ⟨_, List.mem_cons_self, rfl⟩
    · obtain ⟨x, hx, h⟩ := mapGet_in (m := m) (k := k) (v := v) e
      exact ⟨x, List.mem_cons_of_mem _ hx, h⟩

theorem docGetEntity_NA (T : Typed h) {d : Nat} {name : Bytes} {e : Nat} (he : docGetEntity h d name = some e) : NAttr h e := by
  unfold docGetEntity at he
  split at he
  · obtain ⟨x, hx, rfl⟩ := mapGet_in he; exact T.ents _ _ hx
  · split at he
    · obtain ⟨x, hx, rfl⟩ := mapGet_in he; exact T.ents _ _ hx
    · cases he

theorem Calms.createReference (T : Typed h) {d : Nat} {name : Bytes} : Calms h (createReference d name) (fun a h' => NAttr h' a) := by
  unfold Helium.createReference
  refine Calms.bind (Calms.createCharRef T) (fun n h1 k1 hn => ?_)
  refine Calms.bind (Calms.get k1.typed) ?_
  rintro x h1' _ ⟨rfl, rfl⟩
  split
  · rename_i e he
    have ne := docGetEntity_NA k1.typed he
    refine Calms.bind (Calms.upd (Gentle.upd k1.typed n rfl (OptNA.some ne) (OptNA.some ne) (fun a => k1.typed.next n a) (fun _ => ⟨rfl, rfl, rfl⟩) rfl
      (k1.typed.ents n) (k1.typed.elems n))) (fun _ h2 k2 _ => ?_)
    exact Calms.pure k2.typed (hn.calm k2)
  · exact Calms.pure k1.typed hn

/-- the list under construction. -/
def SNL.NA (h : Heap) (st : SNL) : Prop := OptNA h st.ret ∧ OptNA h st.last
theorem SNL.NA.calm {h h' : Heap} {st : SNL} (n : st.NA h) (k : Gentle h h') : st.NA h' := ⟨n.1.calm k, n.2.calm k⟩

theorem Calms.snlPush (T : Typed h) {st : SNL} {n : Nat} (hs : st.NA h) (hn : NAttr h n) : Calms h (snlPush st n) (fun st' h' => st'.NA h') := by
  unfold Helium.snlPush
  split
  · exact Calms.pure T ⟨OptNA.some hn, OptNA.some hn⟩
  · rename_i l hl
    refine Calms.bind (Calms.attempt (Calms.nodeAddSibling T (hs.2 l hl) hn)) (fun _ h1 k1 _ => ?_)
    exact Calms.pure k1.typed ⟨hs.1.calm k1, OptNA.some (hn.calm k1)⟩

theorem Calms.snlFlush (T : Typed h) {d : Option Nat} {st : SNL} (hs : st.NA h) : Calms h (snlFlush d st) (fun st' h' => st'.NA h') := by
  unfold Helium.snlFlush
  split
  · exact Calms.pure T hs
  · refine Calms.bind (Calms.newNA T (m := { mkText st.buf with doc := d }) ⟨rfl, rfl, rfl, rfl, rfl, rfl⟩ (by simp [mkText])) (fun t h1 k1 ht => ?_)
    refine Calms.bind (Calms.snlPush k1.typed (hs.calm k1) ht) (fun st' h2 k2 hs' => ?_)
    exact Calms.pure k2.typed hs'

theorem Calms.parents (T : Typed h) {l : List Nat} {p : Nat} :
    Calms h ((l.forM (fun k => updNode k (fun x => { x with parent := some p })))) (fun _ _ => True) :=
  Calms.forM T (fun k _ c => Calms.upd (Gentle.upd_same c.typed k ⟨rfl, rfl, rfl, rfl, rfl, rfl, rfl, rfl, rfl⟩))

theorem Calms.stringToNodeList (d : Option Nat) : ∀ fuel, (∀ h v, Typed h → Calms h (stringToNodeList d fuel v) (fun o h' => OptNA h' o)) ∧
    (∀ h rs st, Typed h → st.NA h → Calms h (stringToNodeList.loop d fuel rs st) (fun o h' => OptNA h' o)) := by
  intro fuel
  induction fuel with
  | zero =>
    refine ⟨fun h v T => ?_, fun h rs st T hs => ?_⟩
    · unfold Helium.stringToNodeList; trivial
    · unfold Helium.stringToNodeList.loop; trivial
  | succ f ih =>
    refine ⟨fun h v T => ?_, fun h rs st T hs => ?_⟩
    · unfold Helium.stringToNodeList
      exact ih.2 h _ _ T ⟨OptNA.none, OptNA.none⟩
    · cases rs with
      | nil =>
        unfold Helium.stringToNodeList.loop
        split
        · exact Calms.pure T hs.1
        · refine Calms.bind (Calms.newNA T (m := { mkText st.buf with doc := d }) ⟨rfl, rfl, rfl, rfl, rfl, rfl⟩ (by simp [mkText])) (fun t h1 k1 ht => ?_)
          split
          · exact Calms.pure k1.typed (OptNA.some ht)
          · rename_i l hl
            refine Calms.bind (Calms.attempt (Calms.nodeAddSibling k1.typed ((hs.2 l hl).calm k1) ht)) (fun _ h2 k2 _ => ?_)
            exact Calms.pure k2.typed (hs.1.calm (k1.trans k2))
      | cons c t =>
        unfold Helium.stringToNodeList.loop
        split
        · exact ih.2 h _ _ T hs
        · split
          · exact Calms.raw T
          · split
            · exact Calms.raw T
            · split
              · exact Calms.fail T
              · refine ih.2 h _ _ T ?_
                split <;> exact hs
          · split
            · exact Calms.raw T
            · rename_i nm rst _
              dsimp only
              refine Calms.bind (Calms.deref T) (fun dd h1 k1 _ => ?_)
              have hs1 := hs.calm k1
              refine Calms.bind (Calms.get k1.typed) ?_
              rintro g h1' _ ⟨rfl, rfl⟩
              have jp : ∀ (g' : Heap) (st' : SNL) (n : Nat) (rst : List Nat), Typed g' → st'.NA g' → NAttr g' n →
                  Calms g' (Helium.snlPush st' n >>= fun st => stringToNodeList.loop d f rst st) (fun o h' => OptNA h' o) :=
                fun g' st' n rst T' hs' hn => Calms.bind (Calms.snlPush T' hs' hn) (fun st'' h2 k2 hs2 => ih.2 h2 _ _ k2.typed hs2)
              generalize docGetEntity g dd _ = ent
              cases ent with
              | none =>
                refine Calms.bind (Calms.snlFlush k1.typed hs1) (fun st2 h2 k2 hs2 => ?_)
                refine Calms.bind (Calms.createReference k2.typed) (fun n h3 k3 hn => ?_)
                exact jp _ _ _ _ k3.typed (hs2.calm k3) hn
              | some e =>
                dsimp only
                split
                · exact ih.2 _ _ _ k1.typed hs1
                · refine Calms.bind (Calms.snlFlush k1.typed hs1) (fun st2 h2 k2 hs2 => ?_)
                  refine Calms.bind (Calms.createReference k2.typed) (fun n h3 k3 hn => ?_)
                  have hs3 := hs2.calm k3
                  refine Calms.bind (Calms.get k3.typed) ?_
                  rintro g3 h3' _ ⟨rfl, rfl⟩
                  split
                  · refine Calms.bind (Calms.content k3.typed) (fun txt h4 k4 _ => ?_)
                    refine Calms.bind (ih.1 h4 txt k4.typed) (fun kids h5 k5 hk => ?_)
                    have T5 := k5.typed
                    refine Calms.bind (Calms.upd (Gentle.upd T5 e rfl hk (T5.last e) (fun a => T5.next e a) (fun _ => ⟨rfl, rfl, rfl⟩) rfl (T5.ents e) (T5.elems e)))
                      (fun _ h6 k6 _ => ?_)
                    have kk := (k4.trans k5).trans k6
                    refine Calms.bind (Calms.get k6.typed) ?_
                    rintro g6 h6' _ ⟨rfl, rfl⟩
                    split
                    · exact Calms.bind (Q := fun _ _ => False) Calms.diverge (fun _ _ _ x => x.elim)
                    · refine Calms.bind (Calms.parents k6.typed) (fun _ h7 k7 _ => ?_)
                      exact jp _ _ _ _ k7.typed (hs3.calm (kk.trans k7)) (hn.calm (kk.trans k7))
                  · exact jp _ _ _ _ k3.typed hs3 hn

theorem Calms.snl (T : Typed h) (d : Option Nat) (fuel : Nat) (v : Bytes) :
    Calms h (Helium.stringToNodeList d fuel v) (fun o h' => OptNA h' o) := (Calms.stringToNodeList d fuel).1 h v T

/-- a new attribute that nothing points to. -/
structure NewAttr (h h' : Heap) (name : Bytes) (a : Nat) : Prop where
  old : h.size ≤ a
  lt : a < h'.size
  kind : (h'.at' a).kind = .attr
  name : (h'.at' a).name = name
  next : (h'.at' a).next = none
  prev : (h'.at' a).prev = none

theorem NewAttr.calm {h h' h'' : Heap} {name : Bytes} {a : Nat} (n : NewAttr h h' name a) (k : Gentle h' h'') : NewAttr h h'' name a := by
  obtain ⟨h1, h2, h3⟩ := k.attr a n.lt n.kind
  exact ⟨n.old, Nat.lt_of_lt_of_le n.lt k.size, by rw [k.kind a n.lt, n.kind], h1.trans n.name, h2.trans n.next, h3.trans n.prev⟩

theorem Calms.createAttribute (T : Typed h) {d : Option Nat} {fuel : Nat} {name value : Bytes} {ns : Option (Bytes × Bytes)} :
    Calms h (createAttribute d fuel name value ns) (fun a h' => NewAttr h h' name a) := by
  unfold Helium.createAttribute
  refine Calms.bind (Calms.new T (m := mkAttr name ns) ⟨rfl, rfl, rfl, rfl, rfl, rfl⟩) ?_
  rintro a h1 k1 ⟨rfl, rfl⟩
  have n1 : NewAttr h (h.alloc (mkAttr name ns)) name h.size := by
    refine ⟨Nat.le_refl _, Nat.lt_succ_self _, ?_, ?_, ?_, ?_⟩ <;> rw [alloc_at, if_pos rfl] <;> rfl
  split
  · exact Calms.pure k1.typed n1
  · refine Calms.bind (Calms.snl k1.typed _ _ _) (fun kids h2 k2 hk => ?_)
    have T2 := k2.typed
    refine Calms.bind (Calms.upd (Gentle.upd T2 h.size rfl hk (T2.last _) (fun a => T2.next _ a) (fun _ => ⟨rfl, rfl, rfl⟩) rfl (T2.ents _) (T2.elems _)))
      (fun _ h3 k3 _ => ?_)
    refine Calms.bind (Calms.get k3.typed) ?_
    rintro g3 h3' _ ⟨rfl, rfl⟩
    split
    · exact Calms.diverge
    · refine Calms.bind (Q := fun _ _ => True) (Calms.forM k3.typed (fun k h4 k4 => ?_)) (fun _ h5 k5 _ => ?_)
      · refine Calms.bind (Calms.upd (Gentle.upd_same k4.typed k ⟨rfl, rfl, rfl, rfl, rfl, rfl, rfl, rfl, rfl⟩)) (fun _ h5 k5 _ => ?_)
        refine Calms.bind (Calms.node k5.typed k) ?_
        rintro x _ _ ⟨rfl, rfl⟩
        have T5 := k5.typed
        split
        · exact Calms.upd (Gentle.upd T5 k rfl (T5.first k) OptNA.none (fun a => T5.next k a) (fun _ => ⟨rfl, rfl, rfl⟩) rfl (T5.ents k) (T5.elems k))
        · exact Calms.pure T5 trivial
      · exact Calms.pure k5.typed (n1.calm ((k2.trans k3).trans k5))

theorem Calms.setTreeDoc (doc : Option Nat) (fuel : Nat) : ∀ n (h : Heap), Typed h → Calms h (setTreeDoc doc fuel n) (fun _ _ => True) := by
  induction fuel with
  | zero => intro n h _; unfold Helium.setTreeDoc; exact Calms.diverge
  | succ f ih =>
    intro n h T
    have hl : ∀ s (h : Heap), Typed h → Calms h (setTreeDoc.setList doc f s) (fun _ _ => True) := by
      intro s h T
      unfold setTreeDoc.setList
      refine Calms.bind (Calms.get T) ?_
      rintro g h' _ ⟨rfl, rfl⟩
      split
      · exact Calms.diverge
      · exact Calms.forM T (fun a h' k => ih a h' k.typed)
    have hu : ∀ i (h : Heap), Typed h → Calms h (updNode i (fun a => { a with doc := doc })) (fun _ _ => True) :=
      fun i h T => Calms.upd (Gentle.upd_same T i ⟨rfl, rfl, rfl, rfl, rfl, rfl, rfl, rfl, rfl⟩)
    unfold Helium.setTreeDoc
    refine Calms.bind (Calms.get T) ?_
    rintro g h' _ ⟨rfl, rfl⟩
    dsimp only
    split
    · exact Calms.pure T trivial
    · split
      · split
        · exact Calms.bind (Q := fun _ _ => False) Calms.diverge (fun _ _ _ x => x.elim)
        · refine Calms.bind (Calms.forM T (fun p h1 k1 => Calms.bind (hu p h1 k1.typed) (fun _ h2 k2 _ => hl _ h2 k2.typed))) (fun _ h3 k3 _ => ?_)
          exact Calms.bind (hl _ _ k3.typed) (fun _ h4 k4 _ => hu n h4 k4.typed)
      · exact Calms.bind (hl _ _ T) (fun _ h4 k4 _ => hu n h4 k4.typed)

theorem Calms.nodeSetTreeDoc (T : Typed h) {n : Nat} {doc : Option Nat} : Calms h (nodeSetTreeDoc n doc) (fun _ _ => True) := by
  unfold Helium.nodeSetTreeDoc
  refine Calms.bind (Calms.get T) ?_
  rintro g h' _ ⟨rfl, rfl⟩
  exact Calms.setTreeDoc _ _ _ _ T

theorem Calms.setNamespace (T : Typed h) {e : Nat} {p u : Bytes} {a : Bool} : Calms h (setNamespace e p u a) (fun _ _ => True) := by
  unfold Helium.setNamespace
  refine Calms.upd (Gentle.upd_same T e ?_)
  cases a <;> exact ⟨rfl, rfl, rfl, rfl, rfl, rfl, rfl, rfl, rfl⟩

/-! ### DTDs -/

theorem Calms.createInternalSubset (T : Typed h) {d : Nat} {n e s : Bytes} : Calms h (createInternalSubset d n e s) (fun _ _ => True) := by
  unfold Helium.createInternalSubset
  refine Calms.bind (Calms.node T d) ?_
  rintro x _ _ ⟨rfl, rfl⟩
  split
  · exact Calms.raw T
  · refine Calms.bind (Calms.newNA T ⟨rfl, rfl, rfl, rfl, rfl, rfl⟩ (by simp)) (fun c h1 k1 hc => ?_)
    refine Calms.bind (Calms.upd (Gentle.upd_same k1.typed d ⟨rfl, rfl, rfl, rfl, rfl, rfl, rfl, rfl, rfl⟩)) (fun _ h2 k2 _ => ?_)
    refine Calms.bind (Calms.upd (Gentle.upd_same k2.typed c ⟨rfl, rfl, rfl, rfl, rfl, rfl, rfl, rfl, rfl⟩)) (fun _ h3 k3 _ => ?_)
    refine Calms.bind (Calms.attempt (Calms.nodeAddChild k3.typed (hc.calm (k2.trans k3)))) (fun _ h4 k4 _ => ?_)
    exact Calms.pure k4.typed trivial

theorem mem_mapSetT {α : Type} {m : List (Bytes × α)} {k : Bytes} {v : α} {x : Bytes × α} (h : x ∈ mapSet m k v) : x.2 = v ∨ x ∈ m := by
  induction m with
  | nil => rw [List.mem_singleton.1 h]; exact .inl rfl
  | cons a t ih =>
    obtain ⟨k', v'⟩ := a
    unfold mapSet at h
    split at h
    · rcases List.mem_cons.1 h with h | h
      · rw [h]; exact .inl rfl
      · exact .inr (List.mem_cons_of_mem _ h)
    · rcases List.mem_cons.1 h with h | h
      · rw [h]; exact .inr List.mem_cons_self
      · rcases ih h with h | h
        · exact .inl h
        · exact .inr (List.mem_cons_of_mem _ h)

theorem mem_mapGetT {α : Type} {m : List (Bytes × α)} {k : Bytes} {v : α} (h : mapGet m k = some v) : ∃ x ∈ m, x.2 = v := by
  unfold mapGet at h
  cases hf : m.find? (fun p => p.1 == k) with
  | none => rw [hf] at h; cases h
  | some y =>
    rw [hf] at h
    cases h
    exact ⟨y, List.mem_of_find?_eq_some hf, rfl⟩

theorem Calms.dtdAddEntity (T : Typed h) {t : Nat} {n : Bytes} {typ : Nat} {p s c : Bytes} : Calms h (dtdAddEntity t n typ p s c) (fun _ _ => True) := by
  unfold Helium.dtdAddEntity
  split
  · exact Calms.raw T
  · split
    · refine Calms.bind (Calms.node T t) ?_
      rintro x _ _ ⟨rfl, rfl⟩
      refine Calms.bind (Calms.newNA T ⟨rfl, rfl, rfl, rfl, rfl, rfl⟩ (by simp [mkEntity])) (fun e h1 k1 he => ?_)
      have T1 := k1.typed
      have jp : ∀ h2, Gentle h1 h2 → Calms h2 (M.attempt (Helium.nodeAddChild t e) >>= fun _ => Pure.pure e) (fun _ _ => True) := fun h2 k2 =>
        Calms.bind (Calms.attempt (Calms.nodeAddChild k2.typed (he.calm k2))) (fun _ h4 k4 _ => Calms.pure k4.typed trivial)
      split
      · exact Calms.bind (Calms.upd (Gentle.upd_same T1 t ⟨rfl, rfl, rfl, rfl, rfl, rfl, rfl, rfl, rfl⟩)) (fun _ h2 k2 _ => jp h2 k2)
      · refine Calms.bind (Calms.upd (Gentle.upd T1 t rfl (T1.first t) (T1.last t) (fun a => T1.next t a) (fun _ => ⟨rfl, rfl, rfl⟩) rfl ?_ (T1.elems t)))
          (fun _ h2 k2 _ => jp h2 k2)
        intro x hx
        rcases mem_mapSetT hx with e1 | e1
        · rw [e1]; exact he
        · exact T1.ents t x e1
    · exact Calms.raw T

theorem Calms.dtdRegisterAttribute (T : Typed h) {t a : Nat} : Calms h (dtdRegisterAttribute t a) (fun _ _ => True) := by
  unfold Helium.dtdRegisterAttribute
  refine Calms.bind (Calms.get T) ?_
  rintro g h' _ ⟨rfl, rfl⟩
  dsimp only
  split
  · exact Calms.raw T
  · exact Calms.upd (Gentle.upd_same T t ⟨rfl, rfl, rfl, rfl, rfl, rfl, rfl, rfl, rfl⟩)

theorem Calms.addAttributeDecl (T : Typed h) {t : Option Nat} {e n p : Bytes} {a d : Nat} {v : Bytes} {tr : List Bytes} :
    Calms h (addAttributeDecl t e n p a d v tr) (fun _ _ => True) := by
  unfold Helium.addAttributeDecl
  split
  · exact Calms.raw T
  · rename_i t
    split
    · exact Calms.raw T
    · refine Calms.bind (Calms.get T) ?_
      rintro g h' _ ⟨rfl, rfl⟩
      dsimp only
      have rest : Calms g (newNode { kind := .attrDecl, name := n, doc := (g.at' t).doc, atype := a, defType := d, defValue := v, tree := tr, pfx := p, elem := e } >>= fun c => Helium.dtdRegisterAttribute t c >>= fun _ => M.attempt (Helium.nodeAddChild t c) >>= fun _ => Pure.pure c)
          (fun _ _ => True) := by
        refine Calms.bind (Calms.newNA T ⟨rfl, rfl, rfl, rfl, rfl, rfl⟩ (by simp)) (fun c h1 k1 hc => ?_)
        refine Calms.bind (Calms.dtdRegisterAttribute k1.typed) (fun _ h2 k2 _ => ?_)
        refine Calms.bind (Calms.attempt (Calms.nodeAddChild k2.typed (hc.calm k2))) (fun _ h4 k4 _ => ?_)
        exact Calms.pure k4.typed trivial
      repeat' split
      all_goals first | exact rest | exact Calms.raw T

/-- the part of `dtdAddElementDecl` after the checks of its arguments. -/
def dtdAddElementDecl_rest (t : Nat) (name : Bytes) (typ : Nat) (ec : EC) : HM Nat := do
  let pfx := (splitColon name).1
  let loc := (splitColon name).2
  let h ← M.get
  -- undefined declaration left over in the internal subset: its attributes move to the new one
  let oldattrs ← (match (h.at' t).doc with
    | none => pure none
    | some d =>
      match (h.at' d).intSubset with
      | none => pure none
      | some i =>
        match mapGet (h.at' i).elements (elemKey loc pfx) with
        | none => pure none
        | some dc =>
          if (h.at' dc).declType = 0 then do
            let old := (h.at' dc).declAttrs
            updNode dc (fun x => { x with declAttrs := none })
            updNode i (fun x => { x with elements := mapDel x.elements (elemKey loc pfx) })
            pure old
          else pure none)
  let h ← M.get
  let decl ← (match mapGet (h.at' t).elements (elemKey loc pfx) with
    | some dc => if (h.at' dc).declType ≠ 0 then M.raw .mRedefinition else pure dc
    | none => do
      let dc ← newNode { kind := .elemDecl, name := loc, pfx := pfx, declAttrs := oldattrs }
      updNode t (fun x => { x with elements := mapSet x.elements (elemKey loc pfx) dc })
      pure dc)
  let x ← node t
  updNode decl (fun d => { d with declType := typ, ec := copyEC ec, doc := x.doc })
  nodeAddChild t decl
  pure decl

theorem Calms.dtdAddElementDecl_rest (T : Typed h) {t : Nat} {n : Bytes} {typ : Nat} {ec : EC} : Calms h (dtdAddElementDecl_rest t n typ ec) (fun _ _ => True) := by
  unfold Helium.dtdAddElementDecl_rest
  refine Calms.bind (Calms.get T) ?_
  rintro g h' _ ⟨rfl, rfl⟩
  dsimp only
  refine Calms.bind (Q := fun _ _ => True) ?_ (fun old h2 k2 _ => ?_)
  · split
    · exact Calms.pure T trivial
    · split
      · exact Calms.pure T trivial
      · split
        · exact Calms.pure T trivial
        · split
          · rename_i i _ _ _ _ _
            refine Calms.bind (Calms.upd (Gentle.upd_same T _ ⟨rfl, rfl, rfl, rfl, rfl, rfl, rfl, rfl, rfl⟩)) (fun _ h2 k2 _ => ?_)
            have T2 := k2.typed
            refine Calms.bind (Calms.upd (Gentle.upd T2 i rfl (T2.first _) (T2.last _) (fun a => T2.next _ a) (fun _ => ⟨rfl, rfl, rfl⟩) rfl (T2.ents _)
              (fun x hx => T2.elems _ x ((List.mem_filter.1 hx).1)))) (fun _ h3 k3 _ => Calms.pure k3.typed trivial)
          · exact Calms.pure T trivial
  refine Calms.bind (Calms.get k2.typed) ?_
  rintro g2 h' _ ⟨rfl, rfl⟩
  refine Calms.bind (Q := fun dc h => NAttr h dc) ?_ (fun dc h3 k3 hd => ?_)
  · split
    · rename_i dc hdc
      split
      · exact Calms.raw k2.typed
      · refine Calms.pure k2.typed ?_
        obtain ⟨x, hx, rfl⟩ := mem_mapGetT hdc
        exact k2.typed.elems t x hx
    · refine Calms.bind (Calms.newNA k2.typed ⟨rfl, rfl, rfl, rfl, rfl, rfl⟩ (by simp)) (fun dc h1 k1 hc => ?_)
      have T1 := k1.typed
      refine Calms.bind (Calms.upd (Gentle.upd T1 t rfl (T1.first t) (T1.last t) (fun a => T1.next t a) (fun _ => ⟨rfl, rfl, rfl⟩) rfl (T1.ents t) ?_))
          (fun _ h2 k2 _ => Calms.pure k2.typed (hc.calm k2))
      intro x hx
      rcases mem_mapSetT hx with e1 | e1
      · rw [e1]; exact hc
      · exact T1.elems t x e1
  refine Calms.bind (Calms.node k3.typed t) ?_
  rintro x _ _ ⟨rfl, rfl⟩
  refine Calms.bind (Calms.upd (Gentle.upd_same k3.typed dc ⟨rfl, rfl, rfl, rfl, rfl, rfl, rfl, rfl, rfl⟩)) (fun _ h4 k4 _ => ?_)
  refine Calms.bind (Calms.nodeAddChild k4.typed (hd.calm k4)) (fun _ h5 k5 _ => Calms.pure k5.typed trivial)


theorem Calms.dtdAddElementDecl (T : Typed h) {t : Nat} {n : Bytes} {typ : Nat} {ec : EC} : Calms h (dtdAddElementDecl t n typ ec) (fun _ _ => True) := by
  unfold Helium.dtdAddElementDecl
  split
  · split
    · exact Calms.raw T
    · exact Calms.dtdAddElementDecl_rest T
  · split
    · split
      · exact Calms.raw T
      · exact Calms.dtdAddElementDecl_rest T
    · exact Calms.raw T

end
end Helium
