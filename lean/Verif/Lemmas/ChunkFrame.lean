import Verif.Lemmas.ValueRun
import Verif.Lemmas.AttrRun
/-!
The heap while the replacement text of an entity is parsed: its nodes form a region of their own, below a pseudo root that nothing is ever
attached to (the tree builder has no current element then) and next to it; the rest of the heap stays as it was, but for child pointers and
literals of entities and for the child pointers of the document, which are restored afterwards.
-/
namespace Helium
open Spec

/-- `O` is the heap at the start, `dn` the document, `r` the pseudo root. -/
structure RegH (O : Heap) (dn r : Nat) (h : Heap) : Prop where
  dlt : dn < O.size
  dk : (O.at' dn).kind = .doc
  size : O.size ≤ h.size
  tab : TabOK h
  same : ∀ i, i < O.size → i ≠ dn → (O.at' i).kind ≠ .entity → h.at' i = O.at' i
  ent : ∀ i, i < O.size → i ≠ dn → h.at' i = { O.at' i with first := (h.at' i).first, last := (h.at' i).last, orig := (h.at' i).orig }
  dat : h.at' dn = { O.at' dn with first := (h.at' dn).first, last := (h.at' dn).last, standalone := (h.at' dn).standalone }
  root : (h.at' dn).first = some r
  rnew : O.size ≤ r ∧ r < h.size
  rfirst : (h.at' r).first = none
  rk : (h.at' r).kind = .element
  last : ∃ l, (h.at' dn).last = some l ∧ O.size ≤ l ∧ l < h.size
  next : ∀ i j, O.size ≤ i → i < h.size → (h.at' i).next = some j → O.size ≤ j ∧ j < h.size
  parent : ∀ i j, O.size ≤ i → i < h.size → (h.at' i).parent = some j → j ≠ r ∧ j < h.size ∧ (O.size ≤ j ∨ j = dn ∨ (h.at' j).kind = .entity)
  ends : ∀ i j, O.size ≤ i → i < h.size → (h.at' i).kind = .element → (h.at' i).last = some j → O.size ≤ j ∧ j < h.size
  props : ∀ i j, O.size ≤ i → i < h.size → (h.at' i).kind = .element → (h.at' i).props = some j → O.size ≤ j ∧ j < h.size

/-- nodes that may have children in the region. -/
def Tg (O : Heap) (dn r : Nat) (h : Heap) (j : Nat) : Prop := j ≠ r ∧ j < h.size ∧ (O.size ≤ j ∨ j = dn ∨ (h.at' j).kind = .entity)

section
variable {O : Heap} {dn r : Nat} {h h' : Heap}

theorem RegH.kindO (G : RegH O dn r h) {i : Nat} (hi : i < O.size) : (h.at' i).kind = (O.at' i).kind := by
  by_cases hd : i = dn
  · subst hd; rw [G.dat]
  · rw [G.ent i hi hd]

theorem RegH.dnk (G : RegH O dn r h) : (h.at' dn).kind = .doc := (G.kindO G.dlt).trans G.dk

theorem RegH.dlth (G : RegH O dn r h) : dn < h.size := Nat.lt_of_lt_of_le G.dlt G.size

theorem RegH.upd (G : RegH O dn r h) {i : Nat} {f : Node → Node} (hk : (f (h.at' i)).kind = (h.at' i).kind)
    (ht : (f (h.at' i)).entities = (h.at' i).entities ∧ (f (h.at' i)).pentities = (h.at' i).pentities)
    (hold : i < O.size → i ≠ dn → (h.at' i).kind = .entity ∧
      f (h.at' i) = { h.at' i with first := (f (h.at' i)).first, last := (f (h.at' i)).last, orig := (f (h.at' i)).orig })
    (hdn : i = dn → f (h.at' i) = { h.at' i with last := (f (h.at' i)).last, standalone := (f (h.at' i)).standalone } ∧
      ∃ l, (f (h.at' i)).last = some l ∧ O.size ≤ l ∧ l < h.size)
    (hnew : O.size ≤ i → i < h.size → (∀ j, (f (h.at' i)).next = some j → O.size ≤ j ∧ j < h.size) ∧
      (∀ j, (f (h.at' i)).parent = some j → Tg O dn r h j) ∧
      ((h.at' i).kind = .element → (∀ j, (f (h.at' i)).last = some j → O.size ≤ j ∧ j < h.size) ∧
        ∀ j, (f (h.at' i)).props = some j → O.size ≤ j ∧ j < h.size) ∧ (i = r → (f (h.at' i)).first = none)) : RegH O dn r (h.upd i f) := by
  have hat : ∀ m, (h.upd i f).at' m = if m = i then f (h.at' i) else h.at' m := fun m => rfl
  have hkk : ∀ m, ((h.upd i f).at' m).kind = (h.at' m).kind := fun m => by
    rw [hat]; split
    · subst m; exact hk
    · rfl
  refine { dlt := G.dlt, dk := G.dk, size := G.size, tab := G.tab.upd hk ht, same := ?_, ent := ?_, dat := ?_, root := ?_, rnew := G.rnew, rfirst := ?_,
           rk := (hkk r).trans G.rk, last := ?_, next := ?_, parent := ?_, ends := ?_, props := ?_ }
  · intro m hm hd hke
    rw [hat]; split
    · subst m
      exact absurd ((G.kindO hm).symm.trans (hold hm hd).1) hke
    · exact G.same m hm hd hke
  · intro m hm hd
    rw [hat]; split
    · subst m
      have h1 := (hold hm hd).2
      have h2 := G.ent i hm hd
      generalize f (h.at' i) = x at h1 ⊢
      rw [h2] at h1
      exact h1
    · exact G.ent m hm hd
  · rw [hat]; split
    · rename_i e
      subst i
      have h1 := (hdn rfl).1
      have h2 := G.dat
      generalize f (h.at' dn) = x at h1 ⊢
      rw [h2] at h1
      have h3 : x.first = (h.at' dn).first := by rw [h1]
      rw [← h3] at h1
      exact h1
    · exact G.dat
  · rw [hat]; split
    · rename_i e
      subst i
      rw [(hdn rfl).1]
      exact G.root
    · exact G.root
  · rw [hat]; split
    · rename_i e
      exact (hnew (e ▸ G.rnew.1) (e ▸ G.rnew.2)).2.2.2 e.symm
    · exact G.rfirst
  · rw [hat]; split
    · rename_i e
      exact (hdn e.symm).2
    · exact G.last
  · intro m j hb hs hj
    rw [hat] at hj
    split at hj
    · subst m; exact (hnew hb hs).1 j hj
    · exact G.next m j hb hs hj
  · intro m j hb hs hj
    rw [hkk]
    rw [hat] at hj
    split at hj
    · subst m; exact (hnew hb hs).2.1 j hj
    · exact G.parent m j hb hs hj
  · intro m j hb hs hke hj
    rw [hkk] at hke
    rw [hat] at hj
    split at hj
    · subst m; exact ((hnew hb hs).2.2.1 hke).1 j hj
    · exact G.ends m j hb hs hke hj
  · intro m j hb hs hke hj
    rw [hkk] at hke
    rw [hat] at hj
    split at hj
    · subst m; exact ((hnew hb hs).2.2.1 hke).2 j hj
    · exact G.props m j hb hs hke hj

/-- a node of the region. -/
theorem RegH.updNew (G : RegH O dn r h) {i : Nat} {f : Node → Node} (hi : O.size ≤ i) (hk : (f (h.at' i)).kind = (h.at' i).kind)
    (ht : (f (h.at' i)).entities = (h.at' i).entities ∧ (f (h.at' i)).pentities = (h.at' i).pentities)
    (hn : ∀ j, (f (h.at' i)).next = some j → (h.at' i).next = some j ∨ O.size ≤ j ∧ j < h.size)
    (hp : ∀ j, (f (h.at' i)).parent = some j → (h.at' i).parent = some j ∨ Tg O dn r h j)
    (hl : ∀ j, (f (h.at' i)).last = some j → (h.at' i).last = some j ∨ O.size ≤ j ∧ j < h.size)
    (hq : ∀ j, (f (h.at' i)).props = some j → (h.at' i).props = some j ∨ O.size ≤ j ∧ j < h.size)
    (hf : (f (h.at' i)).first = (h.at' i).first ∨ i ≠ r) : RegH O dn r (h.upd i f) := by
  refine G.upd hk ht (fun x => absurd hi (by omega)) (fun x => absurd G.dlt (by omega)) (fun _ hs => ⟨fun j hj => ?_, fun j hj => ?_,
    fun hke => ⟨fun j hj => ?_, fun j hj => ?_⟩, fun e => ?_⟩)
  · exact (hn j hj).elim (G.next i j hi hs) id
  · exact (hp j hj).elim (fun x => G.parent i j hi hs x) id
  · exact (hl j hj).elim (G.ends i j hi hs hke) id
  · exact (hq j hj).elim (G.props i j hi hs hke) id
  · rcases hf with hf | hf
    · rw [hf, e]; exact G.rfirst
    · exact absurd e hf

/-- the last child of a node. -/
theorem RegH.updLast (G : RegH O dn r h) {i c : Nat} (hi : i < h.size ∧ (O.size ≤ i ∨ i = dn ∨ (h.at' i).kind = .entity)) (hc : O.size ≤ c ∧ c < h.size) :
    RegH O dn r (h.upd i (fun x => { x with last := some c })) := by
  refine G.upd rfl ⟨rfl, rfl⟩ (fun x hd => ⟨?_, rfl⟩) (fun x => ⟨rfl, c, rfl, hc⟩) (fun hb hs => ⟨fun j hj => G.next i j hb hs hj, fun j hj => G.parent i j hb hs hj,
    fun hke => ⟨fun j hj => by cases hj; exact hc, fun j hj => G.props i j hb hs hke hj⟩, fun e => by rw [e]; exact G.rfirst⟩)
  rcases hi.2 with h1 | h1 | h1
  · omega
  · exact absurd h1 hd
  · exact h1

theorem RegH.alloc (G : RegH O dn r h) {x : Node} (hn : x.next = none) (hp : x.parent = none) (hl : x.kind = .element → x.last = none ∧ x.props = none)
    (he : x.entities = [] ∧ x.pentities = []) : RegH O dn r (h.alloc x) := by
  have hat : ∀ m, (h.alloc x).at' m = if m = h.size then x else h.at' m := fun m => rfl
  have hold : ∀ m, m < h.size → (h.alloc x).at' m = h.at' m := fun m hm => by rw [hat, if_neg (by omega)]
  have hb := G.size
  have hds := G.dlth
  refine { dlt := G.dlt, dk := G.dk, size := Nat.le_succ_of_le G.size, tab := G.tab.alloc he, same := ?_, ent := ?_, dat := ?_, root := ?_,
           rnew := ⟨G.rnew.1, Nat.lt_succ_of_lt G.rnew.2⟩, rfirst := ?_,
           rk := ?_, last := ?_, next := ?_, parent := ?_, ends := ?_, props := ?_ }
  · intro m hm hd hke
    rw [hold m (by omega)]; exact G.same m hm hd hke
  · intro m hm hd
    rw [hold m (by omega)]; exact G.ent m hm hd
  · rw [hold dn hds]; exact G.dat
  · rw [hold dn hds]; exact G.root
  · rw [hold r G.rnew.2]; exact G.rfirst
  · rw [hold r G.rnew.2]; exact G.rk
  · obtain ⟨l, h1, h2, h3⟩ := G.last
    exact ⟨l, by rw [hold dn hds]; exact h1, h2, Nat.lt_succ_of_lt h3⟩
  · intro m j h1 h2 h3
    rw [hat] at h3
    split at h3
    · rw [hn] at h3; cases h3
    · have h2 : m < h.size + 1 := h2
      have := G.next m j h1 (by omega) h3
      exact ⟨this.1, Nat.lt_succ_of_lt this.2⟩
  · intro m j h1 h2 h3
    rw [hat] at h3
    split at h3
    · rw [hp] at h3; cases h3
    · have h2 : m < h.size + 1 := h2
      have := G.parent m j h1 (by omega) h3
      exact ⟨this.1, Nat.lt_succ_of_lt this.2.1, by rw [hold j this.2.1]; exact this.2.2⟩
  · intro m j h1 h2 hk h3
    rw [hat] at h3 hk
    split at h3
    · rename_i e
      rw [if_pos e] at hk
      rw [(hl hk).1] at h3; cases h3
    · rename_i e
      rw [if_neg e] at hk
      have h2 : m < h.size + 1 := h2
      have := G.ends m j h1 (by omega) hk h3
      exact ⟨this.1, Nat.lt_succ_of_lt this.2⟩
  · intro m j h1 h2 hk h3
    rw [hat] at h3 hk
    split at h3
    · rename_i e
      rw [if_pos e] at hk
      rw [(hl hk).2] at h3; cases h3
    · rename_i e
      rw [if_neg e] at hk
      have h2 : m < h.size + 1 := h2
      have := G.props m j h1 (by omega) hk h3
      exact ⟨this.1, Nat.lt_succ_of_lt this.2⟩

/-- attribute values. -/
theorem RegH.value (G : RegH O dn r h) (s : VStep h.size h h') (v : VInv h.size h') : RegH O dn r h' := by
  have hb := G.size
  have hds := G.dlth
  have hr := G.rnew
  have hss := s.size
  have hdn : h'.at' dn = h.at' dn := s.same dn hds (by rw [G.dnk]; simp)
  have hrr : h'.at' r = h.at' r := s.same r hr.2 (by rw [G.rk]; simp)
  have hkk : ∀ m, m < h.size → (h'.at' m).kind = (h.at' m).kind := fun m hm => s.kind hm
  refine { dlt := G.dlt, dk := G.dk, size := Nat.le_trans G.size s.size, tab := v.tab, same := ?_, ent := ?_, dat := ?_, root := ?_,
           rnew := ⟨hr.1, Nat.lt_of_lt_of_le hr.2 s.size⟩, rfirst := ?_,
           rk := ?_, last := ?_, next := ?_, parent := ?_, ends := ?_, props := ?_ }
  · intro m hm hd hke
    rw [s.same m (by omega) (by rw [G.kindO hm]; exact hke)]; exact G.same m hm hd hke
  · intro m hm hd
    have h1 := s.ent m (by omega)
    have h2 := G.ent m hm hd
    generalize h'.at' m = x at h1 ⊢
    rw [h2] at h1
    have h3 : x.orig = (h.at' m).orig := by rw [h1]
    rw [← h3] at h1
    exact h1
  · rw [hdn]; exact G.dat
  · rw [hdn]; exact G.root
  · rw [hrr]; exact G.rfirst
  · rw [hrr]; exact G.rk
  · obtain ⟨l, h1, h2, h3⟩ := G.last
    exact ⟨l, by rw [hdn]; exact h1, h2, Nat.lt_of_lt_of_le h3 s.size⟩
  · intro m j h1 h2 h3
    by_cases hm : m < h.size
    · rw [s.ent m hm] at h3
      have := G.next m j h1 hm h3
      omega
    · have := v.next m j (by omega) h2 h3
      omega
  · intro m j h1 h2 h3
    by_cases hm : m < h.size
    · rw [s.ent m hm] at h3
      have := G.parent m j h1 hm h3
      exact ⟨this.1, by omega, by rw [hkk j this.2.1]; exact this.2.2⟩
    · rcases v.parent m j (by omega) h2 h3 with h4 | h4
      · exact ⟨by omega, h4.2, Or.inl (by omega)⟩
      · refine ⟨?_, h4.1, Or.inr (Or.inr h4.2)⟩
        rintro rfl
        rw [hrr, G.rk] at h4
        exact absurd h4.2 (by simp)
  · intro m j h1 h2 hk h3
    by_cases hm : m < h.size
    · rw [hkk m hm] at hk
      rw [s.same m hm (by rw [hk]; simp)] at h3
      have := G.ends m j h1 hm hk h3
      omega
    · exact absurd hk (v.kind m (by omega) h2)
  · intro m j h1 h2 hk h3
    by_cases hm : m < h.size
    · rw [hkk m hm] at hk
      rw [s.same m hm (by rw [hk]; simp)] at h3
      have := G.props m j h1 hm hk h3
      omega
    · exact absurd hk (v.kind m (by omega) h2)

/-- what is guaranteed of an outcome. -/
def rpost (O : Heap) (dn r : Nat) (h : Heap) {α : Type} (o : Out Heap α) (Q : α → Heap → Prop) : Prop :=
  match o with
  | .ok a h' => RegH O dn r h' ∧ h.size ≤ h'.size ∧ (∀ i, i < h.size → (h'.at' i).kind = (h.at' i).kind) ∧ Q a h'
  | .err _ h' => RegH O dn r h' ∧ h.size ≤ h'.size ∧ ∀ i, i < h.size → (h'.at' i).kind = (h.at' i).kind
  | _ => True

variable {α β : Type}

theorem rpost.bind {p : HM α} {f : α → HM β} {Q : α → Heap → Prop} {R : β → Heap → Prop} (hp : rpost O dn r h (p h) Q)
    (hf : ∀ a h', RegH O dn r h' → h.size ≤ h'.size → (∀ i, i < h.size → (h'.at' i).kind = (h.at' i).kind) → Q a h' → rpost O dn r h' (f a h') R) :
    rpost O dn r h ((p >>= f) h) R := by
  show rpost O dn r h (M.bind p f h) R
  unfold M.bind
  cases hps : p h with
  | ok a h' =>
    rw [hps] at hp
    simp only at ⊢
    obtain ⟨s1, i1, k1, q1⟩ := hp
    have h2 := hf a h' s1 i1 k1 q1
    have hk : ∀ {g : Heap}, h'.size ≤ g.size → (∀ i, i < h'.size → (g.at' i).kind = (h'.at' i).kind) → ∀ i, i < h.size → (g.at' i).kind = (h.at' i).kind :=
      fun _ k i hi => (k i (by omega)).trans (k1 i hi)
    cases hf' : f a h' with
    | ok b h'' => rw [hf'] at h2; exact ⟨h2.1, Nat.le_trans i1 h2.2.1, hk h2.2.1 h2.2.2.1, h2.2.2.2⟩
    | err e h'' => rw [hf'] at h2; exact ⟨h2.1, Nat.le_trans i1 h2.2.1, hk h2.2.1 h2.2.2⟩
    | panic => trivial
    | diverge => trivial
  | err e h' => rw [hps] at hp; exact hp
  | panic => trivial
  | diverge => trivial

theorem rpost.self {a : α} {Q : α → Heap → Prop} (hi : RegH O dn r h) (hq : Q a h) : rpost O dn r h (.ok a h) Q :=
  ⟨hi, Nat.le_refl _, fun _ _ => rfl, hq⟩

theorem rpost.mono {o : Out Heap α} {Q R : α → Heap → Prop} (hp : rpost O dn r h o Q) (hq : ∀ a h', h.size ≤ h'.size → Q a h' → R a h') : rpost O dn r h o R := by
  cases o with
  | ok a h' => exact ⟨hp.1, hp.2.1, hp.2.2.1, hq a h' hp.2.1 hp.2.2.2⟩
  | err e h' => exact hp
  | panic => trivial
  | diverge => trivial

theorem upd_kinds {i : Nat} {f : Node → Node} (hk : (f (h.at' i)).kind = (h.at' i).kind) : ∀ m, ((h.upd i f).at' m).kind = (h.at' m).kind := fun m => by
  show (if m = i then f (h.at' i) else h.at' m).kind = _
  split
  · subst m; exact hk
  · rfl

theorem newNode_reg (G : RegH O dn r h) {x : Node} (hn : x.next = none) (hp : x.parent = none) (hl : x.kind = .element → x.last = none ∧ x.props = none)
    (he : x.entities = [] ∧ x.pentities = []) : rpost O dn r h (newNode x h) (fun i h' => i = h.size ∧ h' = h.alloc x) := by
  refine ⟨G.alloc hn hp hl he, Nat.le_succ _, fun i hi => ?_, rfl, rfl⟩
  show (if i = h.size then x else h.at' i).kind = _
  rw [if_neg (by omega)]

theorem value_reg (G : RegH O dn r h) {o : Out Heap α} {Q : α → Heap → Prop} (hv : vpost h.size h o Q) : rpost O dn r h o Q := by
  cases o with
  | ok a h' => exact ⟨G.value hv.1 hv.2.1, hv.1.size, fun i hi => hv.1.kind hi, hv.2.2⟩
  | err e h' => exact ⟨G.value hv.1 hv.2, hv.1.size, fun i hi => hv.1.kind hi⟩
  | panic => trivial
  | diverge => trivial

theorem vinv_self {h : Heap} (T : TabOK h) : VInv h.size h :=
  ⟨Nat.le_refl _, T, fun i j a b => absurd a (by omega), fun i j a b => absurd a (by omega), fun i a b => absurd a (by omega)⟩

theorem lastSibling_reg (G : RegH O dn r h) : ∀ f n l, O.size ≤ n → n < h.size → lastSibling h f n = some l → O.size ≤ l ∧ l < h.size
  | 0, _, _, _, _, hl => by cases hl
  | f + 1, n, l, hb, hs, hl => by
    unfold lastSibling at hl
    cases hx : (h.at' n).next with
    | none => rw [hx] at hl; cases hl; exact ⟨hb, hs⟩
    | some m =>
      rw [hx] at hl
      have := G.next n m hb hs hx
      exact lastSibling_reg G f m l this.1 this.2 hl

theorem chain_reg (G : RegH O dn r h) : ∀ f s l, (∀ n, s = some n → O.size ≤ n ∧ n < h.size) → chain h f s = some l → ∀ x ∈ l, O.size ≤ x ∧ x < h.size
  | f, none, l, _, hl => by
    have : l = [] := by unfold chain at hl; simpa using hl.symm
    subst this; simp
  | 0, some n, l, _, hl => by cases hl
  | f + 1, some n, l, hn, hl => by
    unfold chain at hl
    cases hx : chain h f (h.at' n).next with
    | none => rw [hx] at hl; cases hl
    | some l' =>
      rw [hx] at hl
      simp only [Option.map_some, Option.some.injEq] at hl
      subst hl
      have hb := hn n rfl
      have := chain_reg G f (h.at' n).next l' (fun m hm => G.next n m hb.1 hb.2 hm) hx
      intro x hx
      rcases List.mem_cons.1 hx with rfl | hx
      · exact hb
      · exact this x hx

theorem addSibling_reg (G : RegH O dn r h) {n c : Nat} (hn : O.size ≤ n ∧ n < h.size) (hc : O.size ≤ c ∧ c < h.size) :
    rpost O dn r h (addSibling n c h) (fun _ _ => True) := by
  unfold addSibling
  cases hl : lastSibling h (h.size + 1) n with
  | none => trivial
  | some l =>
    have hlb := lastSibling_reg G _ _ _ hn.1 hn.2 hl
    simp only
    have g1 := G.updNew (i := l) (f := fun x => { x with next := some c }) hlb.1 rfl ⟨rfl, rfl⟩
      (fun j hj => Or.inr (by cases hj; exact hc)) (fun j hj => Or.inl hj) (fun j hj => Or.inl hj) (fun j hj => Or.inl hj) (Or.inl rfl)
    have k1 := upd_kinds (h := h) (i := l) (f := fun x => { x with next := some c }) rfl
    have z1 : (h.upd l (fun x => { x with next := some c })).size = h.size := rfl
    generalize h.upd l (fun x => { x with next := some c }) = h1 at *
    have g2 := g1.updNew (i := c) (f := fun x => { x with prev := some l }) hc.1 rfl ⟨rfl, rfl⟩
      (fun j hj => Or.inl hj) (fun j hj => Or.inl hj) (fun j hj => Or.inl hj) (fun j hj => Or.inl hj) (Or.inl rfl)
    have k2 := upd_kinds (h := h1) (i := c) (f := fun x => { x with prev := some l }) rfl
    have z2 : (h1.upd c (fun x => { x with prev := some l })).size = h1.size := rfl
    generalize h1.upd c (fun x => { x with prev := some l }) = h2 at *
    cases hp : (h2.at' l).parent with
    | none =>
      simp only
      have g3 := g2.updNew (i := c) (f := fun x => { x with parent := none }) hc.1 rfl ⟨rfl, rfl⟩
        (fun j hj => Or.inl hj) (fun j hj => by cases hj) (fun j hj => Or.inl hj) (fun j hj => Or.inl hj) (Or.inl rfl)
      have k3 := upd_kinds (h := h2) (i := c) (f := fun x => { x with parent := none }) rfl
      exact ⟨g3, by show h.size ≤ h2.size; omega, fun i _ => (k3 i).trans ((k2 i).trans (k1 i)), trivial⟩
    | some p =>
      simp only
      have ho : Tg O dn r h2 p := g2.parent l p hlb.1 (by omega) hp
      have g3 := g2.updNew (i := c) (f := fun x => { x with parent := some p }) hc.1 rfl ⟨rfl, rfl⟩
        (fun j hj => Or.inl hj) (fun j hj => by cases hj; exact Or.inr ho) (fun j hj => Or.inl hj) (fun j hj => Or.inl hj) (Or.inl rfl)
      have k3 := upd_kinds (h := h2) (i := c) (f := fun x => { x with parent := some p }) rfl
      have z3 : (h2.upd c (fun x => { x with parent := some p })).size = h2.size := rfl
      generalize h2.upd c (fun x => { x with parent := some p }) = h3 at *
      have g4 := g3.updLast (i := p) (c := c) ⟨by have := ho.2.1; omega, by rw [k3 p]; exact ho.2.2⟩ (by omega)
      have k4 := upd_kinds (h := h3) (i := p) (f := fun x => { x with last := some c }) rfl
      exact ⟨g4, by show h.size ≤ h3.size; omega, fun i _ => (k4 i).trans ((k3 i).trans ((k2 i).trans (k1 i))), trivial⟩

theorem appendContent_reg (G : RegH O dn r h) {n : Nat} (hn : O.size ≤ n) (b : Bytes) :
    rpost O dn r h (appendContent n b h) (fun _ _ => True) :=
  ⟨G.updNew hn rfl ⟨rfl, rfl⟩ (fun j hj => Or.inl hj) (fun j hj => Or.inl hj) (fun j hj => Or.inl hj) (fun j hj => Or.inl hj) (Or.inl rfl),
    Nat.le_refl _, fun i _ => upd_kinds rfl i, trivial⟩

theorem nodeAddSibling_reg (G : RegH O dn r h) {n c : Nat} (hn : O.size ≤ n ∧ n < h.size) (hc : O.size ≤ c ∧ c < h.size) :
    rpost O dn r h (nodeAddSibling n c h) (fun _ _ => True) := by
  have h1 := addSibling_reg G hn hc
  unfold nodeAddSibling
  simp only [node_bind]
  cases hk : (h.at' n).kind <;> simp only [node_bind] <;> try exact h1
  · by_cases hc2 : (h.at' c).kind = .text
    · simp only [hc2, if_true]
      rw [bind_run (content_leaf (Or.inl hc2))]
      exact appendContent_reg G hn.1 _
    · simp only [hc2, if_false]
      exact h1
  · exact ⟨G, Nat.le_refl _, fun _ _ => rfl⟩

/-- adding a child to the document, or to an element of the region. -/
theorem nodeAddChild_reg (G : RegH O dn r h) {p c : Nat} (hp : p = dn ∨ O.size ≤ p ∧ p < h.size ∧ (h.at' p).kind = .element ∧ p ≠ r)
    (hc : O.size ≤ c ∧ c < h.size) : rpost O dn r h (nodeAddChild p c h) (fun _ _ => True) := by
  have hrn := G.rnew
  have hdl := G.dlt
  have htg : Tg O dn r h p := by
    rcases hp with rfl | h1
    · exact ⟨by omega, G.dlth, Or.inr (Or.inl rfl)⟩
    · exact ⟨h1.2.2.2, h1.2.1, Or.inl h1.1⟩
  have hlast : ∀ l, (h.at' p).last = some l → O.size ≤ l ∧ l < h.size := by
    intro l hl
    rcases hp with rfl | h1
    · obtain ⟨l', e, x⟩ := G.last
      rw [hl] at e
      cases e
      exact x
    · exact G.ends p l h1.1 h1.2.1 h1.2.2.1 hl
  have hadd : rpost O dn r h (addChild p c h) (fun _ _ => True) := by
    unfold addChild
    simp only [node_bind]
    cases hl : (h.at' p).last with
    | none =>
      have hpe : O.size ≤ p ∧ p < h.size ∧ (h.at' p).kind = .element ∧ p ≠ r := by
        rcases hp with rfl | h1
        · obtain ⟨l', e, x⟩ := G.last
          rw [hl] at e
          cases e
        · exact h1
      simp only [updNode_bind]
      have g1 := G.updNew (i := p) (f := fun x => { x with first := some c }) hpe.1 rfl ⟨rfl, rfl⟩
        (fun j hj => Or.inl hj) (fun j hj => Or.inl hj) (fun j hj => Or.inl hj) (fun j hj => Or.inl hj) (Or.inr hpe.2.2.2)
      have k1 := upd_kinds (h := h) (i := p) (f := fun x => { x with first := some c }) rfl
      have z1 : (h.upd p (fun x => { x with first := some c })).size = h.size := rfl
      generalize h.upd p (fun x => { x with first := some c }) = h1 at *
      have g2 := g1.updLast (i := p) (c := c) ⟨by omega, Or.inl hpe.1⟩ (by omega)
      have k2 := upd_kinds (h := h1) (i := p) (f := fun x => { x with last := some c }) rfl
      have z2 : (h1.upd p (fun x => { x with last := some c })).size = h1.size := rfl
      generalize h1.upd p (fun x => { x with last := some c }) = h2 at *
      have g3 := g2.updNew (i := c) (f := fun x => { x with parent := some p }) hc.1 rfl ⟨rfl, rfl⟩
        (fun j hj => Or.inl hj) (fun j hj => by cases hj; exact Or.inr ⟨hpe.2.2.2, by omega, Or.inl hpe.1⟩) (fun j hj => Or.inl hj) (fun j hj => Or.inl hj) (Or.inl rfl)
      have k3 := upd_kinds (h := h2) (i := c) (f := fun x => { x with parent := some p }) rfl
      exact ⟨g3, by show h.size ≤ h2.size; omega, fun i _ => (k3 i).trans ((k2 i).trans (k1 i)), trivial⟩
    | some l =>
      simp only
      refine rpost.bind (nodeAddSibling_reg G (hlast l hl) hc) (fun _ h1 g1 z1 k1 _ => ?_)
      simp only [node_bind]
      split
      · have := hlast l hl
        have g2 := g1.updLast (i := p) (c := l) ⟨by have := htg.2.1; omega, by rw [k1 p htg.2.1]; exact htg.2.2⟩ (by omega)
        exact ⟨g2, Nat.le_refl _, fun i _ => upd_kinds rfl i, trivial⟩
      · exact rpost.self g1 trivial
  unfold nodeAddChild
  simp only [node_bind]
  rcases hp with rfl | h1
  · simp only [G.dnk]; exact hadd
  · simp only [h1.2.2.1]; exact hadd

theorem nodeAddContent_reg (G : RegH O dn r h) {e : Nat} (he : O.size ≤ e ∧ e < h.size ∧ (h.at' e).kind = .element ∧ e ≠ r) (b : Bytes) :
    rpost O dn r h (nodeAddContent e b h) (fun _ _ => True) := by
  unfold nodeAddContent
  simp only [node_bind, he.2.2.1]
  refine rpost.bind (newNode_reg G rfl rfl (by simp [mkText]) ⟨rfl, rfl⟩) (fun t h1 g1 z1 k1 q1 => ?_)
  obtain ⟨rfl, rfl⟩ := q1
  exact nodeAddChild_reg g1 (Or.inr ⟨he.1, by omega, by rw [k1 e he.2.1]; exact he.2.2.1, he.2.2.2⟩) ⟨G.size, Nat.lt_succ_self _⟩

theorem setAttrScan_mem {name : Bytes} : ∀ {l : List Nat} {o : Option Nat} {x : Nat}, setAttrScan h name l o = .ok (some x) → x ∈ l ∨ o = some x
  | [], o, x, hx => by cases hx; exact Or.inr rfl
  | p :: t, o, x, hx => by
    unfold setAttrScan at hx
    split at hx
    · cases hx
    · rcases setAttrScan_mem hx with h1 | h1
      · exact Or.inl (List.mem_cons_of_mem _ h1)
      · cases h1; exact Or.inl List.mem_cons_self

theorem setAttribute_reg (G : RegH O dn r h) {e : Nat} (he : O.size ≤ e ∧ e < h.size ∧ (h.at' e).kind = .element) (fuel : Nat) (name value : Bytes) :
    rpost O dn r h (setAttribute fuel e name value h) (fun _ _ => True) := by
  unfold setAttribute
  simp only [node_bind]
  refine rpost.bind (value_reg G (createAttribute_new (vinv_self G.tab) _ fuel name value none)) (fun a h1 g1 z1 k1 q1 => ?_)
  have ha : O.size ≤ a := Nat.le_trans G.size q1.1
  simp only [get_bind]
  cases hch : chain h1 (h1.size + 1) (h1.at' e).props with
  | none => trivial
  | some l =>
    have hl := chain_reg g1 _ _ l (fun n hn => g1.props e n he.1 (by omega) (by rw [k1 e he.2.1]; exact he.2.2) hn) hch
    cases l with
    | nil =>
      refine ⟨g1.updNew he.1 rfl ⟨rfl, rfl⟩ (fun j hj => Or.inl hj) (fun j hj => Or.inl hj) (fun j hj => Or.inl hj)
        (fun j hj => by cases hj; exact Or.inr ⟨ha, q1.2⟩) (Or.inl rfl), Nat.le_refl _, fun i _ => upd_kinds rfl i, trivial⟩
    | cons y l =>
      simp only
      cases hs : setAttrScan h1 name (y :: l) none with
      | error er => exact ⟨g1, Nat.le_refl _, fun _ _ => rfl⟩
      | ok o =>
        cases o with
        | none => trivial
        | some last =>
          have hm := (setAttrScan_mem hs).resolve_right nofun
          have hlb := hl last hm
          simp only [updNode_bind]
          have g2 := g1.updNew (i := last) (f := fun x => { x with next := some a }) hlb.1 rfl ⟨rfl, rfl⟩
            (fun j hj => by cases hj; exact Or.inr ⟨ha, q1.2⟩) (fun j hj => Or.inl hj) (fun j hj => Or.inl hj) (fun j hj => Or.inl hj) (Or.inl rfl)
          have g3 := g2.updNew (i := a) (f := fun x => { x with prev := some last }) ha rfl ⟨rfl, rfl⟩
            (fun j hj => Or.inl hj) (fun j hj => Or.inl hj) (fun j hj => Or.inl hj) (fun j hj => Or.inl hj) (Or.inl rfl)
          exact ⟨g3, Nat.le_refl _, fun i _ => (upd_kinds rfl i).trans (upd_kinds rfl i), trivial⟩

theorem setNamespace_reg (G : RegH O dn r h) {e : Nat} (he : O.size ≤ e) (p u : Bytes) (b : Bool) :
    rpost O dn r h (setNamespace e p u b h) (fun _ _ => True) := by
  unfold setNamespace
  cases b
  · exact ⟨G.updNew he rfl ⟨rfl, rfl⟩ (fun j hj => Or.inl hj) (fun j hj => Or.inl hj) (fun j hj => Or.inl hj) (fun j hj => Or.inl hj) (Or.inl rfl),
      Nat.le_refl _, fun i _ => upd_kinds rfl i, trivial⟩
  · exact ⟨G.updNew he rfl ⟨rfl, rfl⟩ (fun j hj => Or.inl hj) (fun j hj => Or.inl hj) (fun j hj => Or.inl hj) (fun j hj => Or.inl hj) (Or.inl rfl),
      Nat.le_refl _, fun i _ => upd_kinds rfl i, trivial⟩

theorem createReference_reg (G : RegH O dn r h) (d : Nat) (name : Bytes) :
    rpost O dn r h (createReference d name h) (fun n h' => h.size ≤ n ∧ n < h'.size) :=
  value_reg G (createReference_val (vinv_self G.tab) d name)

theorem createCharRef_reg (G : RegH O dn r h) (d : Option Nat) (name : Bytes) :
    rpost O dn r h (createCharRef d name h) (fun n h' => h.size ≤ n ∧ n < h'.size) := by
  unfold createCharRef
  cases name with
  | nil => exact ⟨G, Nat.le_refl _, fun _ _ => rfl⟩
  | cons c t =>
    exact (newNode_reg G rfl rfl (by simp) ⟨rfl, rfl⟩).mono (fun a h' hs q => by obtain ⟨rfl, rfl⟩ := q; exact ⟨Nat.le_refl _, Nat.lt_succ_self _⟩)

end
end Helium
