import Verif.Spec.Decl
/-!
Content with references to declared entities (4.1, 4.4.2 of XML 1.0), and the SAX events it stands for: the lookup of the entity, the events of
its replacement text, and a notice that this was the entity.
-/
namespace Helium.Spec
open Helium

/-- the general entities declared by `ds`, the first declaration of a name counting (4.2). -/
def entityTable : List (Bytes × Bytes) → List Decl → List (Bytes × Bytes)
  | m, [] => m
  | m, .entity false n _ v :: ds => entityTable (if n ∈ m.map (·.1) then m else m ++ [(n, v)]) ds
  | m, _ :: ds => entityTable m ds

/-- `RefSrc E around ents k elem scope used t evs used'`: as `Src`, with references to the entities of `ents` nested at most `k` deep. In
replacement text the namespace declarations around the reference are in scope (`around`, as in XML), or they are not. -/
inductive RefSrc (E : Env) (around : Bool) (ents : List (Bytes × Bytes)) :
    Nat → Bool → List (Bytes × Bytes) → List (Bytes × Bytes) → List Nat → List Ev → List (Bytes × Bytes) → Prop
  | empty {k scope used n p l a as ds u} : QName E n p l → Atts E used a as ds → ((givenAttrs as).map (·.1)).Nodup →
      Bound (scope ++ ds) (used ++ ds) (encodeRunes p) u →
      RefSrc E around ents k true scope used (60 :: (n ++ (a ++ b!"/>")))
        [.startElement (encodeRunes l) (encodeRunes p) u (ds.map some) as, .endElement (encodeRunes l) (encodeRunes p) u] (used ++ ds)
  | full {k scope used n p l a as ds u x evs used'} : QName E n p l → Atts E used a as ds → ((givenAttrs as).map (·.1)).Nodup →
      Bound (scope ++ ds) (used ++ ds) (encodeRunes p) u → RefSrc E around ents k false (scope ++ ds) (used ++ ds) x evs used' → ¬ b!"/>" <+: x →
      RefSrc E around ents k true scope used (60 :: (n ++ (a ++ 62 :: (x ++ (b!"</" ++ (n ++ [62]))))))
        (.startElement (encodeRunes l) (encodeRunes p) u (ds.map some) as :: (evs ++ [.endElement (encodeRunes l) (encodeRunes p) u])) used'
  | nil {k scope used} : RefSrc E around ents k false scope used [] [] used
  | element {k scope used t evs used1 r evs' used2} : RefSrc E around ents k true scope used t evs used1 → RefSrc E around ents k false scope used1 r evs' used2 →
      RefSrc E around ents k false scope used (t ++ r) (evs ++ evs') used2
  | text {k scope used l r evs used'} : CharData l → (∀ c, r.head? = some c → c = 60 ∨ c = 38) → RefSrc E around ents k false scope used r evs used' →
      RefSrc E around ents k false scope used (l ++ r) (.characters (encodeRunes (unixLines l)) :: evs) used'
  | ref {k scope used b v r evs used'} : refValue b = some v → 59 ∉ b → Legal v → RefSrc E around ents k false scope used r evs used' →
      RefSrc E around ents k false scope used (38 :: (b ++ 59 :: r)) (.characters (encodeRunes [v]) :: evs) used'
  | comment {k scope used b r evs used'} : CommentText b → RefSrc E around ents k false scope used r evs used' →
      RefSrc E around ents k false scope used (b!"<!--" ++ (b ++ (b!"-->" ++ r))) (.comment (encodeRunes (unixLines b)) :: evs) used'
  | pi {k scope used t n d r evs used'} : PIText E t n d → RefSrc E around ents k false scope used r evs used' →
      RefSrc E around ents k false scope used (b!"<?" ++ (t ++ (b!"?>" ++ r))) (.pi (encodeRunes n) (encodeRunes d) :: evs) used'
  | cdata {k scope used l r evs used'} : CDataText l → RefSrc E around ents k false scope used r evs used' →
      RefSrc E around ents k false scope used (b!"<![CDATA[" ++ (l ++ (b!"]]>" ++ r))) (.cdata (encodeRunes (unixLines l)) :: evs) used'
  | entity {k scope used n x xevs u r evs used'} : Name E n → encodeRunes n ∉ [b!"lt", b!"gt", b!"amp", b!"apos", b!"quot"] →
      (encodeRunes n, encodeRunes x) ∈ ents → (∀ c ∈ x, Legal c) → RefSrc E around ents k false (cond around scope []) (cond around used []) x xevs u →
      RefSrc E around ents (k + 1) false scope used r evs used' →
      RefSrc E around ents (k + 1) false scope used (38 :: (n ++ 59 :: r))
        (.getEntity (encodeRunes n) :: (xevs ++ .reference (encodeRunes n) :: evs)) used'

/-- a document with a document type declaration whose content refers to declared entities, nested at most `k` deep, and the events it stands for. -/
def RefDocument (E : Env) (around : Bool) (k : Nat) (t v e : List Nat) (sd : Int) (ds : List Decl) (evs : List Ev) : Prop :=
  ∃ h m1 n dt m2 root m3 e1 e2 e3 e4 used, t = h ++ (m1 ++ (dt ++ (m2 ++ (root ++ m3)))) ∧ Head h (m1 ++ (dt ++ (m2 ++ (root ++ m3)))) v e sd ∧
    Misc E m1 e1 ∧ DoctypeText E n ds dt ∧ Misc E m2 e2 ∧ RefSrc E around (entityTable [] ds) k true [] [] root e3 used ∧ Misc E m3 e4 ∧
    (∀ c ∈ t, Legal c) ∧
    evs = [.setDocumentLocator, .startDocument] ++ (e1 ++ ((.internalSubset (encodeRunes n) [] [] :: (ds.flatMap Decl.events ++
      [.externalSubset (encodeRunes n) [] []])) ++ (e2 ++ (e3 ++ (e4 ++ [.endDocument])))))

/-- the nodes of `h` are still the same in `h'`. -/
def Grown (h h' : Heap) : Prop := h.size ≤ h'.size ∧ ∀ i, i < h.size → h'.at' i = h.at' i

/-- a handler that takes every event and keeps a table of the general entities declared to it: `I m u` says that `u` is its state when the table is
`m`. It creates nodes but leaves those alone that exist. -/
structure Remembers {σ : Type} (H : Handler σ) (I : List (Bytes × Bytes) → σ → Prop) : Prop where
  takes : Takes H
  room : ∀ v ev c, Grown c.heap (H v ev c).2.heap ∧ (H v ev c).2.doc = c.doc
  learns : ∀ {m v n x c}, I m c.usr → n ∉ m.map (·.1) → I (m ++ [(n, x)]) (H v (.entityDecl n 1 [] [] x) c).2.usr
  stays : ∀ {m v ev c}, I m c.usr → (∀ n x, ev = .entityDecl n 1 [] [] x → n ∈ m.map (·.1)) → I m (H v ev c).2.usr
  knows : ∀ {m v n x c}, I m c.usr → (n, x) ∈ m → ∃ i, (H v (.getEntity n) c).1 = .ent (some (.ptr i)) ∧ i < (H v (.getEntity n) c).2.heap.size ∧
    ((H v (.getEntity n) c).2.heap.at' i).name = n ∧ ((H v (.getEntity n) c).2.heap.at' i).entType = 1 ∧
    ((H v (.getEntity n) c).2.heap.at' i).checked = 0 ∧ ((H v (.getEntity n) c).2.heap.at' i).content = x

end Helium.Spec
