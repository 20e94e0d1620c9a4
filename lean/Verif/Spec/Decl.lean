import Verif.Spec.Content
import Verif.Spec.Words
import Verif.Spec.Document
/-!
Markup declarations of the internal subset as text, and what each of them declares: productions [28]-[30], [52]-[60], [70]-[74] of XML 1.0. Where
the parser is narrower than XML the difference is noted.
-/
namespace Helium.Spec
open Helium

/-- `EntValue E q l v`: what stands between the quotes `q` of an entity value (production [9]) and the value it gives the entity: character
references are replaced, references to general entities stay (4.5). References to parameter entities are left out, as are literal CRs. -/
inductive EntValue (E : Env) (q : Nat) : List Nat → List Nat → Prop
  | nil : EntValue E q [] []
  | char {c l v} : Legal c → c ≠ q → c ≠ 37 → c ≠ 38 → c ≠ 13 → EntValue E q l v → EntValue E q (c :: l) (c :: v)
  | ref {n l v} : Name E n → (∀ c ∈ n, Legal c) → EntValue E q l v → EntValue E q (38 :: (n ++ 59 :: l)) (38 :: (n ++ 59 :: v))
  | charRef {d x l v} : charRefNum d = some x → Legal x → EntValue E q l v → EntValue E q (38 :: 35 :: (d ++ 59 :: l)) (x :: v)

/-- `EntityText E p n l v t`: `t` is the declaration of the internal entity `n`, a parameter entity if `p`, with literal `l` and value `v`. External
entities are left out. -/
def EntityText (E : Env) (p : Bool) (n l v : List Nat) (t : List Nat) : Prop :=
  ∃ w1 w2 w3 w4 q, w1 ≠ [] ∧ Blank w1 ∧ w2 ≠ [] ∧ Blank w2 ∧ w3 ≠ [] ∧ Blank w3 ∧ Blank w4 ∧ Name E n ∧ 58 ∉ n ∧ (q = 34 ∨ q = 39) ∧
    EntValue E q l v ∧
    t = b!"<!ENTITY" ++ (w1 ++ ((if p then 37 :: w2 else []) ++ (n ++ (w3 ++ (q :: (l ++ (q :: (w4 ++ [62]))))))))

/-- names with `|` between them, up to the closing parenthesis. -/
inductive NamesText (E : Env) : List (List Nat) → List Nat → Prop
  | one {n ws} : Name E n → Blank ws → NamesText E [n] (n ++ (ws ++ [41]))
  | more {n ws w2 ns t} : Name E n → Blank ws → Blank w2 → NamesText E ns t → NamesText E (n :: ns) (n ++ (ws ++ 124 :: (w2 ++ t)))

/-- attribute types (productions [54]-[58]): number, names, text. Enumerations are left out. -/
inductive TypeText (E : Env) : Nat → List Bytes → List Nat → Prop
  | cdata : TypeText E 1 [] b!"CDATA"
  | id : TypeText E 2 [] b!"ID"
  | idref : TypeText E 3 [] b!"IDREF"
  | idrefs : TypeText E 4 [] b!"IDREFS"
  | entity : TypeText E 5 [] b!"ENTITY"
  | entities : TypeText E 6 [] b!"ENTITIES"
  | nmtoken : TypeText E 7 [] b!"NMTOKEN"
  | nmtokens : TypeText E 8 [] b!"NMTOKENS"
  | notation {w1 w2 ns t} : w1 ≠ [] → Blank w1 → Blank w2 → NamesText E ns t →
      TypeText E 10 (ns.map encodeRunes) (b!"NOTATION" ++ (w1 ++ 40 :: (w2 ++ t)))

/-- a default value (3.3.3) as reported: that of an attribute which is not of type CDATA has single spaces between its words only. -/
def defaultValue (typ : Nat) (w : List Nat) : Bytes := reported (if typ = 1 then w else unwords (words [] w))

/-- default declarations (production [60]): number (1 value, 2 required, 3 implied, 4 fixed), value, text. Values made of spaces only are left out
for other types than CDATA. -/
inductive DefaultText (typ : Nat) : Nat → Bytes → List Nat → Prop
  | required : DefaultText typ 2 [] b!"#REQUIRED"
  | implied : DefaultText typ 3 [] b!"#IMPLIED"
  | fixed {ws q l w} : ws ≠ [] → Blank ws → q = 34 ∨ q = 39 → Value q l w → typ = 1 ∨ w = [] ∨ (∃ c ∈ w, c ≠ 32) →
      DefaultText typ 4 (defaultValue typ w) (b!"#FIXED" ++ (ws ++ q :: (l ++ [q])))
  | value {q l w} : q = 34 ∨ q = 39 → Value q l w → typ = 1 ∨ w = [] ∨ (∃ c ∈ w, c ≠ 32) →
      DefaultText typ 1 (defaultValue typ w) (q :: (l ++ [q]))

/-- one attribute of an attribute list declaration. -/
structure AttDef where
  /-- its name -/
  name : Bytes
  /-- its type -/
  typ : Nat
  /-- default: 1 value, 2 required, 3 implied, 4 fixed -/
  deflt : Nat
  /-- default value -/
  value : Bytes
  /-- names of a notation type -/
  names : List Bytes
deriving DecidableEq, Repr

/-- attribute definitions, from the name of the first one to the closing `>`. -/
inductive AttDefs (E : Env) : List AttDef → List Nat → Prop
  | one {n w1 w2 w3 typ ns t d v u} : Name E n → w1 ≠ [] → Blank w1 → TypeText E typ ns t → w2 ≠ [] → Blank w2 → DefaultText typ d v u → Blank w3 →
      AttDefs E [⟨encodeRunes n, typ, d, v, ns⟩] (n ++ (w1 ++ (t ++ (w2 ++ (u ++ (w3 ++ [62]))))))
  | more {n w1 w2 w3 typ ns t d v u as r} : Name E n → w1 ≠ [] → Blank w1 → TypeText E typ ns t → w2 ≠ [] → Blank w2 → DefaultText typ d v u →
      w3 ≠ [] → Blank w3 → AttDefs E as r →
      AttDefs E (⟨encodeRunes n, typ, d, v, ns⟩ :: as) (n ++ (w1 ++ (t ++ (w2 ++ (u ++ (w3 ++ r))))))

/-- `AttlistText E n as t`: `t` is the attribute list declaration for the element type `n` with the attributes `as`; an empty list is left out. -/
def AttlistText (E : Env) (n : List Nat) (as : List AttDef) (t : List Nat) : Prop :=
  ∃ w1 w2 r, w1 ≠ [] ∧ Blank w1 ∧ w2 ≠ [] ∧ Blank w2 ∧ Name E n ∧ AttDefs E as r ∧ t = b!"<!ATTLIST" ++ (w1 ++ (n ++ (w2 ++ r)))

/-- a markup declaration, a comment or a processing instruction. -/
inductive Decl
  | element (n : Bytes) (typ : Nat) (e : EC)
  | entity (param : Bool) (n literal value : Bytes)
  | attlist (n : Bytes) (as : List AttDef)
  | comment (text : Bytes)
  | pi (target data : Bytes)

/-- the text of each. -/
inductive DeclText (E : Env) : Decl → List Nat → Prop
  | element {n typ e t} : ElementText E n typ e t → DeclText E (.element (encodeRunes n) typ e) t
  | entity {p n l v t} : EntityText E p n l v t → DeclText E (.entity p (encodeRunes n) (encodeRunes l) (encodeRunes v)) t
  | attlist {n as t} : AttlistText E n as t → DeclText E (.attlist (encodeRunes n) as) t
  | comment {b} : CommentText b → DeclText E (.comment (encodeRunes (unixLines b))) (b!"<!--" ++ (b ++ b!"-->"))
  | pi {t n d} : PIText E t n d → DeclText E (.pi (encodeRunes n) (encodeRunes d)) (b!"<?" ++ (t ++ b!"?>"))

/-- an internal subset, without its brackets. References to parameter entities are left out. -/
inductive SubsetText (E : Env) : List Decl → List Nat → Prop
  | nil {ws} : Blank ws → SubsetText E [] ws
  | cons {ws d t ds r} : Blank ws → DeclText E d t → SubsetText E ds r → SubsetText E (d :: ds) (ws ++ (t ++ r))

/-- a document type declaration without external identifier: name, declarations. -/
inductive DoctypeText (E : Env) : List Nat → List Decl → List Nat → Prop
  | plain {n w1 w2} : Name E n → w1 ≠ [] → Blank w1 → Blank w2 → DoctypeText E n [] (b!"<!DOCTYPE" ++ (w1 ++ (n ++ (w2 ++ [62]))))
  | subset {n w1 w2 w3 ds t} : Name E n → w1 ≠ [] → Blank w1 → Blank w2 → Blank w3 → SubsetText E ds t →
      DoctypeText E n ds (b!"<!DOCTYPE" ++ (w1 ++ (n ++ (w2 ++ 91 :: (t ++ 93 :: (w3 ++ [62]))))))

/-- the events of a declaration: what is declared, and the lookup of an entity just declared. -/
def Decl.events : Decl → List Ev
  | .element n typ e => [.elementDecl n typ e]
  | .entity false n _ v => [.entityDecl n 1 [] [] v, .getEntity n]
  | .entity true n _ v => [.entityDecl n 4 [] [] v, .getParameterEntity n]
  | .attlist n as => as.map (fun a => .attributeDecl n a.name a.typ a.deflt a.value a.names)
  | .comment b => [.comment b]
  | .pi n d => [.pi n d]

/-- a handler that takes every event; a lookup may find something or fail. -/
def Takes {σ : Type} (H : Handler σ) : Prop :=
  ∀ v ev c, Took (H v ev c).1 ∨ (∃ n, ev = .getEntity n ∨ ev = .getParameterEntity n) ∧ (H v ev c).1 ≠ .panic ∧ (H v ev c).1 ≠ .diverge

/-- default values shorter than `B` bytes. -/
def Decl.Short (B : Nat) : Decl → Prop
  | .attlist _ as => ∀ a ∈ as, a.value.length + 1 < B
  | _ => True

/-- a declaration of something else than attributes. -/
def Decl.NoAttrs : Decl → Prop
  | .attlist _ _ => False
  | _ => True

/-- a document with a document type declaration and the events it stands for; `v`, `e`, `sd` are given by its XML declaration. -/
def DtdDocument (E : Env) (t v e : List Nat) (sd : Int) (ds : List Decl) (evs : List Ev) : Prop :=
  ∃ h m1 n dt m2 root m3 e1 e2 e3 e4 used, t = h ++ (m1 ++ (dt ++ (m2 ++ (root ++ m3)))) ∧ Head h (m1 ++ (dt ++ (m2 ++ (root ++ m3)))) v e sd ∧
    Misc E m1 e1 ∧ DoctypeText E n ds dt ∧ Misc E m2 e2 ∧ Src E true [] [] root e3 used ∧ Misc E m3 e4 ∧ (∀ c ∈ t, Legal c) ∧
    evs = [.setDocumentLocator, .startDocument] ++ (e1 ++ ((.internalSubset (encodeRunes n) [] [] :: (ds.flatMap Decl.events ++
      [.externalSubset (encodeRunes n) [] []])) ++ (e2 ++ (e3 ++ (e4 ++ [.endDocument])))))

end Helium.Spec
