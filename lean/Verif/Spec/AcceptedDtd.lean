import Verif.Spec.Accepted
import Verif.Spec.Content
/-!
The document type declarations the parser accepts, and the events they stand for: productions [28]-[29], [45]-[60], [69]-[74] of XML 1.0 with the
liberties the code takes. Compared with `Spec.DoctypeText` (declarations in XML) the liberties are: no white space is needed after
`<!DOCTYPE`; a `>` may stand before the `[`; the content specification may be missing; a mixed content model need not be closed; the
value of an entity may be missing or unusable; an enumeration has no tokens; parameter entities need not be declared after the first
reference to one. External identifiers, notation declarations and conditional sections are not accepted.
-/
namespace Helium.Spec
open Helium

/-- prefix and local part of a name: what stands before and after the first colon. -/
def NameParts (n p l : List Nat) : Prop := 58 ∉ n ∧ p = [] ∧ l = n ∨ 58 ∉ p ∧ n = p ++ 58 :: l

/-- type of the node for a separator. -/
def opType (c : Nat) : Nat := if c = 44 then 3 else 4

/-- members joined by operators of type `t`. -/
def chained (t : Nat) : List EC → EC → EC
  | [], last => last
  | e :: es, last => .mk t 1 [] [] e (chained t es last)

/-- the model of a group, from the members before the last one read, that one and the members to come. A member that got lost (`nil`) makes the next one
start a new operator above what there is. -/
def joined (t : Nat) : List EC → EC → List EC → EC
  | pre, last, [] => chained t pre last
  | pre, .nil, e :: es => joined t [chained t pre .nil] e es
  | pre, .mk a b c d x y, e :: es => joined t (pre ++ [.mk a b c d x y]) e es

/-- a closing parenthesis, with a question mark (true) or without: the mark of a single member is overwritten, `+` becomes `*`. -/
def closedBy : Bool → EC → EC
  | false, e => e
  | true, .nil => .nil
  | true, .mk t o n p a b => .mk t (if o = 4 then 3 else 2) n p a b

/-- the parts of a content model: a member with its model; the first member of a group; what follows a member inside a group with the separator `c`, up to
the closing parenthesis: the models of the members to come, and whether `?` follows. -/
inductive LK
  | member (e : EC)
  | first (e : EC)
  | others (c : Nat) (es : List EC) (o : Bool)

/-- `LooseModel E k t`: the text `t` is read as `k`. A group that is the first member of a group is lost; after a group only `?` is accepted. -/
inductive LooseModel (E : Env) : LK → List Nat → Prop
  | name {n p l o m} : LooseName E n → NameParts n p l → OccMark o m → LooseModel E (.member (nameModel p l o)) (n ++ m)
  | group {w1 e m w2 c es o r} : Blank w1 → LooseModel E (.first e) m → Blank w2 → LooseModel E (.others c es o) r →
      LooseModel E (.member (closedBy o (joined (opType c) [] e es))) (40 :: (w1 ++ (m ++ (w2 ++ r))))
  | firstName {e m} : LooseModel E (.member e) m → m.head? ≠ some 40 → LooseModel E (.first e) m
  | firstLost {e m} : LooseModel E (.member e) m → m.head? = some 40 → LooseModel E (.first .nil) m
  | close {c} : LooseModel E (.others c [] false) [41]
  | closeOpt {c} : LooseModel E (.others c [] true) [41, 63]
  | more {c w1 e m w2 es o r} : c = 44 ∨ c = 124 → Blank w1 → LooseModel E (.member e) m → Blank w2 → LooseModel E (.others c es o) r →
      LooseModel E (.others c (e :: es) o) (c :: (w1 ++ (m ++ (w2 ++ r))))

/-- a mixed content model after its opening parenthesis, with the model reported; the last two are not closed. -/
inductive LooseMixed (E : Env) : EC → List Nat → Prop
  | text : LooseMixed E (pcdataModel 1) b!"#PCDATA)"
  | star : LooseMixed E (pcdataModel 3) b!"#PCDATA)*"
  | name {w1 n p l w2} : Blank w1 → LooseName E n → NameParts n p l → Blank w2 →
      LooseMixed E (.mk 4 3 [] [] (pcdataModel 1) (nameModel p l 1)) (b!"#PCDATA|" ++ (w1 ++ (n ++ (w2 ++ b!")*"))))
  | nameOpen {w1 n w2} : Blank w1 → LooseName E n → Blank w2 → LooseMixed E (.mk 4 1 [] [] (pcdataModel 1) .nil) (b!"#PCDATA|" ++ (w1 ++ (n ++ w2)))
  | textOpen {e} : e = pcdataModel 1 ∨ e = .nil → LooseMixed E e b!"#PCDATA"

/-- content specifications: number of the type, model and text. -/
inductive LooseContent (E : Env) : Nat → EC → List Nat → Prop
  | missing : LooseContent E 0 .nil []
  | empty : LooseContent E 1 .nil b!"EMPTY"
  | any : LooseContent E 2 .nil b!"ANY"
  | mixed {ws e t} : Blank ws → LooseMixed E e t → LooseContent E 3 e (40 :: (ws ++ t))
  | children {e t} : LooseModel E (.member e) t → t.head? = some 40 → LooseContent E 4 e t

/-- the text of an entity value and what it stands for: character references are replaced, everything else is kept. -/
inductive EntText : List Nat → List Nat → Prop
  | nil : EntText [] []
  | char {c l v} : c ≠ 37 → (c = 38 → l.head? ≠ some 35) → EntText l v → EntText (c :: l) (c :: v)
  | charRef {t x l v} : LooseCharRef t x → EntText l v → EntText (t ++ l) (x :: v)

/-- the literal `l` gives the value `v`; there is none when there is a `%` in it, or `&#` without a usable character reference. -/
def EntLit (l : List Nat) (v : Option Bytes) : Prop := (∀ c ∈ l, XmlChar c) ∧
  match v with
  | some b => ∃ u, EntText l u ∧ b = encodeRunes u
  | none => 37 ∈ l ∨ b!"&#" <:+: l

/-- an attribute type: number, tokens, text. Tokens of an enumeration are never read. -/
inductive LooseNames (E : Env) : List Bytes → List Nat → Prop
  | one {n ws} : LooseName E n → Blank ws → LooseNames E [encodeRunes n] (n ++ (ws ++ [41]))
  | more {n ws w2 ns t} : LooseName E n → Blank ws → Blank w2 → LooseNames E ns t → LooseNames E (encodeRunes n :: ns) (n ++ (ws ++ 124 :: (w2 ++ t)))

/-- an enumeration of missing tokens. -/
inductive LooseBars : List Bytes → List Nat → Prop
  | one {ws} : Blank ws → LooseBars [[]] (ws ++ [41])
  | more {ws w2 ns t} : Blank ws → Blank w2 → LooseBars ns t → LooseBars ([] :: ns) (ws ++ 124 :: (w2 ++ t))

@[inherit_doc LooseNames]
inductive LooseType (E : Env) : Nat → List Bytes → List Nat → Prop
  | cdata : LooseType E 1 [] b!"CDATA"
  | id : LooseType E 2 [] b!"ID"
  | idref : LooseType E 3 [] b!"IDREF"
  | idrefs : LooseType E 4 [] b!"IDREFS"
  | entity : LooseType E 5 [] b!"ENTITY"
  | entities : LooseType E 6 [] b!"ENTITIES"
  | nmtoken : LooseType E 7 [] b!"NMTOKEN"
  | nmtokens : LooseType E 8 [] b!"NMTOKENS"
  | notation {w1 w2 ns t} : w1 ≠ [] → Blank w1 → Blank w2 → LooseNames E ns t → LooseType E 10 ns (b!"NOTATION" ++ (w1 ++ 40 :: (w2 ++ t)))
  | enum {ws ns t} : Blank ws → LooseBars ns t → LooseType E 9 ns (40 :: (ws ++ t))

/-- a default declaration: number (1 value, 2 required, 3 implied, 4 fixed), text and value. -/
inductive LooseDefault (E : Env) : Nat → List Nat → Bytes → Prop
  | required : LooseDefault E 2 b!"#REQUIRED" []
  | implied : LooseDefault E 3 b!"#IMPLIED" []
  | fixed {ws q l v} : ws ≠ [] → Blank ws → q = 34 ∨ q = 39 → LooseValue E (fun _ _ => True) q l v → LooseDefault E 4 (b!"#FIXED" ++ (ws ++ q :: (l ++ [q]))) v
  | value {q l v} : q = 34 ∨ q = 39 → LooseValue E (fun _ _ => True) q l v → LooseDefault E 1 (q :: (l ++ [q])) v

/-- the value reported for an attribute declared with the default `v`: that of a type other than CDATA (1) without superfluous spaces. -/
def declaredAs (typ : Nat) (v : Bytes) : Bytes := if typ = 1 then v else unwords (words [] v)

/-- attribute definitions for the element type `el`, from the name of the first one to the closing `>`. -/
inductive LooseDefs (E : Env) (el : Bytes) : List Nat → List Ev → Prop
  | last {n w1 w2 w3 typ ns t d v u look} : LooseName E n → w1 ≠ [] → Blank w1 → LooseType E typ ns t → w2 ≠ [] → Blank w2 → LooseDefault E d u v →
      Blank w3 → OnlyLookups look →
      LooseDefs E el (n ++ (w1 ++ (t ++ (w2 ++ (u ++ (w3 ++ [62])))))) (look ++ [.attributeDecl el (encodeRunes n) typ d (declaredAs typ v) ns])
  | more {n w1 w2 w3 typ ns t d v u look r evs} : LooseName E n → w1 ≠ [] → Blank w1 → LooseType E typ ns t → w2 ≠ [] → Blank w2 → LooseDefault E d u v →
      w3 ≠ [] → Blank w3 → OnlyLookups look → LooseDefs E el r evs →
      LooseDefs E el (n ++ (w1 ++ (t ++ (w2 ++ (u ++ (w3 ++ r)))))) (look ++ .attributeDecl el (encodeRunes n) typ d (declaredAs typ v) ns :: evs)

/-- the lookup made after an entity declaration. -/
def entityLookup (p : Bool) (n : List Nat) : Ev := if p then .getParameterEntity (encodeRunes n) else .getEntity (encodeRunes n)

/-- the report of an entity declaration, if there is one. -/
def entityReport (p : Bool) (n : List Nat) : Option Bytes → List Ev
  | none => []
  | some v => [.entityDecl (encodeRunes n) (if p then 4 else 1) [] [] v]

/-- markup declarations with their events. -/
inductive LooseDecl (E : Env) : List Nat → List Ev → Prop
  | element {w1 n w2 typ t w3 ec} : w1 ≠ [] → Blank w1 → LooseName E n → w2 ≠ [] → Blank w2 → LooseContent E typ ec t → Blank w3 →
      LooseDecl E (b!"<!ELEMENT" ++ (w1 ++ (n ++ (w2 ++ (t ++ (w3 ++ [62])))))) [.elementDecl (encodeRunes n) typ ec]
  | entity {p w1 w2 n w3 q l v w4} : w1 ≠ [] → Blank w1 → w2 ≠ [] → Blank w2 → LooseName E n → 58 ∉ n → w3 ≠ [] → Blank w3 → q = 34 ∨ q = 39 →
      q ∉ l → EntLit l v → Blank w4 →
      LooseDecl E (b!"<!ENTITY" ++ (w1 ++ ((if p then 37 :: w2 else []) ++ (n ++ (w3 ++ (q :: (l ++ (q :: (w4 ++ [62]))))))))) (entityReport p n v ++ [entityLookup p n])
  | valueless {p w1 w2 n w3} : w1 ≠ [] → Blank w1 → w2 ≠ [] → Blank w2 → LooseName E n → 58 ∉ n → w3 ≠ [] → Blank w3 →
      LooseDecl E (b!"<!ENTITY" ++ (w1 ++ ((if p then 37 :: w2 else []) ++ (n ++ (w3 ++ [62])))))
        ((if p then [] else [.entityDecl (encodeRunes n) 5 [] [] []]) ++ [entityLookup p n])
  | attlist {w1 n w2 t evs} : w1 ≠ [] → Blank w1 → LooseName E n → w2 ≠ [] → Blank w2 → LooseDefs E (encodeRunes n) t evs →
      LooseDecl E (b!"<!ATTLIST" ++ (w1 ++ (n ++ (w2 ++ t)))) evs
  | comment {t ev} : LooseComment t ev → LooseDecl E t [ev]
  | pi {t ev} : LoosePI E t ev → LooseDecl E t [ev]

/-- an internal subset without its brackets, with the events and the answers of the handler. `seen` tells whether there has been a reference to
a parameter entity: the first reference is accepted only if the handler answers it with an entity, after that any name is accepted. -/
inductive LooseSubset (E : Env) : Bool → List Nat → List (Ev × HOut) → Prop
  | nil {seen} : LooseSubset E seen [] []
  | space {seen c r evs} : Ws c → LooseSubset E seen r evs → LooseSubset E seen (c :: r) evs
  | decl {seen t e r evs} : LooseDecl E t (e.map (·.1)) → LooseSubset E seen r evs → LooseSubset E seen (t ++ r) (e ++ evs)
  | pe {seen n r o evs} : LooseName E n → seen = true ∨ (∃ e, o = .ent (some e)) → LooseSubset E true r evs →
      LooseSubset E seen (37 :: (n ++ 59 :: r)) ((.getParameterEntity (encodeRunes n), o) :: evs)

/-- document type declarations for the name `n`; the events are those of the internal subset. -/
inductive LooseDoctype (E : Env) : List Nat → List Nat → List (Ev × HOut) → Prop
  | plain {n w1 w2} : Blank w1 → LooseName E n → Blank w2 → LooseDoctype E n (b!"<!DOCTYPE" ++ (w1 ++ (n ++ (w2 ++ [62])))) []
  | subset {n w1 w2 g t evs w3} : Blank w1 → LooseName E n → Blank w2 → g = [] ∨ g = [62] → LooseSubset E false t evs → Blank w3 →
      LooseDoctype E n (b!"<!DOCTYPE" ++ (w1 ++ (n ++ (w2 ++ (g ++ (91 :: (t ++ 93 :: (w3 ++ [62])))))))) evs

/-- the two reports that frame a document type declaration. -/
def IsSubset : Ev → Prop
  | .internalSubset _ _ _ | .externalSubset _ _ _ => True
  | _ => False

end Helium.Spec
