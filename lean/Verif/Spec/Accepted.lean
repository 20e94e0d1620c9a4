import Verif.Spec.Source
import Verif.Model.TreeBuilder
/-!
The language the parser accepts between `<` and `>` of the root element, and the events it stands for: XML with the liberties the code
takes. Compared with `Spec.Src` (well-formed documents) the liberties are: any character may stand for `=` in an attribute and the value
may be missing (`LooseAttr`), `>` may be followed by `/>` to end an element, a comment may be cut by an illegal character, references may
write numbers above 2^32, CDATA sections may hold any character, names may hold colons anywhere.
-/
namespace Helium.Spec
open Helium

/-- a name; colons anywhere. -/
def LooseName (E : Env) (n : List Nat) : Prop := ∃ c t, n = c :: t ∧ NameStartChar E c ∧ ∀ x ∈ t, NameChar E x

/-- a character reference: digits, the number taken modulo 2^32. -/
def LooseCharRef (t : List Nat) (v : Nat) : Prop :=
  ∃ ds n, (t = b!"&#" ++ (ds ++ [59]) ∧ digitsVal 10 decDigit 0 ds = some n ∨ t = b!"&#x" ++ (ds ++ [59]) ∧ digitsVal 16 hexDigitVal 0 ds = some n) ∧
    v = n % 2 ^ 32 ∧ XmlChar v

/-- the text a character referred to stands for in an attribute value: `&` is kept as a reference. -/
def heldAs (v : Nat) : Bytes := if v = 38 then b!"&#38;" else encodeRune v

/-- a reference to the entity `n`, as it is written. -/
def refTo (n : List Nat) : Bytes := 38 :: (encodeRunes n ++ [59])

/-- what a reference to the entity `n` can stand for in an attribute value: with the tree builder, itself; with other handlers, anything. -/
def HeldFor {σ : Type} (H : Handler σ) (n : List Nat) (x : Bytes) : Prop := ∀ tb, H = treeBuilder tb → x = refTo n

/-- what stands between the quotes `q` of an attribute value, and the value it stands for: white space becomes spaces, references to characters
and predefined entities become the character. `K n txt`: a reference to the entity `n`, which is not predefined, may stand for
`txt`. -/
inductive LooseValue (E : Env) (K : List Nat → Bytes → Prop) (q : Nat) : List Nat → Bytes → Prop
  | nil : LooseValue E K q [] []
  | char {c l v} : XmlChar c → c ≠ q → c ≠ 38 → c ≠ 60 → LooseValue E K q l v → LooseValue E K q (c :: l) ((if Ws c then [32] else encodeRune c) ++ v)
  | charRef {t x l v} : LooseCharRef t x → LooseValue E K q l v → LooseValue E K q (t ++ l) (heldAs x ++ v)
  | predefined {n x l v} : LooseName E n → refValue n = some x → LooseValue E K q l v → LooseValue E K q (38 :: (n ++ 59 :: l)) (heldAs x ++ v)
  | entity {n txt l v} : LooseName E n → refValue n = none → K n txt → LooseValue E K q l v → LooseValue E K q (38 :: (n ++ 59 :: l)) (txt ++ v)

/-- an attribute with the name `n` and the value `w`: the name, one character (not necessarily `=`), and a quoted value or nothing at all. The value
is the one written, or its words with single spaces between them (for an attribute that has been declared). -/
def LooseAttr (E : Env) (K : List Nat → Bytes → Prop) (t n : List Nat) (w : Bytes) : Prop :=
  LooseName E n ∧ ∃ w1 x w2 v, t = n ++ (w1 ++ x :: (w2 ++ v)) ∧ Blank w1 ∧ Blank w2 ∧
    (v = [] ∧ w = [] ∨ ∃ q b r, (q = 34 ∨ q = 39) ∧ LooseValue E K q b r ∧ v = q :: (b ++ [q]) ∧ (w = r ∨ w = unwords (words [] r)))

/-- a list of attributes with names and values `ns`, as it stands after the name of an element. -/
inductive LooseAtts (E : Env) (K : List Nat → Bytes → Prop) : List Nat → List (List Nat × Bytes) → Prop
  | nil {ws} : Blank ws → LooseAtts E K ws []
  | attr {ws t n w r ns} : Blank ws → LooseAttr E K t n w → LooseAtts E K r ns → LooseAtts E K (ws ++ (t ++ r)) ((n, w) :: ns)

/-- the names in UTF-8. -/
def attrBytes (ns : List (List Nat × Bytes)) : List (Bytes × Bytes) := ns.map fun a => (encodeRunes a.1, a.2)

/-- a comment with the text `b`, or one that is cut after its opening `<!--` by the illegal character `c`. -/
inductive LooseComment : List Nat → Ev → Prop
  | closed {b} : (∀ c ∈ b, XmlChar c) → ¬ [45, 45] <:+: b ++ [45] →
      LooseComment (b!"<!--" ++ (b ++ b!"-->")) (.comment (encodeRunes (unixLines b)))
  | cut {l c d} : (∀ x ∈ l, XmlChar x) → ¬ b!"-->" <:+: l → ¬ Legal c → LooseComment (b!"<!--" ++ (l ++ [c])) (.comment d)

/-- a processing instruction. -/
inductive LoosePI (E : Env) : List Nat → Ev → Prop
  | mk {n ws d} : LooseName E n → n ≠ b!"xml" → Blank ws → (ws = [] → d = []) → (∀ c, d.head? = some c → ¬ Ws c) → (∀ c ∈ d, XmlChar c) →
      ¬ b!"?>" <:+: d → LoosePI E (b!"<?" ++ (n ++ (ws ++ (d ++ b!"?>")))) (.pi (encodeRunes n) (encodeRunes d))

/-- names and values of the attributes written in a tag. -/
def writtenAttrs : List AttrD → List (Bytes × Bytes)
  | [] => []
  | .parsed p l v :: as => (if p = [] then l else p ++ 58 :: l, v) :: writtenAttrs as
  | _ :: as => writtenAttrs as

/-- lookups made while reading attribute values. -/
def OnlyLookups (evs : List Ev) : Prop := ∀ ev ∈ evs, ∃ n, ev = .getEntity n

/-- `Accepted E K true t evs`: `t` is an element and `evs` its events. With `false`: `t` is the content of an element. `K` are the
names of the entities known besides the predefined ones, with what a reference to them stands for in an attribute value. Nothing is said here about namespace names and the events
inside the replacement text of an entity. -/
inductive Accepted (E : Env) (K : List Nat → Bytes → Prop) : Bool → List Nat → List Ev → Prop
  | empty {n p l a ns look u d as c} : LooseName E n → encodeRunes n = (if p = [] then l else p ++ 58 :: l) → LooseAtts E K a ns → OnlyLookups look →
      (writtenAttrs as).Sublist (attrBytes ns) → (c = [] ∨ c = [62]) →
      Accepted E K true (60 :: (n ++ (a ++ (c ++ b!"/>")))) (look ++ [.startElement l p u d as, .endElement l p u])
  | full {n p l a ns look u d as k evs} : LooseName E n → encodeRunes n = (if p = [] then l else p ++ 58 :: l) → LooseAtts E K a ns → OnlyLookups look →
      (writtenAttrs as).Sublist (attrBytes ns) → Accepted E K false k evs → ¬ b!"/>" <+: k →
      Accepted E K true (60 :: (n ++ (a ++ 62 :: (k ++ (b!"</" ++ (n ++ [62])))))) (look ++ .startElement l p u d as :: (evs ++ [.endElement l p u]))
  | nil : Accepted E K false [] []
  | element {t evs r evs'} : Accepted E K true t evs → Accepted E K false r evs' → Accepted E K false (t ++ r) (evs ++ evs')
  | text {l r evs ev} : l ≠ [] → (∀ c ∈ l, XmlChar c ∧ c ≠ 60 ∧ c ≠ 38) → ¬ b!"]]>" <:+: l →
      (ev = .characters (encodeRunes (unixLines l)) ∨ ev = .ignorable (encodeRunes (unixLines l)) ∧ ∀ c ∈ l, Ws c) →
      Accepted E K false r evs → Accepted E K false (l ++ r) (ev :: evs)
  | charRef {t v r evs} : LooseCharRef t v → Accepted E K false r evs → Accepted E K false (t ++ r) (.characters (encodeRunes [v]) :: evs)
  | predefined {b v r evs} : refValue b = some v → b.head? ≠ some 35 → Accepted E K false r evs →
      Accepted E K false (38 :: (b ++ 59 :: r)) (.characters (encodeRunes [v]) :: evs)
  | entity {n txt inner r evs} : LooseName E n → refValue n = none → K n txt → Accepted E K false r evs →
      Accepted E K false (38 :: (n ++ 59 :: r)) (.getEntity (encodeRunes n) :: (inner ++ evs))
  | comment {t ev r evs} : LooseComment t ev → Accepted E K false r evs → Accepted E K false (t ++ r) (ev :: evs)
  | pi {t ev r evs} : LoosePI E t ev → Accepted E K false r evs → Accepted E K false (t ++ r) (ev :: evs)
  | cdata {l r evs} : ¬ b!"]]>" <:+: l → Accepted E K false r evs →
      Accepted E K false (b!"<![CDATA[" ++ (l ++ (b!"]]>" ++ r))) (.cdata (encodeRunes (unixLines l)) :: evs)

/-- the names for which the handler has answered a lookup with an entity. -/
def Answered (tr : List (Ev × HOut)) (n : List Nat) : Prop := ∃ e, (Ev.getEntity (encodeRunes n), HOut.ent (some e)) ∈ tr

/-- a general entity of that name has been declared. -/
def Declared (tr : List (Ev × HOut)) (n : Bytes) : Prop :=
  ∃ t p s c o, (Ev.entityDecl n t p s c, o) ∈ tr ∧ (t = 1 ∨ t = 2 ∨ t = 3)

/-- what is accepted around the root element. At the end of the input a comment need not be closed. -/
inductive LooseMisc (E : Env) : List Nat → List Ev → Prop
  | nil : LooseMisc E [] []
  | space {c r evs} : Ws c → LooseMisc E r evs → LooseMisc E (c :: r) evs
  | comment {t ev r evs} : LooseComment t ev → LooseMisc E r evs → LooseMisc E (t ++ r) (ev :: evs)
  | pi {t ev r evs} : LoosePI E t ev → LooseMisc E r evs → LooseMisc E (t ++ r) (ev :: evs)
  | open {l d} : (∀ x ∈ l, XmlChar x) → ¬ b!"-->" <:+: l → LooseMisc E (b!"<!--" ++ l) [.comment d]

/-- white space, closed comments and processing instructions: what XML allows after the root element. -/
inductive ClosedMisc (E : Env) : List Nat → Prop
  | nil : ClosedMisc E []
  | space {c r} : Ws c → ClosedMisc E r → ClosedMisc E (c :: r)
  | comment {b r} : ClosedMisc E r → ClosedMisc E (b!"<!--" ++ (b ++ (b!"-->" ++ r)))
  | pi {b r} : ClosedMisc E r → ClosedMisc E (b!"<?" ++ (b ++ (b!"?>" ++ r)))

/-- an attribute as XML writes it: `=` and a quoted value. -/
def StrictAttr (E : Env) (t : List Nat) : Prop :=
  ∃ n w1 w2 q b, LooseName E n ∧ Blank w1 ∧ Blank w2 ∧ (q = 34 ∨ q = 39) ∧ q ∉ b ∧ t = n ++ (w1 ++ 61 :: (w2 ++ q :: (b ++ [q])))

/-- attributes as XML writes them. -/
inductive StrictAtts (E : Env) : List Nat → Prop
  | nil {ws} : Blank ws → StrictAtts E ws
  | attr {ws t r} : Blank ws → StrictAttr E t → StrictAtts E r → StrictAtts E (ws ++ (t ++ r))

/-- an element as XML delimits it: an empty-element tag, or a start tag, content and the end tag of the same name. -/
def Delimited (E : Env) (t : List Nat) : Prop :=
  ∃ n a ns, LooseName E n ∧ LooseAtts E (fun _ _ => True) a ns ∧ (t = 60 :: (n ++ (a ++ b!"/>")) ∨ ∃ k, t = 60 :: (n ++ (a ++ 62 :: (k ++ (b!"</" ++ (n ++ [62]))))))

end Helium.Spec
