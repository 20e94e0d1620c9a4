import Verif.Spec.Document
/-!
Documents that survive serialisation: elements, attributes, namespace declarations, text and comments with legal names and characters.
-/
namespace Helium.Spec
open Helium

/-- a name of legal characters. -/
def PlainName (E : Env) (n p l : List Nat) : Prop := QName E n p l ∧ ∀ c ∈ n, Legal c

/-- an attribute (name, value as given) that is not a namespace declaration. -/
def PlainAttr (E : Env) (a : Bytes × Bytes) : Prop :=
  ∃ n p l w, PlainName E n p l ∧ encodeRunes p ≠ b!"xmlns" ∧ (p = [] → encodeRunes l ≠ b!"xmlns") ∧ (∀ c ∈ w, Legal c) ∧
    a = (encodeRunes n, reported w)

/-- a namespace name. They are written as they are, so `&`, `<`, line ends and tabs are left out, as is one with both kinds of quotes. -/
def PlainUri (w : List Nat) : Prop := w ≠ [] ∧ (∀ c ∈ w, Legal c ∧ c ≠ 38 ∧ c ≠ 60 ∧ (Ws c → c = 32)) ∧ (34 ∉ w ∨ 39 ∉ w)

/-- a declaration of a prefix. -/
def PlainDecl (E : Env) (d : Bytes × Bytes) : Prop :=
  ∃ p w, NCName E p ∧ (∀ c ∈ p, Legal c) ∧ encodeRunes p ≠ b!"xml" ∧ encodeRunes p ≠ b!"xmlns" ∧ PlainUri w ∧ E.urlOk (encodeRunes w) = true ∧
    encodeRunes w ≠ b!"http://www.w3.org/2000/xmlns/" ∧ d = (encodeRunes p, encodeRunes w)

/-- namespace declarations of an element with the attributes `as`: of prefixes; the last may be of the default namespace if there are no attributes
(otherwise it is written twice when the document is written again, see `C09_default_panics`). -/
def PlainDecls (E : Env) (ds as : List (Bytes × Bytes)) : Prop :=
  (∀ d ∈ ds, PlainDecl E d) ∨ as = [] ∧ ∃ ds' w, (∀ d ∈ ds', PlainDecl E d) ∧ PlainUri w ∧ ds = ds' ++ [([], encodeRunes w)]

/-- the first of the trees is a text. -/
def StartsWithText : XTree → Prop
  | .node (.text _) _ _ => True
  | _ => False

/-- all namespace declarations, in document order. -/
def allDecls : XTree → List (Bytes × Bytes)
  | .nil => []
  | .node (.elem _ _ _ ds _) k r => ds ++ (allDecls k ++ allDecls r)
  | .node _ _ r => allDecls r

/-- trees inside an element; `scope` are the namespace declarations in scope, `used` those before them in the document. Texts are not empty and
never adjacent, the text `textnoenc` is left out (the serialiser panics on it). Comments contain no CR (it would not be escaped). -/
inductive Plain (E : Env) : List (Bytes × Bytes) → List (Bytes × Bytes) → XTree → Prop
  | nil {scope used} : Plain E scope used .nil
  | elem {scope used n p l u ds as k r} : PlainName E n p l → PlainDecls E ds as → (∀ a ∈ as, PlainAttr E a) → (as.map (·.1)).Nodup →
      Bound (scope ++ ds) (used ++ ds) (encodeRunes p) u → Plain E (scope ++ ds) (used ++ ds) k → Plain E scope (used ++ ds ++ allDecls k) r →
      Plain E scope used (.node (.elem (encodeRunes l) (encodeRunes p) u ds as) k r)
  | text {scope used w r} : w ≠ [] → (∀ c ∈ w, Legal c) → w ≠ b!"textnoenc" → ¬ StartsWithText r → Plain E scope used r →
      Plain E scope used (.node (.text (encodeRunes w)) .nil r)
  | comment {scope used b r} : CommentText b → 13 ∉ b → Plain E scope used r → Plain E scope used (.node (.comment (encodeRunes b)) .nil r)

/-- the children of a document: comments around one element. -/
inductive PlainTop (E : Env) : Bool → XTree → Prop
  | nil : PlainTop E true .nil
  | comment {e b r} : CommentText b → 13 ∉ b → PlainTop E e r → PlainTop E e (.node (.comment (encodeRunes b)) .nil r)
  | root {l p u ds as k r} : Plain E [] [] (.node (.elem l p u ds as) k .nil) → PlainTop E true r → PlainTop E false (.node (.elem l p u ds as) k r)

/-- a whole document. A prefix is declared only once (the parser does not take a second declaration). -/
def PlainDoc (E : Env) (t : XTree) : Prop := PlainTop E false t ∧ ((allDecls t).map (·.1)).Nodup

end Helium.Spec
