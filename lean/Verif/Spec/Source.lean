import Verif.Spec.Xml
import Verif.Spec.Name
import Verif.Spec.Tree
import Verif.Spec.Words
/-!
Well-formed documents without document type declaration, as text, and the SAX events they stand for: productions [1], [14]-[28],
[39]-[44], [66]-[68] of XML 1.0 and the namespace recommendation. Where the parser is narrower than XML the difference is noted; these are
the limits of the claims that use these definitions.
-/
namespace Helium.Spec
open Helium

/-- a character of production [2], other than U+FFFD, which the parser takes for a decoding error. -/
def Legal (c : Nat) : Prop := XmlChar c ∧ c ≠ 0xFFFD

instance (c : Nat) : Decidable (Legal c) := by unfold Legal; infer_instance

/-- white space, possibly empty. -/
def Blank (l : List Nat) : Prop := ∀ c ∈ l, Ws c

instance (l : List Nat) : Decidable (Blank l) := by unfold Blank; infer_instance

/-- line ends (2.11): CR LF becomes LF. -/
def unixLines : List Nat → List Nat
  | 13 :: 10 :: t => 10 :: unixLines t
  | c :: t => c :: unixLines t
  | [] => []

/-- every CR is followed by a LF (the parser leaves other CRs alone, XML wants LF for them). -/
def NoLoneCR (l : List Nat) : Prop := ∀ a b, l = a ++ 13 :: b → b.head? = some 10

/-- a name with its prefix (empty: none) and local part. -/
def QName (E : Env) (n p l : List Nat) : Prop := NCName E l ∧ (p = [] ∧ n = l ∨ NCName E p ∧ n = p ++ 58 :: l)

/-- an attribute value between quotes `q` and the text it stands for. Literal CRs are left out. -/
inductive Value (q : Nat) : List Nat → List Nat → Prop
  | nil : Value q [] []
  | char {c l w} : Legal c → c ≠ q → c ≠ 38 → c ≠ 60 → c ≠ 13 → Value q l w → Value q (c :: l) ((if Ws c then 32 else c) :: w)
  | ref {b v l w} : refValue b = some v → 59 ∉ b → Legal v → Value q l w → Value q (38 :: (b ++ 59 :: l)) (v :: w)

/-- an attribute value as the parser reports it: ampersands stay references. -/
def reported (w : List Nat) : Bytes := encodeRunes (w.flatMap (fun c => if c = 38 then [38, 35, 51, 56, 59] else [c]))

/-- what stands between the name of an element and the end of its start tag: the text, the attributes, and the namespace declarations.
`used` are the prefixes declared so far in the document, the empty one standing for the default namespace; a prefix can only be declared once
(XML allows more), and a declaration of the default namespace can only be the last thing in the tag (otherwise it is reported as an attribute too). -/
inductive Atts (E : Env) : List (Bytes × Bytes) → List Nat → List AttrD → List (Bytes × Bytes) → Prop
  | nil {used ws} : Blank ws → Atts E used ws [] []
  | attr {used ws n p l w1 w2 q v w r as ds} : ws ≠ [] → Blank ws → QName E n p l → encodeRunes p ≠ b!"xmlns" →
      (p = [] → encodeRunes l ≠ b!"xmlns") → Blank w1 → Blank w2 → q = 34 ∨ q = 39 → Value q v w → Atts E used r as ds →
      Atts E used (ws ++ (n ++ (w1 ++ 61 :: (w2 ++ q :: (v ++ q :: r))))) (.parsed (encodeRunes p) (encodeRunes l) (reported w) :: as) ds
  | decl {used ws p w1 w2 q v w r as ds} : ws ≠ [] → Blank ws → NCName E p → encodeRunes p ≠ b!"xml" → encodeRunes p ≠ b!"xmlns" →
      Blank w1 → Blank w2 → q = 34 ∨ q = 39 → Value q v w → w ≠ [] → 38 ∉ w → E.urlOk (encodeRunes w) = true →
      encodeRunes w ≠ b!"http://www.w3.org/2000/xmlns/" → encodeRunes p ∉ used.map (·.1) →
      Atts E (used ++ [(encodeRunes p, encodeRunes w)]) r as ds →
      Atts E used (ws ++ (b!"xmlns" ++ 58 :: p ++ (w1 ++ 61 :: (w2 ++ q :: (v ++ q :: r))))) as ((encodeRunes p, encodeRunes w) :: ds)
  | dflt {used ws w1 w2 q v w} : ws ≠ [] → Blank ws → Blank w1 → Blank w2 → q = 34 ∨ q = 39 → Value q v w → w ≠ [] → 38 ∉ w →
      [] ∉ used.map (·.1) → Atts E used (ws ++ (b!"xmlns" ++ (w1 ++ 61 :: (w2 ++ q :: (v ++ [q]))))) [] [([], encodeRunes w)]

/-- character data: no markup, no `]]>`. -/
structure CharData (l : List Nat) : Prop where
  ne : l ≠ []
  legal : ∀ c ∈ l, Legal c ∧ c ≠ 60 ∧ c ≠ 38
  noEnd : ¬ b!"]]>" <:+: l
  cr : NoLoneCR l

/-- text of a comment. -/
structure CommentText (b : List Nat) : Prop where
  legal : ∀ c ∈ b, Legal c
  hyphen : ¬ [45, 45] <:+: b ++ [45]
  cr : NoLoneCR b

/-- target of a processing instruction. -/
structure Target (E : Env) (n : List Nat) : Prop where
  name : Name E n
  notXml : n ≠ b!"xml"
  colon : 58 ∉ n

/-- processing instruction: its text (without `<?` and `?>`) and its data. White space after the target is not part of the data. -/
def PIText (E : Env) (t n d : List Nat) : Prop :=
  Target E n ∧ (t = n ∧ d = [] ∨ ∃ ws, ws ≠ [] ∧ Blank ws ∧ t = n ++ (ws ++ d) ∧ (∀ c ∈ d, Legal c) ∧ (∀ c, d.head? = some c → ¬ Ws c) ∧
    ¬ [63, 62] <:+: d)

/-- text of a CDATA section (the empty one is refused by the parser). -/
structure CDataText (l : List Nat) : Prop where
  ne : l ≠ []
  legal : ∀ c ∈ l, Legal c
  noEnd : ¬ b!"]]>" <:+: l ++ b!"]]"
  cr : NoLoneCR l

/-- namespace of an element: that of its prefix in the declarations in scope, or none if it has no prefix and no default namespace has been
declared so far (the parser does not forget declarations, C21). -/
def Bound (scope used : List (Bytes × Bytes)) (p u : Bytes) : Prop := p = [] ∧ u = [] ∧ [] ∉ used.map (·.1) ∨ (p, u) ∈ scope

/-- `Src E true scope used t evs used'`: `t` is an element, `evs` its events. With `false`: `t` is the content of an element. `scope` are
the namespace declarations in scope; `used` those seen before, `used'` those seen after it. Content beginning with `/>` is left out: the
parser takes that for the end of an empty element. -/
inductive Src (E : Env) : Bool → List (Bytes × Bytes) → List (Bytes × Bytes) → List Nat → List Ev → List (Bytes × Bytes) → Prop
  | empty {scope used n p l a as ds u} : QName E n p l → Atts E used a as ds → ((givenAttrs as).map (·.1)).Nodup →
      Bound (scope ++ ds) (used ++ ds) (encodeRunes p) u →
      Src E true scope used (60 :: (n ++ (a ++ b!"/>")))
        [.startElement (encodeRunes l) (encodeRunes p) u (ds.map some) as, .endElement (encodeRunes l) (encodeRunes p) u] (used ++ ds)
  | full {scope used n p l a as ds u k evs used'} : QName E n p l → Atts E used a as ds → ((givenAttrs as).map (·.1)).Nodup →
      Bound (scope ++ ds) (used ++ ds) (encodeRunes p) u → Src E false (scope ++ ds) (used ++ ds) k evs used' → ¬ b!"/>" <+: k →
      Src E true scope used (60 :: (n ++ (a ++ 62 :: (k ++ (b!"</" ++ (n ++ [62]))))))
        (.startElement (encodeRunes l) (encodeRunes p) u (ds.map some) as :: (evs ++ [.endElement (encodeRunes l) (encodeRunes p) u])) used'
  | nil {scope used} : Src E false scope used [] [] used
  | element {scope used t evs used1 r evs' used2} : Src E true scope used t evs used1 → Src E false scope used1 r evs' used2 →
      Src E false scope used (t ++ r) (evs ++ evs') used2
  | text {scope used l r evs used'} : CharData l → (∀ c, r.head? = some c → c = 60 ∨ c = 38) → Src E false scope used r evs used' →
      Src E false scope used (l ++ r) (.characters (encodeRunes (unixLines l)) :: evs) used'
  | ref {scope used b v r evs used'} : refValue b = some v → 59 ∉ b → Legal v → Src E false scope used r evs used' →
      Src E false scope used (38 :: (b ++ 59 :: r)) (.characters (encodeRunes [v]) :: evs) used'
  | comment {scope used b r evs used'} : CommentText b → Src E false scope used r evs used' →
      Src E false scope used (b!"<!--" ++ (b ++ (b!"-->" ++ r))) (.comment (encodeRunes (unixLines b)) :: evs) used'
  | pi {scope used t n d r evs used'} : PIText E t n d → Src E false scope used r evs used' →
      Src E false scope used (b!"<?" ++ (t ++ (b!"?>" ++ r))) (.pi (encodeRunes n) (encodeRunes d) :: evs) used'
  | cdata {scope used l r evs used'} : CDataText l → Src E false scope used r evs used' →
      Src E false scope used (b!"<![CDATA[" ++ (l ++ (b!"]]>" ++ r))) (.cdata (encodeRunes (unixLines l)) :: evs) used'

/-- what may stand around the root element (production [27]). -/
inductive Misc (E : Env) : List Nat → List Ev → Prop
  | nil : Misc E [] []
  | space {c r evs} : Ws c → Misc E r evs → Misc E (c :: r) evs
  | comment {b r evs} : CommentText b → Misc E r evs → Misc E (b!"<!--" ++ (b ++ (b!"-->" ++ r))) (.comment (encodeRunes (unixLines b)) :: evs)
  | pi {t n d r evs} : PIText E t n d → Misc E r evs → Misc E (b!"<?" ++ (t ++ (b!"?>" ++ r))) (.pi (encodeRunes n) (encodeRunes d) :: evs)

/-- the event stands for the expected one: white space may be reported as ignorable. -/
def plainEv : Ev → Ev
  | .ignorable b => if b.all (fun c => c == 32 || c == 9 || c == 10 || c == 13) then .characters b else .ignorable b
  | ev => ev

/-- the handler took the event: no error, no panic. -/
def Took (o : HOut) : Prop := o = .ok ∨ o = .unspecified

/-- an attribute with a value shorter than `B` bytes, as the parser reports it. -/
def ShortAttr (B : Nat) (a : AttrD) : Prop :=
  ∃ p l w, a = .parsed p l (reported w) ∧ (∀ c ∈ w, Legal c) ∧ (reported w).length + 1 < B

/-- the value of an attribute, with single spaces between its words only if `tok` says that it is not of type CDATA (3.3.3). -/
def tokenValue (tok : Bytes → Bool) : AttrD → AttrD
  | .parsed p l v => .parsed p l (if tok l then unwords (words [] v) else v)
  | a => a

/-- an event as attribute declarations change it: `tok e a` says that the values of the attribute `a` of elements `e` are not of type CDATA,
`dfl p e` are the attributes supplied for an element. -/
def declared (tok : Bytes → Bytes → Bool) (dfl : Bytes → Bytes → List AttrD) : Ev → Ev
  | .startElement l p u ns as => .startElement l p u ns (as.map (tokenValue (tok l)) ++ dfl p l)
  | ev => ev

/-- the values of attributes that are not of type CDATA are not made of spaces only (such a value may panic), and no declaration of a prefix goes
by the name of such an attribute. -/
def Worded (tok : Bytes → Bytes → Bool) : Ev → Prop
  | .startElement l _ _ ns as => (∀ p n v, .parsed p n v ∈ as → tok l n = true → v = [] ∨ ∃ c ∈ v, c ≠ 32) ∧
      (∀ p u, some (p, u) ∈ ns → tok l (if p = [] then b!"xmlns" else p) = false)
  | _ => True

/-- the handler takes the events of a document without document type declaration, with attribute values shorter than `B`. `G n c` says
that between events `c` is a sound handler context inside `n` elements; `F c` that it is one before the start of the document. `D` is what
the XML declaration says. -/
structure Willing {σ : Type} (B : Nat) (D : HV) (H : Handler σ) (F : HC σ → Prop) (G : Nat → HC σ → Prop) : Prop where
  locator : ∀ {v c}, F c → Took (H v .setDocumentLocator c).1 ∧ F (H v .setDocumentLocator c).2
  startDoc : ∀ {c}, F c → Took (H D .startDocument c).1 ∧ G 0 (H D .startDocument c).2
  endDoc : ∀ {v c}, G 0 c → Took (H v .endDocument c).1 ∧ G 0 (H v .endDocument c).2
  start : ∀ {n v c l p u as} {ds : List (Bytes × Bytes)}, v.inSubset = 0 → G n c → ((givenAttrs as).map (·.1)).Nodup → (∀ a ∈ as, ShortAttr B a) →
    Took (H v (.startElement l p u (ds.map some) as) c).1 ∧ G (n + 1) (H v (.startElement l p u (ds.map some) as) c).2
  stop : ∀ {n v c l p u}, v.inSubset = 0 → G (n + 1) c → Took (H v (.endElement l p u) c).1 ∧ G n (H v (.endElement l p u) c).2
  comment : ∀ {n v c b}, v.inSubset = 0 → G n c → Took (H v (.comment b) c).1 ∧ G n (H v (.comment b) c).2
  pi : ∀ {n v c t d}, v.inSubset = 0 → G n c → Took (H v (.pi t d) c).1 ∧ G n (H v (.pi t d) c).2
  text : ∀ {n v c b}, v.inSubset = 0 → G (n + 1) c → Took (H v (.characters b) c).1 ∧ G (n + 1) (H v (.characters b) c).2
  blank : ∀ {n v c b}, v.inSubset = 0 → G (n + 1) c → Took (H v (.ignorable b) c).1 ∧ G (n + 1) (H v (.ignorable b) c).2
  cdata : ∀ {n v c b}, v.inSubset = 0 → G (n + 1) c → Took (H v (.cdata b) c).1 ∧ G (n + 1) (H v (.cdata b) c).2

end Helium.Spec
