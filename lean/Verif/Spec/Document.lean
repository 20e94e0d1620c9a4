import Verif.Spec.Source
/-! Whole documents without document type declaration: productions [1], [22]-[26], [32], [80], [81] of XML 1.0, in UTF-8. -/
namespace Helium.Spec
open Helium

/-- `name = "value"` in an XML declaration, with the white space before it. -/
def Pseudo (name v t : List Nat) : Prop :=
  ∃ ws w1 w2 q, ws ≠ [] ∧ Blank ws ∧ Blank w1 ∧ Blank w2 ∧ (q = 34 ∨ q = 39) ∧ t = ws ++ (name ++ (w1 ++ 61 :: (w2 ++ q :: (v ++ [q]))))

/-- version number (production [26]). -/
def Version (v : List Nat) : Prop := ∃ ds, ds ≠ [] ∧ (∀ c ∈ ds, 48 ≤ c ∧ c ≤ 57) ∧ v = b!"1." ++ ds

/-- the encoding name of UTF-8, in any case. -/
def Utf8Name (v : List Nat) : Prop := v.map (fun c => if 65 ≤ c ∧ c ≤ 90 then c + 32 else c) = b!"utf-8"

/-- version numbers as the parser takes them: `1.0`, but also `9.99`. -/
def VersionNum (v : List Nat) : Prop := ∃ d ds, (48 ≤ d ∧ d ≤ 57) ∧ ds ≠ [] ∧ (∀ c ∈ ds, 48 ≤ c ∧ c ≤ 57) ∧ v = d :: 46 :: ds

/-- ASCII letter. -/
def AsciiLetter (c : Nat) : Prop := 65 ≤ c ∧ c ≤ 90 ∨ 97 ≤ c ∧ c ≤ 122

/-- encoding name (production [81]). -/
def EncName (e : List Nat) : Prop :=
  ∃ c t, e = c :: t ∧ AsciiLetter c ∧ ∀ x ∈ t, AsciiLetter x ∨ 48 ≤ x ∧ x ≤ 57 ∨ x = 46 ∨ x = 95 ∨ x = 45

/-- XML declaration (production [23]) with any version number and encoding name; standalone status 1: yes, 0: no, -2: not given. XML
allows white space before `?>`, the parser does not. -/
def XmlDeclAny (t v e : List Nat) (sd : Int) : Prop :=
  ∃ a b c, t = b!"<?xml" ++ (a ++ (b ++ (c ++ b!"?>"))) ∧ VersionNum v ∧ Pseudo b!"version" v a ∧
    (b = [] ∧ e = [] ∨ EncName e ∧ Pseudo b!"encoding" e b) ∧
    (c = [] ∧ sd = -2 ∨ Pseudo b!"standalone" b!"yes" c ∧ sd = 1 ∨ Pseudo b!"standalone" b!"no" c ∧ sd = 0)

/-- XML declaration with its version, encoding (empty: none) and standalone status (1: yes, 0: no, -2: not given). XML allows white space
before `?>`, the parser does not. -/
def XmlDecl (t v e : List Nat) (sd : Int) : Prop :=
  ∃ a b c, t = b!"<?xml" ++ (a ++ (b ++ (c ++ b!"?>"))) ∧ Version v ∧ Pseudo b!"version" v a ∧
    (b = [] ∧ e = [] ∨ Utf8Name e ∧ Pseudo b!"encoding" e b) ∧
    (c = [] ∧ sd = -2 ∨ Pseudo b!"standalone" b!"yes" c ∧ sd = 1 ∨ Pseudo b!"standalone" b!"no" c ∧ sd = 0)

/-- what a document begins with: a byte order mark or not, an XML declaration or not. Without an XML declaration nothing that begins like
one may follow (`<?xml-stylesheet`, which XML allows, is refused by the parser there). -/
def Head (t rest v e : List Nat) (sd : Int) : Prop :=
  ∃ bom d, t = bom ++ d ∧ (bom = [] ∨ bom = [0xFEFF]) ∧
    (XmlDecl d v e sd ∨ d = [] ∧ v = [] ∧ e = [] ∧ sd = -2 ∧ ¬ b!"<?xml" <+: rest)

/-- a document and the events it stands for; `v`, `e`, `sd` are given by its XML declaration. -/
def Document (E : Env) (t v e : List Nat) (sd : Int) (evs : List Ev) : Prop :=
  ∃ h m1 root m2 e1 e2 e3 used, t = h ++ (m1 ++ (root ++ m2)) ∧ Head h (m1 ++ (root ++ m2)) v e sd ∧ Misc E m1 e1 ∧
    Src E true [] [] root e2 used ∧ Misc E m2 e3 ∧ (∀ c ∈ t, Legal c) ∧
    evs = [.setDocumentLocator, .startDocument] ++ (e1 ++ (e2 ++ (e3 ++ [.endDocument])))

end Helium.Spec
