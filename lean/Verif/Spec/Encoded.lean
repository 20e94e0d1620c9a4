import Verif.Spec.Document
/-! Documents in the encodings the library knows, and the registered names of these encodings. -/
namespace Helium.Spec
open Helium

/-- a document as bytes: an XML declaration, and a rest that the decoder of the character set `cs` turns into a document. -/
def EncodedDocument (E : Env) (cs : Charset) (b v e : List Nat) (sd : Int) (evs : List Ev) : Prop :=
  ∃ d body m1 root m2 e1 e2 e3 used, b = d ++ body ∧ XmlDeclAny d v e sd ∧ E.decode cs body = m1 ++ (root ++ m2) ∧ Misc E m1 e1 ∧
    Src E true [] [] root e2 used ∧ Misc E m2 e3 ∧ evs = [.setDocumentLocator, .startDocument] ++ (e1 ++ (e2 ++ (e3 ++ [.endDocument])))

/-- the name under which a character set is registered with IANA (for the last Mac set and the user-defined one: listed by WHATWG). -/
def registered : Charset → Bytes
  | .utf8 => b!"utf-8" | .eucJP => b!"euc-jp" | .shiftJIS => b!"shift_jis" | .iso2022JP => b!"iso-2022-jp" | .big5 => b!"big5"
  | .eucKR => b!"euc-kr" | .hzGB2312 => b!"hz-gb-2312" | .cp437 => b!"ibm437" | .cp866 => b!"ibm866"
  | .iso8859_10 => b!"iso-8859-10" | .iso8859_13 => b!"iso-8859-13" | .iso8859_14 => b!"iso-8859-14" | .iso8859_15 => b!"iso-8859-15"
  | .iso8859_16 => b!"iso-8859-16" | .iso8859_2 => b!"iso-8859-2" | .iso8859_3 => b!"iso-8859-3" | .iso8859_4 => b!"iso-8859-4"
  | .iso8859_5 => b!"iso-8859-5" | .iso8859_6 => b!"iso-8859-6" | .iso8859_7 => b!"iso-8859-7" | .iso8859_8 => b!"iso-8859-8"
  | .koi8r => b!"koi8-r" | .koi8u => b!"koi8-u" | .macintosh => b!"macintosh" | .macCyrillic => b!"x-mac-cyrillic"
  | .win1250 => b!"windows-1250" | .win1251 => b!"windows-1251" | .win1252 => b!"windows-1252" | .win1253 => b!"windows-1253"
  | .win1254 => b!"windows-1254" | .win1255 => b!"windows-1255" | .win1256 => b!"windows-1256" | .win1257 => b!"windows-1257"
  | .win1258 => b!"windows-1258" | .win874 => b!"windows-874" | .xUserDefined => b!"x-user-defined"

/-- the names under which the library takes a character set, up to letter case. -/
def spellings : Charset → List Bytes
  | .utf8 => [b!"utf8", b!"utf-8"] | .eucJP => [b!"euc-jp"] | .shiftJIS => [b!"shift_jis", b!"shift-jis", b!"shiftjis", b!"cp932"]
  | .iso2022JP => [b!"jis", b!"iso-2022-jp"] | .big5 => [b!"big5"] | .eucKR => [b!"euc-kr"] | .hzGB2312 => [b!"hz-gb2312"]
  | .cp437 => [b!"cp437"] | .cp866 => [b!"cp866"] | .iso8859_10 => [b!"iso-8859-10"] | .iso8859_13 => [b!"iso-8859-13"]
  | .iso8859_14 => [b!"iso-8859-14"] | .iso8859_15 => [b!"iso-8859-15"] | .iso8859_16 => [b!"iso-8859-16"] | .iso8859_2 => [b!"iso-8859-2"]
  | .iso8859_3 => [b!"iso-8859-3"] | .iso8859_4 => [b!"iso-8859-4"] | .iso8859_5 => [b!"iso-8859-5"] | .iso8859_6 => [b!"iso-8859-6"]
  | .iso8859_7 => [b!"iso-8859-7"] | .iso8859_8 => [b!"iso-8859-8"] | .koi8r => [b!"koi8r"] | .koi8u => [b!"koir8u"]
  | .macintosh => [b!"macintosh"] | .macCyrillic => [b!"macintoshcyrillic"] | .win1250 => [b!"windows1250"] | .win1251 => [b!"windows1251"]
  | .win1252 => [b!"windows1252", b!"iso-8859-1"] | .win1253 => [b!"windows1253"] | .win1254 => [b!"windows1254"] | .win1255 => [b!"windows1255"]
  | .win1256 => [b!"windows1256"] | .win1257 => [b!"windows1257"] | .win1258 => [b!"windows1258"] | .win874 => [b!"windows874"]
  | .xUserDefined => [b!"xuserdefined"]

/-- windows-1252, the bytes 80 to 9F. -/
def win1252Upper : List Nat := [0x20AC, 0x81, 0x201A, 0x0192, 0x201E, 0x2026, 0x2020, 0x2021, 0x02C6, 0x2030, 0x0160, 0x2039, 0x0152, 0x8D, 0x017D,
  0x8F, 0x90, 0x2018, 0x2019, 0x201C, 0x201D, 0x2022, 0x2013, 0x2014, 0x02DC, 0x2122, 0x0161, 0x203A, 0x0153, 0x9D, 0x017E, 0x0178]

/-- windows-1252. -/
def win1252 (b : Nat) : Nat := if 0x80 ≤ b ∧ b < 0xA0 then win1252Upper.getD (b - 0x80) 0xFFFD else b

end Helium.Spec
