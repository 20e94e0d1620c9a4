import Verif.Model.Base
/-! Encoding names and BOM detection: /repo/encoding/encoding.go and `detectEncoding`. -/
namespace Helium

/-- `strings.ToLower` on ASCII strings (/repo/encoding/encoding.go:22). Bytes ≥ 128 are left alone: the model of `Load` is exact for
ASCII names, which are the only ones `parseEncodingName` produces. -/
def toLower (s : Bytes) : Bytes := s.map (fun c => if 65 ≤ c ∧ c ≤ 90 then c + 32 else c)

/-- The decoders returned by `Load` (values of golang.org/x/text). -/
inductive Charset
  | utf8 | eucJP | shiftJIS | iso2022JP | big5 | eucKR | hzGB2312 | cp437 | cp866
  | iso8859_10 | iso8859_13 | iso8859_14 | iso8859_15 | iso8859_16 | iso8859_2 | iso8859_3 | iso8859_4
  | iso8859_5 | iso8859_6 | iso8859_7 | iso8859_8 | koi8r | koi8u | macintosh | macCyrillic
  | win1250 | win1251 | win1252 | win1253 | win1254 | win1255 | win1256 | win1257 | win1258 | win874 | xUserDefined
  deriving DecidableEq, Repr

/-- the `switch` of `Load` (/repo/encoding/encoding.go:22-96). -/
def encTable : List (Bytes × Charset) := [
  (b!"utf8", .utf8), (b!"utf-8", .utf8), (b!"euc-jp", .eucJP),
  (b!"shift_jis", .shiftJIS), (b!"shift-jis", .shiftJIS), (b!"shiftjis", .shiftJIS), (b!"cp932", .shiftJIS),
  (b!"jis", .iso2022JP), (b!"iso-2022-jp", .iso2022JP), (b!"big5", .big5), (b!"euc-kr", .eucKR),
  (b!"hz-gb2312", .hzGB2312), (b!"cp437", .cp437), (b!"cp866", .cp866),
  (b!"iso-8859-10", .iso8859_10), (b!"iso-8859-13", .iso8859_13), (b!"iso-8859-14", .iso8859_14),
  (b!"iso-8859-15", .iso8859_15), (b!"iso-8859-16", .iso8859_16), (b!"iso-8859-2", .iso8859_2),
  (b!"iso-8859-3", .iso8859_3), (b!"iso-8859-4", .iso8859_4), (b!"iso-8859-5", .iso8859_5),
  (b!"iso-8859-6", .iso8859_6), (b!"iso-8859-7", .iso8859_7), (b!"iso-8859-8", .iso8859_8),
  (b!"koi8r", .koi8r), (b!"koir8u", .koi8u), (b!"macintosh", .macintosh), (b!"macintoshcyrillic", .macCyrillic),
  (b!"windows1250", .win1250), (b!"windows1251", .win1251), (b!"iso-8859-1", .win1252), (b!"windows1252", .win1252),
  (b!"windows1253", .win1253), (b!"windows1254", .win1254), (b!"windows1255", .win1255), (b!"windows1256", .win1256),
  (b!"windows1257", .win1257), (b!"windows1258", .win1258), (b!"windows874", .win874),
  (b!"xuserdefined", .xUserDefined)]

/-- `encoding.Load` (/repo/encoding/encoding.go:21-99); `none` is nil. -/
def encLoad (name : Bytes) : Option Charset := mapGet encTable (toLower name)

/-- One row of `detectEncoding`: pattern, whether it is consumed, resulting name (/repo/parserctx.go:229-316). -/
def detectRows : List (Bytes × Bool × Bytes) := [
  ([0x00, 0x00, 0x00, 0x3C], true, b!"ucs4be"),
  ([0x3C, 0x00, 0x00, 0x00], true, b!"ucs4le"),
  ([0x00, 0x00, 0x3C, 0x00], true, b!"ucs4_2143"),
  ([0x00, 0x3C, 0x00, 0x00], true, b!"ucs4_3412"),
  ([0x4C, 0x6F, 0xA7, 0x94], false, b!"ebcdic"),
  ([0x3C, 0x3F, 0x78, 0x6D], false, b!"utf8"),
  ([0x3C, 0x00, 0x3F, 0x00], true, b!"utf16le"),
  ([0x00, 0x3C, 0x00, 0x3F], true, b!"utf16be"),
  ([0xEF, 0xBB, 0xBF], true, b!"utf8"),
  ([0xFE, 0xFF], true, b!"utf16be"),
  ([0xFF, 0xFE], true, b!"utf16le")]

/-- `detectEncoding` (/repo/parserctx.go:255-333): the detected name and the remaining bytes; `none` is the error
"failed to detect encoding" (nothing consumed). -/
def detectEncoding (b : Bytes) : Option (Bytes × Bytes) :=
  match detectRows.find? (fun r => r.1.isPrefixOf b) with
  | some (p, consume, name) => some (name, if consume then b.drop p.length else b)
  | none => none

end Helium
