import Verif.Props.DefaultNs
import Verif.Props.Refs

/-! # What is lost when a parsed document is written: witnesses for the exclusions of `C09_roundtrip_partial` -/

namespace Helium
open Spec

/-- a namespace name is written without escaping: that of `<a xmlns:p="u&lt;"/>` gives `xmlns:p="u<"` ... -/
theorem C09_uri_unescaped : (parse env0 40 b!"<a xmlns:p=\"u&lt;\"/>").written = some b!"<?xml version=\"1.0\"?>\n<a xmlns:p=\"u<\"/>\n" := by
  decide +kernel

/-- ... which is not accepted. -/
theorem C09_uri_refused : (parse env0 60 b!"<?xml version=\"1.0\"?>\n<a xmlns:p=\"u<\"/>\n").refused = true := by
  decide +kernel

/-- a namespace name with both kinds of quotes loses one of them: `"'` is read ... -/
theorem C09_uri_read : (parse env0 40 b!"<a xmlns:p='\"&#39;'/>").events = some
    [.setDocumentLocator, .startDocument, .startElement b!"a" [] [] [(b!"p", b!"\"'")] [], .endElement b!"a" [] [], .endDocument] := by
  decide +kernel

/-- ... and `'` is written. -/
theorem C09_uri_quotes : (parse env0 40 b!"<a xmlns:p='\"&#39;'/>").written = some b!"<?xml version=\"1.0\"?>\n<a xmlns:p=\"'\"/>\n" := by
  decide +kernel

/-- the text of a comment may hold CR LF (CR CR LF is read as that) ... -/
theorem C09_comment_read : (parse env0 60 (b!"<a><!--x" ++ ([13, 13, 10] ++ b!"--></a>"))).events = some
    [.setDocumentLocator, .startDocument, .startElement b!"a" [] [] [] [], .comment (b!"x" ++ [13, 10]), .endElement b!"a" [] [], .endDocument] := by
  decide +kernel

/-- ... is written as it is ... -/
theorem C09_comment_written : (parse env0 60 (b!"<a><!--x" ++ ([13, 13, 10] ++ b!"--></a>"))).written =
    some (b!"<?xml version=\"1.0\"?>\n<a><!--x" ++ ([13, 10] ++ b!"--></a>\n")) := by
  decide +kernel

/-- ... and read back as LF. -/
theorem C09_comment_changed : (parse env0 60 (b!"<?xml version=\"1.0\"?>\n<a><!--x" ++ ([13, 10] ++ b!"--></a>\n"))).events = some
    [.setDocumentLocator, .startDocument, .startElement b!"a" [] [] [] [], .comment (b!"x" ++ [10]), .endElement b!"a" [] [], .endDocument] := by
  decide +kernel

end Helium
