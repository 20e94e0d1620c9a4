import Verif.Lemmas.SaxPhases
import Verif.Model.StdEnv
/-! Properties C01, C02, C03, C04, C06: what a SAX application sees of one `Parse`. -/
namespace Helium
open Spec
section
variable {σ : Type}

/-! ### helpers for concrete cases -/

/-- a handler that ignores everything. -/
def nullHandler : Handler Unit := fun _ _ c => (.ok, c)

/-- a handler that returns error number 7 for text. -/
def grumpyHandler : Handler Unit := fun _ ev c => match ev with
  | .characters _ => (.err (.user 7), c)
  | _ => (.ok, c)

/-- document present?, error and events of a result. -/
def ParseRes.view : ParseRes → Option (Bool × Option Err × List Ev)
  | .done d e _ tr => some (d.isSome, e, tr.map (·.1))
  | _ => none

/-! ### C01 -/

/-- **C01** for an arbitrary handler whose own errors are not doubly wrapped parse errors: an error excludes a document, and the
error is an `ErrParseError` around something that is not an `ErrParseError`. -/
theorem C01_parse_result (E : Env) (H : Handler σ) (hH : ∀ v ev c e c', H v ev c = (.err e, c') → ∀ e', e ≠ .parse (.parse e'))
    (usr : σ) (fuel snl : Nat) (input : Bytes) {doc : Option Nat} {e : Err} {h : Heap} {tr : List (Ev × HOut)}
    (hr : parserParse E H usr fuel snl input = .done doc (some e) h tr) :
    doc = none ∧ ∃ e', e = .parse e' ∧ ∀ e'', e' ≠ .parse e'' := by
  have h1 := Wrapped.parseDocument (H := H) E fuel snl (initSt usr Heap.empty input)
  have h2 := (EL_wide (H := H) hH).document E fuel snl (initSt usr Heap.empty input)
  unfold parserParse at hr
  cases hp : parseDocument E H fuel snl (initSt usr Heap.empty input) with
  | ok a s => rw [hp] at hr; cases hr
  | err e0 s =>
    rw [hp] at hr h1 h2
    cases hr
    obtain ⟨e', rfl⟩ := h1
    exact ⟨rfl, e', rfl, fun e'' h => h2 e'' (by rw [h])⟩
  | panic => rw [hp] at hr; cases hr
  | diverge => rw [hp] at hr; cases hr

/-- **C01** for `helium.Parse` with its own tree builder: no hypothesis on the handler. -/
theorem C01_parse_default (E : Env) (fuel : Nat) (input : Bytes) {doc : Option Nat} {e : Err} {h : Heap} {tr : List (Ev × HOut)}
    (hr : parse E fuel input = .done doc (some e) h tr) :
    doc = none ∧ ∃ e', e = .parse e' ∧ ∀ e'', e' ≠ .parse e'' := by
  refine C01_parse_result E (treeBuilder fuel) ?_ () fuel fuel input hr
  intro v ev c e0 c' h e'
  obtain ⟨k, rfl⟩ := treeBuilder_err _ _ _ _ _ _ h
  intro hc
  cases hc

example : (parserParse env0 grumpyHandler () 9 9 b!"<a>t</a>").view =
    some (false, some (.parse (.user 7)), [.setDocumentLocator, .startDocument, .startElement [97] [] [] [] [], .characters [116]]) := by
  decide +kernel
example : ∀ v ev c e c', grumpyHandler v ev c = (.err e, c') → ∀ e', e ≠ .parse (.parse e') := by
  intro v ev c e c' h e' hc
  subst hc
  unfold grumpyHandler at h
  split at h <;> cases h
example : (parse env0 9 b!"<a></b>").view = some (false, some (.parse (.k .mEndTagExpected)),
    [.setDocumentLocator, .startDocument, .startElement [97] [] [] [] []]) := by decide +kernel

/-! ### C02 -/

/-- the event sequence of one complete root element: nothing but other events, the start of the root, balanced events, and the
matching end. -/
def OneRoot (evs : List Ev) : Prop :=
  ∃ pre l p u n a body fin, evs = pre ++ .startElement l p u n a :: body ++ .endElement l p u :: fin ∧
    (∀ ev ∈ pre, ¬ IsTag ev) ∧ (∀ ev ∈ fin, ¬ IsTag ev) ∧ (∀ st, nest st body = some st)

/-- **C02**, failing or successful parse: every end event closes the innermost open element with the same three names. -/
theorem C02_nesting (E : Env) (H : Handler σ) (usr : σ) (fuel snl : Nat) (input : Bytes) {doc : Option Nat} {e : Option Err} {h : Heap}
    {tr : List (Ev × HOut)} (hr : parserParse E H usr fuel snl input = .done doc e h tr) :
    ∃ opened, nest [] (tr.map (·.1)) = some opened ∧ (e = none → opened = []) := by
  have h1 := BL_document (H := H) E fuel snl (initSt usr Heap.empty input)
  unfold parserParse at hr
  cases hp : parseDocument E H fuel snl (initSt usr Heap.empty input) with
  | ok a s =>
    rw [hp] at hr h1
    cases hr
    obtain ⟨_, m, hm, hn⟩ := h1
    exact ⟨[], by rw [hm]; exact hn [], fun _ => rfl⟩
  | err e0 s =>
    rw [hp] at hr h1
    cases hr
    obtain ⟨m, hm, ext, hn⟩ := h1
    exact ⟨ext, by rw [hm]; simpa [initSt] using hn [], by simp⟩
  | panic => rw [hp] at hr; cases hr
  | diverge => rw [hp] at hr; cases hr

/-- **C02**, successful parse: exactly one root element, properly closed, with balanced content. -/
theorem C02_one_root (E : Env) (H : Handler σ) (usr : σ) (fuel snl : Nat) (input : Bytes) {doc : Option Nat} {h : Heap}
    {tr : List (Ev × HOut)} (hr : parserParse E H usr fuel snl input = .done doc none h tr) : OneRoot (tr.map (·.1)) := by
  unfold parserParse at hr
  cases hp : parseDocument E H fuel snl (initSt usr Heap.empty input) with
  | ok a s =>
    rw [hp] at hr
    cases hr
    obtain ⟨m1, pre, l, p, u, n, a, o, body, o', m2, hm, h1, h2, h3, h4⟩ := parseDocument_oneRoot (H := H) E hp
    refine ⟨(m1 ++ pre).map (·.1), l, p, u, n, a, body.map (·.1), m2.map (·.1), ?_, ?_, ?_, fun st => h3 st⟩
    · rw [hm]; simp [initSt]
    · intro ev hev
      obtain ⟨x, hx, rfl⟩ := List.mem_map.1 hev
      exact (h1.append h2) x hx
    · intro ev hev
      obtain ⟨x, hx, rfl⟩ := List.mem_map.1 hev
      exact h4 x hx
  | err e0 s => rw [hp] at hr; cases hr
  | panic => rw [hp] at hr; cases hr
  | diverge => rw [hp] at hr; cases hr

example : (parserParse env0 nullHandler () 20 9 b!"<!--c--><a><b>t</b><c:d xmlns:c='u'/></a>").view = some (false, none,
    [.setDocumentLocator, .startDocument, .comment [99], .startElement [97] [] [] [] [], .startElement [98] [] [] [] [],
      .characters [116], .endElement [98] [] [], .startElement [100] [99] [117] [some ([99], [117])] [],
      .endElement [100] [99] [117], .endElement [97] [] [], .endDocument]) := by decide +kernel

/-! ### C03 -/

/-- the order of the document events, as in the statement of C03. -/
structure Envelope (ok : Bool) (evs : List Ev) : Prop where
  first : evs.head? = some .setDocumentLocator
  once : ∀ ev ∈ [Ev.setDocumentLocator, .startDocument, .endDocument], evs.count ev ≤ 1
  started : ∀ pre ev post, evs = pre ++ ev :: post → ¬ IsEnvelope ev → Ev.startDocument ∈ pre
  last : ∀ pre post, evs = pre ++ .endDocument :: post → post = [] ∧ .startDocument ∈ pre
  finished : ok = true → evs.getLast? = some .endDocument

theorem envelope_open (evs : List Ev) (h : ∀ ev ∈ evs, ¬ IsEnvelope ev) : Envelope false (.setDocumentLocator :: .startDocument :: evs) where
  first := rfl
  once := by
    have h0 : ∀ ev, IsEnvelope ev → evs.count ev = 0 := fun ev he => List.count_eq_zero.2 (fun hm => h ev hm he)
    intro ev hev
    simp only [List.mem_cons, List.not_mem_nil, or_false] at hev
    rcases hev with rfl | rfl | rfl <;> simp [h0 .setDocumentLocator trivial, h0 .startDocument trivial, h0 .endDocument trivial]
  started := by
    intro pre ev post he hn
    match pre with
    | [] => simp at he; rw [← he.1] at hn; exact absurd trivial hn
    | [x] => simp at he; rw [← he.2.1] at hn; exact absurd trivial hn
    | x :: y :: t => simp at he; rw [← he.2.1]; simp
  last := by
    intro pre post he
    match pre with
    | [] => simp at he
    | [x] => simp at he
    | x :: y :: t => simp at he; exact absurd trivial (h .endDocument (by rw [he.2.2]; simp))
  finished := by simp

theorem envelope_closed (ok : Bool) (evs : List Ev) (h : ∀ ev ∈ evs, ¬ IsEnvelope ev) :
    Envelope ok (.setDocumentLocator :: .startDocument :: evs ++ [.endDocument]) where
  first := rfl
  once := by
    have h0 : ∀ ev, IsEnvelope ev → evs.count ev = 0 := fun ev he => List.count_eq_zero.2 (fun hm => h ev hm he)
    intro ev hev
    simp only [List.mem_cons, List.not_mem_nil, or_false] at hev
    rcases hev with rfl | rfl | rfl <;> simp [h0 .setDocumentLocator trivial, h0 .startDocument trivial, h0 .endDocument trivial]
  started := by
    intro pre ev post he hn
    match pre with
    | [] => simp at he; rw [← he.1] at hn; exact absurd trivial hn
    | [x] => simp at he; rw [← he.2.1] at hn; exact absurd trivial hn
    | x :: y :: t => simp at he; rw [← he.2.1]; simp
  last := by
    intro pre post he
    match pre with
    | [] => simp at he
    | [x] => simp at he
    | x :: y :: t =>
      simp at he
      refine ⟨?_, by rw [← he.2.1]; simp⟩
      rcases List.eq_nil_or_concat post with rfl | ⟨p, z, rfl⟩
      · rfl
      · have h2 := he.2.2
        rw [show t ++ .endDocument :: p.concat z = (t ++ .endDocument :: p) ++ [z] by simp] at h2
        have h3 := (List.append_inj' h2 rfl).1
        exact absurd trivial (h .endDocument (by rw [h3]; simp))
  finished := fun _ => List.getLast?_concat (l := .setDocumentLocator :: .startDocument :: evs)

/-- **C03**. -/
theorem C03_envelope (E : Env) (H : Handler σ) (usr : σ) (fuel snl : Nat) (input : Bytes) {doc : Option Nat} {e : Option Err} {h : Heap}
    {tr : List (Ev × HOut)} (hr : parserParse E H usr fuel snl input = .done doc e h tr) : Envelope e.isNone (tr.map (·.1)) := by
  have h1 := parseDocument_shape (H := H) E fuel snl (initSt usr Heap.empty input) rfl
  unfold parserParse at hr
  cases hp : parseDocument E H fuel snl (initSt usr Heap.empty input) with
  | ok a s =>
    rw [hp] at hr h1
    cases hr
    obtain ⟨o, o', mid, o'', hm, hi⟩ := h1
    rw [hm]
    have := envelope_closed true (mid.map (·.1)) (by
      intro ev hev
      obtain ⟨x, hx, rfl⟩ := List.mem_map.1 hev
      exact hi x hx)
    simpa using this
  | err e0 s =>
    rw [hp] at hr h1
    cases hr
    have hin : ∀ mid : List (Ev × HOut), Inside mid → ∀ ev ∈ mid.map (·.1), ¬ IsEnvelope ev := by
      intro mid hi ev hev
      obtain ⟨x, hx, rfl⟩ := List.mem_map.1 hev
      exact hi x hx
    cases h1 with
    | loc o hm =>
      rw [hm]
      refine ⟨rfl, by simp only [List.map]; decide, ?_, ?_, by simp⟩
      · intro pre ev post he hn
        match pre with
        | [] => simp at he; rw [← he.1] at hn; exact absurd trivial hn
        | x :: t => simp at he
      · intro pre post he
        match pre with
        | [] => simp at he
        | x :: t => simp at he
    | opened o o' mid hm hi =>
      rw [hm]
      exact envelope_open (mid.map (·.1)) (hin mid hi)
    | closed o o' mid o'' hm hi =>
      rw [hm]
      simpa using envelope_closed false (mid.map (·.1)) (hin mid hi)
  | panic => rw [hp] at hr; cases hr
  | diverge => rw [hp] at hr; cases hr

example : (parserParse env0 nullHandler () 9 9 b!"<!DOCTYPE a [<!ELEMENT a EMPTY>]><a/><?p q?>").view = some (false, none,
    [.setDocumentLocator, .startDocument, .internalSubset [97] [] [], .elementDecl [97] 1 .nil, .externalSubset [97] [] [],
      .startElement [97] [] [] [] [], .endElement [97] [] [], .pi [112] [113], .endDocument]) := by decide +kernel
example : (parserParse env0 nullHandler () 9 9 []).view = some (false, some (.parse (.k .mEmptyDocument)), [.setDocumentLocator]) := by
  decide +kernel

/-! ### C04 -/

/-- **C04.** A notification callback that returns an error is the last callback made, and the result of the parse is that error
(wrapped as an `ErrParseError` unless it is one already). -/
theorem C04_handler_error_aborts (E : Env) (H : Handler σ) (usr : σ) (fuel snl : Nat) (input : Bytes) {doc : Option Nat}
    {e : Option Err} {h : Heap} {tr : List (Ev × HOut)} (hr : parserParse E H usr fuel snl input = .done doc e h tr)
    (pre post : List (Ev × HOut)) (ev : Ev) (e0 : Err) (htr : tr = pre ++ (ev, .err e0) :: post) (hev : ¬ IsLookup ev) :
    post = [] ∧ doc = none ∧ e = some (match e0 with | .parse _ => e0 | _ => .parse e0) := by
  have hl : ¬ ev.lookup := by cases ev <;> simp_all [Ev.lookup, IsLookup]
  have h1 := (TL_wide (H := H) (Q := fun _ => True) (fun _ _ => trivial) (fun _ _ => trivial)).document E fuel snl (initSt usr Heap.empty input)
  have h2 := Wrapped.parseDocument (H := H) E fuel snl (initSt usr Heap.empty input)
  unfold parserParse at hr
  cases hp : parseDocument E H fuel snl (initSt usr Heap.empty input) with
  | ok a s =>
    rw [hp] at hr h1
    cases hr
    obtain ⟨_, m, hm, hg⟩ := h1
    refine absurd ⟨hl, e0, rfl⟩ (hg (ev, .err e0) ?_).2
    have : m = pre ++ (ev, .err e0) :: post := by rw [← htr, hm]; rfl
    rw [this]
    simp
  | err e1 s =>
    rw [hp] at hr h1 h2
    cases hr
    obtain ⟨m, hm, _, hg, hlast⟩ := h1
    have hm' : m = pre ++ (ev, .err e0) :: post := by rw [← htr, hm]; rfl
    have hpost : post = [] := by
      rcases List.eq_nil_or_concat post with rfl | ⟨p, z, rfl⟩
      · rfl
      · refine absurd ⟨hl, e0, rfl⟩ (hg (ev, .err e0) ?_)
        rw [hm', show pre ++ (ev, HOut.err e0) :: p.concat z = (pre ++ (ev, .err e0) :: p) ++ [z] by simp, List.dropLast_concat]
        simp
    subst hpost
    refine ⟨rfl, rfl, ?_⟩
    have := hlast ev e0 (by rw [hm']; simp) hl
    obtain ⟨e', rfl⟩ := h2
    rcases this with h | h
    · subst h; rfl
    · rw [h]
      cases e0 <;> rfl
  | panic => rw [hp] at hr; cases hr
  | diverge => rw [hp] at hr; cases hr

example : (parserParse env0 grumpyHandler () 9 9 b!"<a>t</a>").view = some (false, some (.parse (.user 7)),
    [.setDocumentLocator, .startDocument, .startElement [97] [] [] [] [], .characters [116]]) := by decide +kernel

/-! ### C06 -/

/-- The full claim of C06: text, ignorable white space and CDATA events carry legal XML characters only. -/
def C06_statement (E : Env) : Prop :=
  ∀ (σ : Type) (H : Handler σ) (usr : σ) (fuel snl : Nat) (input : Bytes) (doc : Option Nat) (e : Option Err) (h : Heap)
    (tr : List (Ev × HOut)), parserParse E H usr fuel snl input = .done doc e h tr →
    ∀ x ∈ tr, LegalText x.1 ∧ ∀ d, x.1 = .cdata d → ∃ rs : List Nat, d = encodeRunes rs ∧ ∀ c ∈ rs, XmlChar c

/-- **C06** without CDATA sections. Missing: CDATA sections, which are not checked at all (`C06_refuted`); and a handler that
answers `GetEntity` with an entity that claims to be predefined or has no name can make the parser deliver the content of that
entity, whatever it is. -/
theorem C06_legal_characters_partial (E : Env) (H : Handler σ) (hH : PlainEntities H) (usr : σ) (fuel snl : Nat) (input : Bytes)
    {doc : Option Nat} {e : Option Err} {h : Heap} {tr : List (Ev × HOut)}
    (hr : parserParse E H usr fuel snl input = .done doc e h tr) : ∀ x ∈ tr, LegalText x.1 := by
  have h1 := parseDocument_legal E hH fuel snl (initSt usr Heap.empty input) rfl rfl
  unfold parserParse at hr
  cases hp : parseDocument E H fuel snl (initSt usr Heap.empty input) with
  | ok a s => rw [hp] at hr h1; cases hr; exact h1
  | err e0 s => rw [hp] at hr h1; cases hr; exact h1
  | panic => rw [hp] at hr; cases hr
  | diverge => rw [hp] at hr; cases hr

example : PlainEntities nullHandler := by intro v n c i c' h; simp [nullHandler] at h
example : (parserParse env0 nullHandler () 9 9 b!"<a> x&#65;</a>").view = some (false, none,
    [.setDocumentLocator, .startDocument, .startElement [97] [] [] [] [], .characters [32, 120], .characters [65],
      .endElement [97] [] [], .endDocument]) := by decide +kernel
example : (parserParse env0 nullHandler () 9 9 b!"<a>&lt;</a>").view = some (false, none,
    [.setDocumentLocator, .startDocument, .startElement [97] [] [] [] [], .characters [60],
      .endElement [97] [] [], .endDocument]) := by decide +kernel

theorem cdata_control_char : (parserParse env0 nullHandler () 9 9 (b!"<a><![CDATA[" ++ [1] ++ b!"]]></a>")).view = some (false, none,
    [.setDocumentLocator, .startDocument, .startElement [97] [] [] [] [], .cdata [1], .endElement [97] [] [], .endDocument]) := by
  decide +kernel

/-- **C06 is violated**: a control character in a CDATA section is delivered. -/
theorem C06_refuted : ¬ C06_statement env0 := by
  intro hc
  have hv := cdata_control_char
  cases hp : parserParse env0 nullHandler () 9 9 (b!"<a><![CDATA[" ++ [1] ++ b!"]]></a>") with
  | panic => rw [hp] at hv; cases hv
  | diverge => rw [hp] at hv; cases hv
  | done doc e h tr =>
    rw [hp] at hv
    simp only [ParseRes.view, Option.some.injEq, Prod.mk.injEq] at hv
    have hm : Ev.cdata [1] ∈ tr.map (·.1) := by rw [hv.2.2]; simp
    obtain ⟨x, hx, hx1⟩ := List.mem_map.1 hm
    obtain ⟨rs, h1, h2⟩ := (hc _ _ _ _ _ _ _ _ _ _ hp x hx).2 [1] hx1
    have hs : ∀ r ∈ rs, isScalar r := fun r hr => xmlChar_scalar (h2 r hr)
    have : rs = [1] := by rw [← decodeRunes_encodeRunes rs hs, ← h1]; decide
    subst this
    exact absurd (h2 1 (by simp)) (by decide)

end
end Helium
