import Verif.Props.Sax
import Verif.Lemmas.Forward
/-! Property C23: the UTF-8 byte order mark is transparent. -/
namespace Helium

namespace Spec
/-- the byte order mark of UTF-8. -/
def utf8Bom : Bytes := [0xEF, 0xBB, 0xBF]
/-- the byte order marks `helium` knows: UTF-8, UTF-16 big endian, UTF-16 little endian. -/
def boms : List Bytes := [utf8Bom, [0xFE, 0xFF], [0xFF, 0xFE]]
/-- the first four bytes of a document in a wide encoding (or EBCDIC) without byte order mark: XML 1.0, appendix F. -/
def wideSignatures : List Bytes :=
  [[0, 0, 0, 0x3C], [0x3C, 0, 0, 0], [0, 0, 0x3C, 0], [0, 0x3C, 0, 0], [0x3C, 0, 0x3F, 0], [0, 0x3C, 0, 0x3F],
    [0x4C, 0x6F, 0xA7, 0x94]]
/-- a UTF-8 document without byte order mark: it carries no mark and no signature of another encoding. -/
def PlainUtf8 (b : Bytes) : Prop := ∀ p ∈ boms ++ wideSignatures, ¬ p <+: b
instance (b : Bytes) : Decidable (PlainUtf8 b) := inferInstanceAs (Decidable (∀ p ∈ _, _))
end Spec
open Spec

/-- The full claim of C23: a BOM before a UTF-8 document changes nothing, and detection consumes a BOM or nothing. -/
def C23_statement (E : Env) : Prop :=
  (∀ (σ : Type) (H : Handler σ) (usr : σ) (fuel snl : Nat) (b : Bytes), PlainUtf8 b →
    parserParse E H usr fuel snl (utf8Bom ++ b) = parserParse E H usr fuel snl b) ∧
  (∀ b n r, detectEncoding b = some (n, r) → r = b ∨ ∃ p ∈ boms, b = p ++ r)

/-! ### detection -/

theorem isPrefixOf_iff {p b : Bytes} : p.isPrefixOf b = true ↔ p <+: b := List.isPrefixOf_iff_prefix

theorem detectEncoding_bom (b : Bytes) : detectEncoding (utf8Bom ++ b) = some (b!"utf8", b) := by
  simp [detectEncoding, detectRows, utf8Bom, List.find?, List.isPrefixOf]

/-- a plain UTF-8 document is left alone: nothing is consumed, and the name detected (if any) is utf8. -/
theorem detectEncoding_plain {b : Bytes} (h : PlainUtf8 b) :
    detectEncoding b = none ∨ detectEncoding b = some (b!"utf8", b) := by
  have hn : ∀ p ∈ boms ++ wideSignatures, p.isPrefixOf b = false := fun p hp =>
    Bool.eq_false_iff.2 (fun hc => h p hp (isPrefixOf_iff.1 hc))
  simp only [boms, wideSignatures, utf8Bom, List.cons_append, List.nil_append, List.forall_mem_cons] at hn
  obtain ⟨h1, h2, h3, h4, h5, h6, h7, h8, h9, h10, _⟩ := hn
  unfold detectEncoding detectRows
  simp only [List.find?, h1, h2, h3, h4, h5, h6, h7, h8, h9, h10]
  cases hx : List.isPrefixOf [0x3C, 0x3F, 0x78, 0x6D] b <;> simp

/-- **C23**: the answer does not depend on the order of the tests: no input matches two of the patterns. -/
theorem C23_unambiguous (b : Bytes) (r1 r2 : Bytes × Bool × Bytes) (h1 : r1 ∈ detectRows) (h2 : r2 ∈ detectRows)
    (hp1 : r1.1 <+: b) (hp2 : r2.1 <+: b) : r1 = r2 := by
  have hc : r1.1 <+: r2.1 ∨ r2.1 <+: r1.1 := List.prefix_or_prefix_of_prefix hp1 hp2
  have : ∀ x ∈ detectRows, ∀ y ∈ detectRows, x.1.isPrefixOf y.1 = true ∨ y.1.isPrefixOf x.1 = true → x = y := by decide +kernel
  exact this r1 h1 r2 h2 (hc.imp isPrefixOf_iff.2 isPrefixOf_iff.2)

example : ([0xFF, 0xFE], true, b!"utf16le") ∈ detectRows ∧ [0xFF, 0xFE] <+: [0xFF, 0xFE, 60, 0] := by decide

/-- **C23**: what detection answers, pattern by pattern: the name belongs to a pattern the input begins with. -/
theorem C23_detected (b n r : Bytes) (h : detectEncoding b = some (n, r)) :
    ∃ p consumed, (p, consumed, n) ∈ detectRows ∧ p <+: b ∧ b = (if consumed then p else []) ++ r := by
  unfold detectEncoding at h
  cases hf : detectRows.find? (fun r => r.1.isPrefixOf b) with
  | none => rw [hf] at h; cases h
  | some row =>
    obtain ⟨p, c, name⟩ := row
    rw [hf] at h
    simp only [Option.some.injEq, Prod.mk.injEq] at h
    obtain ⟨rfl, rfl⟩ := h
    have hp : p <+: b := isPrefixOf_iff.1 (by have := List.find?_some hf; simpa using this)
    refine ⟨p, c, List.mem_of_find?_eq_some hf, hp, ?_⟩
    obtain ⟨t, rfl⟩ := hp
    cases c <;> simp

example : detectEncoding [0xFF, 0xFE, 60, 0] = some (b!"utf16le", [60, 0]) := by decide

/-- **C23**, consumption, for inputs that do not start with one of the four-byte signatures of a wide encoding. Missing: those
inputs, whose first characters are swallowed (`C23_refuted`). -/
theorem C23_consumes_bom_partial (b n r : Bytes) (hw : ∀ p ∈ wideSignatures, ¬ p <+: b) (h : detectEncoding b = some (n, r)) :
    (r = b ∧ ∀ p ∈ boms, ¬ p <+: b) ∨ ∃ p ∈ boms, b = p ++ r := by
  obtain ⟨p, c, hm, hp, hb⟩ := C23_detected b n r h
  by_cases hbom : p ∈ boms
  · have : ∀ x ∈ detectRows, x.1 ∈ boms → x.2.1 = true := by decide +kernel
    obtain rfl : c = true := this _ hm hbom
    exact Or.inr ⟨p, hbom, by simpa using hb⟩
  · have : ∀ x ∈ detectRows, x.1 ∉ boms → x.1 ∉ wideSignatures → x.2.1 = false := by decide +kernel
    obtain rfl : c = false := this _ hm hbom (fun hc => hw p hc hp)
    refine Or.inl ⟨by simpa using hb.symm, fun q hq hqp => ?_⟩
    have h2 : ∀ x ∈ detectRows, ∀ q ∈ boms, q ≠ x.1 → q.isPrefixOf x.1 = false ∧ x.1.isPrefixOf q = false := by decide +kernel
    have h3 := h2 _ hm q hq (fun hc => hbom (by rw [hc] at hq; exact hq))
    rcases List.prefix_or_prefix_of_prefix hqp hp with h4 | h4
    · rw [isPrefixOf_iff.2 h4] at h3; exact absurd h3.1 (by simp)
    · rw [isPrefixOf_iff.2 h4] at h3; exact absurd h3.2 (by simp)

example : (∀ p ∈ wideSignatures, ¬ p <+: [0xEF, 0xBB, 0xBF, 60]) ∧ detectEncoding [0xEF, 0xBB, 0xBF, 60] = some (b!"utf8", [60]) := by
  decide

/-! ### the whole parse -/

section
variable {σ : Type}

theorem parseHead_bom (E : Env) (H : Handler σ) (s : St σ) (he : s.encoding = []) (hd : s.detected = b!"utf8") {b : Bytes} (hb : PlainUtf8 b) :
    parseHead E H { s with cur := utf8Bom ++ b } = parseHead E H { s with cur := b } ∨
    ∃ e, ∃ t : St σ, parseHead E H { s with cur := utf8Bom ++ b } = .err e { t with cur := utf8Bom ++ b } ∧
      parseHead E H { s with cur := b } = .err e { t with cur := b } := by
  have hp := detectEncoding_plain hb
  have hq := detectEncoding_bom b
  have hcb : ∀ c, cb H .setDocumentLocator { s with cur := c } =
      (match (H s.view .setDocumentLocator s.hc).1 with
        | .ok | .ent _ | .unspecified => .ok () { cbSt H .setDocumentLocator s with cur := c }
        | .err e => .err (wrapErr e) { cbSt H .setDocumentLocator s with cur := c }
        | .panic => .panic
        | .diverge => .diverge) := by
    intro c
    show (match (H s.view .setDocumentLocator s.hc).1 with
        | .ok | .ent _ | .unspecified => (pure () : P σ Unit)
        | .err e => M.fail (wrapErr e)
        | .panic => M.panic
        | .diverge => M.diverge) { cbSt H .setDocumentLocator s with cur := c } = _
    cases (H s.view .setDocumentLocator s.hc).1 <;> rfl
  have hstep : ∀ (t : St σ) (f : P σ Unit), t.encoding = [] → t.detected = b!"utf8" →
      (do
        let s ← M.get
        if s.encoding = [] then
          match detectEncoding s.cur with
          | some (n, r) => M.modify (fun s => { s with detected := n, cur := r }); f
          | none => f
        else f : P σ Unit) { t with cur := utf8Bom ++ b } =
      (do
        let s ← M.get
        if s.encoding = [] then
          match detectEncoding s.cur with
          | some (n, r) => M.modify (fun s => { s with detected := n, cur := r }); f
          | none => f
        else f : P σ Unit) { t with cur := b } := by
    intro t f h1 h2
    cases t
    simp only at h1 h2
    subst h1 h2
    run
    simp only [if_true, hq]
    rcases hp with h | h <;> rw [h] <;> rfl
  unfold parseHead
  have hgo : cb H .setDocumentLocator { s with cur := utf8Bom ++ b } = .ok () { cbSt H .setDocumentLocator s with cur := utf8Bom ++ b } →
      cb H .setDocumentLocator { s with cur := b } = .ok () { cbSt H .setDocumentLocator s with cur := b } →
      parseHead E H { s with cur := utf8Bom ++ b } = parseHead E H { s with cur := b } := by
    intro h1 h2
    unfold parseHead
    rw [bind_run h1, bind_run h2]
    exact hstep (cbSt H .setDocumentLocator s) _ he hd
  have h1 := hcb (utf8Bom ++ b)
  have h2 := hcb b
  cases hr : (H s.view .setDocumentLocator s.hc).1 <;> rw [hr] at h1 h2
  case err e => exact Or.inr ⟨_, _, bind_run_err h1, bind_run_err h2⟩
  case panic => exact Or.inl ((bind_run_panic h1).trans (bind_run_panic h2).symm)
  case diverge => exact Or.inl ((bind_run_diverge h1).trans (bind_run_diverge h2).symm)
  all_goals exact Or.inl (hgo h1 h2)

/-- **C23**: a byte order mark before a UTF-8 document changes nothing, whatever the handler. -/
theorem C23_bom_transparent (E : Env) (H : Handler σ) (usr : σ) (fuel snl : Nat) (b : Bytes) (hb : PlainUtf8 b) :
    parserParse E H usr fuel snl (utf8Bom ++ b) = parserParse E H usr fuel snl b := by
  unfold parserParse parseDocument
  rcases parseHead_bom E H (initSt usr Heap.empty b) rfl rfl hb with h | ⟨e, t, h1, h2⟩
  · have h' : parseHead E H (initSt usr Heap.empty (utf8Bom ++ b)) = parseHead E H (initSt usr Heap.empty b) := h
    have : ∀ (f : Unit → P σ Unit), (parseHead E H >>= f) (initSt usr Heap.empty (utf8Bom ++ b)) = (parseHead E H >>= f) (initSt usr Heap.empty b) := by
      intro f
      show M.bind _ _ _ = M.bind _ _ _
      unfold M.bind
      rw [h']
    rw [this]
  · have h1' : parseHead E H (initSt usr Heap.empty (utf8Bom ++ b)) = .err e { t with cur := utf8Bom ++ b } := h1
    have h2' : parseHead E H (initSt usr Heap.empty b) = .err e { t with cur := b } := h2
    rw [bind_run_err h1', bind_run_err h2']

end

example : PlainUtf8 b!"<?xml version='1.0'?><a>t</a>" := by decide

/-- **C23 is violated**: the first two characters of a UTF-16 document without byte order mark are swallowed by detection. -/
theorem C23_refuted (E : Env) : ¬ C23_statement E := by
  intro h
  have h1 := h.2 [0x3C, 0, 0x3F, 0, 0x78, 0] b!"utf16le" [0x78, 0] (by decide)
  revert h1
  decide

end Helium
