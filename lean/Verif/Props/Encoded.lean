import Verif.Lemmas.EncodedRun
import Verif.Lemmas.ValueFrame
import Verif.Props.Total
import Verif.Props.Small
import Verif.Props.Dump
/-! C63 (documents in other encodings), C64 (encoding of serialised documents), C65 (names of encodings). -/
namespace Helium
open Spec

/-! ## C65 -/

/-- **C65**, what the library takes: a name loads a character set exactly if it is one of its spellings, up to letter case. -/
theorem C65_spellings_partial (e : Bytes) (cs : Charset) : encLoad e = some cs ↔ ∃ n ∈ spellings cs, CaseEq e n := by
  have h1 : ∀ p ∈ encTable, p.1 ∈ spellings p.2 := by decide +kernel
  constructor
  · intro h
    unfold encLoad at h
    exact ⟨_, h1 _ (mapGet_mem h), caseEq_lower e⟩
  · rintro ⟨n, hn, hc⟩
    unfold encLoad
    rw [hc.lower]
    revert n
    cases cs <;> intro n hn _ <;> simp only [spellings, List.mem_cons, List.not_mem_nil, or_false] at hn <;>
      rcases hn with rfl | rfl | rfl | rfl <;> rfl

/-- the full claim: a character set the library knows is found under its registered name. -/
def C65_statement : Prop := ∀ cs, encLoad (registered cs) = some cs

/-- the character sets of which this is true. -/
def wellNamed : List Charset := [.utf8, .eucJP, .shiftJIS, .iso2022JP, .big5, .eucKR, .iso8859_2, .iso8859_3, .iso8859_4, .iso8859_5, .iso8859_6,
  .iso8859_7, .iso8859_8, .iso8859_10, .iso8859_13, .iso8859_14, .iso8859_15, .iso8859_16, .macintosh]

/-- **C65** for these; the registered names of all others are refused. -/
theorem C65_registered_partial (cs : Charset) : encLoad (registered cs) = if cs ∈ wellNamed then some cs else none := by
  cases cs <;> decide +kernel

/-- **C65** fails: `KOI8-R` and `windows-1251` are refused. -/
theorem C65_refuted : ¬ C65_statement := fun h => by
  have := h .win1251
  rw [C65_registered_partial] at this
  revert this
  decide

/-- no two character sets share a name. -/
theorem C65_distinct (e : Bytes) (a b : Charset) (n m : Bytes) (hn : n ∈ spellings a) (hm : m ∈ spellings b) (h1 : CaseEq e n) (h2 : CaseEq e m) : a = b :=
  Option.some.inj (((C65_spellings_partial e a).2 ⟨n, hn, h1⟩).symm.trans ((C65_spellings_partial e b).2 ⟨m, hm, h2⟩))

example : encLoad b!"Shift_JIS" = some .shiftJIS := (C65_spellings_partial _ _).2 ⟨b!"shift_jis", by decide, caseEq_lower b!"Shift_JIS"⟩

/-! ## C63 -/

/-- the XML declaration names `cs`, or nothing, which means UTF-8. -/
def Declares (e : Bytes) (cs : Charset) : Prop := e = [] ∧ cs = .utf8 ∨ e ≠ [] ∧ ∃ n ∈ spellings cs, CaseEq e n

theorem declares_encodingOf {e : Bytes} {cs : Charset} (h : Declares e cs) : encodingOf e = some cs := by
  unfold encodingOf
  rcases h with ⟨rfl, rfl⟩ | ⟨h1, h2⟩
  · rfl
  · rw [if_neg h1]
    exact (C65_spellings_partial e cs).2 h2

/-- budgets that suffice for all that can be read from `b` in the character set `cs`. -/
theorem budget_exists (E : Env) (cs : Charset) (b : Bytes) : ∃ N, ∀ r, r <:+ b → (encodeRunes (E.decode cs r)).length + 1 < N := by
  obtain ⟨N, hN⟩ := bound_suffix (fun r => (encodeRunes (E.decode cs r)).length) b
  exact ⟨N + 2, fun r hr => by have := hN r hr; omega⟩

/-- **C63** for handlers that never fail: a document in any of the encodings the library knows is accepted, and the handler is told what the
document says. -/
theorem C63_events {σ : Type} (E : Env) {H : Handler σ} (hH : ∀ v ev c, Took (H v ev c).1) {b v e : List Nat} {sd : Int} {cs : Charset} {evs : List Ev}
    (h : EncodedDocument E cs b v e sd evs) (hcs : Declares e cs) (usr : σ) :
    ∃ N, ∀ fuel snl, N ≤ fuel → ∃ doc heap tr, parserParse E H usr fuel snl b = .done doc none heap tr ∧ tr.map (fun x => plainEv x.1) = evs := by
  obtain ⟨N, hN⟩ := budget_exists E cs b
  refine ⟨N, fun fuel snl hf => ?_⟩
  obtain ⟨s, h1, h2, _⟩ := encoded_run (willing_of_took hH N _) h (declares_encodingOf hcs) usr fuel snl trivial
    (fun r hr => by have := hN r hr; have := encodeRunes_len (E.decode cs r); omega) hN
  refine ⟨s.hc.doc, s.hc.heap, s.trace, ?_, h2⟩
  unfold parserParse
  rw [h1]

/-- **C63** for `Parse`: the tree returned is that of the decoded text, and the document remembers version, encoding and standalone status. -/
theorem C63_tree (E : Env) {b v e : List Nat} {sd : Int} {cs : Charset} {evs : List Ev} (h : EncodedDocument E cs b v e sd evs) (hcs : Declares e cs) :
    ∃ N, ∀ fuel, N ≤ fuel → ∃ d heap tr x, parse E fuel b = .done (some d) none heap tr ∧ tr.map (fun x => plainEv x.1) = evs ∧
      treeOf (evs.filter notCData) = some x ∧ HoldsDoc heap d x ∧
      (heap.at' d).version = v ∧ (heap.at' d).encoding = e ∧ (heap.at' d).standalone = sd := by
  obtain ⟨N, hN⟩ := budget_exists E cs b
  refine ⟨N, fun fuel hf => ?_⟩
  have hfu : ∀ r, r <:+ b → (encodeRunes (E.decode cs r)).length + 1 < fuel := fun r hr => by have := hN r hr; omega
  obtain ⟨s, h1, h2, h3, ⟨dn, st, I, _, hi⟩⟩ := encoded_run (treeBuilder_willing fuel ⟨v, e, sd, 0⟩) h (declares_encodingOf hcs) () fuel fuel ⟨rfl, rfl⟩
    (fun r hr => by have := hfu r hr; have := encodeRunes_len (E.decode cs r); omega) hfu
  have hp : parse E fuel b = .done s.hc.doc none s.hc.heap s.trace := by
    unfold parse parserParse
    rw [h1]
  have hev : ∀ ev ∈ evs, ¬ IsDoctype ev := by
    obtain ⟨d, body, m1, root, m2, e1, e2, e3, used, rfl, _, _, hm1, hroot, hm2, rfl⟩ := h
    intro ev hev
    simp only [List.mem_append, List.mem_cons, List.not_mem_nil, or_false] at hev
    rcases hev with (rfl | rfl) | hev | hev | hev | rfl
    · exact id
    · exact id
    · exact misc_events hm1 ev hev
    · exact src_events hroot ev hev
    · exact misc_events hm2 ev hev
    · exact id
  have hnd : ∀ ev ∈ s.trace.map (·.1), ¬ IsDoctype ev := by
    intro ev he
    obtain ⟨y, hy, rfl⟩ := List.mem_map.1 he
    have h5 := hev (plainEv y.1) (by rw [← h2]; exact List.mem_map.2 ⟨y, hy, rfl⟩)
    intro h6
    apply h5
    obtain ⟨ev, o⟩ := y
    cases ev <;> first | exact h6 | exact absurd h6 id
  obtain ⟨d, x, k1, k2, k3⟩ := C45_tree_partial E fuel fuel fuel () b hp hnd
  have hd : s.hc.doc = some dn := by obtain ⟨a, fs, i1, _⟩ := I; exact i1
  have : d = dn := by rw [hd] at k1; cases k1; rfl
  subst this
  rw [hd] at hp
  refine ⟨d, s.hc.heap, s.trace, x, hp, h2, ?_, k3, congrArg Node.version hi, congrArg Node.encoding hi, congrArg Node.standalone hi⟩
  have h6 : s.trace.map (fun x => plainEv x.1) = (s.trace.map (·.1)).map plainEv := by rw [List.map_map]; rfl
  rw [← h2, ← k2, h6, plainEv_treeOf]

/-- two documents with the same text, in different encodings, are reported alike. -/
theorem C63_same_report {σ : Type} (E : Env) {H : Handler σ} (hH : ∀ v ev c, Took (H v ev c).1) {b1 b2 v1 v2 e1 e2 : List Nat} {sd1 sd2 : Int} {c1 c2 : Charset}
    {evs : List Ev} (h1 : EncodedDocument E c1 b1 v1 e1 sd1 evs) (h2 : EncodedDocument E c2 b2 v2 e2 sd2 evs) (g1 : Declares e1 c1) (g2 : Declares e2 c2) (usr : σ) :
    ∃ N, ∀ fuel snl, N ≤ fuel → ∃ d1 p1 t1 d2 p2 t2, parserParse E H usr fuel snl b1 = .done d1 none p1 t1 ∧ parserParse E H usr fuel snl b2 = .done d2 none p2 t2 ∧
      t1.map (fun x => plainEv x.1) = t2.map (fun x => plainEv x.1) := by
  obtain ⟨N1, k1⟩ := C63_events E hH h1 g1 usr
  obtain ⟨N2, k2⟩ := C63_events E hH h2 g2 usr
  refine ⟨max N1 N2, fun fuel snl hf => ?_⟩
  obtain ⟨d1, p1, t1, a1, a2⟩ := k1 fuel snl (by omega)
  obtain ⟨d2, p2, t2, a3, a4⟩ := k2 fuel snl (by omega)
  exact ⟨d1, p1, t1, d2, p2, t2, a1, a3, a2.trans a4.symm⟩

/-! ## an environment with windows-1252 -/

/-- like `env0`, with the decoder of windows-1252. -/
def envW : Env := { env0 with
  decode := fun cs b => if cs = .win1252 then b.map win1252 else decodeRunes b
  decode_utf8 := fun rs h => by rw [if_neg (by decide)]; exact decodeRunes_encodeRunes rs h }

/-- `<?xml version="1.0" encoding="ISO-8859-1"?>` -/
def latinDecl : Bytes := b!"<?xml version=\"1.0\" encoding=\"ISO-8859-1\"?>"

theorem latinDecl_xmlDecl : XmlDeclAny latinDecl b!"1.0" b!"ISO-8859-1" (-2) :=
  ⟨b!" version=\"1.0\"", b!" encoding=\"ISO-8859-1\"", [], rfl, ⟨49, b!"0", by decide, by decide, by decide, rfl⟩,
    ⟨b!" ", [], [], 34, by decide, by decide, by decide, by decide, Or.inl rfl, rfl⟩,
    Or.inr ⟨⟨73, b!"SO-8859-1", rfl, by unfold AsciiLetter; decide, by unfold AsciiLetter; decide⟩,
      ⟨b!" ", [], [], 34, by decide, by decide, by decide, by decide, Or.inl rfl, rfl⟩⟩, Or.inl ⟨rfl, rfl⟩⟩

theorem latin_declares : Declares b!"ISO-8859-1" .win1252 := .inr ⟨by decide, b!"iso-8859-1", by decide, caseEq_lower b!"ISO-8859-1"⟩

theorem ncnameW (c : Nat) (h1 : 97 ≤ c) (h2 : c ≤ 122) : NCName envW [c] := by
  have hl : envW.isLetter c = true := by
    rw [envW.letter_ascii c (by omega)]
    simp; omega
  refine ⟨⟨c, [], rfl, Or.inl hl⟩, fun x hx => ?_, by simp⟩
  simp at hx
  subst hx
  exact ⟨Or.inl hl, by omega⟩

/-- the events of `<a>w</a>`. -/
def aEvents (w : List Nat) : List Ev :=
  [.setDocumentLocator, .startDocument, .startElement b!"a" [] [] [] [], .characters (encodeRunes w), .endElement b!"a" [] [], .endDocument]

/-- `<a>w</a>` in ISO-8859-1. -/
theorem latin_encoded {w : Bytes} {z : List Nat} (hz : w.map win1252 = z) (hc : Spec.CharData z) (hl : unixLines z = z) (hp : ¬ b!"/>" <+: z) (m1 m2 : Bytes)
    (h1 : ∀ c ∈ m1, c = 10) (h2 : ∀ c ∈ m2, c = 10) :
    EncodedDocument envW .win1252 (latinDecl ++ (m1 ++ ((b!"<a>" ++ (w ++ b!"</a>")) ++ m2))) b!"1.0" b!"ISO-8859-1" (-2) (aEvents z) := by
  have hm : ∀ m : Bytes, (∀ c ∈ m, c = 10) → m.map win1252 = m ∧ Misc envW m [] := by
    intro m
    induction m with
    | nil => exact fun _ => ⟨rfl, .nil⟩
    | cons c m ih =>
      intro h
      have hc := h c (by simp)
      subst hc
      obtain ⟨a, b⟩ := ih (fun c hc => h c (by simp [hc]))
      exact ⟨by rw [List.map_cons, a]; rfl, .space (by decide) b⟩
  have k0 := Src.text (E := envW) (scope := []) (used := []) (l := z) (r := []) hc (by simp) .nil
  rw [List.append_nil] at k0
  have root := Src.full (E := envW) (scope := []) (used := []) (n := b!"a") (p := []) (l := b!"a") (u := []) (a := [])
    ⟨ncnameW 97 (by decide) (by decide), Or.inl ⟨rfl, rfl⟩⟩ (.nil (by decide)) (by decide) (Or.inl ⟨rfl, rfl, by simp⟩) k0 hp
  refine ⟨latinDecl, _, m1, _, m2, [], _, [], _, rfl, latinDecl_xmlDecl, ?_, (hm m1 h1).2, root, (hm m2 h2).2, ?_⟩
  · show List.map win1252 _ = _
    rw [List.map_append, List.map_append, (hm m1 h1).1, (hm m2 h2).1, List.map_append, List.map_append, hz]
    rfl
  · rw [hl]
    rfl

/-- a document in ISO-8859-1 that meets the hypotheses of `C63_tree`. -/
theorem latin_sample : EncodedDocument envW .win1252 (latinDecl ++ b!"<a>" ++ (0xE9 :: b!"</a>")) b!"1.0" b!"ISO-8859-1" (-2) (aEvents [0xE9]) :=
  latin_encoded (w := [0xE9]) (z := [0xE9]) (by decide) ⟨by decide, by decide, by decide, noLoneCR_of (by decide)⟩ (by decide) (by decide) [] [] (by simp) (by simp)

/-! ## C64 -/

/-- the full claim, for ISO-8859-1: what is written for a document that says `encoding="ISO-8859-1"` is read back as it was. -/
def C64_statement : Prop := ∀ (E : Env) (x : XTree) (h : Heap) (d : Nat), (∀ b, E.decode .win1252 b = b.map win1252) → PlainDoc E x → HoldsDoc h d x →
  Version (h.at' d).version → (h.at' d).encoding = b!"ISO-8859-1" →
  ∃ out, xmlString h d = .ok () out ∧ ∃ N, ∀ fuel, N ≤ fuel → ∃ d' heap' tr, parse E fuel out = .done (some d') none heap' tr ∧ HoldsDoc heap' d' x

/-- the tree of `<a>é</a>`. -/
def eAcute : XTree := .node (.elem b!"a" [] [] [] []) (.node (.text (encodeRunes [0xE9])) .nil .nil) .nil

theorem eAcute_plain : PlainDoc envW eAcute :=
  ⟨.root (.elem (n := b!"a") (p := []) (l := b!"a") (ds := []) (u := []) ⟨⟨ncnameW 97 (by decide) (by decide), Or.inl ⟨rfl, rfl⟩⟩, by decide⟩ (Or.inl (by simp)) (by simp)
    (by decide) (Or.inl ⟨rfl, rfl, by simp⟩) (.text (w := [0xE9]) (by decide) (by decide) (by decide) id .nil) .nil) .nil, by decide⟩

/-- **C64** fails: the serialiser writes UTF-8, whatever encoding it declares. `<a>é</a>` in ISO-8859-1 is read back as `<a>Ã©</a>`. -/
theorem C64_refuted : ¬ C64_statement := by
  intro hs
  obtain ⟨N, hN⟩ := C63_tree envW latin_sample latin_declares
  obtain ⟨d, h, tr, x, k1, k2, k3, k4, k5, k6, k7⟩ := hN N (Nat.le_refl _)
  have hx : x = eAcute := by
    have : treeOf ((aEvents [0xE9]).filter notCData) = some eAcute := by decide +kernel
    rw [this] at k3
    cases k3
    rfl
  subst hx
  obtain ⟨out, h1, N1, h2⟩ := hs envW eAcute h d (fun b => by simp [envW]) eAcute_plain k4 (by rw [k5]; exact ⟨b!"0", by decide, by decide, rfl⟩) k6
  have h3 := xmlString_run k4 (plainTop_dumpable eAcute_plain.1)
  rw [h3] at h1
  have hout : out = latinDecl ++ (b!"\n" ++ ((b!"<a>" ++ ([0xC3, 0xA9] ++ b!"</a>")) ++ b!"\n")) := by
    cases h1
    unfold dumpDocContent
    rw [k5, k6, k7]
    decide +kernel
  subst hout
  obtain ⟨N2, hN2⟩ := C63_tree envW (latin_encoded (w := [0xC3, 0xA9]) (z := [0xC3, 0xA9]) (by decide) ⟨by decide, by decide, by decide, noLoneCR_of (by decide)⟩
    (by decide) (by decide) b!"\n" b!"\n" (by decide) (by decide)) latin_declares
  obtain ⟨d1, h4, t4, x4, a1, _, a3, a4, _⟩ := hN2 (max N1 N2) (Nat.le_max_right _ _)
  obtain ⟨d2, h5, t5, b1, b2⟩ := h2 (max N1 N2) (Nat.le_max_left _ _)
  rw [a1] at b1
  cases b1
  have hx : treeOf ((aEvents [0xC3, 0xA9]).filter notCData) =
      some (.node (.elem b!"a" [] [] [] []) (.node (.text (encodeRunes [0xC3, 0xA9])) .nil .nil) .nil) := by decide +kernel
  rw [hx] at a3
  cases a3
  have e1 := xmlString_run a4 ⟨by simp, ⟨by decide, trivial, trivial⟩, trivial⟩
  rw [xmlString_run b2 (plainTop_dumpable eAcute_plain.1)] at e1
  injection e1 with _ e1
  have := List.append_cancel_left e1
  revert this
  decide +kernel

/-- **C64** where all that is written is ASCII and the decoder leaves ASCII alone: any encoding the library knows survives. -/
theorem C64_ascii_partial (E : Env) {x : XTree} (hx : PlainDoc E x) {h : Heap} {d : Nat} (H : HoldsDoc h d x) {cs : Charset}
    (hv : (h.at' d).version = [] ∨ VersionNum (h.at' d).version) (he : (h.at' d).encoding = [] ∨ EncName (h.at' d).encoding)
    (hcs : Declares (h.at' d).encoding cs) (hd : ∀ b, (∀ c ∈ b, c < 128) → E.decode cs b = b) (ha : ∀ c ∈ writtenTop x, c < 128) :
    ∃ out, xmlString h d = .ok () out ∧ ∃ N, ∀ fuel, N ≤ fuel → ∃ d' heap' tr, parse E fuel out = .done (some d') none heap' tr ∧ HoldsDoc heap' d' x ∧
      (heap'.at' d').version = writtenVersion (h.at' d) ∧ (heap'.at' d').encoding = (h.at' d).encoding ∧
      (heap'.at' d').standalone = writtenStandalone (h.at' d) := by
  obtain ⟨m1, root, m2, e1, e2, e3, used, h1, h2, h3, h4, h5, h6, h7⟩ := top_src hx.1 rfl hx.2
  obtain ⟨t, ht, hdecl⟩ := dumpDoc_xmlDecl (h.at' d) hv he
  refine ⟨_, xmlString_run H (plainTop_dumpable hx.1), ?_⟩
  have hrs : m1 ++ (root ++ m2) = writtenTop x := by
    have : decodeRunes (encodeRunes (m1 ++ (root ++ m2))) = decodeRunes (writtenTop x) := by rw [h4]
    rw [decodeRunes_encodeRunes _ (fun c hc => (h5 c hc).scalar)] at this
    rw [this, ← encodeRunes_ascii (writtenTop x) ha, decodeRunes_encodeRunes _ (fun c hc => by have := ha c hc; unfold isScalar; omega), encodeRunes_ascii (writtenTop x) ha]
  have hdoc : EncodedDocument E cs (dumpDocContent (h.at' d) ++ writtenTop x) (writtenVersion (h.at' d)) (h.at' d).encoding (writtenStandalone (h.at' d))
      ([Ev.setDocumentLocator, .startDocument] ++ (e1 ++ (e2 ++ (e3 ++ [Ev.endDocument])))) := by
    refine ⟨t, 10 :: writtenTop x, 10 :: m1, root, m2, e1, e2, e3, used, by rw [ht]; simp, hdecl, ?_, .space (by decide) h1, h2, h3, rfl⟩
    rw [hd _ (by intro c hc; rcases List.mem_cons.1 hc with rfl | hc; decide; exact ha c hc), ← hrs]
    rfl
  obtain ⟨N, hN⟩ := C63_tree E hdoc hcs
  refine ⟨N, fun fuel hf => ?_⟩
  obtain ⟨d', heap', tr, y, k1, _, k3, k4, k5, k6, k7⟩ := hN fuel hf
  have hf : ([Ev.setDocumentLocator, .startDocument] ++ (e1 ++ (e2 ++ (e3 ++ [Ev.endDocument])))).filter notCData =
      [Ev.setDocumentLocator, .startDocument] ++ (e1 ++ (e2 ++ (e3 ++ [Ev.endDocument]))) := by
    rw [List.filter_eq_self]
    intro ev hev
    simp only [List.mem_append, List.mem_cons, List.not_mem_nil, or_false] at hev
    have h6' : ∀ ev, ev ∈ e1 ∨ ev ∈ e2 ∨ ev ∈ e3 → notCData ev = true := fun ev h => h6 ev (by simpa using h)
    rcases hev with (rfl | rfl) | hev | hev | hev | rfl
    · rfl
    · rfl
    · exact h6' ev (Or.inl hev)
    · exact h6' ev (Or.inr (Or.inl hev))
    · exact h6' ev (Or.inr (Or.inr hev))
    · rfl
  have hy : treeOf (([Ev.setDocumentLocator, .startDocument] ++ (e1 ++ (e2 ++ (e3 ++ [Ev.endDocument])))).filter notCData) = some x := by
    rw [hf]
    unfold treeOf
    have : Partial.steps ⟨[], .nil⟩ ([Ev.setDocumentLocator, .startDocument] ++ (e1 ++ (e2 ++ (e3 ++ [Ev.endDocument])))) = some ⟨[], x⟩ := by
      rw [steps_append]
      show Partial.steps ⟨[], .nil⟩ (e1 ++ (e2 ++ (e3 ++ [Ev.endDocument]))) = _
      rw [show e1 ++ (e2 ++ (e3 ++ [Ev.endDocument])) = (e1 ++ (e2 ++ e3)) ++ [.endDocument] by simp, steps_append, h7]
      rfl
    rw [this]
  rw [hy] at k3
  cases k3
  exact ⟨d', heap', tr, k1, k4, k5, k6, k7⟩

/-- the ISO-8859-1 document `<a>hi</a>` meets the hypotheses of `C64_ascii_partial`. -/
example (h : Heap) (d : Nat) (H : HoldsDoc h d (.node (.elem b!"a" [] [] [] []) (.node (.text (encodeRunes b!"hi")) .nil .nil) .nil))
    (hv : (h.at' d).version = b!"1.0") (he : (h.at' d).encoding = b!"ISO-8859-1") : ∃ out, xmlString h d = .ok () out := by
  obtain ⟨out, h1, _⟩ := C64_ascii_partial envW (x := .node (.elem b!"a" [] [] [] []) (.node (.text (encodeRunes b!"hi")) .nil .nil) .nil)
    ⟨.root (.elem (n := b!"a") (p := []) (l := b!"a") (ds := []) (u := []) ⟨⟨ncnameW 97 (by decide) (by decide), Or.inl ⟨rfl, rfl⟩⟩, by decide⟩ (Or.inl (by simp)) (by simp)
      (by decide) (Or.inl ⟨rfl, rfl, by simp⟩) (.text (w := b!"hi") (by decide) (by decide) (by decide) id .nil) .nil) .nil, by decide⟩ H
    (cs := .win1252) (.inr (by rw [hv]; exact ⟨49, b!"0", by decide, by decide, by decide, rfl⟩))
    (.inr (by rw [he]; exact ⟨73, b!"SO-8859-1", rfl, by unfold AsciiLetter; decide, by unfold AsciiLetter; decide⟩)) (by rw [he]; exact latin_declares)
    (fun b hb => by
      have e : envW.decode .win1252 b = b.map win1252 := by simp [envW]
      rw [e]
      conv => rhs; rw [← List.map_id b]
      exact List.map_congr_left fun c hc => by
        have := hb c hc
        exact if_neg (by omega)) (by decide +kernel)
  exact ⟨out, h1⟩

end Helium
