import Verif.Lemmas.ContentDump
import Verif.Lemmas.KernelRfl
import Verif.Model.StdEnv
import Verif.Props.Sax
/-! Element type declarations: reported as written (C53), and kept by serialisation (C35). -/
namespace Helium
open Spec

/-- the declaration at the start of `t` is reported as type `typ` and model `e` for the element type `n`; `r` is left to read. -/
def ReadsAs (E : Env) (t : List Nat) (n : Bytes) (typ : Nat) (e : EC) (r : List Nat) : Prop :=
  ∀ {σ : Type} (H : Handler σ) (s : St σ), s.cur = t → parseElementDecl E H s = cb H (.elementDecl n typ e) { s with cur := r }

/-- the node made for a declaration (/repo/dtd.go:46-152; C33). -/
def declNode (n : Bytes) (typ : Nat) (e : EC) : Node :=
  { kind := .elemDecl, name := (splitColon n).2, pfx := (splitColon n).1, declType := typ, ec := e }

/-- does a run end in an error? -/
def Out.isErr {S α : Type} : Out S α → Bool
  | .err _ _ => true
  | _ => false

theorem ReadsAs.not_err {E : Env} {t : List Nat} {n : Bytes} {typ : Nat} {e : EC} {r : List Nat} (h : ReadsAs E t n typ e r) :
    (parseElementDecl E nullHandler (initSt () Heap.empty t)).isErr = false := by
  rw [h nullHandler _ rfl]; rfl

/-! ### C53: element type declarations are reported as written -/

/-- C53 for element type declarations: whatever follows the declaration, the handler is told its name, type and content model, and the
declaration is consumed. Missing: groups beginning with a group, groups with `*` or `+`, mixed content with more than one name or with
white space after `#PCDATA` (see the witnesses below). -/
theorem C53_element_partial (E : Env) {n : List Nat} {typ : Nat} {e : EC} {t : List Nat} (h : ElementText E n typ e t) (r : List Nat) :
    ReadsAs E (t ++ r) (encodeRunes n) typ e r := fun H s hs => element_run E H h s hs

section Example

theorem letters_name {n : List Nat} (h0 : n ≠ []) (h : ∀ c ∈ n, 97 ≤ c ∧ c ≤ 122) (hl : n.length < 50000) : Name env0 n := by
  have hc : ∀ c ∈ n, env0.isLetter c = true := by
    intro c hc
    have := h c hc
    rw [env0.letter_ascii c (by omega)]; simp; omega
  obtain ⟨c, t, rfl⟩ := List.exists_cons_of_ne_nil h0
  exact ⟨⟨c, t, rfl, .inl (hc c (by simp))⟩, fun x hx => .inl (hc x hx), hl⟩

theorem letters_named {n : List Nat} (h0 : n ≠ []) (h : ∀ c ∈ n, 97 ≤ c ∧ c ≤ 122) (hl : n.length < 50000) : Named env0 n [] n :=
  ⟨letters_name h0 h hl, .inl ⟨rfl, fun h1 => by have := h 58 h1; omega, rfl⟩⟩

/-- `<!ELEMENT list ( head , (item | note?)?, end+)? >` -/
def sampleDecl : List Nat := b!"<!ELEMENT list ( head , (item | note?)?, end+)? >"

/-- its content model. -/
def sampleModel : EC :=
  .mk 3 2 [] [] (.mk 2 1 b!"head" [] .nil .nil) (.mk 3 1 [] []
    (.mk 4 2 [] [] (.mk 2 1 b!"item" [] .nil .nil) (.mk 2 2 b!"note" [] .nil .nil)) (.mk 2 4 b!"end" [] .nil .nil))

theorem sample_decl : ElementText env0 b!"list" 4 sampleModel sampleDecl := by
  have n0 : Named env0 b!"head" [] b!"head" := letters_named (by decide) (by decide) (by decide)
  have n1 : Named env0 b!"item" [] b!"item" := letters_named (by decide) (by decide) (by decide)
  have n2 : Named env0 b!"note" [] b!"note" := letters_named (by decide) (by decide) (by decide)
  have n3 : Named env0 b!"end" [] b!"end" := letters_named (by decide) (by decide) (by decide)
  have g1 : ModelText env0 .group 1 _ b!"item | note?" :=
    .several (w1 := [32]) (w2 := [32]) (b := true) n1 .once (by decide) (by decide) (.last (ws := []) (.name n2 .opt) (by decide))
  have g2 : ModelText env0 .member 0 _ b!"(item | note?)?" := .parenOpt (ws := []) (by decide) (by decide) g1 rfl
  have g3 : ModelText env0 (.others false) 0 _ b!"(item | note?)?, end+" :=
    .more (w1 := []) (w2 := [32]) g2 (by decide) (by decide) (.last (ws := []) (.name n3 .plus) (by decide))
  have g4 : ModelText env0 .group 0 _ b!"head , (item | note?)?, end+" := .several (w1 := [32]) (w2 := [32]) n0 .once (by decide) (by decide) g3
  exact ⟨[32], [32], [32], b!"( head , (item | note?)?, end+)?", by decide, by decide, by decide, by decide, by decide,
    letters_name (by decide) (by decide) (by decide), .childrenOpt (ws := [32]) (by decide) g4 rfl, rfl⟩

example : ReadsAs env0 (sampleDecl ++ b!"]>") b!"list" 4 sampleModel b!"]>" := C53_element_partial env0 sample_decl _

end Example

/-! What is missing from C53: declarations that XML allows and that are reported otherwise, or refused. -/

/-- a group as the first member is lost. -/
theorem C53_first_group_lost : ∀ {σ : Type} (H : Handler σ) (s : St σ), s.cur = b!"<!ELEMENT e ((a|b),c)>" →
    parseElementDecl env0 H s = cb H (.elementDecl b!"e" 4 (.mk 3 1 [] [] .nil (.mk 2 1 b!"c" [] .nil .nil))) { s with cur := [] } := by
  intro σ H s hs
  cases s
  simp only at hs
  subst hs
  kernel_rfl

/-- `(a*)?` is taken for `(a)?`. -/
theorem C53_star_dropped : ∀ {σ : Type} (H : Handler σ) (s : St σ), s.cur = b!"<!ELEMENT e (a*)?>" →
    parseElementDecl env0 H s = cb H (.elementDecl b!"e" 4 (.mk 2 2 b!"a" [] .nil .nil)) { s with cur := [] } := by
  intro σ H s hs
  cases s
  simp only at hs
  subst hs
  kernel_rfl

/-- a missing content specification is not noticed. -/
theorem C53_no_content : ∀ {σ : Type} (H : Handler σ) (s : St σ), s.cur = b!"<!ELEMENT e >" →
    parseElementDecl env0 H s = cb H (.elementDecl b!"e" 0 .nil) { s with cur := [] } := by
  intro σ H s hs
  cases s
  simp only at hs
  subst hs
  kernel_rfl

/-- groups with `*` or `+` and mixed content with two names are refused. -/
theorem C53_refused (t : List Nat) (h : t ∈ [b!"<!ELEMENT e (a,b)*>", b!"<!ELEMENT e (a|b)+>", b!"<!ELEMENT e (#PCDATA|a|b)*>", b!"<!ELEMENT e (#PCDATA | a)*>"]) :
    (parseElementDecl env0 nullHandler (initSt () Heap.empty t)).isErr = true := by
  simp only [List.mem_cons, List.not_mem_nil, or_false] at h
  rcases h with rfl | rfl | rfl | rfl <;> kernel_rfl

/-! ### C35: content models survive serialisation -/

/-- C35 in full: the serialised form of every declaration that was read is read as the same declaration. -/
def C35_statement : Prop := ∀ (E : Env) (t : List Nat) (n : Bytes) (typ : Nat) (e : EC) (r : List Nat), ReadsAs E t n typ e r →
  ∃ out, dumpElementDecl (declNode n typ e) [] = .ok () out ∧ ReadsAs E (decodeRunes out) n typ e [10]

theorem starred_read : ReadsAs env0 b!"<!ELEMENT e (a*)>" b!"e" 4 (.mk 2 3 b!"a" [] .nil .nil) [] :=
  C53_element_partial env0 (n := b!"e") (t := b!"<!ELEMENT e (a*)>") ⟨[32], [32], [], b!"(a*)", by decide, by decide, by decide, by decide, by decide,
    letters_name (by decide) (by decide) (by decide), .children (ws := []) (by decide)
      (.single (w := b!"a") (p := []) (l := b!"a") (m := [42]) (ws := []) (letters_named (by decide) (by decide) (by decide)) .mult (by decide)), rfl⟩ []

theorem mixed_read : ReadsAs env0 b!"<!ELEMENT e (#PCDATA|a)*>" b!"e" 3 (.mk 4 3 [] [] (.mk 1 1 [] [] .nil .nil) (.mk 2 1 b!"a" [] .nil .nil)) [] :=
  C53_element_partial env0 (n := b!"e") (t := b!"<!ELEMENT e (#PCDATA|a)*>") ⟨[32], [32], [], b!"(#PCDATA|a)*", by decide, by decide, by decide, by decide, by decide,
    letters_name (by decide) (by decide) (by decide), .mixed (ws := []) (w1 := []) (w2 := []) (w := b!"a") (p := []) (l := b!"a") (by decide) (by decide) (by decide)
      (letters_named (by decide) (by decide) (by decide)), rfl⟩ []

/-- a single name with `*` is written with the mark behind the parenthesis, which the parser refuses. -/
theorem C35_starred_lost : dumpElementDecl (declNode b!"e" 4 (.mk 2 3 b!"a" [] .nil .nil)) [] = .ok () b!"<!ELEMENT e (a)*>\n" ∧
    (parseElementDecl env0 nullHandler (initSt () Heap.empty b!"<!ELEMENT e (a)*>\n")).isErr = true :=
  ⟨by kernel_rfl, by kernel_rfl⟩

/-- mixed content with a name is written with white space that the parser refuses. -/
theorem C35_mixed_lost : dumpElementDecl (declNode b!"e" 3 (.mk 4 3 [] [] (.mk 1 1 [] [] .nil .nil) (.mk 2 1 b!"a" [] .nil .nil))) [] =
      .ok () b!"<!ELEMENT e (#PCDATA | a)*>\n" ∧
    (parseElementDecl env0 nullHandler (initSt () Heap.empty b!"<!ELEMENT e (#PCDATA | a)*>\n")).isErr = true :=
  ⟨by kernel_rfl, by kernel_rfl⟩

/-- a lost first group makes the serialiser panic. -/
theorem C35_first_group_panics : dumpElementDecl (declNode b!"e" 4 (.mk 3 1 [] [] .nil (.mk 2 1 b!"c" [] .nil .nil))) [] = .panic := by kernel_rfl

/-- C35 fails. -/
theorem C35_refuted : ¬ C35_statement := by
  intro h
  obtain ⟨out, h1, h2⟩ := h env0 _ _ _ _ _ starred_read
  rw [C35_starred_lost.1] at h1
  cases h1
  have h3 := h2.not_err
  rw [show decodeRunes b!"<!ELEMENT e (a)*>\n" = b!"<!ELEMENT e (a)*>\n" by kernel_rfl, C35_starred_lost.2] at h3
  cases h3

/-- C35 for all declarations in the grammar of Spec/Content.lean, but for those models that `Kept` excludes. Missing: those (they are
lost, see above). -/
theorem C35_round_trip_partial (E : Env) {n p l : List Nat} {typ : Nat} {e : EC} {t : List Nat} (hn : Named E n p l) (h : ElementText E n typ e t)
    (hk : Kept typ e) : ∃ out, dumpElementDecl (declNode (encodeRunes n) typ e) [] = .ok () out ∧ ReadsAs E (decodeRunes out) (encodeRunes n) typ e [10] := by
  obtain ⟨y, h1, h2, h3⟩ := element_dumps E hn h hk
  refine ⟨_, h3, ?_⟩
  rw [decodeRunes_encodeRunes _ (by
    intro c hc
    rcases List.mem_append.1 hc with hc | hc
    · exact h2 c hc
    · simp only [List.mem_singleton] at hc; subst hc; decide)]
  exact C53_element_partial E h1 [10]

example : ∃ out, dumpElementDecl (declNode b!"list" 4 sampleModel) [] = .ok () out ∧ ReadsAs env0 (decodeRunes out) b!"list" 4 sampleModel [10] :=
  C35_round_trip_partial env0 (n := b!"list") (letters_named (by decide) (by decide) (by decide)) sample_decl trivial

end Helium
