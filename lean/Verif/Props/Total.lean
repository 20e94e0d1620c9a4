import Verif.Lemmas.TotalTree
import Verif.Lemmas.ExpandLoop
import Verif.Lemmas.KernelRfl
import Verif.Model.StdEnv
/-! C07 (termination) and C08 (no panics). -/
namespace Helium
open Spec
section

/-! ### the properties as stated, and why they fail -/

/-- **C07**: `Parse` returns or panics on every finite input. -/
def C07_statement : Prop := ∀ (E : Env) (input : Bytes), ∃ fuel, parse E fuel input ≠ .diverge

/-- **C08**: `Parse` never panics. -/
def C08_statement : Prop := ∀ (E : Env) (fuel : Nat) (input : Bytes), parse E fuel input ≠ .panic

set_option maxRecDepth 100000 in
/-- the element name `a:1` sends `parseNmtoken` into an endless loop, whatever the budget. -/
theorem C07_colon_hangs (fuel : Nat) : parse env0 fuel b!"<a:1/>" = .diverge := ParseRes.hangs_iff.1 (by kernel_rfl)

set_option maxRecDepth 100000 in
/-- so does an enumerated attribute type in the internal subset. -/
theorem C07_enum_hangs (fuel : Nat) : parse env0 fuel b!"<!DOCTYPE e [<!ATTLIST e a (x|y) \"x\">]><e/>" = .diverge :=
  ParseRes.hangs_iff.1 (by kernel_rfl)

set_option maxRecDepth 100000 in
/-- and anything in the internal subset that is not a declaration. -/
theorem C07_subset_hangs (fuel : Nat) : parse env0 fuel b!"<!DOCTYPE e [x]><e/>" = .diverge :=
  ParseRes.hangs_iff.1 (by kernel_rfl)

set_option maxRecDepth 100000 in
/-- and a CDATA section that does not end, when the end of input reads as U+FFFD. -/
theorem C07_cdata_hangs (fuel : Nat) : parse envF (fuel + 1) b!"<a><![CDATA[x" = .diverge :=
  ParseRes.hangs_iff.1 (by kernel_rfl)

theorem C07_refuted : ¬ C07_statement := fun h => by
  obtain ⟨fuel, h⟩ := h env0 b!"<a:1/>"
  exact h (C07_colon_hangs fuel)

set_option maxRecDepth 100000 in
/-- a reference to an undeclared entity makes the parser dereference nil. -/
theorem C08_entity_panics (fuel : Nat) : parse env0 (fuel + 1) b!"<a>&foo;</a>" = .panic := ParseRes.crashes_iff.1 (by kernel_rfl)

set_option maxRecDepth 100000 in
/-- declaring the default namespace twice leaves a nil in the list given to the handler. -/
theorem C08_xmlns_panics (fuel : Nat) : parse env0 (fuel + 2) b!"<a xmlns=\"u\" xmlns=\"v\"/>" = .panic := ParseRes.crashes_iff.1 (by kernel_rfl)

set_option maxRecDepth 100000 in
/-- an unfinished character reference in an entity value reads past the end of the value. -/
theorem C08_charref_panics (fuel : Nat) : parse env0 fuel b!"<!DOCTYPE a [<!ENTITY e \"&#\">]><a/>" = .panic := ParseRes.crashes_iff.1 (by kernel_rfl)

theorem C08_refuted : ¬ C08_statement := fun h => h env0 1 b!"<a>&foo;</a>" (C08_entity_panics 0)

/-! ### what does hold -/

variable {σ : Type} (E : Env)

/-- `t` is what the parser may read after it has settled the encoding: some tail of the input, in some character set. -/
def MayRead (input : Bytes) (t : List Nat) : Prop := ∃ cs r, r <:+ input ∧ t = E.decode cs r

theorem charset_mem (cs : Charset) : cs ∈ encTable.map (·.2) := by cases cs <;> decide

theorem bound_suffix (f : Bytes → Nat) : ∀ l : Bytes, ∃ N, ∀ r, r <:+ l → f r ≤ N
  | [] => ⟨f [], fun r hr => by rw [List.suffix_nil.1 hr]; exact Nat.le_refl _⟩
  | c :: l => by
    obtain ⟨N, hN⟩ := bound_suffix f l
    refine ⟨max N (f (c :: l)), fun r hr => ?_⟩
    rcases List.suffix_cons_iff.1 hr with rfl | hr
    · exact Nat.le_max_right _ _
    · exact Nat.le_trans (hN r hr) (Nat.le_max_left _ _)

theorem bound_list {α : Type} (f : α → Nat) : ∀ l : List α, ∃ N, ∀ x ∈ l, f x ≤ N
  | [] => ⟨0, by simp⟩
  | c :: l => by
    obtain ⟨N, hN⟩ := bound_list f l
    refine ⟨max N (f c), fun r hr => ?_⟩
    rcases List.mem_cons.1 hr with rfl | hr
    · exact Nat.le_max_right _ _
    · exact Nat.le_trans (hN r hr) (Nat.le_max_left _ _)

/-- the texts an input can stand for are of bounded length. -/
theorem mayRead_bounded (input : Bytes) : ∃ N, ∀ cs r, r <:+ input → 5 * (E.decode cs r).length + 1 < N := by
  have h : ∀ cs, ∃ N, ∀ r, r <:+ input → (E.decode cs r).length ≤ N := fun cs => bound_suffix (fun r => (E.decode cs r).length) input
  obtain ⟨N, hN⟩ := bound_list (fun cs => Classical.choose (h cs)) (encTable.map (·.2))
  refine ⟨5 * N + 2, fun cs r hr => ?_⟩
  have h1 := Classical.choose_spec (h cs) r hr
  have h2 := hN cs (charset_mem cs)
  omega

variable {E}

theorem done_of_tot {pn : Bool} {H : Handler σ} {usr : σ} {fuel snl : Nat} {input : Bytes}
    (h : Tot pn (parseDocument E H fuel snl (initSt usr Heap.empty input)) (fun _ _ => True) (fun _ => True)) :
    (parserParse E H usr fuel snl input ≠ .diverge) ∧ (pn = false → ∃ d e hp t, parserParse E H usr fuel snl input = .done d e hp t) := by
  unfold parserParse
  cases hp : parseDocument E H fuel snl (initSt usr Heap.empty input) with
  | ok a s => exact ⟨nofun, fun _ => ⟨_, _, _, _, rfl⟩⟩
  | err e s => exact ⟨nofun, fun _ => ⟨_, _, _, _, rfl⟩⟩
  | panic =>
    rw [hp] at h
    exact ⟨nofun, fun hn => by rw [show pn = true from h] at hn; cases hn⟩
  | diverge => rw [hp] at h; exact absurd h id

/-- Any handler that is sturdy itself: the parser returns, and unless `pn` it does not panic. -/
theorem returns_of_sturdy {pn : Bool} {H : Handler σ} {F : HC σ → Prop} {G : Nat → HC σ → Prop} (hH : ∀ B, Sturdy pn B H F G)
    (usr : σ) (hF : F ⟨usr, Heap.empty, none, none⟩) (input : Bytes) (hs : ∀ t, MayRead E input t → Safe E pn t) :
    ∃ N, ∀ fuel snl, N ≤ fuel → parserParse E H usr fuel snl input ≠ .diverge ∧
      (pn = false → ∃ d e hp t, parserParse E H usr fuel snl input = .done d e hp t) := by
  obtain ⟨N, hN⟩ := mayRead_bounded E input
  exact ⟨N, fun fuel snl hf => done_of_tot (parseDocument_tot (hH N) hF (fun cs r hr => hs _ ⟨cs, r, hr, rfl⟩) hN hf)⟩

/-- **C07 (partial)**: an input free of the constructs above is read to its end, or refused, or makes the parser panic: with budgets from
some `N` on the parse does not fail to return. Missing: document type declarations with an internal subset; colons followed by a name character that
cannot start a name or by a name longer than 40000; CDATA sections that do not end (unless the end of input reads as NUL). -/
theorem C07_terminates_partial (input : Bytes) (hs : ∀ t, MayRead E input t → Safe E true t) :
    ∃ N, ∀ fuel, N ≤ fuel → parse E fuel input ≠ .diverge := by
  obtain ⟨N, hN⟩ := mayRead_bounded E input
  exact ⟨N, fun fuel hf => (done_of_tot (parseDocument_tot (treeBuilder_sturdy true [] hf) ⟨rfl, rfl, rfl⟩
    (fun cs r hr => hs _ ⟨cs, r, hr, rfl⟩) hN hf)).1⟩

/-- the same for a handler of the user's own. -/
theorem C07_handler_partial {H : Handler σ} {F : HC σ → Prop} {G : Nat → HC σ → Prop} (hH : ∀ B, Sturdy true B H F G)
    (usr : σ) (hF : F ⟨usr, Heap.empty, none, none⟩) (input : Bytes) (hs : ∀ t, MayRead E input t → Safe E true t) :
    ∃ N, ∀ fuel snl, N ≤ fuel → parserParse E H usr fuel snl input ≠ .diverge := by
  obtain ⟨N, h⟩ := returns_of_sturdy hH usr hF input hs
  exact ⟨N, fun fuel snl hf => (h fuel snl hf).1⟩

/-- **C08 (partial)**: an input without internal subset, with references to the predefined entities only, with `xmlns` only as
a prefix, and free of the constructs that hang, is parsed to a value or refused with an error, however malformed it is otherwise. -/
theorem C08_returns_partial (input : Bytes) (hs : ∀ t, MayRead E input t → Safe E false t) :
    ∃ N, ∀ fuel, N ≤ fuel → ∃ d e hp t, parse E fuel input = .done d e hp t := by
  obtain ⟨N, hN⟩ := mayRead_bounded E input
  exact ⟨N, fun fuel hf => (done_of_tot (parseDocument_tot (treeBuilder_sturdy false [] hf) ⟨rfl, rfl, rfl⟩
    (fun cs r hr => hs _ ⟨cs, r, hr, rfl⟩) hN hf)).2 rfl⟩

/-- the same for a handler of the user's own. -/
theorem C08_handler_partial {H : Handler σ} {F : HC σ → Prop} {G : Nat → HC σ → Prop} (hH : ∀ B, Sturdy false B H F G)
    (usr : σ) (hF : F ⟨usr, Heap.empty, none, none⟩) (input : Bytes) (hs : ∀ t, MayRead E input t → Safe E false t) :
    ∃ N, ∀ fuel snl, N ≤ fuel → ∃ d e hp t, parserParse E H usr fuel snl input = .done d e hp t := by
  obtain ⟨N, h⟩ := returns_of_sturdy hH usr hF input hs
  exact ⟨N, fun fuel snl hf => (h fuel snl hf).2 rfl⟩

/-! ### concrete cases -/

/-- a check of one tail of an ASCII text for `Safe env0 false`. -/
def safeAt (t : List Nat) : Bool :=
  (match t with
    | 58 :: c :: u => !decide (TokenChar env0 c) || (decide (NameStartChar env0 c) && decide (u.length ≤ 40000))
    | _ => true) &&
  (!(b!"<!DOCTYPE".isPrefixOf t) || !(t.drop 9).elem 91 || (((t.drop 9).takeWhile (· != 91)).dropLast).elem 62) &&
  (match t with
    | 38 :: u => decide (u.takeWhile (· != 59) ∈ [[], b!"lt", b!"gt", b!"amp", b!"apos", b!"quot"]) ||
        (u.takeWhile (· != 59)).any fun c => !decide (NameChar env0 c) && c != 0
    | _ => true) &&
  (!(b!"xmlns".isPrefixOf t) || (t.drop 5).head? == some 58)

/-- all tails pass. -/
def safeText : List Nat → Bool
  | [] => safeAt []
  | c :: t => safeAt (c :: t) && safeText t

theorem safeText_suffix : ∀ {l t : List Nat}, safeText l = true → t <:+ l → safeAt t = true
  | [], t, h, hs => by rw [List.suffix_nil.1 hs]; exact h
  | c :: l, t, h, hs => by
    simp only [safeText, Bool.and_eq_true] at h
    rcases List.suffix_cons_iff.1 hs with rfl | hs
    · exact h.1
    · exact safeText_suffix h.2 hs

theorem safe_of_text {l : List Nat} (h : safeText l = true) (pn : Bool) : Safe env0 pn l where
  colon := by
    intro c u hu hc
    have := safeText_suffix h hu
    simp only [safeAt, Bool.and_eq_true, hc, decide_true, Bool.not_true, Bool.false_or, decide_eq_true_eq] at this
    refine ⟨this.1.1.1.1, fun v w e _ => ?_⟩
    have h2 := this.1.1.1.2
    rw [e, List.length_append] at h2
    omega
  cdata := fun _ _ => Or.inl rfl
  doctype := by
    intro u v hu
    have := safeText_suffix h hu
    simp only [safeAt, Bool.and_eq_true] at this
    have h2 := this.1.1.2
    have e1 : b!"<!DOCTYPE".isPrefixOf (b!"<!DOCTYPE" ++ (u ++ 91 :: v)) = true := List.isPrefixOf_iff_prefix.2 ⟨_, rfl⟩
    have e2 : (b!"<!DOCTYPE" ++ (u ++ 91 :: v)).drop 9 = u ++ 91 :: v := rfl
    have e3 : (u ++ 91 :: v).elem 91 = true := by simp
    rw [e1, e2, e3] at h2
    simp only [Bool.not_true, Bool.false_or] at h2
    have h3 : 62 ∈ ((u ++ 91 :: v).takeWhile (· != 91)).dropLast := by simpa using h2
    by_cases hm : 91 ∈ u
    · obtain ⟨a, b, rfl, ha⟩ := first_split hm
      have e4 : ((a ++ 91 :: b) ++ 91 :: v).takeWhile (· != 91) = a := by
        rw [List.append_assoc, List.takeWhile_append_of_pos (fun x hx => by simpa using fun h : x = 91 => ha (h ▸ hx))]
        simp
      rw [e4] at h3
      rw [List.dropLast_append_of_ne_nil (by simp)]
      exact List.mem_append_left _ (List.dropLast_subset _ h3)
    · have e4 : (u ++ 91 :: v).takeWhile (· != 91) = u := by
        rw [List.takeWhile_append_of_pos (fun x hx => by simpa using fun h : x = 91 => hm (h ▸ hx))]
        simp
      rw [e4] at h3
      exact h3
  entity := by
    intro _ n u hu hn
    have := safeText_suffix h hu
    have e : (n ++ 59 :: u).takeWhile (· != 59) = n := by
      clear hu this
      induction n with
      | nil => rfl
      | cons c n ih =>
        have hc : (c != 59) = true := by
          have := hn c (List.mem_cons_self ..)
          simp only [bne_iff_ne, ne_eq]
          rintro rfl
          revert this
          decide
        rw [List.cons_append, List.takeWhile_cons, hc, if_pos rfl, ih fun c hc => hn c (List.mem_cons_of_mem _ hc)]
    simp only [safeAt, Bool.and_eq_true, e, Bool.or_eq_true, decide_eq_true_eq, List.any_eq_true] at this
    rcases this.1.2 with h | ⟨c, hc, h1⟩
    · exact h
    · rcases hn c hc with h2 | h2 <;> simp [h2] at h1
  xmlns := by
    intro _ u hu
    have := safeText_suffix h hu
    simp [safeAt] at this
    exact this.2

/-- a document with a bit of everything, and one that is not well-formed. -/
def calmDoc : Bytes := b!"<a xmlns:p=\"u\" b=\"1 &amp; 2\"><!--x--><?y z?>t&#65;<![CDATA[<]]><p:c/></a>"
@[inherit_doc calmDoc] def brokenDoc : Bytes := b!"<a b='1'><c></a>&#x; & ]]><"

theorem decodeRunes_ascii : ∀ {l : Bytes}, (∀ c ∈ l, c < 0x80) → decodeRunes l = l := by
  intro l h
  induction l with
  | nil => rfl
  | cons c l ih =>
    have hc := h c (List.mem_cons_self ..)
    have := ih fun x hx => h x (List.mem_cons_of_mem _ hx)
    simp only [decodeRunes] at this
    simp only [decodeRunes, List.length_cons, decodeRunesAux, decodeRune, hc, if_true, List.drop_succ_cons, List.drop_zero, this]

theorem mayRead_safe {input : Bytes} (ha : ∀ c ∈ input, c < 0x80) (h : safeText input = true) (pn : Bool) :
    ∀ t, MayRead env0 input t → Safe env0 pn t := by
  rintro t ⟨cs, r, hr, rfl⟩
  have hd : env0.decode cs r = r := decodeRunes_ascii fun c hc => ha c (hr.subset hc)
  rw [hd]
  exact (safe_of_text h pn).mono _ hr

example : ∃ N, ∀ fuel, N ≤ fuel → parse env0 fuel calmDoc ≠ .diverge :=
  C07_terminates_partial calmDoc (mayRead_safe (by decide) (by decide) true)

example : ∃ N, ∀ fuel, N ≤ fuel → ∃ d e hp t, parse env0 fuel brokenDoc = .done d e hp t :=
  C08_returns_partial brokenDoc (mayRead_safe (by decide) (by decide) false)

/-- a document with a document type declaration, and two where that is not well-formed. -/
def doctypeDoc : Bytes := b!"<?xml version='1.0'?><!--x--><!DOCTYPE a ><a b='['/>"
@[inherit_doc doctypeDoc] def badDoctype1 : Bytes := b!"<!DOCTYPE a b><a/>"
@[inherit_doc doctypeDoc] def badDoctype2 : Bytes := b!"<!DOCTYPE a PUBLIC 'x' 'y'><a>&#xD800;"

example : ∃ N, ∀ fuel, N ≤ fuel → ∃ d e hp t, parse env0 fuel doctypeDoc = .done d e hp t :=
  C08_returns_partial doctypeDoc (mayRead_safe (by decide) (by decide) false)
example : ∃ N, ∀ fuel, N ≤ fuel → ∃ d e hp t, parse env0 fuel badDoctype1 = .done d e hp t :=
  C08_returns_partial badDoctype1 (mayRead_safe (by decide) (by decide) false)
example : ∃ N, ∀ fuel, N ≤ fuel → parse env0 fuel badDoctype2 ≠ .diverge :=
  C07_terminates_partial badDoctype2 (mayRead_safe (by decide) (by decide) true)

/-- a handler that counts the elements it sees, knows no entities, and refuses comments. -/
def countElems : Handler Nat := fun _ ev c => match ev with
  | .startElement .. => (.ok, { c with usr := c.usr + 1 })
  | .getEntity _ => (.unspecified, c)
  | .comment _ => (.err (.user 7), c)
  | _ => (.ok, c)

theorem countElems_sturdy (pn : Bool) (B : Nat) : Sturdy pn B countElems (fun _ => True) (fun _ _ => True) where
  locator := by intros; exact ⟨⟨nofun, nofun⟩, fun _ => trivial⟩
  startDoc := by intros; exact ⟨⟨nofun, nofun⟩, fun _ => trivial⟩
  endDoc := by intros; exact ⟨nofun, nofun⟩
  internalSubset := by intros; exact ⟨⟨nofun, nofun⟩, fun _ => trivial⟩
  externalSubset := by intros; exact ⟨⟨nofun, nofun⟩, fun _ => trivial⟩
  start := by intros; exact ⟨⟨nofun, nofun⟩, fun _ => trivial⟩
  stop := by intros; exact ⟨⟨nofun, nofun⟩, fun _ => trivial⟩
  comment := by intros; exact ⟨⟨nofun, nofun⟩, fun _ => trivial⟩
  pi := by intros; exact ⟨⟨nofun, nofun⟩, fun _ => trivial⟩
  text := by intros; exact ⟨⟨nofun, nofun⟩, fun _ => trivial⟩
  blank := by intros; exact ⟨⟨nofun, nofun⟩, fun _ => trivial⟩
  cdata := by intros; exact ⟨⟨nofun, nofun⟩, fun _ => trivial⟩
  entity := by intros; exact ⟨.inl rfl, trivial⟩
  reference := by intros; exact nofun

example : ∃ N, ∀ fuel snl, N ≤ fuel → parserParse env0 countElems 0 fuel snl calmDoc ≠ .diverge :=
  C07_handler_partial (countElems_sturdy true) 0 trivial calmDoc (mayRead_safe (by decide) (by decide) true)

example : ∃ N, ∀ fuel snl, N ≤ fuel → ∃ d e hp t, parserParse env0 countElems 0 fuel snl calmDoc = .done d e hp t :=
  C08_handler_partial (countElems_sturdy false) 0 trivial calmDoc (mayRead_safe (by decide) (by decide) false)

end
end Helium
