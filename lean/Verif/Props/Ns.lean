import Verif.Lemmas.NsLogic
import Verif.Lemmas.KernelRfl
import Verif.Model.StdEnv
import Verif.Model.TreeBuilder
/-! C21: the namespace of an element. -/
namespace Helium
open Spec
section
variable {σ : Type} {E : Env} {H : Handler σ}

/-- **C21** for the default handler: the URI reported with a start tag is the innermost declaration of its prefix on the element or on
an open ancestor; a non-empty prefix has such a declaration. -/
def C21_statement : Prop := ∀ (E : Env) (fuel : Nat) (input : Bytes) d e h t, parse E fuel input = .done d e h t →
  ∀ pre l p u ns as o suf, t = pre ++ (.startElement l p u ns as, o) :: suf →
    u = (innermost p (ns :: openScopes [] (pre.map (·.1)))).getD [] ∧ (p ≠ [] → innermost p (ns :: openScopes [] (pre.map (·.1))) ≠ none)

/-- the events of a finished parse that reported no error. -/
def ParseRes.accepted : ParseRes → Option (List Ev)
  | .done _ none _ t => some (t.map (·.1))
  | _ => none

theorem ParseRes.accepted_some {r : ParseRes} {l : List Ev} (h : r.accepted = some l) : ∃ d hp t, r = .done d none hp t ∧ t.map (·.1) = l := by
  cases r with
  | done d e hp t =>
    cases e with
    | none => exact ⟨d, hp, t, rfl, by simpa [accepted] using h⟩
    | some e => cases h
  | panic => cases h
  | diverge => cases h

set_option maxRecDepth 100000 in
/-- a prefix declared on an element that is closed already is still bound. -/
theorem C21_leaks (fuel : Nat) : (parse env0 (fuel + 5) b!"<r><a xmlns:x=\"u\"/><x:b/></r>").accepted = some [.setDocumentLocator, .startDocument,
    .startElement b!"r" [] [] [] [], .startElement b!"a" [] [] [some (b!"x", b!"u")] [], .endElement b!"a" [] [],
    .startElement b!"b" b!"x" b!"u" [] [], .endElement b!"b" b!"x" b!"u", .endElement b!"r" [] [], .endDocument] := by
  kernel_rfl

set_option maxRecDepth 100000 in
/-- a second declaration of the default namespace is dropped, and the first one reported in its place. -/
theorem C21_default_kept (fuel : Nat) : (parse env0 (fuel + 5) b!"<a xmlns=\"u\"><b xmlns=\"v\"/></a>").accepted = some [.setDocumentLocator, .startDocument,
    .startElement b!"a" [] b!"u" [some ([], b!"u")] [], .startElement b!"b" [] b!"u" [some ([], b!"u")] [], .endElement b!"b" [] b!"u",
    .endElement b!"a" [] b!"u", .endDocument] := by
  kernel_rfl

/-- split a list of pairs where its first components are split. -/
theorem map_split {α β : Type} {t : List (α × β)} {a b : List α} {x : α} (h : t.map (·.1) = a ++ x :: b) :
    ∃ a' y b', t = a' ++ (x, y) :: b' ∧ a'.map (·.1) = a := by
  obtain ⟨l1, l2, rfl, h1, h2⟩ := List.map_eq_append_iff.1 h
  obtain ⟨y, l3, rfl, h3, -⟩ := List.map_eq_cons_iff.1 h2
  obtain ⟨y1, y2⟩ := y
  simp only at h3
  subst h3
  exact ⟨l1, y2, l3, rfl, h1⟩

theorem C21_refuted : ¬ C21_statement := by
  intro h
  obtain ⟨d, hp, t, e1, e2⟩ := ParseRes.accepted_some (C21_leaks 0)
  obtain ⟨pre, o, suf, e3, e4⟩ := map_split (α := Ev) (a := [.setDocumentLocator, .startDocument,
    .startElement b!"r" [] [] [] [], .startElement b!"a" [] [] [some (b!"x", b!"u")] [], .endElement b!"a" [] []]) e2
  have := (h env0 _ _ _ _ _ _ e1 _ _ _ _ _ _ _ _ e3).2 (by decide)
  rw [e4] at this
  exact this (by decide)

/-- **C21 (partial)**: until the first reference to an entity that is not predefined, the URI reported with a start tag is the first
declaration of its prefix in document order, the element's own declarations included, whatever the nesting; a start tag whose prefix has
not been declared is not reported at all. Missing: the scope of a declaration does not end with its element, a redeclaration does not
replace it, and entity replacement text is parsed with a table of its own. -/
theorem C21_first_declaration_partial {usr : σ} {fuel snl : Nat} {input : Bytes} {d : Option Nat} {e : Option Err} {h : Heap} {t : List (Ev × HOut)}
    (hp : parserParse E H usr fuel snl input = .done d e h t)
    {pre suf : List (Ev × HOut)} {l p u : Bytes} {ns : List (Option (Bytes × Bytes))} {as : List AttrD} {o : HOut}
    (ht : t = pre ++ (.startElement l p u ns as, o) :: suf) (hn : NoEntities pre) :
    u = (firstDecl p (pre.map (·.1) ++ [.startElement l p u ns as])).getD [] ∧
      (p ≠ [] → firstDecl p (pre.map (·.1) ++ [.startElement l p u ns as]) ≠ none) := by
  have hc := nsClaims_parse E hp pre l p u ns as o suf ht hn
  refine ⟨hc.1, fun h1 h2 => hc.2 h1 ?_⟩
  rw [hc.1, h2]
  rfl

/-- `v` is declared for `p` by one of the events. -/
def DeclaredIn (p v : Bytes) (evs : List Ev) : Prop := ∃ l q u ns as, Ev.startElement l q u ns as ∈ evs ∧ declIn p ns = some v

theorem firstDecl_declared {p v : Bytes} : ∀ {evs : List Ev}, firstDecl p evs = some v → DeclaredIn p v evs
  | [], h => by cases h
  | ev :: t, h => by
    have next : firstDecl p t = some v → DeclaredIn p v (ev :: t) := fun h => by
      obtain ⟨l, q, u, ns, as, h1, h2⟩ := firstDecl_declared h
      exact ⟨l, q, u, ns, as, List.mem_cons_of_mem _ h1, h2⟩
    cases ev <;> try exact next h
    rename_i l q u ns as
    rw [firstDecl, Option.or_eq_some_iff] at h
    rcases h with h | ⟨-, h⟩
    · exact ⟨l, q, u, ns, as, List.mem_cons_self .., h⟩
    · exact next h

theorem declared_firstDecl {p v : Bytes} : ∀ {evs : List Ev}, DeclaredIn p v evs → firstDecl p evs ≠ none
  | [], ⟨_, _, _, _, _, h, _⟩ => by cases h
  | ev :: t, ⟨l, q, u, ns, as, h1, h2⟩ => by
    rcases List.mem_cons.1 h1 with rfl | h1
    · simp [firstDecl, h2]
    · have ih := declared_firstDecl (evs := t) ⟨l, q, u, ns, as, h1, h2⟩
      cases ev <;> simp only [firstDecl] <;> try exact ih
      rename_i ns' _
      cases declIn p ns' with
      | none => simpa using ih
      | some x => simp

theorem mem_openScopes {sc : List (Option (Bytes × Bytes))} : ∀ {evs : List Ev} {init}, sc ∈ openScopes init evs →
    sc ∈ init ∨ ∃ l q u as, Ev.startElement l q u sc as ∈ evs
  | [], init, h => .inl h
  | ev :: t, init, h => by
    have lift : ∀ {i}, sc ∈ openScopes i t → (sc ∈ i → sc ∈ init) → sc ∈ init ∨ ∃ l q u as, Ev.startElement l q u sc as ∈ ev :: t :=
      fun h hi => (mem_openScopes h).elim (fun h => .inl (hi h)) (fun ⟨l, q, u, as, h⟩ => .inr ⟨l, q, u, as, List.mem_cons_of_mem _ h⟩)
    cases ev <;> try exact lift h id
    · rcases mem_openScopes (evs := t) h with h | ⟨l, q, u, as, h⟩
      · rcases List.mem_cons.1 h with rfl | h
        · exact .inr ⟨_, _, _, _, List.mem_cons_self ..⟩
        · exact .inl h
      · exact .inr ⟨l, q, u, as, List.mem_cons_of_mem _ h⟩
    · exact lift h List.mem_of_mem_tail

theorem innermost_mem {p v : Bytes} : ∀ {scs}, innermost p scs = some v → ∃ sc ∈ scs, declIn p sc = some v
  | [], h => by cases h
  | sc :: t, h => by
    rw [innermost, Option.or_eq_some_iff] at h
    rcases h with h | ⟨-, h⟩
    · exact ⟨sc, List.mem_cons_self .., h⟩
    · obtain ⟨sc', h1, h2⟩ := innermost_mem h
      exact ⟨sc', List.mem_cons_of_mem _ h1, h2⟩

/-- **C21 (partial)**: where the declarations of a prefix up to a start tag all name the same URI, and one of them is in scope, the URI
reported is the one the scoping rule asks for. -/
theorem C21_scoped_partial {usr : σ} {fuel snl : Nat} {input : Bytes} {d : Option Nat} {e : Option Err} {h : Heap} {t : List (Ev × HOut)}
    (hp : parserParse E H usr fuel snl input = .done d e h t)
    {pre suf : List (Ev × HOut)} {l p u : Bytes} {ns : List (Option (Bytes × Bytes))} {as : List AttrD} {o : HOut}
    (ht : t = pre ++ (.startElement l p u ns as, o) :: suf) (hn : NoEntities pre) {v : Bytes}
    (hi : innermost p (ns :: openScopes [] (pre.map (·.1))) = some v)
    (hu : ∀ w, DeclaredIn p w (pre.map (·.1) ++ [.startElement l p u ns as]) → w = v) : u = v := by
  have hc := (C21_first_declaration_partial hp ht hn).1
  have hd : DeclaredIn p v (pre.map (·.1) ++ [.startElement l p u ns as]) := by
    obtain ⟨sc, h1, h2⟩ := innermost_mem hi
    rcases List.mem_cons.1 h1 with rfl | h1
    · exact ⟨l, p, u, sc, as, by simp, h2⟩
    · rcases mem_openScopes h1 with h1 | ⟨l', q, u', as', h1⟩
      · cases h1
      · exact ⟨l', q, u', sc, as', List.mem_append_left _ h1, h2⟩
  cases hf : firstDecl p (pre.map (·.1) ++ [.startElement l p u ns as]) with
  | none => exact absurd hf (declared_firstDecl hd)
  | some w =>
    rw [hf] at hc
    rw [hc]
    exact hu w (firstDecl_declared hf)

set_option maxRecDepth 100000 in
/-- a document with nested declarations, used below. -/
theorem nested_ns : (parse env0 9 b!"<r xmlns:x=\"u\"><x:a xmlns:y=\"v\"><y:b/></x:a></r>").accepted = some [.setDocumentLocator, .startDocument,
    .startElement b!"r" [] [] [some (b!"x", b!"u")] [], .startElement b!"a" b!"x" b!"u" [some (b!"y", b!"v")] [],
    .startElement b!"b" b!"y" b!"v" [] [], .endElement b!"b" b!"y" b!"v", .endElement b!"a" b!"x" b!"u", .endElement b!"r" [] [], .endDocument] := by
  kernel_rfl

-- the hypotheses are met: the element `y:b` there has its prefix declared on its parent
example : ∃ d h t pre o suf, parserParse env0 (treeBuilder 9) () 9 9 b!"<r xmlns:x=\"u\"><x:a xmlns:y=\"v\"><y:b/></x:a></r>" = .done d none h t ∧
    t = pre ++ (.startElement b!"b" b!"y" b!"v" [] [], o) :: suf ∧ NoEntities pre ∧
    innermost b!"y" ([] :: openScopes [] (pre.map (·.1))) = some b!"v" := by
  obtain ⟨d, hp, t, e1, e2⟩ := ParseRes.accepted_some nested_ns
  obtain ⟨pre, o, suf, e3, e4⟩ := map_split (α := Ev) (a := [.setDocumentLocator, .startDocument,
    .startElement b!"r" [] [] [some (b!"x", b!"u")] [], .startElement b!"a" b!"x" b!"u" [some (b!"y", b!"v")] []]) e2
  refine ⟨d, hp, t, pre, o, suf, e1, e3, ?_, by rw [e4]; decide⟩
  intro x hx n hxn
  have : x.1 ∈ pre.map (·.1) := List.mem_map.2 ⟨x, hx, rfl⟩
  rw [e4, hxn] at this
  simp at this

end
end Helium
