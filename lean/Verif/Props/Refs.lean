import Verif.Lemmas.RefRun
import Verif.Props.Decl
import Verif.Props.Sax2
import Verif.Props.TreeDtd
import Verif.Props.DtdDump
import Verif.Props.Source
/-! References to declared entities in content (C68). -/
namespace Helium
open Spec

/-- **C68**: a document whose content refers to general entities it declares is accepted, and the handler that keeps the declared entities gets the
events of the replacement text in place of the reference. -/
def C68_statement : Prop :=
  ∀ (σ : Type) (E : Env) (H : Handler σ) (I : List (Bytes × Bytes) → σ → Prop) (k : Nat) (t v e : List Nat) (sd : Int) (ds : List Decl) (evs : List Ev) (usr : σ) (snl : Nat),
    Remembers H I → RefDocument E true k t v e sd ds evs → I [] usr → (∀ d ∈ ds, d.NoAttrs) →
    ∃ N, ∀ fuel, N ≤ fuel → ∃ doc h tr, parserParse E H usr fuel snl (encodeRunes t) = .done doc none h tr ∧ tr.map (fun x => plainEv x.1) = evs

/-- **C68 (partial)**: holds when references are nested at most 20 deep and replacement text makes no use of namespaces declared around the
reference. Missing: these namespaces, deeper nesting (the parser gives up there, see C37), subsets with attribute lists, handlers that refuse events or
return the same node for each lookup of an entity (as the tree builder does, see below). -/
theorem C68_events_partial {σ : Type} {E : Env} {H : Handler σ} {I : List (Bytes × Bytes) → σ → Prop} (K : Remembers H I) {t v e : List Nat} {sd : Int}
    {ds : List Decl} {evs : List Ev} (h : RefDocument E false 20 t v e sd ds evs) (hds : ∀ d ∈ ds, d.NoAttrs) :
    ∃ N, ∀ fuel, N ≤ fuel → ∀ usr snl, I [] usr →
      ∃ doc hp tr, parserParse E H usr fuel snl (encodeRunes t) = .done doc none hp tr ∧ tr.map (fun x => plainEv x.1) = evs := by
  obtain ⟨N, hN⟩ := refDocument_run K h hds
  refine ⟨N, fun fuel hf usr snl hI => ?_⟩
  obtain ⟨s, h1, h2, _⟩ := hN fuel hf usr snl hI
  refine ⟨s.hc.doc, s.hc.heap, s.trace, ?_, h2⟩
  unfold parserParse
  rw [h1]

/-! ### a handler that keeps the declared entities -/

/-- a handler keeping a table of the declared entities, making a new node for each successful lookup. -/
def tableHandler : Handler (List (Bytes × Bytes)) := fun _ ev c => match ev with
  | .entityDecl n 1 [] [] x => (.ok, if n ∈ c.usr.map (·.1) then c else { c with usr := c.usr ++ [(n, x)] })
  | .getEntity n => match c.usr.find? (·.1 == n) with
    | some p => (.ent (some (.ptr c.heap.size)), { c with heap := c.heap.alloc (mkEntity n 1 [] [] p.2 []) })
    | none => (.ent none, c)
  | _ => (.ok, c)

def tableInv (m u : List (Bytes × Bytes)) : Prop := u = m ∧ (m.map (·.1)).Nodup

theorem grown_refl (h : Heap) : Grown h h := ⟨Nat.le_refl _, fun _ _ => rfl⟩

theorem grown_alloc (h : Heap) (x : Node) : Grown h (h.alloc x) := by
  refine ⟨Nat.le_succ _, fun i hi => ?_⟩
  simp [Heap.alloc, Nat.ne_of_lt hi]

theorem table_cases (v : HV) (ev : Ev) (c : HC (List (Bytes × Bytes))) :
    (∃ n x, ev = .entityDecl n 1 [] [] x ∧ tableHandler v ev c = (.ok, if n ∈ c.usr.map (·.1) then c else { c with usr := c.usr ++ [(n, x)] })) ∨
    (∃ n p, ev = .getEntity n ∧ c.usr.find? (·.1 == n) = some p ∧
      tableHandler v ev c = (.ent (some (.ptr c.heap.size)), { c with heap := c.heap.alloc (mkEntity n 1 [] [] p.2 []) })) ∨
    (∃ n, ev = .getEntity n ∧ tableHandler v ev c = (.ent none, c)) ∨
    ((∀ n x, ev ≠ .entityDecl n 1 [] [] x) ∧ tableHandler v ev c = (.ok, c)) := by
  unfold tableHandler
  split
  · exact .inl ⟨_, _, rfl, rfl⟩
  · split
    · rename_i h; exact .inr (.inl ⟨_, _, rfl, h, rfl⟩)
    · exact .inr (.inr (.inl ⟨_, rfl, rfl⟩))
  · rename_i h _
    exact .inr (.inr (.inr ⟨fun n x hx => h n x hx, rfl⟩))

theorem table_remembers : Remembers tableHandler tableInv where
  takes := fun v ev c => by
    rcases table_cases v ev c with ⟨_, _, rfl, h⟩ | ⟨n, _, rfl, _, h⟩ | ⟨n, rfl, h⟩ | ⟨_, h⟩
    · rw [h]; exact .inl (.inl rfl)
    · rw [h]; exact .inr ⟨⟨n, .inl rfl⟩, by simp, by simp⟩
    · rw [h]; exact .inr ⟨⟨n, .inl rfl⟩, by simp, by simp⟩
    · rw [h]; exact .inl (.inl rfl)
  room := fun v ev c => by
    rcases table_cases v ev c with ⟨_, _, rfl, h⟩ | ⟨n, _, rfl, _, h⟩ | ⟨n, rfl, h⟩ | ⟨_, h⟩
    · rw [h]; dsimp only; split <;> exact ⟨grown_refl _, rfl⟩
    · rw [h]; exact ⟨grown_alloc _ _, rfl⟩
    · rw [h]; exact ⟨grown_refl _, rfl⟩
    · rw [h]; exact ⟨grown_refl _, rfl⟩
  learns := fun {m v n x c} hi hn => by
    obtain ⟨rfl, h2⟩ := hi
    simp only [tableHandler, if_neg hn]
    refine ⟨rfl, ?_⟩
    rw [List.map_append, List.nodup_append]
    exact ⟨h2, by simp, by intro a ha b hb; simp at hb; subst hb; exact fun e => hn (e ▸ ha)⟩
  stays := fun {m v ev c} hi he => by
    rcases table_cases v ev c with ⟨n, x, rfl, h⟩ | ⟨n, _, rfl, _, h⟩ | ⟨n, rfl, h⟩ | ⟨_, h⟩
    · rw [h]
      have := he n x rfl
      rw [← hi.1] at this
      dsimp only
      rw [if_pos this]
      exact hi
    · rw [h]; exact hi
    · rw [h]; exact hi
    · rw [h]; exact hi
  knows := fun {m v n x c} hi hm => by
    obtain ⟨rfl, h2⟩ := hi
    have key : ∀ u : List (Bytes × Bytes), (u.map (·.1)).Nodup → (n, x) ∈ u → u.find? (·.1 == n) = some (n, x) := by
      intro u
      induction u with
      | nil => intro _ h; cases h
      | cons a u ih =>
        intro hd hm
        rw [List.map_cons, List.nodup_cons] at hd
        rcases List.mem_cons.1 hm with rfl | hm
        · simp
        · have : a.1 ≠ n := fun e => hd.1 (e ▸ List.mem_map_of_mem (f := (·.1)) hm)
          rw [List.find?_cons_of_neg (by simpa using this)]
          exact ih hd.2 hm
    have hf := key _ h2 hm
    refine ⟨c.heap.size, ?_⟩
    simp only [tableHandler, hf]
    refine ⟨trivial, Nat.lt_succ_self _, ?_⟩
    simp [Heap.alloc, mkEntity]

/-! ### concrete documents -/

/-- `<!DOCTYPE a [<!ENTITY f 'y'><!ENTITY e 'x&f;<b/>'><!ENTITY e 'z'>]><a>&e;&f;</a>` -/
def sampleRefs : List Nat := b!"<!DOCTYPE a [<!ENTITY f 'y'><!ENTITY e 'x&f;<b/>'><!ENTITY e 'z'>]><a>&e;&f;</a>"

def sampleRefDecls : List Decl := [.entity false b!"f" b!"y" b!"y", .entity false b!"e" b!"x&f;<b/>" b!"x&f;<b/>", .entity false b!"e" b!"z" b!"z"]

def sampleRefEvents : List Ev :=
  [.setDocumentLocator, .startDocument, .internalSubset b!"a" [] [], .entityDecl b!"f" 1 [] [] b!"y", .getEntity b!"f",
    .entityDecl b!"e" 1 [] [] b!"x&f;<b/>", .getEntity b!"e", .entityDecl b!"e" 1 [] [] b!"z", .getEntity b!"e", .externalSubset b!"a" [] [],
    .startElement b!"a" [] [] [] [],
    .getEntity b!"e", .characters b!"x", .getEntity b!"f", .characters b!"y", .reference b!"f", .startElement b!"b" [] [] [] [], .endElement b!"b" [] [],
    .reference b!"e", .getEntity b!"f", .characters b!"y", .reference b!"f", .endElement b!"a" [] [], .endDocument]

theorem refs_qname {n : Nat} (h : 97 ≤ n ∧ n ≤ 122) : QName env0 [n] [] [n] :=
  ⟨ascii_ncname (c := n) (r := []) rfl h (by simpa using h) (by simp), Or.inl ⟨rfl, rfl⟩⟩

theorem refs_name {n : Nat} (h : 97 ≤ n ∧ n ≤ 122) : Name env0 [n] := letters_name (by simp) (by simpa using h) (by simp)

theorem sample_refs : RefDocument env0 false 20 sampleRefs [] [] (-2) sampleRefDecls sampleRefEvents := by
  have ents : entityTable [] sampleRefDecls = [(b!"f", b!"y"), (b!"e", b!"x&f;<b/>")] := by decide
  have y : ∀ k scope used, RefSrc env0 false (entityTable [] sampleRefDecls) k false scope used b!"y" [.characters b!"y"] used := fun k scope used =>
    .text (l := b!"y") (r := []) ⟨by decide, by decide, by decide, noLoneCR_of (by decide)⟩ (by intro c hc; cases hc) .nil
  have f : ∀ {k scope used r evs used'}, RefSrc env0 false (entityTable [] sampleRefDecls) (k + 1) false scope used r evs used' →
      RefSrc env0 false (entityTable [] sampleRefDecls) (k + 1) false scope used (b!"&f;" ++ r) (.getEntity b!"f" :: .characters b!"y" :: .reference b!"f" :: evs) used' := fun h =>
    .entity (n := b!"f") (x := b!"y") (refs_name (by decide)) (by decide) (by rw [ents]; decide) (by decide) (y _ _ _) h
  have b : RefSrc env0 false (entityTable [] sampleRefDecls) 19 false [] [] b!"<b/>" [.startElement b!"b" [] [] [] [], .endElement b!"b" [] []] [] :=
    .element (r := []) (evs' := []) (.empty (n := b!"b") (p := []) (l := b!"b") (u := []) (refs_qname (by decide)) (.nil (ws := []) (by decide)) (by decide) (Or.inl ⟨rfl, rfl, by simp⟩)) .nil
  have x : RefSrc env0 false (entityTable [] sampleRefDecls) 19 false [] [] b!"x&f;<b/>" _ [] :=
    .text (l := b!"x") ⟨by decide, by decide, by decide, noLoneCR_of (by decide)⟩ (by intro c hc; cases hc; exact .inr rfl) (f b)
  have e : RefSrc env0 false (entityTable [] sampleRefDecls) 20 false [] [] b!"&e;&f;" _ [] :=
    .entity (n := b!"e") (x := b!"x&f;<b/>") (refs_name (by decide)) (by decide) (by rw [ents]; decide) (by decide) x (f .nil)
  have root := RefSrc.full (scope := []) (used := []) (n := b!"a") (p := []) (l := b!"a") (u := []) (refs_qname (by decide))
    (.nil (ws := []) (by decide)) (by decide) (Or.inl ⟨rfl, rfl, by simp⟩) e (by decide)
  have ent : ∀ {n : Nat} {l v}, 97 ≤ n ∧ n ≤ 122 → EntValue env0 39 l v → EntityText env0 false [n] l v (b!"<!ENTITY " ++ ([n] ++ (b!" '" ++ (l ++ b!"'>")))) := fun hn hv =>
    ⟨[32], [32], [32], [], 39, by decide, by decide, by decide, by decide, by decide, by decide, by decide, refs_name hn, by simp; omega, .inr rfl, hv, by simp⟩
  have one : ∀ c, c = 120 ∨ c = 121 ∨ c = 122 → ∀ {l v}, EntValue env0 39 l v → EntValue env0 39 (c :: l) (c :: v) := by
    intro c hc l v h
    rcases hc with rfl | rfl | rfl <;> exact .char (by decide) (by decide) (by decide) (by decide) (by decide) h
  have vb : EntValue env0 39 b!"<b/>" b!"<b/>" := .char (by decide) (by decide) (by decide) (by decide) (by decide)
    (.char (by decide) (by decide) (by decide) (by decide) (by decide) (.char (by decide) (by decide) (by decide) (by decide) (by decide)
    (.char (by decide) (by decide) (by decide) (by decide) (by decide) .nil)))
  refine ⟨[], [], b!"a", b!"<!DOCTYPE a [<!ENTITY f 'y'><!ENTITY e 'x&f;<b/>'><!ENTITY e 'z'>]>", [], _, [], [], [], _, [], _, rfl, ?_, .nil, ?_, .nil, root, .nil, by decide, rfl⟩
  · exact ⟨[], [], rfl, .inl rfl, .inr ⟨rfl, rfl, rfl, rfl, by decide⟩⟩
  · exact .subset (n := b!"a") (w1 := [32]) (w2 := [32]) (w3 := []) (letters_name (by decide) (by decide) (by decide)) (by decide) (by decide) (by decide)
      (by decide) (.cons (ws := []) (by decide) (.entity (ent (n := 102) (by decide) (one 121 (by decide) .nil)))
        (.cons (ws := []) (by decide) (.entity (ent (n := 101) (by decide) (one 120 (by decide) (.ref (n := b!"f") (refs_name (by decide)) (by decide) vb))))
        (.cons (ws := []) (by decide) (.entity (ent (n := 101) (by decide) (one 122 (by decide) .nil))) (.nil (ws := []) (by decide)))))

example : ∃ N, ∀ fuel, N ≤ fuel → ∀ usr snl, tableInv [] usr →
    ∃ doc hp tr, parserParse env0 tableHandler usr fuel snl (encodeRunes sampleRefs) = .done doc none hp tr ∧ tr.map (fun x => plainEv x.1) = sampleRefEvents :=
  C68_events_partial table_remembers sample_refs (by simp [sampleRefDecls, Decl.NoAttrs])

/-! ### what is missing -/

/-- `<!DOCTYPE a [<!ENTITY e '<p:b/>'>]><a xmlns:p='u'>&e;</a>` -/
def sampleScope : List Nat := b!"<!DOCTYPE a [<!ENTITY e '<p:b/>'>]><a xmlns:p='u'>&e;</a>"

theorem sample_scope : RefDocument env0 true 1 sampleScope [] [] (-2) [.entity false b!"e" b!"<p:b/>" b!"<p:b/>"]
    [.setDocumentLocator, .startDocument, .internalSubset b!"a" [] [], .entityDecl b!"e" 1 [] [] b!"<p:b/>", .getEntity b!"e", .externalSubset b!"a" [] [],
      .startElement b!"a" [] [] [some (b!"p", b!"u")] [], .getEntity b!"e", .startElement b!"b" b!"p" b!"u" [] [], .endElement b!"b" b!"p" b!"u",
      .reference b!"e", .endElement b!"a" [] [], .endDocument] := by
  have nc : ∀ c, 97 ≤ c ∧ c ≤ 122 → NCName env0 [c] := fun c h => ascii_ncname (c := c) (r := []) rfl h (by simpa using h) (by simp)
  let ents := entityTable [] [.entity false b!"e" b!"<p:b/>" b!"<p:b/>"]
  have ha : Atts env0 [] b!" xmlns:p='u'" [] [(b!"p", b!"u")] :=
    .decl (ws := [32]) (p := b!"p") (w1 := []) (w2 := []) (q := 39) (v := b!"u") (w := b!"u") (r := []) (by decide) (by decide) (nc 112 (by decide)) (by decide) (by decide) (by decide)
      (by decide) (Or.inr rfl) (.char (by decide) (by decide) (by decide) (by decide) (by decide) .nil) (by decide) (by decide) rfl (by decide) (by decide)
      (.nil (by decide))
  have b : RefSrc env0 true ents 0 false [(b!"p", b!"u")] [(b!"p", b!"u")] b!"<p:b/>" [.startElement b!"b" b!"p" b!"u" [] [], .endElement b!"b" b!"p" b!"u"] [(b!"p", b!"u")] :=
    .element (r := []) (evs' := []) (.empty (n := b!"p:b") (p := b!"p") (l := b!"b") (u := b!"u") ⟨nc 98 (by decide), Or.inr ⟨nc 112 (by decide), rfl⟩⟩
      (.nil (ws := []) (by decide)) (by decide) (Or.inr (by decide))) .nil
  have e : RefSrc env0 true ents 1 false [(b!"p", b!"u")] [(b!"p", b!"u")] b!"&e;" _ _ :=
    .entity (n := b!"e") (x := b!"<p:b/>") (refs_name (by decide)) (by decide) (by decide) (by decide) b .nil
  have root := RefSrc.full (scope := []) (used := []) (n := b!"a") (p := []) (l := b!"a") (u := []) (refs_qname (by decide)) ha (by decide) (Or.inl ⟨rfl, rfl, by simp⟩) e (by decide)
  refine ⟨[], [], b!"a", b!"<!DOCTYPE a [<!ENTITY e '<p:b/>'>]>", [], _, [], [], [], _, [], _, rfl, ?_, .nil, ?_, .nil, root, .nil, by decide, rfl⟩
  · exact ⟨[], [], rfl, .inl rfl, .inr ⟨rfl, rfl, rfl, rfl, by decide⟩⟩
  · have v : EntValue env0 39 b!"<p:b/>" b!"<p:b/>" := .char (by decide) (by decide) (by decide) (by decide) (by decide)
      (.char (by decide) (by decide) (by decide) (by decide) (by decide) (.char (by decide) (by decide) (by decide) (by decide) (by decide)
      (.char (by decide) (by decide) (by decide) (by decide) (by decide) (.char (by decide) (by decide) (by decide) (by decide) (by decide)
      (.char (by decide) (by decide) (by decide) (by decide) (by decide) .nil)))))
    exact .subset (n := b!"a") (w1 := [32]) (w2 := [32]) (w3 := []) (letters_name (by decide) (by decide) (by decide)) (by decide) (by decide) (by decide)
      (by decide) (.cons (ws := []) (by decide) (.entity (n := b!"e") ⟨[32], [32], [32], [], 39, by decide, by decide, by decide, by decide, by decide, by decide,
        by decide, refs_name (by decide), by decide, .inr rfl, v, rfl⟩) (.nil (ws := []) (by decide)))

/-- an error is reported. -/
def ParseRes.refused : ParseRes → Bool
  | .done _ (some _) _ _ => true
  | _ => false

/-- replacement text is read without the namespaces declared around the reference. -/
theorem C68_scope_refused : (parserParse env0 tableHandler [] 100 0 (encodeRunes sampleScope)).refused = true := by decide +kernel

theorem C68_refuted : ¬ C68_statement := by
  intro h
  obtain ⟨N, hN⟩ := h _ env0 tableHandler tableInv 1 sampleScope [] [] (-2) _ _ [] 0 table_remembers sample_scope ⟨rfl, by decide⟩ (by simp [Decl.NoAttrs])
  obtain ⟨d, hp, tr, h1, _⟩ := hN (max N 100) (by omega)
  have h2 := C58_handler env0 tableHandler [] (n := 100) (m := max N 100) (k := 0) (l := 0) (by omega) (Nat.le_refl _) (encodeRunes sampleScope)
    (fun h => by have := C68_scope_refused; rw [h] at this; cases this)
  have h3 := C68_scope_refused
  rw [← h2, h1] at h3
  cases h3

/-- `Parse` refuses text as replacement text. -/
theorem C68_text_refused {fuel : Nat} (hf : 100 ≤ fuel) : (parse env0 fuel b!"<!DOCTYPE a [<!ENTITY e 'x'>]><a>&e;</a>").refused = true := by
  have h : (parse env0 100 b!"<!DOCTYPE a [<!ENTITY e 'x'>]><a>&e;</a>").refused = true := by decide +kernel
  have e : parse env0 fuel _ = _ := same_le (treeBuilder_inStep hf) hf hf _ (fun hd => by rw [show parserParse _ _ _ _ _ _ = parse env0 100 _ from rfl] at hd; rw [hd] at h; cases h)
  rw [e]
  exact h

/-- `Parse` panics at references in replacement text. -/
theorem C68_nested_panics {fuel : Nat} (hf : 100 ≤ fuel) : parse env0 fuel b!"<!DOCTYPE a [<!ENTITY f ''><!ENTITY e '&f;'>]><a>&e;</a>" = .panic := by
  have h : (parse env0 100 b!"<!DOCTYPE a [<!ENTITY f ''><!ENTITY e '&f;'>]><a>&e;</a>").crashes = true := by decide +kernel
  have e : parse env0 fuel _ = _ := same_le (treeBuilder_inStep hf) hf hf _ (fun hd => by rw [show parserParse _ _ _ _ _ _ = parse env0 100 _ from rfl] at hd; rw [hd] at h; cases h)
  rw [e]
  exact ParseRes.crashes_iff.1 h

/-- `Parse` takes an element as replacement text; the document has a reference to the entity in that place. -/
theorem C68_element_taken : (parse env0 100 b!"<!DOCTYPE a [<!ENTITY e '<b/>'>]><a>&e;</a>").written =
    some b!"<?xml version=\"1.0\"?>\n<!DOCTYPE a [\n<!ENTITY e \"<b/>\">\n]>\n<a>&e;</a>\n" := by decide +kernel


end Helium
