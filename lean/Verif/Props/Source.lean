import Verif.Lemmas.TbWilling
import Verif.Props.Tree
/-! # Well-formed documents are accepted and reported faithfully (C51), predefined entities (C39), white space (C44, C47) -/
namespace Helium
open Spec

/-! ## C51 -/

/-- **C51** for any handler that takes the events: a document without document type declaration is parsed without error, and the handler
gets exactly the events the document stands for, in order. -/
theorem C51_events {σ : Type} (E : Env) {H : Handler σ} {B : Nat} {F : HC σ → Prop} {G : Nat → HC σ → Prop} {t v e : List Nat} {sd : Int}
    {evs : List Ev} (W : Willing B ⟨v, e, sd, 0⟩ H F G) (h : Document E t v e sd evs) (usr : σ) (fuel snl : Nat)
    (hF : F ⟨usr, Heap.empty, none, none⟩) (hf : t.length ≤ fuel) (hB : (encodeRunes t).length + 1 < B) :
    ∃ doc heap tr, parserParse E H usr fuel snl (encodeRunes t) = .done doc none heap tr ∧ tr.map (fun x => plainEv x.1) = evs ∧
      ∀ x ∈ tr, Took x.2 := by
  obtain ⟨s, h1, h2, h3, _⟩ := document_run W h usr fuel snl hF hf hB
  refine ⟨s.hc.doc, s.hc.heap, s.trace, ?_, h2, h3⟩
  unfold parserParse
  rw [h1]

/-- a handler that never fails is willing. -/
theorem willing_of_took {σ : Type} {H : Handler σ} (h : ∀ v ev c, Took (H v ev c).1) (B : Nat) (D : HV) :
    Willing B D H (fun _ => True) (fun _ _ => True) where
  locator := fun _ => ⟨h _ _ _, trivial⟩
  startDoc := fun _ => ⟨h _ _ _, trivial⟩
  endDoc := fun _ => ⟨h _ _ _, trivial⟩
  start := fun _ _ _ _ => ⟨h _ _ _, trivial⟩
  stop := fun _ _ => ⟨h _ _ _, trivial⟩
  comment := fun _ _ => ⟨h _ _ _, trivial⟩
  pi := fun _ _ => ⟨h _ _ _, trivial⟩
  text := fun _ _ => ⟨h _ _ _, trivial⟩
  blank := fun _ _ => ⟨h _ _ _, trivial⟩
  cdata := fun _ _ => ⟨h _ _ _, trivial⟩

/-- **C51** for handlers that never fail. -/
theorem C51_events_total {σ : Type} (E : Env) {H : Handler σ} (hH : ∀ v ev c, Took (H v ev c).1) {t v e : List Nat} {sd : Int}
    {evs : List Ev} (h : Document E t v e sd evs) (usr : σ) (fuel snl : Nat) (hf : t.length ≤ fuel) :
    ∃ doc heap tr, parserParse E H usr fuel snl (encodeRunes t) = .done doc none heap tr ∧ tr.map (fun x => plainEv x.1) = evs := by
  obtain ⟨doc, heap, tr, h1, h2, _⟩ := C51_events E (willing_of_took hH ((encodeRunes t).length + 2) _) h usr fuel snl trivial hf (by omega)
  exact ⟨doc, heap, tr, h1, h2⟩

theorem misc_events {E : Env} {t : List Nat} {evs : List Ev} (h : Misc E t evs) : ∀ ev ∈ evs, ¬ IsDoctype ev := by
  induction h with
  | nil => simp
  | space _ _ ih => exact ih
  | comment _ _ ih => intro ev hev; rcases List.mem_cons.1 hev with rfl | hev; exact id; exact ih ev hev
  | pi _ _ ih => intro ev hev; rcases List.mem_cons.1 hev with rfl | hev; exact id; exact ih ev hev

theorem src_events {E : Env} {elem : Bool} {scope used used' : List (Bytes × Bytes)} {t : List Nat} {evs : List Ev}
    (h : Src E elem scope used t evs used') : ∀ ev ∈ evs, ¬ IsDoctype ev := by
  induction h with
  | empty => intro ev hev; simp at hev; rcases hev with rfl | rfl <;> exact id
  | full _ _ _ _ _ _ ih =>
    intro ev hev
    rcases List.mem_cons.1 hev with rfl | hev
    · exact id
    · rcases List.mem_append.1 hev with hev | hev
      · exact ih ev hev
      · rw [List.mem_singleton] at hev; subst hev; exact id
  | nil => simp
  | element _ _ ih1 ih2 => intro ev hev; rcases List.mem_append.1 hev with hev | hev; exact ih1 ev hev; exact ih2 ev hev
  | text _ _ _ ih => intro ev hev; rcases List.mem_cons.1 hev with rfl | hev; exact id; exact ih ev hev
  | ref _ _ _ _ ih => intro ev hev; rcases List.mem_cons.1 hev with rfl | hev; exact id; exact ih ev hev
  | comment _ _ ih => intro ev hev; rcases List.mem_cons.1 hev with rfl | hev; exact id; exact ih ev hev
  | pi _ _ ih => intro ev hev; rcases List.mem_cons.1 hev with rfl | hev; exact id; exact ih ev hev
  | cdata _ _ ih => intro ev hev; rcases List.mem_cons.1 hev with rfl | hev; exact id; exact ih ev hev

theorem document_events {E : Env} {t v e : List Nat} {sd : Int} {evs : List Ev} (h : Document E t v e sd evs) : ∀ ev ∈ evs, ¬ IsDoctype ev := by
  obtain ⟨h0, m1, root, m2, e1, e2, e3, used, rfl, hh, hm1, hroot, hm2, hl, rfl⟩ := h
  intro ev hev
  simp only [List.mem_append, List.mem_cons, List.not_mem_nil, or_false] at hev
  rcases hev with (rfl | rfl) | hev | hev | hev | rfl
  · exact id
  · exact id
  · exact misc_events hm1 ev hev
  · exact src_events hroot ev hev
  · exact misc_events hm2 ev hev
  · exact id

theorem plainEv_step (s : Partial) (ev : Ev) : s.step (plainEv ev) = s.step ev := by
  unfold plainEv
  split
  · split <;> rfl
  · rfl

theorem plainEv_steps : ∀ (evs : List Ev) (s : Partial), s.steps (evs.map plainEv) = s.steps evs
  | [], s => rfl
  | ev :: evs, s => by
    show (s.step (plainEv ev)).bind _ = (s.step ev).bind _
    rw [plainEv_step]
    cases s.step ev with
    | none => rfl
    | some s' => exact plainEv_steps evs s'

theorem plainEv_notCData (ev : Ev) : notCData (plainEv ev) = notCData ev := by
  unfold plainEv
  split
  · split <;> rfl
  · rfl

theorem plainEv_treeOf (evs : List Ev) : treeOf ((evs.map plainEv).filter notCData) = treeOf (evs.filter notCData) := by
  have h : (evs.map plainEv).filter notCData = (evs.filter notCData).map plainEv := by
    rw [List.filter_map]
    congr 1
    exact List.filter_congr (fun ev _ => plainEv_notCData ev)
  unfold treeOf
  rw [h, plainEv_steps]

/-- **C51** for `Parse`: it returns a document that holds exactly the tree of the text (CDATA sections left out, see `C45_refuted`), with
the version, encoding and standalone status of the XML declaration. -/
theorem C51_tree (E : Env) {t v e : List Nat} {sd : Int} {evs : List Ev} (h : Document E t v e sd evs) (fuel : Nat)
    (hf : (encodeRunes t).length + 1 < fuel) :
    ∃ d heap tr x, parse E fuel (encodeRunes t) = .done (some d) none heap tr ∧ tr.map (fun x => plainEv x.1) = evs ∧
      treeOf (evs.filter notCData) = some x ∧ HoldsDoc heap d x ∧
      (heap.at' d).version = v ∧ (heap.at' d).encoding = e ∧ (heap.at' d).standalone = sd := by
  have hlen := encodeRunes_len t
  obtain ⟨s, h1, h2, h3, ⟨dn, st, I, _, hi⟩, _⟩ := document_run (treeBuilder_willing fuel ⟨v, e, sd, 0⟩) h () fuel fuel ⟨rfl, rfl⟩ (by omega) hf
  have hp : parse E fuel (encodeRunes t) = .done s.hc.doc none s.hc.heap s.trace := by
    unfold parse parserParse
    rw [h1]
  have hnd : ∀ ev ∈ s.trace.map (·.1), ¬ IsDoctype ev := by
    intro ev hev
    obtain ⟨y, hy, rfl⟩ := List.mem_map.1 hev
    have h4 : plainEv y.1 ∈ evs := by
      rw [← h2]
      exact List.mem_map.2 ⟨y, hy, rfl⟩
    have h5 := document_events h _ h4
    intro h6
    apply h5
    obtain ⟨ev, o⟩ := y
    cases ev <;> first | exact h6 | exact absurd h6 id
  obtain ⟨d, x, k1, k2, k3⟩ := C45_tree_partial E fuel fuel fuel () (encodeRunes t) hp hnd
  have hd : s.hc.doc = some dn := by obtain ⟨a, fs, i1, _⟩ := I; exact i1
  have : d = dn := by rw [hd] at k1; cases k1; rfl
  subst this
  rw [hd] at hp
  refine ⟨d, s.hc.heap, s.trace, x, hp, h2, ?_, k3, ?_, ?_, ?_⟩
  · have h6 : s.trace.map (fun x => plainEv x.1) = (s.trace.map (·.1)).map plainEv := by rw [List.map_map]; rfl
    rw [← h2, ← k2, h6, plainEv_treeOf]
  · exact congrArg Node.version hi
  · exact congrArg Node.encoding hi
  · exact congrArg Node.standalone hi

/-! ### a document of this kind -/

theorem ascii_ncname {n : List Nat} {c : Nat} {r : List Nat} (h : n = c :: r)
    (h1 : (97 ≤ c ∧ c ≤ 122)) (h2 : ∀ x ∈ n, 97 ≤ x ∧ x ≤ 122) (h3 : n.length < 50000) : NCName env0 n := by
  have hl : ∀ c, 97 ≤ c → c ≤ 122 → env0.isLetter c = true := by
    intro c h1 h2
    rw [env0.letter_ascii c (by omega)]
    simp; omega
  exact ⟨⟨c, r, h, Or.inl (hl c h1.1 h1.2)⟩, fun x hx => ⟨Or.inl (hl x (h2 x hx).1 (h2 x hx).2), by have := h2 x hx; omega⟩, h3⟩

/-- `<?xml version="1.0" encoding='UTF-8'?><!--n--><a b = "1&lt;2">t&#65;<p:c xmlns:p='u' /><![CDATA[&]]> <?go on?></a>` and a line end. -/
def sample : List Nat := b!"<?xml version=\"1.0\" encoding='UTF-8'?><!--n--><a b = \"1&lt;2\">t&#65;<p:c xmlns:p='u' /><![CDATA[&]]> <?go on?></a>\n"

def sampleEvents : List Ev := [.setDocumentLocator, .startDocument, .comment b!"n",
  .startElement b!"a" [] [] [] [.parsed [] b!"b" b!"1<2"], .characters b!"t", .characters b!"A",
  .startElement b!"c" b!"p" b!"u" [some (b!"p", b!"u")] [], .endElement b!"c" b!"p" b!"u", .cdata b!"&", .characters b!" ", .pi b!"go" b!"on",
  .endElement b!"a" [] [], .endDocument]

theorem noLoneCR_of {l : List Nat} (h : 13 ∉ l) : NoLoneCR l := by
  intro a b hab
  rw [hab] at h
  simp at h

theorem sample_document : Document env0 sample b!"1.0" b!"UTF-8" (-2) sampleEvents := by
  have nc : ∀ c, 97 ≤ c → c ≤ 122 → NCName env0 [c] := fun c h1 h2 =>
    ascii_ncname rfl ⟨h1, h2⟩ (by intro x hx; simp at hx; omega) (by simp)
  have hgo : NCName env0 b!"go" := ascii_ncname rfl ⟨by decide, by decide⟩ (by decide) (by decide)
  have hv1 : Value 34 b!"1&lt;2" b!"1<2" :=
    .char (c := 49) (by decide) (by decide) (by decide) (by decide) (by decide)
      (.ref (b := b!"lt") (v := 60) (by decide) (by decide) (by decide)
        (.char (c := 50) (by decide) (by decide) (by decide) (by decide) (by decide) .nil))
  have ha1 : Atts env0 [] b!" b = \"1&lt;2\"" [.parsed [] b!"b" b!"1<2"] [] :=
    .attr (ws := b!" ") (n := b!"b") (p := []) (l := b!"b") (w1 := b!" ") (w2 := b!" ") (q := 34) (v := b!"1&lt;2") (w := b!"1<2") (r := [])
      (by decide) (by decide) ⟨nc 98 (by decide) (by decide), Or.inl ⟨rfl, rfl⟩⟩ (by decide) (by decide) (by decide) (by decide) (Or.inl rfl) hv1 (.nil (by decide))
  have hv2 : Value 39 b!"u" b!"u" := .char (c := 117) (by decide) (by decide) (by decide) (by decide) (by decide) .nil
  have ha2 : Atts env0 [] b!" xmlns:p='u' " [] [(b!"p", b!"u")] :=
    .decl (ws := b!" ") (p := b!"p") (w1 := []) (w2 := []) (q := 39) (v := b!"u") (w := b!"u") (r := b!" ")
      (by decide) (by decide) (nc 112 (by decide) (by decide)) (by decide) (by decide) (by decide) (by decide) (Or.inr rfl) hv2 (by decide) (by decide) rfl
      (by decide) (by decide) (.nil (by decide))
  have k6 : Src env0 false [] [(b!"p", b!"u")] [] [] [(b!"p", b!"u")] := .nil
  have k5 := Src.pi (t := b!"go on") (n := b!"go") (d := b!"on")
    ⟨⟨⟨hgo.start.elim fun c ⟨t, h1, h2⟩ => ⟨c, t, h1, h2.elim Or.inl (fun h => Or.inr (Or.inl h))⟩, fun c hc => (hgo.chars c hc).1, hgo.short⟩, by decide, by decide⟩,
      Or.inr ⟨b!" ", by decide, by decide, rfl, by decide, by decide, by decide⟩⟩ k6
  have k4 := Src.text (l := b!" ") ⟨by decide, by decide, by decide, noLoneCR_of (by decide)⟩ (by intro c hc; cases hc; exact Or.inl rfl) k5
  have k3 := Src.cdata (l := b!"&") ⟨by decide, by decide, by decide, noLoneCR_of (by decide)⟩ k4
  have k2 := Src.element (Src.empty (scope := []) (used := []) (n := b!"p:c") (p := b!"p") (l := b!"c") (u := b!"u")
    ⟨nc 99 (by decide) (by decide), Or.inr ⟨nc 112 (by decide) (by decide), rfl⟩⟩ ha2 (by decide) (Or.inr (by decide))) k3
  have k1 := Src.ref (b := b!"#65") (v := 65) (by decide) (by decide) (by decide) k2
  have k0 := Src.text (l := b!"t") ⟨by decide, by decide, by decide, noLoneCR_of (by decide)⟩ (by intro c hc; cases hc; exact Or.inr rfl) k1
  have root := Src.full (scope := []) (used := []) (n := b!"a") (p := []) (l := b!"a") (u := [])
    ⟨nc 97 (by decide) (by decide), Or.inl ⟨rfl, rfl⟩⟩ ha1 (by decide) (Or.inl ⟨rfl, rfl, by simp⟩) k0 (by decide)
  refine ⟨b!"<?xml version=\"1.0\" encoding='UTF-8'?>", b!"<!--n-->", _, b!"\n", [.comment b!"n"], _, [], _, rfl, ?_, ?_, root, ?_, by decide, rfl⟩
  · refine ⟨[], _, rfl, Or.inl rfl, Or.inl ⟨b!" version=\"1.0\"", b!" encoding='UTF-8'", [], rfl, ⟨b!"0", by decide, by decide, rfl⟩, ?_, Or.inr ⟨rfl, ?_⟩, Or.inl ⟨rfl, rfl⟩⟩⟩
    · exact ⟨b!" ", [], [], 34, by decide, by decide, by decide, by decide, Or.inl rfl, rfl⟩
    · exact ⟨b!" ", [], [], 39, by decide, by decide, by decide, by decide, Or.inr rfl, rfl⟩
  · exact .comment (b := b!"n") ⟨by decide, by decide, noLoneCR_of (by decide)⟩ .nil
  · exact .space (by decide) .nil

/-- the conclusion for it. -/
example : ∃ d heap tr x, parse env0 200 (encodeRunes sample) = .done (some d) none heap tr ∧ tr.map (fun x => plainEv x.1) = sampleEvents ∧
    treeOf (sampleEvents.filter notCData) = some x ∧ HoldsDoc heap d x ∧ (heap.at' d).version = b!"1.0" ∧ (heap.at' d).encoding = b!"UTF-8" ∧
    (heap.at' d).standalone = -2 := C51_tree env0 sample_document 200 (by decide)

/-! ## C39 -/

/-- the predefined entities (4.6). -/
def predefined : List (List Nat × Nat) := [(b!"amp", 38), (b!"lt", 60), (b!"gt", 62), (b!"quot", 34), (b!"apos", 39)]

theorem predefined_ref {x : List Nat × Nat} (hx : x ∈ predefined) : refValue x.1 = some x.2 ∧ Legal x.2 ∧ (b!"#").isPrefixOf x.1 = false := by
  simp [predefined] at hx
  rcases hx with rfl | rfl | rfl | rfl | rfl <;> decide

/-- **C39**, content: wherever content is being read, whatever was declared or read before and whatever follows, a reference to a
predefined entity is consumed and reported as the character it denotes, alone; nothing else is changed, and the outcome is that of the
handler. -/
theorem C39_content {σ : Type} (E : Env) (H : Handler σ) (body : P σ Unit) {x : List Nat × Nat} (hx : x ∈ predefined) {r : List Nat} (s : St σ)
    (hs : s.cur = 38 :: (x.1 ++ 59 :: r)) (ht : Took (H s.view (.characters [x.2]) s.hc).1) :
    contentStep E H body s = .ok () { s with cur := r, hc := (H s.view (.characters [x.2]) s.hc).2,
                                             trace := s.trace ++ [(.characters [x.2], (H s.view (.characters [x.2]) s.hc).1)] } := by
  obtain ⟨h1, h2, _⟩ := predefined_ref hx
  have he : encodeRunes [x.2] = [x.2] := by
    simp [predefined] at hx
    rcases hx with rfl | rfl | rfl | rfl | rfl <;> rfl
  have hr := parseReference_run E H body h1 h2 s hs
  rw [he] at hr
  have hcb : cb H (.characters [x.2]) { s with cur := r } = .ok () (cbSt H (.characters [x.2]) { s with cur := r }) := by
    unfold cb callback
    have ht : Took (H (St.view { s with cur := r }) (.characters [x.2]) s.hc).1 := ht
    rcases ht with h | h <;> simp only [Bind.bind, M.bind, h] <;> simp [cbSt, h, Pure.pure, M.pure]
  rw [hcb] at hr
  unfold contentStep
  run
  have p : ∀ l : List Nat, l.head? = some 60 → l.isPrefixOf s.cur = false := by
    intro l hl
    cases l with
    | nil => cases hl
    | cons y l => cases hl; rw [hs]; rfl
  simp only [p _ (show (b!"<?").head? = some 60 from rfl), p _ (show (b!"<![CDATA[").head? = some 60 from rfl),
    p _ (show (b!"<!--").head? = some 60 from rfl), p _ (show (b!"<").head? = some 60 from rfl),
    show (b!"&").isPrefixOf s.cur = true by rw [hs]; rfl, Bool.false_eq_true, if_false, if_true]
  exact wrap_run hr

/-- `<` or `>`, whatever the handler does with them. -/
example : contentStep env0 nullHandler (pure ()) (initSt () Heap.empty b!"&lt;b</a>") =
    .ok () { initSt () Heap.empty b!"b</a>" with trace := [(.characters b!"<", .ok)] } :=
  C39_content env0 nullHandler (pure ()) (x := (b!"lt", 60)) (by decide) (r := b!"b</a>") _ rfl (Or.inl rfl)

/-- **C39**, attribute values: wherever in an attribute value, with or without normalisation, a reference to a predefined entity adds
the character it denotes to the value read so far (an ampersand as a character reference, which stands for an ampersand, see
`C39_attribute_value`), and reading goes on behind it. -/
theorem C39_attribute {σ : Type} (E : Env) (H : Handler σ) {x : List Nat × Nat} (hx : x ∈ predefined) {q : Nat} (hq : q ≠ 38) (norm : Bool)
    (fuel : Nat) (b : Bytes) (sp : Bool) (n : Nat) {r : List Nat} (s : St σ) (hs : s.cur = 38 :: (x.1 ++ 59 :: r)) :
    attrValueLoop E H q norm (fuel + 1) b sp n s =
      attrValueLoop E H q norm fuel (b ++ if x.2 = 38 then b!"&#38;" else [x.2]) false (n + 1) { s with cur := r } := by
  obtain ⟨h1, h2, h3⟩ := predefined_ref hx
  have hp : ∃ p : Predef, x.1 = p.name ∧ p.content = [x.2] := by
    simp [predefined] at hx
    rcases hx with rfl | rfl | rfl | rfl | rfl
    · exact ⟨.amp, rfl, rfl⟩
    · exact ⟨.lt, rfl, rfl⟩
    · exact ⟨.gt, rfl, rfl⟩
    · exact ⟨.quot, rfl, rfl⟩
    · exact ⟨.apos, rfl, rfl⟩
  obtain ⟨p, e1, e2⟩ := hp
  rw [e1] at hs
  rw [attrValueLoop]
  run
  have h0 : s.cur.getD 0 E.eof = 38 := by rw [hs]; rfl
  rw [h0, if_neg (by rintro (h | h | h); exact hq h.2.symm; revert h; decide; revert h; decide), if_pos rfl]
  have h4 : s.cur.getD (2 - 1) E.eof ≠ 35 := by rw [hs]; cases p <;> simp [Predef.name]
  rw [if_neg h4, bind_run (wrap_run (parseEntityRef_predef E H p s hs))]
  run
  have h5 : (ERef.pre p).typ s.hc.heap = 6 := rfl
  have h6 : (ERef.pre p).content s.hc.heap = [x.2] := e2
  simp only [h5, h6, if_true]
  congr 2
  by_cases hv38 : x.2 = 38 <;> simp [hv38]

/-- **C39**, whole attribute values of literal characters and references (character references and predefined entities): the value that
is read stands for the text, with every reference replaced by its character; `setAttribute` stores that text (C20). -/
theorem C39_attribute_value {σ : Type} (E : Env) (H : Handler σ) {q : Nat} (hq : q = 34 ∨ q = 39) {l w r : List Nat} (hv : Value q l w) (s : St σ)
    (hs : s.cur = q :: (l ++ q :: r)) :
    ∃ val n, parseAttributeValue E H false s = .ok (val, n) { s with cur := r } ∧ StandsFor val (encodeRunes w) := by
  obtain ⟨n, h⟩ := parseAttributeValue_run E H hq hv s hs
  exact ⟨_, n, h, reported_stands (value_legal hv)⟩

example : ∃ val n, parseAttributeValue env0 nullHandler false (initSt () Heap.empty b!"'x&amp;y'>") = .ok (val, n) (initSt () Heap.empty b!">") ∧
    StandsFor val b!"x&y" :=
  C39_attribute_value env0 nullHandler (q := 39) (Or.inr rfl) (l := b!"x&amp;y") (w := b!"x&y")
    (.char (c := 120) (by decide) (by decide) (by decide) (by decide) (by decide)
      (.ref (b := b!"amp") (v := 38) (by decide) (by decide) (by decide)
        (.char (c := 121) (by decide) (by decide) (by decide) (by decide) (by decide) .nil))) _ rfl

/-! ## C44 -/

/-- **C44**: wherever content is being read, a run of white space up to the next markup, reference, or the end of the input is reported
completely (line ends normalised), as characters or as ignorable white space. In the tree both are text, see `C45_tree_partial`
(`Spec.Partial.step` adds the text of both). -/
theorem C44_white_space {σ : Type} (E : Env) (H : Handler σ) (body : P σ Unit) {ws r : List Nat} (hne : ws ≠ []) (hw : Blank ws)
    (hr : ∀ c, r.head? = some c → c = 60 ∨ c = 38) (s : St σ) (hs : s.cur = ws ++ r) :
    ∃ ev, (ev = .characters (unixLines ws) ∨ ev = .ignorable (unixLines ws)) ∧ contentStep E H body s = cb H ev { s with cur := r } := by
  have hws : ∀ c ∈ ws, c = 32 ∨ c = 9 ∨ c = 10 ∨ c = 13 := fun c hc => by have := hw c hc; unfold Ws at this; omega
  have hasc : encodeRunes (unixLines ws) = unixLines ws := by
    apply encodeRunes_ascii
    intro c hc
    rw [unixLines_eq] at hc
    have := hws c (mem_replaceCRLF _ _ hc)
    omega
  have h1 := parseCharData_raw E H hne (fun c hc => by rcases hws c hc with rfl | rfl | rfl | rfl <;> decide) (by
    rintro ⟨a, b, h⟩
    have := hws 93 (by rw [← h]; simp)
    omega) hr s hs
  rw [hasc] at h1
  obtain ⟨ev, h2, _, h3⟩ := h1
  refine ⟨ev, h2, ?_⟩
  unfold contentStep
  run
  have p : ∀ l : List Nat, (l.head? = some 60 ∨ l.head? = some 38) → l.isPrefixOf s.cur = false := by
    intro l hl
    rw [hs]
    obtain ⟨c, t, rfl⟩ := List.exists_cons_of_ne_nil hne
    have := hws c (by simp)
    cases l with
    | nil => simp at hl
    | cons y l =>
      simp at hl
      rw [List.cons_append, List.isPrefixOf_cons_cons]
      have : (y == c) = false := by simp; omega
      rw [this]
      rfl
  simp only [p b!"<?" (Or.inl rfl), p b!"<![CDATA[" (Or.inl rfl), p b!"<!--" (Or.inl rfl), p b!"<" (Or.inl rfl), p b!"&" (Or.inr rfl),
    Bool.false_eq_true, if_false]
  exact h3

example : ∃ ev, (ev = .characters b!" \n\t" ∨ ev = .ignorable b!" \n\t") ∧
    contentStep env0 nullHandler (pure ()) (initSt () Heap.empty [32, 13, 10, 9, 60, 98]) = cb nullHandler ev (initSt () Heap.empty b!"<b") :=
  C44_white_space env0 nullHandler (pure ()) (ws := [32, 13, 10, 9]) (r := b!"<b") (by decide) (by decide) (by intro c hc; cases hc; exact Or.inl rfl) _ rfl

/-- **C44** in the tree: white space reported either way becomes text of the tree. -/
theorem C44_in_tree (s : Partial) (b : Bytes) : s.step (.ignorable b) = s.step (.characters b) := rfl

/-! ## C47 -/

/-- **C47**, as stated: white space before the `>` of an end tag does not matter. -/
def C47_statement : Prop := ∀ (E : Env) (fuel : Nat) (ws : List Nat), Blank ws → 20 ≤ fuel → ∀ d h tr,
  parse E fuel b!"<a></a>" = .done d none h tr → ∃ d' h' tr', parse E fuel (b!"<a></a" ++ ws ++ b!">") = .done d' none h' tr'

theorem C47_refuted : ¬ C47_statement := by
  intro h
  have h0 : (parse env0 20 b!"<a></a>").events = some
      [.setDocumentLocator, .startDocument, .startElement [97] [] [] [] [], .endElement [97] [] [], .endDocument] := by decide +kernel
  obtain ⟨d, hp, tr, h1, _⟩ := ParseRes.good_of_events h0
  obtain ⟨d', h', tr', h2⟩ := h env0 20 [32] (by decide) (by decide) d hp tr h1
  have h3 : (parse env0 20 (b!"<a></a" ++ [32] ++ b!">")).events = none := by decide +kernel
  rw [h2] at h3
  cases h3

/-- **C47**, the other places in the tags of elements: white space around `=`, before and behind attributes, of any length, does not change
what is reported. Two documents that stand for the same events (such as documents that differ in white space inside start tags and around
the root element only) give the same events and the same tree. Missing: end tags, see `C47_refuted`, and the end of the XML declaration. -/
theorem C47_same_partial (E : Env) {t t' v e : List Nat} {sd : Int} {evs : List Ev} (h : Document E t v e sd evs) (h' : Document E t' v e sd evs)
    (fuel : Nat) (hf : (encodeRunes t).length + 1 < fuel) (hf' : (encodeRunes t').length + 1 < fuel) :
    ∃ d heap tr d' heap' tr' x, parse E fuel (encodeRunes t) = .done (some d) none heap tr ∧
      parse E fuel (encodeRunes t') = .done (some d') none heap' tr' ∧ tr.map (fun x => plainEv x.1) = tr'.map (fun x => plainEv x.1) ∧
      HoldsDoc heap d x ∧ HoldsDoc heap' d' x := by
  obtain ⟨d, heap, tr, x, h1, h2, h3, h4, _⟩ := C51_tree E h fuel hf
  obtain ⟨d', heap', tr', x', h1', h2', h3', h4', _⟩ := C51_tree E h' fuel hf'
  rw [h3] at h3'
  cases h3'
  exact ⟨d, heap, tr, d', heap', tr', x, h1, h1', h2.trans h2'.symm, h4, h4'⟩

/-- **C47** for a single attribute, in any state of the parser: the white space around `=` is skipped. -/
theorem C47_attribute_partial {σ : Type} (E : Env) (H : Handler σ) (elem : Bytes) {n p l w1 w2 v w r : List Nat} {q : Nat} (hn : QName E n p l) (h1 : Blank w1)
    (h2 : Blank w2) (hq : q = 34 ∨ q = 39) (hv : Value q v w) (s : St σ) (hsp : s.attsSpecial = [])
    (hs : s.cur = n ++ (w1 ++ 61 :: (w2 ++ q :: (v ++ q :: r)))) :
    parseAttribute E H elem s = parseAttribute E H elem { s with cur := n ++ (61 :: (q :: (v ++ q :: r))) } := by
  rw [parseAttribute_run E H elem hn h1 h2 hq hv s hsp hs]
  rw [parseAttribute_run E H elem hn (w1 := []) (w2 := []) (by intro c hc; cases hc) (by intro c hc; cases hc) hq hv
    { s with cur := n ++ (61 :: (q :: (v ++ q :: r))) } hsp rfl]

end Helium
