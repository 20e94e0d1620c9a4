import Verif.Lemmas.TotalContent
import Verif.Lemmas.LogicDoc
/-! Total correctness: the XML declaration and the document. -/
namespace Helium
open Spec
section
variable {σ : Type} {α β : Type} {E : Env} {H : Handler σ} {pn : Bool} {B : Nat} {F : HC σ → Prop} {G : Nat → HC σ → Prop}

/-- what the XML declaration leaves alone. -/
structure Base (s s' : St σ) : Prop where
  cur : s'.cur <:+ s.cur
  nodes : s'.nodes = s.nodes
  sub : s'.inSubset = s.inSubset
  special : s'.attsSpecial = s.attsSpecial
  dflt : s'.attsDefault = s.attsDefault
  ns : s'.ns = s.ns
  hc : s'.hc = s.hc

theorem Base.refl (s : St σ) : Base s s := ⟨List.suffix_refl _, rfl, rfl, rfl, rfl, rfl, rfl⟩

theorem Base.trans {a b c : St σ} (h : Base a b) (k : Base b c) : Base a c :=
  ⟨k.cur.trans h.cur, k.nodes.trans h.nodes, k.sub.trans h.sub, k.special.trans h.special, k.dflt.trans h.dflt, k.ns.trans h.ns, k.hc.trans h.hc⟩

/-- the computation returns and leaves alone what `Base` says. -/
def Calm (p : P σ α) : Prop := ∀ s, Tot false (p s) (fun _ s' => Base s s') (Base s)

theorem Calm.pure (a : α) : Calm (pure a : P σ α) := fun s => Base.refl s
theorem Calm.fail (e : Err) : Calm (M.fail e : P σ α) := fun s => Base.refl s
theorem Calm.get : Calm (M.get : P σ (St σ)) := fun s => Base.refl s
theorem Calm.rest : Calm (rest : P σ (List Nat)) := fun s => Base.refl s
theorem Calm.peekB (n : Nat) : Calm (peekB E n : P σ Nat) := fun s => Base.refl s
theorem Calm.isDone : Calm (isDone : P σ Bool) := fun s => Base.refl s
theorem Calm.hasPrefix (l : List Nat) : Calm (hasPrefix l : P σ Bool) := fun s => Base.refl s
theorem Calm.adv (n : Nat) : Calm (adv n : P σ Unit) := fun _ => ⟨List.drop_suffix _ _, rfl, rfl, rfl, rfl, rfl, rfl⟩
theorem Calm.need (c : Bool) (e : EK) : Calm (M.need c e : P σ Unit) := by
  unfold M.need; split
  · exact Calm.pure ()
  · exact Calm.fail _
theorem Calm.needRaw (c : Bool) (e : EK) : Calm (M.needRaw c e : P σ Unit) := by
  unfold M.needRaw; split
  · exact Calm.pure ()
  · exact Calm.fail _
theorem Calm.consume (l : List Nat) : Calm (consume l : P σ Bool) := by
  intro s
  unfold Helium.consume
  split
  · exact ⟨List.drop_suffix _ _, rfl, rfl, rfl, rfl, rfl, rfl⟩
  · exact Base.refl s
theorem Calm.skipBlanks : Calm (skipBlanks : P σ Bool) := fun _ => ⟨List.dropWhile_suffix _, rfl, rfl, rfl, rfl, rfl, rfl⟩

theorem Calm.bind {p : P σ α} {f : α → P σ β} (h : Calm p) (hf : ∀ a, Calm (f a)) : Calm (p >>= f) := by
  intro s
  refine Tot.bind (h s) ?_
  intro a t ht
  exact (hf a t).mono (fun _ _ hu => ht.trans hu) (fun _ hu => ht.trans hu)

theorem Calm.wrap {p : P σ α} (h : Calm p) : Calm (M.wrap p) := fun s => (h s).wrap

theorem Calm.attempt {p : P σ α} (h : Calm p) : Calm (M.attempt p) := by
  intro s
  have h1 := h s
  unfold M.attempt
  cases hp : p s <;> rw [hp] at h1 <;> exact h1

macro "calm" : tactic => `(tactic| repeat' first
  | exact Calm.pure _
  | exact Calm.fail _
  | exact Calm.need _ _
  | exact Calm.needRaw _ _
  | exact Calm.rest
  | exact Calm.get
  | exact Calm.peekB _
  | exact Calm.isDone
  | exact Calm.hasPrefix _
  | exact Calm.adv _
  | exact Calm.consume _
  | exact Calm.skipBlanks
  | exact (fun s => ⟨List.suffix_refl _, rfl, rfl, rfl, rfl, rfl, rfl⟩)
  | assumption
  | refine Calm.wrap ?_
  | refine Calm.attempt ?_
  | refine Calm.bind ?_ (fun _ => ?_)
  | split)

theorem Calm.named {name : Bytes} {val : P σ Bytes} (hv : Calm val) : Calm (parseNamedAttributeBytes E name val) := by
  unfold parseNamedAttributeBytes parseQuotedTextBytes
  calm

theorem Calm.version : Calm (parseVersionNum E : P σ Bytes) := by unfold parseVersionNum; calm
theorem Calm.encName : Calm (parseEncodingName E : P σ Bytes) := by unfold parseEncodingName M.cerr; calm
theorem Calm.standalone : Calm (parseStandaloneDeclValue : P σ Bytes) := by unfold parseStandaloneDeclValue M.raw; calm

/-- the XML declaration is read or refused. -/
theorem Calm.xmlDecl : Calm (parseXMLDecl E : P σ Unit) := by
  have h1 := Calm.named (E := E) (name := b!"version") (Calm.version (σ := σ) (E := E))
  have h2 := Calm.named (E := E) (name := b!"encoding") (Calm.encName (σ := σ) (E := E))
  have h3 := Calm.named (E := E) (name := b!"standalone") (Calm.standalone (σ := σ))
  unfold parseXMLDecl closeDecl M.cerr M.raw
  calm

theorem parseHead_tot (hH : Sturdy pn B H F G) (s : St σ) (hF : F s.hc) :
    Tot pn (parseHead E H s) (fun _ s' => s'.cur <:+ s.cur ∧ s'.nodes = s.nodes ∧ s'.inSubset = s.inSubset ∧ s'.attsSpecial = s.attsSpecial ∧
      s'.attsDefault = s.attsDefault ∧ s'.ns = s.ns ∧ F s'.hc) (fun _ => True) := by
  unfold parseHead
  refine Tot.bind (cb_tot (hH.locator hF)) ?_
  rintro _ t ⟨c, tr, rfl, hc⟩
  have key : Calm (do
      let s ← M.get
      if s.encoding = [] then
        match detectEncoding s.cur with
        | some (n, r) => M.modify (fun s => { s with detected := n, cur := r })
        | none => pure ()
      else pure ()
      if (← isDone) then M.cerr .mEmptyDocument
      else if (← hasPrefix b!"<?xml") then M.wrap (parseXMLDecl E)
      else pure () : P σ Unit) := by
    intro s
    rw [get_bind]
    have rest : Calm (do
        if (← isDone) then M.cerr .mEmptyDocument
        else if (← hasPrefix b!"<?xml") then M.wrap (parseXMLDecl E)
        else pure () : P σ Unit) := by
      have := Calm.xmlDecl (σ := σ) (E := E)
      unfold M.cerr
      calm
    by_cases he : s.encoding = []
    · simp only [if_pos he]
      cases hd : detectEncoding s.cur with
      | none => exact rest s
      | some nr =>
        have h1 : Base s { s with detected := nr.1, cur := nr.2 } := ⟨detectEncoding_suffix hd, rfl, rfl, rfl, rfl, rfl, rfl⟩
        exact (rest { s with detected := nr.1, cur := nr.2 }).mono (fun _ _ h => h1.trans h) (fun _ h => h1.trans h)
    · simp only [if_neg he]
      exact rest s
  have hw : ∀ {o : Out (St σ) Unit} {R : Unit → St σ → Prop} {X : St σ → Prop}, Tot false o R X → Tot pn o R X := by
    intro o R X h
    cases o with
    | panic => cases h
    | _ => exact h
  refine (hw (key _)).mono (fun _ u h => ?_) (fun _ _ => trivial)
  exact ⟨h.cur, h.nodes, h.sub, h.special, h.dflt, h.ns, by rw [h.hc]; exact hc⟩

theorem Calm.name : Calm (parseName E : P σ Bytes) := by
  unfold parseName M.cerr
  refine Calm.bind Calm.rest (fun l => ?_)
  cases l with
  | nil => exact Calm.fail _
  | cons c t =>
    simp only
    split
    · exact Calm.fail _
    · split
      · exact Calm.fail _
      · exact Calm.bind (Calm.adv _) (fun _ => Calm.pure _)

theorem Calm.orElse {p : P σ α} {k : EK} (h : Calm p) : Calm (M.orElse p k) := fun s => (h s).orElse

theorem Calm.tot {p : P σ α} (h : Calm p) (s : St σ) : Tot pn (p s) (fun _ s' => Base s s') (fun _ => True) := by
  have h := h s
  cases hp : p s with
  | panic => rw [hp] at h; cases h
  | ok a t => rw [hp] at h; exact h
  | err e t => trivial
  | diverge => rw [hp] at h; exact h

/-- what was read has no `>`. -/
def NoGt (s s' : St σ) : Prop := ∃ u, s.cur = u ++ s'.cur ∧ 62 ∉ u

theorem NoGt.trans {a b c : St σ} (h : NoGt a b) (k : NoGt b c) : NoGt a c := by
  obtain ⟨u, h1, h2⟩ := h
  obtain ⟨v, k1, k2⟩ := k
  exact ⟨u ++ v, by rw [h1, k1, List.append_assoc], by simp [h2, k2]⟩

theorem skipBlanks_noGt {s s' : St σ} {b : Bool} (h : (skipBlanks : P σ Bool) s = .ok b s') : NoGt s s' := by
  unfold skipBlanks at h
  cases h
  refine ⟨s.cur.takeWhile isBlank, (List.takeWhile_append_dropWhile).symm, fun hm => ?_⟩
  have := mem_takeWhile hm
  revert this
  decide

theorem skipBlanks_ext {s s' : St σ} {b : Bool} (h : (skipBlanks : P σ Bool) s = .ok b s') : s'.extSubSystem = s.extSubSystem ∧ s'.extSubURI = s.extSubURI := by
  unfold skipBlanks at h
  cases h
  exact ⟨rfl, rfl⟩

theorem parseName_noGt {s s' : St σ} {n : Bytes} (h : parseName E s = .ok n s') : NoGt s s' := by
  obtain ⟨cur', rfl, c, a, q, e1, e2, e3, e4, -, e6, -⟩ := parseName_sound E h
  have hc : ∀ x, NameChar E x → x ≠ 62 := by
    rintro x hx rfl
    rcases hx with h | h | h
    · rw [E.letter_ascii 62 (by decide)] at h; revert h; decide
    · rw [E.digit_ascii 62 (by decide)] at h; revert h; decide
    · revert h; decide
  have hn : 62 ∉ c :: a := by
    intro hm
    rcases List.mem_cons.1 hm with h | h
    · refine hc c ?_ h.symm
      unfold NameChar; rcases e3 with h | h | h <;> simp [h]
    · exact hc 62 (e4 62 h) rfl
  rcases e6 with h | ⟨h, h'⟩
  · exact ⟨c :: a, by rw [e1]; show _ = _ ++ cur'; rw [h], hn⟩
  · refine ⟨c :: a ++ [0], ?_, by simpa using hn⟩
    cases q with
    | nil => cases h
    | cons x q =>
      simp only [List.head?_cons, Option.some.injEq] at h
      subst h
      have h' : cur' = q := h'
      rw [e1]
      show _ = _ ++ cur'
      rw [h']
      simp

/-- a document type declaration without internal subset, well-formed or not. -/
theorem parseDoctypePart_tot (hH : Sturdy pn B H F G) (snl : Nat) (s : St σ) (hs : Good pn E G B s) (hn : s.nodes = []) :
    Tot pn (parseDoctypePart E H snl s) (fun _ s' => Good pn E G B s' ∧ s'.nodes = []) (fun _ => True) := by
  unfold parseDoctypePart
  rw [hasPrefix_bind]
  split
  case isFalse => exact ⟨hs, hn⟩
  rename_i hp
  obtain ⟨r, hr⟩ := List.isPrefixOf_iff_prefix.1 hp
  have hr : s.cur = b!"<!DOCTYPE" ++ r := hr.symm
  rw [modify_bind]
  have step1 : Tot pn (M.wrap (parseDocTypeDecl E H) { s with inSubset := 1 }) (fun _ s' => (∃ u, r = u ++ s'.cur ∧ 62 ∉ u.dropLast) ∧
      s'.nodes = s.nodes ∧ s'.attsSpecial = s.attsSpecial ∧ s'.attsDefault = s.attsDefault ∧ s'.ns = s.ns ∧ G 0 s'.hc ∧
      s'.extSubSystem = [] ∧ s'.extSubURI = []) (fun _ => True) := by
    refine Tot.wrap ?_
    unfold parseDocTypeDecl
    have h0 : (consume b!"<!DOCTYPE" : P σ Bool) { s with inSubset := 1 } = .ok true { s with inSubset := 1, cur := r } := by
      unfold consume
      simp only [hp, if_true]
      rw [hr]
      rfl
    rw [bind_run h0, if_pos rfl]
    refine Tot.bind ((Calm.skipBlanks.tot _).with (fun _ t h => skipBlanks_noGt h)) ?_
    rintro _ t1 ⟨b1, g1⟩
    refine Tot.bind ((Calm.name.orElse.tot t1).with (fun _ t h => parseName_noGt (orElse_ok.1 h))) ?_
    rintro nm t2 ⟨b2, g2⟩
    rw [modify_bind]
    refine Tot.bind ((Calm.skipBlanks.tot _).with (fun _ t h => skipBlanks_noGt h)) ?_
    rintro _ t3 ⟨b3, g3⟩
    refine Tot.bind (R := fun x t => x = ([], []) ∧ t = t3) ⟨rfl, rfl⟩ ?_
    rintro x t3' ⟨rfl, rfl⟩
    rw [modify_bind]
    refine Tot.bind ((Calm.skipBlanks.tot _).with (fun _ t h => (⟨skipBlanks_noGt h, skipBlanks_ext h⟩ : NoGt _ t ∧ (t.extSubSystem = [] ∧ t.extSubURI = [])))) ?_
    rintro _ t4 ⟨b4, g4, f4⟩
    have b34 : Base t3' t4 := ⟨b4.cur, b4.nodes, b4.sub, b4.special, b4.dflt, b4.ns, b4.hc⟩
    have b23 : Base t2 t3' := ⟨b3.cur, b3.nodes, b3.sub, b3.special, b3.dflt, b3.ns, b3.hc⟩
    have bb : Base { s with inSubset := 1, cur := r } t4 := ((b1.trans b2).trans b23).trans b34
    obtain ⟨u, gu1, gu2⟩ : NoGt { s with inSubset := 1, cur := r } t4 := ((g1.trans g2).trans g3).trans g4
    have gu1 : r = u ++ t4.cur := gu1
    have hG0 : G 0 t4.hc := by
      rw [bb.hc]
      have := hs.hc
      rw [hn] at this
      exact this
    refine Tot.bind (cb_tot (hH.internalSubset bb.sub hG0)) ?_
    rintro _ t5 ⟨c, tr, rfl, hG5⟩
    rw [peek_bind]
    split
    · exact ⟨⟨u, gu1, fun h => gu2 (List.dropLast_subset _ h)⟩, bb.nodes, bb.special, bb.dflt, bb.ns, hG5, f4⟩
    · show Tot pn (((M.need (t4.cur.getD 0 E.eof == 62) .docTypeNotFinished : P σ Unit) >>= fun _ => adv 1) _) _ _
      by_cases h62 : t4.cur.getD 0 E.eof = 62
      · rw [need_bind (by simpa using h62)]
        obtain ⟨z, hz⟩ := peek_cons h62 (by decide)
        refine ⟨⟨u ++ [62], ?_, ?_⟩, bb.nodes, bb.special, bb.dflt, bb.ns, hG5, f4⟩
        · show r = _ ++ t4.cur.drop 1
          rw [gu1, hz]
          simp
        · rw [List.dropLast_concat]
          exact gu2
      · rw [show (t4.cur.getD 0 E.eof == 62) = false from by simpa using h62]
        trivial
  refine Tot.bind step1 ?_
  rintro _ t ⟨⟨u, u1, u2⟩, c1, c2, c3, c4, c5, c6, c7⟩
  rw [hasPrefix_bind]
  have hcur : t.cur <:+ s.cur := by
    rw [hr, u1]
    exact ⟨b!"<!DOCTYPE" ++ u, by simp⟩
  split
  · rename_i hb
    exfalso
    obtain ⟨w, hw⟩ := List.isPrefixOf_iff_prefix.1 hb
    have hw : t.cur = 91 :: w := hw.symm
    exact u2 (hs.safe.doctype u w (by rw [hr, u1, hw]; exact List.suffix_refl _))
  · dsimp only
    rw [modify_bind, get_bind]
    show Tot pn ((cb H (.externalSubset t.intSubName t.extSubSystem t.extSubURI) >>= _) _) _ _
    rw [c6, c7]
    refine Tot.bind (cb_tot (hH.externalSubset rfl c5)) ?_
    rintro _ t5 ⟨c, tr, rfl, hG5⟩
    rw [modify_bind]
    dsimp only
    have hg : Good pn E G B ({ t with inSubset := 0, extSubSystem := [], extSubURI := [], hc := c, trace := tr, attsSpecial := t.attsSpecial.filter (fun p => p.2 != 1) } : St σ) := by
      refine ⟨hs.safe.mono _ hcur, rfl, ?_, ?_, ?_, ?_, ?_⟩
      · show _ ∨ t.attsSpecial.filter _ = [] ∨ NoSpaceRef t.cur
        rcases hs.special with h | h | h
        · exact Or.inl h
        · rw [c2, h]; exact Or.inr (Or.inl rfl)
        · exact Or.inr (Or.inr (h.mono hcur))
      · show ∀ n c, G n c → Marked t.attsDefault c.heap
        rw [c3]; exact hs.dflt
      · show G t.nodes.length c
        rw [c1, hn]; exact hG5
      · show _ → ∀ x ∈ t.ns, _
        rw [c4]; exact hs.ns
      · show 5 * t.cur.length + 1 < B
        have := hcur.length_le
        have := hs.len
        omega
    exact Tot.mono (parseMisc_tot hH _ hg).wrap (fun _ s' h => And.intro (hg.same h) (h.nodes.trans (c1.trans hn))) (fun _ h => h)

theorem parseDocument_tot (hH : Sturdy pn B H F G) {fuel snl : Nat} {usr : σ} {heap : Heap} {input : Bytes} (hF : F ⟨usr, heap, none, none⟩)
    (hsafe : ∀ cs r, r <:+ input → Safe E pn (E.decode cs r)) (hB : ∀ cs r, r <:+ input → 5 * (E.decode cs r).length + 1 < B)
    (hf : B ≤ fuel) :
    Tot pn (parseDocument E H fuel snl (initSt usr heap input)) (fun _ _ => True) (fun _ => True) := by
  unfold parseDocument
  refine Tot.bind (parseHead_tot hH _ hF) ?_
  rintro _ s ⟨h1, h2, h3, h4, h5, h6, h7⟩
  refine Tot.bind (R := fun _ s' => ∃ cs, s' = { s with cur := E.decode cs s.cur }) ?_ ?_
  · refine Tot.wrap ?_
    unfold switchEncoding
    rw [get_bind]
    show Tot pn ((match encLoad (if s.encoding ≠ [] then s.encoding else if s.detected ≠ [] then s.detected else b!"utf8") with
      | none => M.raw .mUnsupportedEncoding
      | some c => M.modify (fun s => { s with cur := E.decode c s.cur }) : P σ Unit) s) _ _
    cases encLoad (if s.encoding ≠ [] then s.encoding else if s.detected ≠ [] then s.detected else b!"utf8") with
    | none => trivial
    | some cs => exact ⟨cs, rfl⟩
  rintro _ s' ⟨cs, rfl⟩
  refine Tot.bind (cb_tot (hH.startDoc h7)) ?_
  rintro _ t ⟨c, tr, rfl, hG⟩
  have hg : Good pn E G B ({ s with cur := E.decode cs s.cur, hc := c, trace := tr } : St σ) :=
    ⟨hsafe cs _ h1, h3, Or.inr (Or.inl h4), (fun _ _ _ k l hl => by
      have h5 : s.attsDefault = [] := h5
      rw [show ({ s with cur := E.decode cs s.cur, hc := c, trace := tr } : St σ).attsDefault = s.attsDefault from rfl, h5] at hl
      cases hl), by show G s.nodes.length c; rw [h2]; exact hG, (fun _ x hx => by
      have hx : x ∈ s.ns := hx
      rw [h6] at hx
      cases hx), hB cs _ h1⟩
  refine Tot.bind (parseMisc_tot hH _ hg).wrap ?_
  intro _ u hu
  have hgu := hg.same hu
  refine Tot.bind (parseDoctypePart_tot hH snl u hgu (hu.nodes.trans h2)) ?_
  rintro _ w ⟨hgw, hnw⟩
  refine parseTail_tot hH fuel w hgw hnw ?_
  have := hgw.len
  omega

end
end Helium
