import Verif.Lemmas.SourceDoc
import Verif.Spec.Encoded
/-! Runs on documents in any encoding. -/
namespace Helium
open Spec
section
variable {σ : Type} {E : Env} {H : Handler σ} {G : Nat → HC σ → Prop}

theorem detect_xml {d : Bytes} {r : Bytes} (h : d = b!"<?xml" ++ r) : detectEncoding d = some (b!"utf8", d) := by
  subst h
  rfl

/-- the encoding the parser changes to after an XML declaration that names `e`. -/
def encodingOf (e : Bytes) : Option Charset := if e = [] then some .utf8 else encLoad e

theorem encoded_run {B : Nat} {b v e : List Nat} {sd : Int} {cs : Charset} {F : HC σ → Prop} (W : Willing B ⟨v, e, sd, 0⟩ H F G) {evs : List Ev}
    (h : EncodedDocument E cs b v e sd evs) (hcs : encodingOf e = some cs)
    (usr : σ) (fuel snl : Nat) (hF : F ⟨usr, Heap.empty, none, none⟩) (hf : ∀ r, r <:+ b → (E.decode cs r).length ≤ fuel)
    (hB : ∀ r, r <:+ b → (encodeRunes (E.decode cs r)).length + 1 < B) :
    ∃ s', parseDocument E H fuel snl (initSt usr Heap.empty b) = .ok () s' ∧ s'.trace.map (fun x => plainEv x.1) = evs ∧
      (∀ x ∈ s'.trace, Took x.2) ∧ G 0 s'.hc := by
  obtain ⟨d, body, m1, root, m2, e1, e2, e3, used, rfl, hd, hdec, hm1, hroot, hm2, rfl⟩ := h
  have hdx : ∃ r, d ++ body = b!"<?xml" ++ r := by
    obtain ⟨x, y, z, rfl, _⟩ := hd
    exact ⟨_, by rw [List.append_assoc]⟩
  obtain ⟨r0, hr0⟩ := hdx
  have hw := W.locator (v := (initSt usr Heap.empty (d ++ body) : St σ).view) hF
  have q1 : ∀ s : St σ, F s.hc → cb H .setDocumentLocator s = .ok () (cbSt H .setDocumentLocator s) := by
    intro s hs
    unfold cb callback
    rcases (W.locator (v := s.view) hs).1 with h1 | h1 <;> simp only [Bind.bind, M.bind, h1] <;> simp [cbSt, h1, Pure.pure, M.pure]
  have q2 : parseHead E H (initSt usr Heap.empty (d ++ body)) = .ok () { cbSt H .setDocumentLocator (initSt usr Heap.empty (d ++ body)) with
      detected := b!"utf8", cur := body, version := v, encoding := e, standalone := sd } := by
    refine Eq.trans (bind_run (q1 _ hF)) ?_
    rw [get_bind]
    have hdt : detectEncoding (cbSt H .setDocumentLocator (initSt usr Heap.empty (d ++ body))).cur = some (b!"utf8", d ++ body) := detect_xml hr0
    rw [if_pos (show (cbSt H .setDocumentLocator (initSt usr Heap.empty (d ++ body))).encoding = [] from rfl), hdt]
    simp only
    rw [modify_bind]
    run
    rw [show (d ++ body).isEmpty = false by rw [hr0]; rfl]
    simp only [Bool.false_eq_true, if_false]
    rw [show (b!"<?xml").isPrefixOf (d ++ body) = true by rw [hr0]; rfl]
    simp only [if_true]
    exact wrap_run (parseXMLDecl_run E hd _ rfl rfl rfl)
  unfold parseDocument
  rw [bind_run q2]
  have hsw : ∀ s1 : St σ, s1.cur = body → s1.encoding = e → s1.detected = b!"utf8" →
      switchEncoding E s1 = .ok () { s1 with cur := m1 ++ (root ++ m2) } := by
    intro s1 h1 h2 h3
    unfold switchEncoding
    rw [get_bind]
    have : encLoad (if s1.encoding ≠ [] then s1.encoding else if s1.detected ≠ [] then s1.detected else b!"utf8") = some cs := by
      rw [h2, h3]
      unfold encodingOf at hcs
      by_cases he : e = []
      · rw [if_pos he] at hcs
        rw [if_neg (by simpa using he)]
        exact hcs
      · rw [if_neg he] at hcs
        rw [if_pos he]
        exact hcs
    rw [this]
    unfold M.modify
    simp only [h1, hdec]
  rw [bind_run (wrap_run (hsw _ rfl rfl rfl))]
  have h1 := hf body ⟨d, rfl⟩
  have h2 := hB body ⟨d, rfl⟩
  rw [hdec] at h1 h2
  simp only [encodeRunes_append, List.length_append] at h1 h2
  obtain ⟨s2, r2, tr, hc2, rfl, p2, p3, p4⟩ := body_run W hm1 hroot hm2 fuel snl
    { cbSt H .setDocumentLocator (initSt usr Heap.empty (d ++ body)) with
      detected := b!"utf8", cur := m1 ++ (root ++ m2), version := v, encoding := e, standalone := sd }
    rfl rfl rfl rfl rfl rfl hw.2 (by omega) (by omega)
  refine ⟨_, r2, ?_, ?_, p4⟩
  · simp only [List.map_append, p2]
    rfl
  · intro x hx
    rcases List.mem_append.1 hx with hx | hx
    · have hx : x ∈ [] ++ [_] := hx
      rw [List.nil_append, List.mem_singleton] at hx
      rw [hx]; exact hw.1
    · exact p3 x hx

end
end Helium
