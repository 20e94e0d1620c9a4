import Verif.Lemmas.TotalTree
import Verif.Lemmas.AttDoc
/-! Total correctness: any text after a document type declaration. -/
namespace Helium
open Spec

theorem mapSet_mem {α : Type} {k : Bytes} {v : α} : ∀ {m : List (Bytes × α)} {p : Bytes × α}, p ∈ mapSet m k v → p ∈ m ∨ p = (k, v)
  | [], p, h => by simpa [mapSet] using h
  | (a, b) :: m, p, h => by
    unfold mapSet at h
    split at h
    · rcases List.mem_cons.1 h with h | h
      · exact Or.inr (by rw [h])
      · exact Or.inl (by simp [h])
    · rcases List.mem_cons.1 h with h | h
      · exact Or.inl (by simp [h])
      · rcases mapSet_mem h with h | h
        · exact Or.inl (by simp [h])
        · exact Or.inr h

theorem typeTab_cdata : ∀ {xs : List (Bytes × AttDef)} {m : List (Bytes × Nat)}, (∀ p ∈ m, p.2 = 1) → (∀ x ∈ xs, x.2.typ = 1) → ∀ p ∈ typeTab m xs, p.2 = 1
  | [], m, hm, _ => hm
  | x :: xs, m, hm, h => by
    show ∀ p ∈ typeTab (mapSet m (specialKey x.1 x.2.name) x.2.typ) xs, p.2 = 1
    refine typeTab_cdata (fun p hp => ?_) (fun y hy => h y (by simp [hy]))
    rw [h x (by simp)] at hp
    rcases mapSet_mem hp with hp | hp
    · exact hm p hp
    · rw [hp]

section
variable {σ : Type} {E : Env}

/-- the parser gets through any safe text after a document type declaration that it understands. -/
theorem afterDtd_tot (pn : Bool) {fuel : Nat} {h0 m1 n dt rest v e : List Nat} {sd : Int} {e1 : List Ev} {ds : List Decl} (hh : Head h0 (m1 ++ (dt ++ rest)) v e sd)
    (hm1 : Misc E m1 e1) (hdt : DoctypeText E n ds dt) (hD : Declarable ds) (hl : ∀ c ∈ h0 ++ (m1 ++ (dt ++ rest)), isScalar c ∧ c ≠ 0)
    (hsh : ∀ d ∈ ds, d.Short fuel) (hrest : rest.head? ≠ some 91) (hsafe : Safe E pn rest)
    (hpn : pn = true → ∀ n l w, .entity false n l w ∉ ds) (hsp : pn = true ∨ NoSpaceRef rest ∨ ∀ x ∈ attDefs ds, x.2.typ = 1) (usr : σ) (hf : 5 * rest.length + 1 < fuel) :
    Tot pn (parseDocument E (treeBuilder fuel) fuel fuel (initSt usr Heap.empty (encodeRunes (h0 ++ (m1 ++ (dt ++ rest)))))) (fun _ _ => True) (fun _ => True) := by
  have W := treeBuilder_willing_noEnt (σ := σ) fuel ⟨v, e, sd, 0⟩
  obtain ⟨dt', hdt'⟩ := doctype_head hdt
  have hne : m1 ++ (dt ++ rest) ≠ [] := by simp [hdt']
  have hhd : ∀ c, (m1 ++ (dt ++ rest)).head? = some c → Ws c ∨ c = 60 := by
    intro x hx
    cases m1 with
    | nil => rw [hdt'] at hx; cases hx; exact Or.inr rfl
    | cons y m => cases hx; exact misc_head hm1 _ rfl
  obtain ⟨o, hc, ho, hFc, r1⟩ := start_run_any W hh hhd hne hl usr fuel fuel ⟨⟨rfl, rfl⟩, fun i hi => absurd hi (Nat.not_lt_zero i)⟩
  rw [r1]
  generalize hs0 : ({ (initSt usr Heap.empty (encodeRunes (h0 ++ (m1 ++ (dt ++ rest))))) with
      cur := m1 ++ (dt ++ rest), version := v, encoding := e, standalone := sd, hc := hc, trace := [] ++ [(.setDocumentLocator, o)] } : St σ) = s0
  have i1 : s0.cur = m1 ++ (dt ++ rest) := by rw [← hs0]
  have i2 : s0.ns = [] := by rw [← hs0]; rfl
  have i3 : s0.inSubset = 0 := by rw [← hs0]; rfl
  have i4 : s0.attsSpecial = [] := by rw [← hs0]; rfl
  have i5 : s0.attsDefault = [] := by rw [← hs0]; rfl
  have i6 : s0.view = ⟨v, e, sd, 0⟩ := by rw [← hs0]; rfl
  have i7 : (s0.hc.heap = Heap.empty ∧ s0.hc.elem = none) ∧ NoEnt s0.hc.heap := by rw [← hs0]; exact hFc
  have i8 : s0.nodes = [] := by rw [← hs0]; rfl
  clear hs0 r1
  obtain ⟨s1, r2, w1⟩ := cb_took (H := treeBuilder fuel) (G := fun n c => TbIn ⟨v, e, sd, 0⟩ n c ∧ NoEnt c.heap) (n := 0) (s := s0) (ev := .startDocument)
    (by rw [i6]; exact W.startDoc i7)
  rw [bind_run r2]
  obtain ⟨tr1, hc1, rfl, q1, _, g1⟩ := w1
  obtain ⟨s2, r3, w2⟩ := parseMisc_run W hm1 (w := dt ++ rest)
    (Or.inr ⟨33, 68 :: (dt' ++ rest), by rw [hdt']; rfl, by decide, .inr rfl⟩) 0 ({ s0 with hc := hc1, trace := s0.trace ++ tr1 } : St σ) i1 i3 g1
  rw [bind_run (wrap_run r3)]
  obtain ⟨tr2, hc2, rfl, q2, _, g2⟩ := w2
  generalize hs2 : ({ s0 with cur := dt ++ rest, hc := hc2, trace := s0.trace ++ tr1 ++ tr2 } : St σ) = s2
  have j1 : s2.cur = dt ++ rest := by rw [← hs2]
  have j2 : s2.ns = [] := by rw [← hs2]; exact i2
  have j3 : s2.inSubset = 0 := by rw [← hs2]; exact i3
  have j4 : s2.attsSpecial = [] := by rw [← hs2]; exact i4
  have j5 : s2.attsDefault = [] := by rw [← hs2]; exact i5
  have j8 : s2.nodes = [] := by rw [← hs2]; exact i8
  have j7 : TbIn ⟨v, e, sd, 0⟩ 0 s2.hc ∧ NoEnt s2.hc.heap := by rw [← hs2]; exact g2
  obtain ⟨⟨dn, st, I, hin, hi⟩, hne⟩ := j7
  obtain ⟨s3', t, st', hd1, k1, k2, k3, k4, -, T, hin', V⟩ := declareDoctype_tree (tf := fuel) (D := ⟨v, e, sd, 0⟩) (encodeRunes n) (doctype_fit hdt hD hsh)
    hD.elKeys hD.atKeys (s := { s2 with cur := rest }) j3 I (List.length_eq_zero_iff.1 hin) hi hne j5
  obtain ⟨ksp, -⟩ := doctype_tab (K := False) (fun h => h.elim) (encodeRunes n) (doctype_OK hdt hsh) (fun h => h.elim) (s := { s2 with cur := rest }) j4 j5 j2 hd1
  obtain ⟨u, hsame, hpd⟩ := doctype_run E (treeBuilder fuel) fuel hdt hrest s2 j1 rest
  rw [hd1] at hsame
  generalize hrhs : Out.ok () s3' = rhs at hsame
  cases hsame with
  | err e s s' ht => cases hrhs
  | panic => cases hrhs
  | diverge => cases hrhs
  | ok a s3 hs3 =>
  cases hrhs
  have hH := treeBuilder_sturdy (σ := σ) pn s3.attsDefault (Nat.le_refl fuel)
  have hg : Good pn E (TbAt pn s3.attsDefault) fuel s3 := by
    refine ⟨by rw [show s3.cur = rest from hs3]; exact hsafe, ?_, ?_, ?_, ?_, ?_, by rw [show s3.cur = rest from hs3]; exact hf⟩
    · exact (congrArg HV.inSubset k4).trans j3
    · rcases hsp with h | h | h
      · exact Or.inl h
      · rw [show s3.cur = rest from hs3]; exact Or.inr (Or.inr h)
      · refine Or.inr (Or.inl ?_)
        rw [show s3.attsSpecial = _ from ksp, List.filter_eq_nil_iff]
        intro p hp
        rw [typeTab_cdata (m := []) nofun h p hp]
        decide
    · rintro n c ⟨_, _, _, _, _, hm, _⟩
      exact hm
    · rw [show s3.nodes = [] from k3.trans j8]
      refine ⟨dn, st', _, T.1, by rw [hin']; rfl, T.2.1, fun hp => Or.inr ⟨t, T.2.2, V.tlt, V.gen ?_⟩⟩
      intro x hx
      obtain ⟨d, hd, hx⟩ := List.mem_flatMap.1 hx
      cases d with
      | entity p n l w =>
        rw [show x = (p, n, l, w) from List.mem_singleton.1 hx]
        cases p with
        | true => rfl
        | false => exact absurd hd (hpn hp n l w)
      | _ => cases hx
    · intro _ x hx
      rw [show s3.ns = [] from k2.trans j2] at hx
      cases hx
  refine Tot.bind (R := fun _ s' => Same (TbAt pn s3.attsDefault) s3 s') ?_ ?_
  · rw [hpd]
    exact (parseMisc_tot hH s3 hg).wrap
  · intro _ s4 h4
    refine parseTail_tot hH fuel s4 (hg.same h4) (h4.nodes.trans (k3.trans j8)) ?_
    have := (hg.same h4).len
    omega

end
end Helium
