import Verif.Lemmas.ContentRun
import Verif.Lemmas.DumpRun
/-! What the serialiser writes for a content model is again a text of that content model. -/
namespace Helium
open Spec

section
variable (E : Env)

/-- is the model a sequence or choice? -/
def isGroup : EC → Bool
  | .nil => false
  | .mk t _ _ _ _ _ => t == 3 || t == 4

/-- does a second member get parentheses? -/
def wrapped (b : Bool) : EC → Bool
  | .nil => false
  | .mk t o _ _ _ _ => t == sepType (!b) || (t == sepType b && o != 1)

/-- how the serialiser writes a separator. -/
def sepText (b : Bool) : List Nat := [32, sepChar b, 32]

theorem dump_mk {b : Bool} {o : Nat} {c1 c2 : EC} (h1 : c1 ≠ .nil) (h2 : c2 ≠ .nil) (glob : Bool) {y1 y2 : Bytes}
    (d1 : ∀ out, dumpElementContent (isGroup c1) c1 out = .ok () (out ++ y1))
    (d2 : ∀ out, dumpElementContent (wrapped b c2) c2 out = .ok () (out ++ y2)) (out : Bytes) :
    dumpElementContent glob (.mk (sepType b) o [] [] c1 c2) out =
      .ok () (out ++ ((if glob then [40] else []) ++ (y1 ++ (sepText b ++ (y2 ++ ((if glob then [41] else []) ++ occSuffix o)))))) := by
  cases c1 with
  | nil => exact absurd rfl h1
  | mk t1 o1 n1 p1 a1 b1 =>
    cases c2 with
    | nil => exact absurd rfl h2
    | mk t2 o2 n2 p2 a2 b2 =>
      cases b
      · have d2' : ∀ out, dumpElementContent (t2 == 4 || (t2 == 3 && o2 != 1)) (.mk t2 o2 n2 p2 a2 b2) out = .ok () (out ++ y2) := d2
        have d1' : ∀ out, dumpElementContent (t1 == 3 || t1 == 4) (.mk t1 o1 n1 p1 a1 b1) out = .ok () (out ++ y1) := d1
        rw [show sepType false = 3 from rfl]
        rw [dumpElementContent]
        cases glob
        · simp only [Bool.false_eq_true, if_false, pure_bind', show ¬ (3 = 1) by decide, show ¬ (3 = 2) by decide, if_true]
          rw [bind_run (d1' _), emit_bind, bind_run (d2' _)]
          simp [emit_bind, emit_run, pure_bind', sepText, sepChar, List.append_assoc]
        · simp only [if_true, emit_bind, show ¬ (3 = 1) by decide, show ¬ (3 = 2) by decide, if_false]
          rw [bind_run (d1' _), emit_bind, bind_run (d2' _)]
          simp [emit_bind, emit_run, pure_bind', sepText, sepChar, List.append_assoc]
      · have d2' : ∀ out, dumpElementContent (t2 == 3 || (t2 == 4 && o2 != 1)) (.mk t2 o2 n2 p2 a2 b2) out = .ok () (out ++ y2) := d2
        have d1' : ∀ out, dumpElementContent (t1 == 3 || t1 == 4) (.mk t1 o1 n1 p1 a1 b1) out = .ok () (out ++ y1) := d1
        rw [show sepType true = 4 from rfl]
        rw [dumpElementContent]
        cases glob
        · simp only [Bool.false_eq_true, if_false, pure_bind', show ¬ (4 = 1) by decide, show ¬ (4 = 2) by decide, show ¬ (4 = 3) by decide, if_true]
          rw [bind_run (d1' _), emit_bind, bind_run (d2' _)]
          simp [emit_bind, emit_run, pure_bind', sepText, sepChar, List.append_assoc]
        · simp only [if_true, emit_bind, show ¬ (4 = 1) by decide, show ¬ (4 = 2) by decide, show ¬ (4 = 3) by decide, if_false]
          rw [bind_run (d1' _), emit_bind, bind_run (d2' _)]
          simp [emit_bind, emit_run, pure_bind', sepText, sepChar, List.append_assoc]

theorem encodeRunes_eq_nil' {l : List Nat} (h : encodeRunes l = []) : l = [] := by
  cases l with
  | nil => rfl
  | cons c t => exact absurd h (encodeRunes_ne (by simp))

theorem named_text {w p l : List Nat} (h : Named E w p l) :
    (if encodeRunes p ≠ [] then encodeRunes p ++ 58 :: encodeRunes l else encodeRunes l) = encodeRunes w := by
  rcases h.2 with ⟨rfl, _, rfl⟩ | ⟨h0, _, rfl⟩
  · simp
  · rw [if_pos (encodeRunes_ne h0), encodeRunes_append, encodeRunes_cons]; rfl

theorem occ_text {o : Nat} {m : List Nat} (h : OccMark o m) : occSuffix o = m := by cases h <;> rfl

theorem dump_name {w p l m : List Nat} {o : Nat} (h : Named E w p l) (ho : OccMark o m) (glob : Bool) (out : Bytes) :
    dumpElementContent glob (nameModel p l o) out =
      .ok () (out ++ ((if glob then [40] else []) ++ (encodeRunes w ++ ((if glob then [41] else []) ++ m)))) := by
  unfold nameModel
  rw [dumpElementContent, ← named_text E h, ← occ_text ho]
  cases glob <;> simp [emit_bind, emit_run, pure_bind']

theorem occ_ascii {o : Nat} {m : List Nat} (h : OccMark o m) : encodeRunes m = m := by cases h <;> rfl
theorem sep_ascii (b : Bool) : encodeRunes (sepText b) = sepText b := by cases b <;> rfl

/-- content models can be read at a smaller depth. -/
theorem model_depth {k : CK} {d : Nat} {e : EC} {x : List Nat} (h : ModelText E k d e x) : ∀ d', d' ≤ d → ModelText E k d' e x := by
  induction h with
  | name h1 h2 => exact fun _ _ => .name h1 h2
  | paren hd hw _ ih => exact fun d' h => .paren (by omega) hw (ih (d' + 1) (by omega))
  | parenOpt hd hw _ he ih => exact fun d' h => .parenOpt (by omega) hw (ih (d' + 1) (by omega)) he
  | last _ hw ih => exact fun d' h => .last (ih d' h) hw
  | more _ h1 h2 _ ih1 ih2 => exact fun d' h => .more (ih1 d' h) h1 h2 (ih2 d' h)
  | single h1 h2 h3 => exact fun _ _ => .single h1 h2 h3
  | several h1 h2 h3 h4 _ ih => exact fun d' h => .several h1 h2 h3 h4 (ih d' h)

/-- a group of at least two members is written as such a group. -/
def GroupDump (d : Nat) (b : Bool) (c1 c2 : EC) : Prop :=
  c1 ≠ .nil ∧ c2 ≠ .nil ∧ ∃ w p l o m y, c1 = nameModel p l o ∧ Named E w p l ∧ OccMark o m ∧ ModelText E (.others b) d c2 y ∧
    ∀ out, dumpElementContent (wrapped b c2) c2 out = .ok () (out ++ encodeRunes y)

/-- what is written for a part of a content model. -/
def Dumps : CK → Nat → EC → Prop
  | .member, d, e => (∃ w p l o m, e = nameModel p l o ∧ Named E w p l ∧ OccMark o m) ∨
      ∃ b o c1 c2, e = .mk (sepType b) o [] [] c1 c2 ∧ (o = 1 ∨ o = 2) ∧ d + 1 ≤ 128 ∧ GroupDump E (d + 1) b c1 c2
  | .others b, d, e => ∃ y, ModelText E (.others b) d e y ∧ ∀ out, dumpElementContent (wrapped b e) e out = .ok () (out ++ encodeRunes y)
  | .group, d, e => (∃ w p l o m, e = nameModel p l o ∧ Named E w p l ∧ OccMark o m) ∨
      ∃ b c1 c2, e = .mk (sepType b) 1 [] [] c1 c2 ∧ GroupDump E d b c1 c2

/-- text of a group. -/
theorem groupDump_text {d : Nat} {b : Bool} {c1 c2 : EC} (h : GroupDump E d b c1 c2) :
    ∃ y, ModelText E .group d (.mk (sepType b) 1 [] [] c1 c2) y ∧ (∀ d', d' ≤ d → ModelText E (.others b) d' (.mk (sepType b) 1 [] [] c1 c2) y) ∧
      ∀ o glob out, dumpElementContent glob (.mk (sepType b) o [] [] c1 c2) out =
        .ok () (out ++ ((if glob then [40] else []) ++ (encodeRunes y ++ ((if glob then [41] else []) ++ occSuffix o)))) := by
  obtain ⟨h1, h2, w, p, l, o, m, y, rfl, hn, ho, hy, hd⟩ := h
  refine ⟨w ++ (m ++ ([32] ++ sepChar b :: ([32] ++ y))), .several hn ho (by decide) (by decide) hy, ?_, ?_⟩
  · intro d' hd'
    have := ModelText.more (b := b) (w1 := [32]) (w2 := [32]) (ModelText.name (d := d') hn ho) (by decide) (by decide) (model_depth E hy d' hd')
    simpa [List.append_assoc] using this
  · intro o' glob out
    rw [dump_mk h1 h2 glob (y1 := encodeRunes w ++ m) (y2 := encodeRunes y)
      (fun out => by rw [show isGroup (nameModel p l o) = false from rfl, dump_name E hn ho]; simp) hd]
    congr 2
    simp only [encodeRunes_append, encodeRunes_cons, occ_ascii ho, List.append_assoc]
    have h3 : encodeRune (sepChar b) = [sepChar b] := by cases b <;> rfl
    have h4 : encodeRune 32 = [32] := rfl
    simp [h3, h4, sepText]

/-- text of a member. -/
theorem member_text {d : Nat} {e : EC} (h : Dumps E .member d e) :
    ∃ y, ModelText E .member d e y ∧ ∀ out, dumpElementContent (isGroup e) e out = .ok () (out ++ encodeRunes y) := by
  rcases h with ⟨w, p, l, o, m, rfl, hn, ho⟩ | ⟨b, o, c1, c2, rfl, ho, hd, hg⟩
  · refine ⟨w ++ m, .name hn ho, fun out => ?_⟩
    rw [show isGroup (nameModel p l o) = false from rfl, dump_name E hn ho]
    simp [encodeRunes_append, occ_ascii ho]
  · obtain ⟨y, h1, _, h2⟩ := groupDump_text E hg
    have hi : isGroup (.mk (sepType b) o [] [] c1 c2) = true := by cases b <;> rfl
    rcases ho with rfl | rfl
    · refine ⟨40 :: ([] ++ (y ++ [41])), .paren hd (by decide) h1, fun out => ?_⟩
      rw [hi, h2]
      simp [encodeRunes_append, encodeRunes_cons, encodeRune, occSuffix]
    · refine ⟨40 :: ([] ++ (y ++ [41, 63])), .parenOpt hd (by decide) h1 rfl, fun out => ?_⟩
      rw [hi, h2]
      simp [encodeRunes_append, encodeRunes_cons, encodeRune, occSuffix]

theorem model_dumps {k : CK} {d : Nat} {e : EC} {x : List Nat} (h : ModelText E k d e x) : Dumps E k d e := by
  induction h with
  | name hn ho => exact .inl ⟨_, _, _, _, _, rfl, hn, ho⟩
  | paren hd _ _ ih =>
    rcases ih with h | ⟨b, c1, c2, rfl, h⟩
    · exact .inl h
    · exact .inr ⟨b, 1, c1, c2, rfl, .inl rfl, hd, h⟩
  | parenOpt hd _ _ he ih =>
    rcases ih with ⟨w, p, l, o, m, rfl, hn, ho⟩ | ⟨b, c1, c2, rfl, h⟩
    · cases ho with
      | once => exact .inl ⟨w, p, l, 2, [63], rfl, hn, .opt⟩
      | opt => exact .inl ⟨w, p, l, 2, [63], rfl, hn, .opt⟩
      | mult => cases he
      | plus => exact .inl ⟨w, p, l, 3, [42], rfl, hn, .mult⟩
    · exact .inr ⟨b, 2, c1, c2, rfl, .inr rfl, hd, h⟩
  | @last d b e x ws hx hw ih =>
    have gen : wrapped b e = isGroup e → Dumps E (.others b) d e := by
      intro he
      obtain ⟨y, h1, h2⟩ := member_text E ih
      exact ⟨y ++ [], .last h1 (by decide), by rw [he, List.append_nil]; exact h2⟩
    rcases ih with ⟨w, p, l, o, m, rfl, hn, ho⟩ | ⟨b', o, c1, c2, rfl, ho, hd, hg⟩
    · exact gen (by cases b <;> rfl)
    · by_cases hb : b' = b ∧ o = 1
      · obtain ⟨rfl, rfl⟩ := hb
        obtain ⟨y, _, h1, h2⟩ := groupDump_text E hg
        refine ⟨y, h1 d (by omega), fun out => ?_⟩
        rw [show wrapped b' (.mk (sepType b') 1 [] [] c1 c2) = false by cases b' <;> rfl, h2]
        simp [occSuffix]
      · apply gen
        rcases ho with rfl | rfl <;> cases b <;> cases b' <;> first | rfl | (exact absurd ⟨rfl, rfl⟩ hb)
  | @more d b e x w1 w2 e' y hx _ _ hy ih1 ih2 =>
    obtain ⟨y1, h1, h2⟩ := member_text E ih1
    obtain ⟨y2, h3, h4⟩ := ih2
    refine ⟨y1 ++ ([32] ++ sepChar b :: ([32] ++ y2)), .more h1 (by decide) (by decide) h3, fun out => ?_⟩
    rw [show wrapped b (.mk (sepType b) 1 [] [] e e') = false by cases b <;> rfl,
      dump_mk (model_ne E hx) (model_ne E hy) false h2 h4]
    have h5 : encodeRune (sepChar b) = [sepChar b] := by cases b <;> rfl
    have h6 : encodeRune 32 = [32] := rfl
    simp [encodeRunes_append, encodeRunes_cons, h5, h6, sepText, occSuffix]
  | single hn ho _ => exact .inl ⟨_, _, _, _, _, rfl, hn, ho⟩
  | several hn ho _ _ hy ih =>
    obtain ⟨y, h1, h2⟩ := ih
    exact .inr ⟨_, _, _, rfl, by simp [nameModel], model_ne E hy, _, _, _, _, _, y, rfl, hn, ho, h1, h2⟩

/-! ### whole declarations -/

theorem ws_scalar {c : Nat} (h : Ws c) : isScalar c := by unfold Ws at h; unfold isScalar; omega

theorem blank_scalar {ws : List Nat} (h : Blank ws) : ∀ c ∈ ws, isScalar c := fun c hc => ws_scalar (h c hc)

theorem occ_scalar {o : Nat} {m : List Nat} (h : OccMark o m) : ∀ c ∈ m, isScalar c := by cases h <;> decide

theorem scalar_append {a b : List Nat} (h1 : ∀ c ∈ a, isScalar c) (h2 : ∀ c ∈ b, isScalar c) : ∀ c ∈ a ++ b, isScalar c := by
  intro c hc; rcases List.mem_append.1 hc with h | h
  · exact h1 c h
  · exact h2 c h

theorem scalar_cons {a : Nat} {b : List Nat} (h1 : isScalar a) (h2 : ∀ c ∈ b, isScalar c) : ∀ c ∈ a :: b, isScalar c := by
  intro c hc; rcases List.mem_cons.1 hc with rfl | h
  · exact h1
  · exact h2 c h

theorem sep_scalar (b : Bool) : isScalar (sepChar b) := by cases b <;> decide

theorem model_scalar {k : CK} {d : Nat} {e : EC} {x : List Nat} (h : ModelText E k d e x) : ∀ c ∈ x, isScalar c := by
  induction h with
  | name hn ho => exact scalar_append (Name.scalar E hn.1) (occ_scalar ho)
  | paren _ hw _ ih => exact scalar_cons (by decide) (scalar_append (blank_scalar hw) (scalar_append ih (by decide)))
  | parenOpt _ hw _ _ ih => exact scalar_cons (by decide) (scalar_append (blank_scalar hw) (scalar_append ih (by decide)))
  | last _ hw ih => exact scalar_append ih (blank_scalar hw)
  | more _ h1 h2 _ ih1 ih2 => exact scalar_append ih1 (scalar_append (blank_scalar h1) (scalar_cons (sep_scalar _) (scalar_append (blank_scalar h2) ih2)))
  | single hn ho hw => exact scalar_append (Name.scalar E hn.1) (scalar_append (occ_scalar ho) (blank_scalar hw))
  | several hn ho h1 h2 _ ih =>
    exact scalar_append (Name.scalar E hn.1) (scalar_append (occ_scalar ho) (scalar_append (blank_scalar h1) (scalar_cons (sep_scalar _) (scalar_append (blank_scalar h2) ih))))

theorem spec_dumps {typ : Nat} {e : EC} {x : List Nat} (h : SpecText E typ e x) (hk : Kept typ e) :
    ∃ y, SpecText E typ e y ∧ (∀ c ∈ y, isScalar c) ∧
      ∀ nd : Node, nd.declType = typ → nd.ec = e → ∀ out, dumpElementDecl nd out = .ok () (out ++ (dumpElementDeclPrologue nd ++ 32 :: (encodeRunes y ++ [62, 10]))) := by
  have key : ∀ {y : List Nat}, (typ = 3 ∨ typ = 4) → (∀ out, dumpElementContent true e out = .ok () (out ++ encodeRunes y)) →
      ∀ nd : Node, nd.declType = typ → nd.ec = e → ∀ out, dumpElementDecl nd out = .ok () (out ++ (dumpElementDeclPrologue nd ++ 32 :: (encodeRunes y ++ [62, 10]))) := by
    intro y ht hd nd h1 h2 out
    unfold dumpElementDecl
    rw [if_neg (by omega), if_neg (by omega), if_pos (by rw [h1]; exact ht), h2]
    rw [emit_bind, bind_run (hd _), emit_run]
    simp
  have grp : ∀ {e0 : EC} {x : List Nat}, ModelText E .group 0 e0 x → typ = 4 → (e = e0 ∨ e = madeOpt e0 ∧ starred e0 = false) →
      ∃ y, SpecText E 4 e y ∧ (∀ c ∈ y, isScalar c) ∧ ∀ out, dumpElementContent true e out = .ok () (out ++ encodeRunes y) := by
    intro e0 x hx ht he
    rcases model_dumps E hx with ⟨w, p, l, o, m, rfl, hn, ho⟩ | ⟨b, c1, c2, rfl, hg⟩
    · have hsc := Name.scalar E hn.1
      have base : (e = nameModel p l 1 ∨ e = nameModel p l 2) := by
        rcases he with rfl | ⟨rfl, hs⟩
        · cases ho with
          | once => exact .inl rfl
          | opt => exact .inr rfl
          | mult => exact absurd rfl hk.1
          | plus => exact absurd rfl hk.2
        · cases ho with
          | once => exact .inr rfl
          | opt => exact .inr rfl
          | mult => cases hs
          | plus => exact absurd rfl hk.1
      rcases base with rfl | rfl
      · refine ⟨40 :: ([] ++ ((w ++ ([] ++ [])) ++ [41])), .children (by decide) (.single hn .once (by decide)), ?_, fun out => ?_⟩
        · exact scalar_cons (by decide) (scalar_append (by decide) (scalar_append (scalar_append hsc (by decide)) (by decide)))
        · rw [dump_name E hn .once]
          simp [encodeRunes_append, encodeRunes_cons, encodeRune]
      · refine ⟨40 :: ([] ++ ((w ++ ([] ++ [])) ++ [41, 63])), .childrenOpt (e := nameModel p l 1) (by decide) (.single hn .once (by decide)) rfl, ?_, fun out => ?_⟩
        · exact scalar_cons (by decide) (scalar_append (by decide) (scalar_append (scalar_append hsc (by decide)) (by decide)))
        · rw [dump_name E hn .opt]
          simp [encodeRunes_append, encodeRunes_cons, encodeRune]
    · obtain ⟨y, h1, _, h2⟩ := groupDump_text E hg
      have hsc := model_scalar E h1
      rcases he with rfl | ⟨rfl, hs⟩
      · refine ⟨40 :: ([] ++ (y ++ [41])), .children (by decide) h1, scalar_cons (by decide) (scalar_append (by decide) (scalar_append hsc (by decide))), fun out => ?_⟩
        rw [h2]
        simp [encodeRunes_append, encodeRunes_cons, encodeRune, occSuffix]
      · refine ⟨40 :: ([] ++ (y ++ [41, 63])), .childrenOpt (by decide) h1 hs, scalar_cons (by decide) (scalar_append (by decide) (scalar_append hsc (by decide))), fun out => ?_⟩
        rw [show madeOpt (.mk (sepType b) 1 [] [] c1 c2) = .mk (sepType b) 2 [] [] c1 c2 from rfl, h2]
        simp [encodeRunes_append, encodeRunes_cons, encodeRune, occSuffix]
  cases h with
  | empty =>
    refine ⟨_, .empty, by decide, fun nd h1 _ out => ?_⟩
    unfold dumpElementDecl
    rw [if_pos h1, emit_run]; simp; rfl
  | any =>
    refine ⟨_, .any, by decide, fun nd h1 _ out => ?_⟩
    unfold dumpElementDecl
    rw [if_neg (by omega), if_pos h1, emit_run]; simp; rfl
  | pcdata => exact ⟨_, .pcdata (ws := []) (by decide), by decide, key (.inl rfl) (fun out => by
      simp [pcdataModel, dumpElementContent, emit_bind, emit_run, occSuffix, encodeRunes_cons, encodeRune])⟩
  | pcdataStar => exact ⟨_, .pcdataStar (ws := []) (by decide), by decide, key (.inl rfl) (fun out => by
      simp [pcdataModel, dumpElementContent, emit_bind, emit_run, occSuffix, encodeRunes_cons, encodeRune])⟩
  | mixed => exact absurd rfl hk
  | children hw hx =>
    obtain ⟨y, h1, h2, h3⟩ := grp hx rfl (.inl rfl)
    exact ⟨y, h1, h2, key (.inr rfl) h3⟩
  | childrenOpt hw hx he =>
    obtain ⟨y, h1, h2, h3⟩ := grp hx rfl (.inr ⟨rfl, he⟩)
    exact ⟨y, h1, h2, key (.inr rfl) h3⟩

theorem element_dumps {n p l : List Nat} {typ : Nat} {e : EC} {t : List Nat} (hn : Named E n p l) (h : ElementText E n typ e t) (hk : Kept typ e) :
    ∃ y, ElementText E n typ e y ∧ (∀ c ∈ y, isScalar c) ∧
      dumpElementDecl { kind := .elemDecl, name := (splitColon (encodeRunes n)).2, pfx := (splitColon (encodeRunes n)).1, declType := typ, ec := e } [] =
        .ok () (encodeRunes (y ++ [10])) := by
  obtain ⟨_, _, _, x, _, _, _, _, _, hname, hx, _⟩ := h
  obtain ⟨y, h1, h2, h3⟩ := spec_dumps E hx hk
  refine ⟨b!"<!ELEMENT" ++ ([32] ++ (n ++ ([32] ++ (y ++ ([] ++ [62]))))), ⟨[32], [32], [], y, by decide, by decide, by decide, by decide, by decide, hname, h1, rfl⟩, ?_, ?_⟩
  · exact scalar_append (by decide) (scalar_append (by decide) (scalar_append (Name.scalar E hname) (scalar_append (by decide) (scalar_append h2 (by decide)))))
  · rw [h3 _ rfl rfl, named_split E hn]
    unfold dumpElementDeclPrologue
    have := named_text E hn
    have e1 : (if encodeRunes p ≠ [] then encodeRunes p ++ [58] else []) ++ encodeRunes l = encodeRunes n := by
      rw [← this]; split <;> simp
    simp only [encodeRunes_append, List.append_assoc, List.nil_append, e1]
    rfl

end
end Helium
