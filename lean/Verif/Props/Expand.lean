import Verif.Lemmas.Expand
import Verif.Lemmas.ExpandLoop
import Verif.Lemmas.DocLogic
/-! Nesting of entity expansion (C37). -/
namespace Helium
open Spec
variable {σ : Type} (E : Env) {H : Handler σ}

namespace Spec

/-- A document declaring one entity whose replacement text refers to the entity itself, and referring to it once, in an attribute value
or in the content of the root element. -/
def SelfRef (input : Bytes) : Prop :=
  ∃ n pre post, (∀ c ∈ n, 97 ≤ c ∧ c ≤ 122) ∧ n ≠ [] ∧ n ∉ [b!"lt", b!"gt", b!"amp", b!"apos", b!"quot"] ∧
    (∀ c ∈ pre ++ post, 97 ≤ c ∧ c ≤ 122) ∧
    (input = b!"<!DOCTYPE a [<!ENTITY " ++ n ++ b!" \"" ++ pre ++ b!"&" ++ n ++ b!";" ++ post ++ b!"\">]><a b=\"&" ++ n ++ b!";\"/>" ∨
     input = b!"<!DOCTYPE a [<!ENTITY " ++ n ++ b!" \"" ++ pre ++ b!"&" ++ n ++ b!";" ++ post ++ b!"\">]><a>&" ++ n ++ b!";</a>")

end Spec

/-- **C37**, for one self-referring entity: such a document is rejected. -/
def C37_statement : Prop :=
  ∀ (E : Env) (input : Bytes), SelfRef input → ∃ fuel e h t, parse E fuel input = .done none (some e) h t

/-- The attribute value is turned into a list of nodes by `stringToNodeList`, which has no bound on its recursion. -/
theorem C37_refuted : ¬ C37_statement := by
  intro h
  obtain ⟨fuel, e, hp, t, h1⟩ := h env0 b!"<!DOCTYPE a [<!ENTITY e \"&e;\">]><a b=\"&e;\"/>"
    ⟨b!"e", [], [], by decide, by decide, by decide, by decide, Or.inl (by decide)⟩
  rw [selfRef_hangs] at h1
  cases h1

/-- **C37 (partial)**: while content is read, no expansion is nested more than 20 levels deep, hence never 40: the parser does the same
as one whose allowance of nested expansions is 20, whatever that one is made to do below the last level. Missing: values of attributes,
whose expansion by the tree builder is unbounded. -/
theorem C37_nesting_partial (stray : P σ Unit) (usr : σ) (fuel snl : Nat) (input : Bytes) :
    parserParse E H usr fuel snl input = parseAt E H stray usr fuel snl 20 input := by
  have key : parseDocument E H fuel snl (initSt usr Heap.empty input) = (do
      parseHead E H
      M.wrap (switchEncoding E)
      cb H .startDocument
      M.wrap (parseMisc E H)
      parseDoctypePart E H snl
      let _ ← skipBlanks
      M.need ((← peek E) == 60) .emptyDocument
      M.wrap (parseElementW E H (expandAt E H stray fuel 20))
      M.wrap (parseMisc E H)
      M.need (← isDone) .documentEnd
      cb H .endDocument : P σ Unit) (initSt usr Heap.empty input) := by
    unfold parseDocument
    have hQ : Admits (depthL H) := (depthL_flat E).admits
    refine Agree.bind (H := H) (Agree.rfl' (d := 0) _) (Sat.satI (Sat.parseHead E trivial)) (fun _ => ?_) _ rfl
    refine Agree.bind (H := H) (Agree.rfl' _) (Sat.satI (Sat.wrap (Sat.switchEncoding E (fun _ _ => rfl)))) (fun _ => ?_)
    refine Agree.bind (H := H) (Agree.rfl' _) (Sat.satI (Sat.cb trivial)) (fun _ => ?_)
    refine Agree.bind (H := H) (Agree.rfl' _) (Sat.satI (Sat.wrap (Sat.parseMisc E hQ))) (fun _ => ?_)
    refine Agree.bind (H := H) (Agree.rfl' _) (Sat.satI (Sat.parseDoctypePart E hQ (Sat.attlistLoop E hQ (fun _ _ _ _ _ _ _ => trivial)) (fun _ _ _ => ⟨trivial, trivial⟩) (fun _ _ => rfl) snl)) (fun _ => ?_)
    unfold parseTail
    refine Agree.bind (H := H) (Agree.rfl' _) (Sat.satI (Silent.sat Silent.skipBlanks _)) (fun _ => ?_)
    refine Agree.bind (H := H) (Agree.rfl' _) (Sat.satI (Silent.sat (Silent.peek E) _)) (fun _ => ?_)
    refine Agree.bind (H := H) (Agree.rfl' _) (Sat.satI (Silent.sat (Silent.need _ _) _)) (fun _ => ?_)
    refine Agree.bind (H := H) (Agree.wrap (Agree.element E (content_expandAt E stray fuel 20 0 (by decide)) (depthL_content E fuel)))
      (SatI.wrap (depthL_element E (depthL_content E fuel))) (fun _ => Agree.rfl' _)
  unfold parserParse parseAt
  rw [key]
  rfl

/-- the allowance makes a difference: with none at all a document with one entity is read differently. -/
example : ∃ input, parserParse env0 (treeBuilder 30) () 30 30 input ≠ parseAt env0 (treeBuilder 30) M.panic () 30 30 0 input := by
  refine ⟨b!"<!DOCTYPE a [<!ENTITY e \"<b/>\">]><a>&e;</a>", fun h => ?_⟩
  have h1 : (parserParse env0 (treeBuilder 30) () 30 30 b!"<!DOCTYPE a [<!ENTITY e \"<b/>\">]><a>&e;</a>").crashes = false := by
    kernel_rfl
  rw [h] at h1
  have h2 : (parseAt env0 (treeBuilder 30) M.panic () 30 30 0 b!"<!DOCTYPE a [<!ENTITY e \"<b/>\">]><a>&e;</a>").crashes = true := by
    kernel_rfl
  rw [h2] at h1
  cases h1

/-- **C37 (partial)**: a reference to an entity which, possibly through other entities, expands to a reference to itself is never
accepted in content, however the handler answers other callbacks. `fuel` is any budget. -/
theorem C37_recursion_partial {N : List Nat → Prop} (R : Recursive E H N) {n : List Nat} (hn : N n) (fuel : Nat) (s s' : St σ) (r : List Nat)
    (hs : s.cur = 38 :: (n ++ 59 :: r)) (a : Unit) : parseReference E H (parseContent E H fuel) s ≠ .ok a s' :=
  (rec_both E R 20).1 fuel s n r (by omega) hn hs a s'

/-- The same for a whole run of content: text followed by a reference to such an entity is not accepted. -/
theorem C37_content_partial {N : List Nat → Prop} (R : Recursive E H N) {n : List Nat} (hn : N n) (fuel : Nat) (s s' : St σ) (pre r : List Nat)
    (hp : ∀ c ∈ pre, isChar c = true ∧ c ≠ 38 ∧ c ≠ 60 ∧ c ≠ 93) (hs : s.cur = pre ++ 38 :: (n ++ 59 :: r)) (a : Unit) :
    parseContent E H fuel s ≠ .ok a s' :=
  (rec_both E R 20).2 fuel s pre n r (by omega) hn hp hs a s'

namespace Ex37

/-- two entities, `e` expanding to `x&f;` and `f` to `&e;`, and otherwise a handler content with everything. -/
def heap : Heap := ⟨2, fun i =>
  if i = 0 then mkEntity b!"e" 1 [] [] b!"x&f;" [] else mkEntity b!"f" 1 [] [] b!"&e;" []⟩

def pair : Handler Unit := fun _ ev c =>
  match ev with
  | .getEntity n => if n = b!"e" then (.ent (some (.ptr 0)), { c with heap := heap }) else (.ent (some (.ptr 1)), { c with heap := heap })
  | _ => (.ok, c)

theorem letter_name {x : Nat} (h : x = 101 ∨ x = 102) : Name env0 [x] := by
  rcases h with rfl | rfl <;> exact ⟨⟨_, _, rfl, by decide⟩, by decide, by decide⟩

theorem pair_recursive : Recursive env0 pair (fun n => n = b!"e" ∨ n = b!"f") where
  name n hn := by
    rcases hn with rfl | rfl
    · exact ⟨letter_name (Or.inl rfl), by decide⟩
    · exact ⟨letter_name (Or.inr rfl), by decide⟩
  answer n hn v c := by
    rcases hn with rfl | rfl
    · exact ⟨0, { c with heap := heap }, rfl, rfl, rfl, b!"x", b!"f", [], Or.inr rfl, by kernel_rfl, by decide⟩
    · exact ⟨1, { c with heap := heap }, rfl, rfl, rfl, [], b!"e", [], Or.inl rfl, by kernel_rfl, by decide⟩

example (fuel : Nat) (s' : St Unit) : parseContent env0 pair fuel { initSt () Heap.empty [] with cur := b!"ab&e;cd</a>" } ≠ .ok () s' :=
  C37_content_partial env0 pair_recursive (Or.inl rfl) fuel _ s' b!"ab" b!"cd</a>" (by decide) rfl ()

end Ex37

end Helium
