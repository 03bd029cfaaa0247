import Verif.Lemmas.Count
import Mathlib.Tactic.IntervalCases

/-!
C26: counting satisfying assignments is exact.
-/

namespace Slugs.Props

open Slugs.Model Slugs.Spec

/-- **C26.**  For every manager, every BDD `node` and every BDD `cube` that represents the conjunction of the variables `vs`: if the
function of `node` only depends on the variables `vs`, then the function returns exactly the number of assignments of `vs` that satisfy
it.  The recursion needs at most one level more than there are nodes and never throws. -/
theorem C26_exact {dd : Dd} (h : dd.Ok) {node cube : Ref} {vs : List Nat} (hn : dd.Valid node) (hc : dd.Valid cube)
    (hcube : ∀ a, dd.eval cube a = true ↔ ∀ v ∈ vs, a v = true) (hsupp : OnlyDependsOn vs (dd.eval node))
    {depth : Nat} (hd : dd.nodes.length < depth) :
    ∃ buffer, getNofSatisfyingAssignments dd depth node cube = .val (some (satCount vs (dd.eval node))) buffer := by
  have := getNof_spec h hn hc hcube hd
  rwa [specCount, if_pos hsupp] at this

/-- If the function depends on a variable outside the cube, the result is NaN. -/
theorem C26_nan {dd : Dd} (h : dd.Ok) {node cube : Ref} {vs : List Nat} (hn : dd.Valid node) (hc : dd.Valid cube)
    (hcube : ∀ a, dd.eval cube a = true ↔ ∀ v ∈ vs, a v = true) (hsupp : ¬ OnlyDependsOn vs (dd.eval node))
    {depth : Nat} (hd : dd.nodes.length < depth) :
    ∃ buffer, getNofSatisfyingAssignments dd depth node cube = .val none buffer := by
  have := getNof_spec h hn hc hcube hd
  rwa [specCount, if_neg hsupp] at this

/-- **C34 (the part that concerns pointers).**  Two pointers of a manager represent the same function exactly if they are equal, so that the
comparison of pointers in `BFBdd::operator==` decides equality of functions. -/
theorem C34_pointers {dd : Dd} (h : dd.Ok) {p q : Ref} (hp : dd.Valid p) (hq : dd.Valid q) :
    p = q ↔ ∀ a, dd.eval p a = dd.eval q a :=
  ⟨fun e _ => e ▸ rfl, fun e => Dd.canonical h hp hq e⟩

/-- `x0 ∨ x1` at address 2, the cube of `x0`, `x1`, `x2` at address 5; the order is `x0 < x1 < x2`. -/
def exDd : Dd where
  nodes := [⟨1, ⟨false, 0⟩, ⟨true, 0⟩⟩, ⟨0, ⟨false, 0⟩, ⟨false, 1⟩⟩, ⟨2, ⟨false, 0⟩, ⟨true, 0⟩⟩, ⟨1, ⟨false, 3⟩, ⟨true, 0⟩⟩, ⟨0, ⟨false, 4⟩, ⟨true, 0⟩⟩]
  level := id

theorem exDd_ok : exDd.Ok := by
  have hb : ∀ (k : Nat) (nd : DdNode), exDd.nodes[k]? = some nd → k < 5 := fun k nd h => (List.getElem?_eq_some_iff.mp h).1
  refine ⟨fun i j h => h, ?_, ?_, ?_, ?_, ?_, ?_, ?_⟩
  · intro k nd h
    have := hb k nd h
    interval_cases k <;> cases h <;> decide
  · intro k nd h
    have := hb k nd h
    interval_cases k <;> cases h <;> decide
  · intro k nd m nd' h h1 h2
    have := hb k nd h
    have := hb m nd' h2
    interval_cases k <;> cases h <;> interval_cases m <;> cases h2 <;> revert h1 <;> decide
  · intro k nd m nd' h h1 h2
    have := hb k nd h
    have := hb m nd' h2
    interval_cases k <;> cases h <;> interval_cases m <;> cases h2 <;> revert h1 <;> decide
  · intro k nd h
    have := hb k nd h
    interval_cases k <;> cases h <;> decide
  · intro k nd h
    have := hb k nd h
    interval_cases k <;> cases h <;> decide
  · intro k k' nd h h'
    have := hb k nd h
    have := hb k' nd h'
    interval_cases k <;> cases h <;> interval_cases k' <;> first | rfl | (revert h'; decide)

/-- The hypotheses of `C26_exact` are met by the function `x0 ∨ x1` and the variables `x0`, `x1`, `x2`; the number is 6. -/
example : exDd.Ok ∧ exDd.Valid ⟨false, 2⟩ ∧ exDd.Valid ⟨false, 5⟩ ∧
    (∀ a, exDd.eval ⟨false, 5⟩ a = true ↔ ∀ v ∈ [0, 1, 2], a v = true) ∧ OnlyDependsOn [0, 1, 2] (exDd.eval ⟨false, 2⟩) ∧
    (∃ b, getNofSatisfyingAssignments exDd 6 ⟨false, 2⟩ ⟨false, 5⟩ = .val (some 6) b) := by
  have e2 : ∀ a, exDd.eval ⟨false, 2⟩ a = (a 0 || a 1) := fun a => by
    simp [Dd.eval, Dd.evalN, exDd]
  have e5 : ∀ a, exDd.eval ⟨false, 5⟩ a = (a 0 && a 1 && a 2) := fun a => by
    simp [Dd.eval, Dd.evalN, exDd]; cases a 0 <;> cases a 1 <;> cases a 2 <;> rfl
  refine ⟨exDd_ok, by unfold Dd.Valid; decide, by unfold Dd.Valid; decide, fun a => ?_, fun a a' h => ?_, ?_⟩
  · rw [e5]; simp [and_assoc]
  · rw [e2, e2, h 0 (by simp), h 1 (by simp)]
  · exact ⟨_, rfl⟩

/-- With the cube of `x1` only (address 1), the same function is reported as NaN. -/
example : (∀ a, exDd.eval ⟨false, 1⟩ a = true ↔ ∀ v ∈ [1], a v = true) ∧ ¬ OnlyDependsOn [1] (exDd.eval ⟨false, 2⟩) ∧
    (∃ b, getNofSatisfyingAssignments exDd 6 ⟨false, 2⟩ ⟨false, 1⟩ = .val none b) := by
  have e1 : ∀ a, exDd.eval ⟨false, 1⟩ a = a 1 := fun a => by
    simp [Dd.eval, Dd.evalN, exDd]
  have e2 : ∀ a, exDd.eval ⟨false, 2⟩ a = (a 0 || a 1) := fun a => by
    simp [Dd.eval, Dd.evalN, exDd]
  refine ⟨fun a => by rw [e1]; simp, fun h => ?_, ⟨_, rfl⟩⟩
  have := h (fun _ => false) (fun v => v == 0) (by simp)
  rw [e2, e2] at this
  simp at this

end Slugs.Props
