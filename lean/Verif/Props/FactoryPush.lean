import Verif.Props.Factory

/-!
# C90: when tasks are performed while the belt of the assembly line moves

The description of the benchmarks (`/repo/examples/benchmark_generators/factory_assembly_line.tex`) says that "tasks performed by the robot arms on the objects are applied before the push":
if an arm is at a place while the belt moves, then the object at this place gets the task and is pushed to the next place.  The files that the script writes say otherwise.
-/

namespace Slugs.Props

open Slugs.Spec Slugs.Spec.Structured Slugs.Model Slugs.Model.Structured Slugs.Model.Factory Slugs.Spec.Factory

/-- An arm performs task `j` at place `a`. -/
def ArmAt {S : SSpec} (o : S.Out) (a j : Nat) : Prop :=
  (o.1 txt!"arm1" = a ∧ o.1 txt!"arm1op" = j) ∨ (o.1 txt!"arm2" = a ∧ o.1 txt!"arm2op" = j)

/-- The belt moves when the counter becomes 0. -/
def BeltMoves {S : SSpec} (i : S.In) : Prop := i.1 txt!"movingcounter" = 0

/-- Task `j` has been performed on the object at place `a`. -/
def Performed {S : SSpec} (i : S.In) (a j : Nat) : Prop := i.1 (pName a j) = 1

theorem armAt_work {n m k most : Nat} (o : (theSpec n m k most).Out) (a j : Nat) : ArmAt o a j ↔ (armsOf o).Work a j := by
  have h1 : o.1 txt!"arm1" = ov o a1 := (a1_range o).1
  have h2 : o.1 txt!"arm2" = ov o a2 := (a2_range o).1
  have h3 : o.1 txt!"arm1op" = ov o o1 := (o1_range o).1
  have h4 : o.1 txt!"arm2op" = ov o o2 := (o2_range o).1
  simp only [ArmAt, Arms.Work, armsOf, h1, h2, h3, h4]
  omega

theorem beltMoves_iff {n m k most : Nat} (i : (theSpec n m k most).In) : BeltMoves i ↔ iv i mc = 0 := by
  have h : i.1 txt!"movingcounter" = iv i mc := (mc_range i).1
  rw [BeltMoves, h]
  omega

/-- **C90**, what holds instead.  While the belt does not move, the tasks that the arms perform are applied to the objects at their places.  If it moves, then they are
applied after the push: to the objects that come to their places.  (The documented behavior is missing: see `C90_violated`.) -/
theorem C90_push_partial {n m k : Nat} (most : Nat) (hn : 3 ≤ n) (hm : 1 ≤ m) (hk : 1 ≤ k) : ∃ S, SDenotes (benchmark n m k most) S ∧
    ∀ (p : Pos S.In S.Out) (i : S.In), S.game.safetyEnv p i →
      (¬ BeltMoves i → ∀ a < n, ∀ j < m, (Performed i a j ↔ Performed p.1 a j ∨ ArmAt p.2 a j)) ∧
      (BeltMoves i → ∀ a, a + 1 < n → ∀ j < m, (Performed i (a + 1) j ↔ Performed p.1 a j ∨ ArmAt p.2 (a + 1) j)) := by
  refine ⟨_, benchmark_denotes (most := most) hn hm hk, fun p i h => ?_⟩
  have d : (theSpec n m k most).Out := outOf startArms (Nat.zero_le _) (show 2 ≤ n - 1 by omega) (Nat.zero_le _) (Nat.zero_le _)
  obtain ⟨_, _, h3, h4, _⟩ := (game_safetyEnv d hn hm i).mp h
  refine ⟨fun h0 a ha j hj => ?_, fun h0 a ha j hj => ?_⟩
  · rw [beltMoves_iff] at h0
    rw [armAt_work]
    cases a with
    | zero => exact h3 j hj h0
    | succ a =>
      refine (h4 a ha j hj).trans ?_
      simp only [h0, ne_eq, not_false_eq_true, and_true, and_false, or_false]
      rfl
  · rw [beltMoves_iff] at h0
    rw [armAt_work]
    refine (h4 a ha j hj).trans ?_
    simp only [h0, ne_eq, not_true_eq_false, and_false, false_or, and_true]
    exact or_comm

/-- **C90 is violated.**  If the belt moves in every step, the specification allows that arm 1 performs task 0 on the first new object, and the object is pushed to the next place
without this task: for all numbers of places, of tasks (at least two) and of errors. -/
theorem C90_violated {n m : Nat} (most : Nat) (hn : 3 ≤ n) (hm : 2 ≤ m) : ∃ S, SDenotes (benchmark n m 1 most) S ∧
    ∃ (i0 i1 i2 : S.In) (o0 o1 : S.Out), S.game.initEnv i0 ∧ S.game.initSys (i0, o0) ∧ S.game.safetyEnv (i0, o0) i1 ∧ S.game.safetySys (i0, o0) (i1, o1) ∧
      S.game.safetyEnv (i1, o1) i2 ∧ BeltMoves i2 ∧ ArmAt o1 0 0 ∧ ¬ Performed i2 1 0 := by
  refine ⟨_, benchmark_denotes (most := most) hn (by omega) (Nat.le_refl 1), ?_⟩
  have d : (theSpec n m 1 most).Out := outOf startArms (Nat.zero_le _) (show 2 ≤ n - 1 by omega) (Nat.zero_le _) (Nat.zero_le _)
  -- all objects are finished; then comes one with task 1 only, and then another one
  let s0 : State := ⟨0, fun _ _ => True, 0⟩
  let s1 : State := ⟨0, fun a j => a = 0 → j = 1, 0⟩
  let s2 : State := ⟨0, fun a j => a ≤ 1 → j = 1, 0⟩
  have z : ∀ (b : Nat), 0 ≤ b := Nat.zero_le
  let i0 : (theSpec n m 1 most).In := inOf s0 (z _) (z _)
  let i1 : (theSpec n m 1 most).In := inOf s1 (z _) (z _)
  let i2 : (theSpec n m 1 most).In := inOf s2 (z _) (z _)
  let o : (theSpec n m 1 most).Out := outOf startArms (z _) (show 2 ≤ n - 1 by omega) (z _) (z _)
  have v0 : iv i0 mc = 0 ∧ iv i0 er = 0 ∧ ∀ a < n, ∀ b < m, (Has i0 a b ↔ s0.done a b) := inOf_values
  have v1 : iv i1 mc = 0 ∧ iv i1 er = 0 ∧ ∀ a < n, ∀ b < m, (Has i1 a b ↔ s1.done a b) := inOf_values
  have v2 : iv i2 mc = 0 ∧ iv i2 er = 0 ∧ ∀ a < n, ∀ b < m, (Has i2 a b ↔ s2.done a b) := inOf_values
  have ha : armsOf o = startArms := outOf_arms
  refine ⟨i0, i1, i2, o, o, ?_, ?_, ?_, ?_, ?_, ?_, ?_, ?_⟩
  · exact (game_initEnv d i0).mpr ⟨v0.1, fun a h b h' => (v0.2.2 a h b h').mpr trivial⟩
  · exact game_initSys.mpr ha
  · refine (game_safetyEnv d hn (by omega) i1).mpr ⟨fun _ => .inl ⟨1, by omega, (v1.2.2 0 (by omega) 1 (by omega)).mpr fun _ => rfl⟩, ?_, ?_, ?_, ?_, ?_⟩
    · show iv i0 er ≤ iv i1 er
      rw [v0.2.1]; exact z _
    · intro j _ h; exact absurd v1.1 h
    · intro a h j hj
      refine iff_of_true ((v1.2.2 _ h j hj).mpr fun h => by omega) (.inr (.inr ⟨(v0.2.2 a (by omega) j hj).mpr trivial, v1.1⟩))
    · intro h; exact absurd h (by omega)
    · intro _; exact v1.1
  · refine (game_safetySys hn (by omega)).mpr ⟨?_, fun _ b hb => (v0.2.2 _ (by omega) b hb).mpr trivial⟩
    show Move n m (armsOf o) (armsOf o)
    rw [ha]
    constructor <;> simp [startArms] <;> omega
  · refine (game_safetyEnv d hn (by omega) i2).mpr ⟨fun _ => .inl ⟨1, by omega, (v2.2.2 0 (by omega) 1 (by omega)).mpr fun _ => rfl⟩, ?_, ?_, ?_, ?_, ?_⟩
    · show iv i1 er ≤ iv i2 er
      rw [v1.2.1]; exact z _
    · intro j _ h; exact absurd v2.1 h
    · intro a h j hj
      show Has i2 (a + 1) j ↔ (Has i1 (a + 1) j ∧ iv i2 mc ≠ 0) ∨ (armsOf o).Work (a + 1) j ∨ (Has i1 a j ∧ iv i2 mc = 0)
      rw [v2.2.2 _ h j hj, v1.2.2 a (by omega) j hj, ha, v2.1]
      simp only [s1, s2, Arms.Work, startArms, ne_eq, not_true_eq_false, and_false, or_false, false_or, and_true]
      constructor
      · intro h'
        right
        intro h0
        exact h' (by omega)
      · intro h' h1
        have h0 : a = 0 := by omega
        subst h0
        rcases h' with h' | h'
        · omega
        · exact h' rfl
    · intro h; exact absurd h (by omega)
    · intro _; exact v2.1
  · exact (beltMoves_iff i2).mpr v2.1
  · rw [armAt_work, ha]
    exact .inl ⟨rfl, rfl⟩
  · intro h
    have := (v2.2.2 1 (by omega) 0 (by omega)).mp h (Nat.le_refl 1)
    simp at this

/-- The smallest published configuration: 3 places, 3 tasks, no errors. -/
example := C90_violated (n := 3) (m := 3) 0 (by omega) (by omega)
example := C90_push_partial (n := 3) (m := 3) (k := 2) 0 (by omega) (by omega) (by omega)

end Slugs.Props
