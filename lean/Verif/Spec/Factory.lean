import Verif.Spec.StructuredFile

/-!
An assembly line (`/repo/examples/benchmark_generators/factory_assembly_line.tex`): a belt with `n` places, and two arms that perform `m` tasks on the objects on the belt.
Every `k` steps, the belt moves on by one place and delivers a new object.
-/

namespace Slugs.Spec.Factory

structure State where
  /-- The steps since the belt has moved. -/
  time : Nat
  /-- The task has been performed on the object at the place. -/
  done : Nat → Nat → Prop
  /-- The new objects so far on which no task had been performed. -/
  errors : Nat

/-- The places of the arms, and the tasks that they perform. -/
structure Arms where
  pos1 : Nat
  pos2 : Nat
  op1 : Nat
  op2 : Nat

/-- An arm performs task `j` at place `i`. -/
def Arms.Work (a : Arms) (i j : Nat) : Prop := (a.pos1 = i ∧ a.op1 = j) ∨ (a.pos2 = i ∧ a.op2 = j)

/-- The belt moves in this step. -/
def Moves (k : Nat) (s : State) : Prop := s.time + 1 = k

/-- A step of the belt while the arms work.  (If the belt moves, the arms work on the objects that come to their places (`factory_assembly_line.tex` says that
they work before the push; the files do not: see C90).  For a new object, it does not matter which tasks
they perform.) -/
structure Step (n m k most : Nat) (a : Arms) (s s' : State) : Prop where
  moved : Moves k s → s'.time = 0
  waits : ¬ Moves k s → s'.time = s.time + 1
  stay : ¬ Moves k s → ∀ i < n, ∀ j < m, (s'.done i j ↔ s.done i j ∨ a.Work i j)
  pass : Moves k s → ∀ i, i + 1 < n → ∀ j < m, (s'.done (i + 1) j ↔ s.done i j ∨ a.Work (i + 1) j)
  good : ¬ Moves k s ∨ (∃ j < m, s'.done 0 j) → s'.errors = s.errors
  bad : Moves k s → (∀ j < m, ¬ s'.done 0 j) → s'.errors = s.errors + 1
  most : s'.errors ≤ most

/-- The arms move by at most one place and do not meet. -/
structure Move (n m : Nat) (a a' : Arms) : Prop where
  apart : a'.pos1 < a'.pos2
  inside : a'.pos2 < n
  task1 : a'.op1 < m
  task2 : a'.op2 < m
  near1 : a'.pos1 ≤ a.pos1 + 1 ∧ a.pos1 ≤ a'.pos1 + 1
  near2 : a'.pos2 ≤ a.pos2 + 1 ∧ a.pos2 ≤ a'.pos2 + 1

/-- At first, all tasks have been performed on all objects. -/
structure Start (n m : Nat) (s : State) : Prop where
  time : s.time = 0
  done : ∀ i < n, ∀ j < m, s.done i j
  errors : s.errors = 0

def startArms : Arms := ⟨0, 2, 0, 0⟩

/-- The arms can perform all tasks on all objects before they leave the belt, if there are at most `most` new objects on which no task has been performed: there is a set of
situations in which they can stay whatever the belt delivers, and no object leaves unfinished. -/
def Manages (n m k most : Nat) : Prop :=
  ∃ W : State → Arms → Prop, (∀ s, Start n m s → W s startArms) ∧
    ∀ s a, W s a → ∀ s', Step n m k most a s s' → (Moves k s → ∀ j < m, s.done (n - 1) j) ∧ ∃ a', Move n m a a' ∧ W s' a'

end Slugs.Spec.Factory
