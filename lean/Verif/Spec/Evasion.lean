import Verif.Spec.StructuredFile

/-!
A robot evades a moving obstacle on a grid (`/repo/examples/benchmark_generators/moving_obstacle_evasion.tex`).  The robot occupies one cell, the obstacle 2 times 2
cells.  In each step, both can move by one cell in both directions; the robot stops at the borders.  The obstacle can only move if it has rested in the step before, but for
a number of glitches.
-/

namespace Slugs.Spec.Evasion

structure State where
  robx : Nat
  roby : Nat
  /-- The upper left corner of the obstacle. -/
  obsx : Nat
  obsy : Nat
  /-- The glitches so far. -/
  glitches : Nat
  /-- The obstacle has not moved in the last step. -/
  rested : Bool

/-- The robot is on a cell of the obstacle. -/
def State.Hit (s : State) : Prop := s.obsx ≤ s.robx ∧ s.robx ≤ s.obsx + 1 ∧ s.obsy ≤ s.roby ∧ s.roby ≤ s.obsy + 1

/-- A coordinate of the robot after a move: `d = 0` is one cell back, 1 no move, 2 one cell ahead. -/
def moved (size x d : Nat) : Nat := min (x + d - 1) (size - 1)

/-- At most one cell apart. -/
def Near (a b : Nat) : Prop := a ≤ b + 1 ∧ b ≤ a + 1

/-- The obstacle stays where it is. -/
def Stays (s s' : State) : Prop := s'.obsx = s.obsx ∧ s'.obsy = s.obsy

/-- A step in which the robot moves by `dx` and `dy`. -/
structure Step (w h most dx dy : Nat) (s s' : State) : Prop where
  robx : s'.robx = moved w s.robx dx
  roby : s'.roby = moved h s.roby dy
  nearx : Near s.obsx s'.obsx
  neary : Near s.obsy s'.obsy
  insidex : s'.obsx + 1 < w
  insidey : s'.obsy + 1 < h
  rested : s'.rested = true ↔ Stays s s'
  allowed : Stays s s' ∨ s.rested = true → s'.glitches = s.glitches
  glitch : ¬ (Stays s s' ∨ s.rested = true) → s'.glitches = s.glitches + 1
  most : s'.glitches ≤ most

/-- At first, the robot and the obstacle are in opposite corners, and there have been no glitches. -/
def start (w h : Nat) : State := ⟨0, 0, w - 2, h - 2, 0, false⟩

/-- The robot can evade the obstacle forever on a grid of the given size with the given number of glitches: there is a set of states without a collision, in which the
robot can stay whatever the obstacle does.  (The obstacle moves after the robot has chosen.) -/
def Evades (w h most : Nat) : Prop :=
  ∃ W : State → Prop, W (start w h) ∧ ∀ s, W s → ¬ s.Hit ∧ ∃ dx dy, dx ≤ 2 ∧ dy ≤ 2 ∧ ∀ s', Step w h most dx dy s s' → W s'

end Slugs.Spec.Evasion
