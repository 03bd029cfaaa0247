import Verif.Props.Symbolic

/-!
# C08, C09: the versions of the algorithm

`solve alg` is `computeWinningPositions` of the class selected by `--fixedPointRecycling` (`.recycling`), `--biasForAction`
(`.bias`) or none of them (`.standard`).  That files are treated correctly by all of them is part of the theorems for C04–C06,
C10–C15 and C24, which quantify over `alg`.
-/

namespace Slugs.Props

open Slugs.Spec Slugs.Model

variable {I O : Type} [Finite I] [Finite O]

/-- **C08.** Recycling terminates, and computes the same positions and the same preferred transitions. -/
theorem C08_same_result (g : Game I O) (fuel : Nat) (hf : Nat.card (Pos I O) + 1 ≤ fuel) :
    ∃ W dump, solve .standard (semMgr I O) (gameCtx g) fuel = some (W, dump) ∧
      solve .recycling (semMgr I O) (gameCtx g) fuel = some (W, dump) := by
  obtain ⟨dump, h, _⟩ := computeWinningPositions_eq g fuel hf
  exact ⟨_, dump, h, (computeWinningPositionsRecycling_eq g fuel hf).trans h⟩

/-- **C09.** The computation with a bias for action terminates, computes the same positions, and its preferred transitions
define a winning strategy: `famStrategy` plays, for the goal that is due, a move of the first entry that offers one. -/
theorem C09_same_positions (g : Game I O) (ha : g.assumptions ≠ []) (hg : g.guarantees ≠ []) (fuel : Nat)
    (hf : Nat.card (Pos I O) + 1 ≤ fuel) :
    ∃ W dump dump', solve .standard (semMgr I O) (gameCtx g) fuel = some (W, dump) ∧
      solve .bias (semMgr I O) (gameCtx g) fuel = some (W, dump') ∧
      ∀ s t, W s t → g.SysWinning (famStrategy g (entries dump') s.2) s := by
  obtain ⟨dump, h, _⟩ := computeWinningPositions_eq g fuel hf
  obtain ⟨dump', h', hfam⟩ := computeWinningPositionsBias_eq g ha fuel hf
  exact ⟨_, dump, dump', h, h', fun s _ hs => family_wins g hg hfam hs⟩

variable {B : Type} [DecidableEq B] [L : BddLib B]

/-- **C08** for complete runs: with enough rounds, recycling changes neither the verdict nor the printed strategies. -/
theorem C08_same_output (cap : Nat) (order : List Char → Bool) (text : List Char) :
    ∃ n, ∀ fuel, n ≤ fuel → ∀ robotics : Bool,
      runSlugs B .recycling robotics cap order fuel text = runSlugs B .standard robotics cap order fuel text ∧
      (∀ perm recovery, runExplicit B .recycling robotics perm recovery cap order fuel text =
        runExplicit B .standard robotics perm recovery cap order fuel text) ∧
      ∀ ge, runSymbolic B .recycling robotics ge cap order fuel text = runSymbolic B .standard robotics ge cap order fuel text := by
  cases hi : initContext (B := B) cap order text with
  | err e => exact ⟨0, fun fuel _ robotics => by simp [runSlugs, runExplicit, runSymbolic, hi]⟩
  | ub => exact ⟨0, fun fuel _ robotics => by simp [runSlugs, runExplicit, runSymbolic, hi]⟩
  | stuck => exact ⟨0, fun fuel _ robotics => by simp [runSlugs, runExplicit, runSymbolic, hi]⟩
  | ok r =>
    obtain ⟨tab, c⟩ := r
    obtain ⟨ds, F, hn, rfl, _, _, _, _, hc⟩ := initContext_spec hi
    refine ⟨Nat.card (Pos (specOf ds F).In (specOf ds F).Out) + 1, fun fuel hf robotics => ?_⟩
    have hs : solve .recycling (bddMgr B (tableOf ds).types) c fuel = solve .standard (bddMgr B (tableOf ds).types) c fuel := by
      rw [hc]
      have e1 := solve_hom ((tableLayout ds hn).hom B) .recycling (gameCtx (padGame (specOf ds F).game)) fuel
      have e2 := solve_hom ((tableLayout ds hn).hom B) .standard (gameCtx (padGame (specOf ds F).game)) fuel
      have e3 := computeWinningPositionsRecycling_eq (padGame (specOf ds F).game) fuel hf
      exact e1.trans ((congrArg (Option.map (Prod.map ((tableLayout ds hn).enc B)
        (Dump.map ((tableLayout ds hn).enc B)))) e3).trans e2.symm)
    have hr : checkRealizability .recycling (bddMgr B (tableOf ds).types) c fuel =
        checkRealizability .standard (bddMgr B (tableOf ds).types) c fuel := by
      rw [checkRealizability, checkRealizability, hs]
    have hrr : checkRealizabilityRobotics .recycling (bddMgr B (tableOf ds).types) c fuel =
        checkRealizabilityRobotics .standard (bddMgr B (tableOf ds).types) c fuel := by
      rw [checkRealizabilityRobotics, checkRealizabilityRobotics, hs]
    refine ⟨?_, fun perm recovery => ?_, fun ge => ?_⟩
    · simp only [runSlugs, hi, hr, hrr]
    · simp only [runExplicit, hi, hr, hrr]
    · simp only [runSymbolic, hi, hr, hrr]

/-! ### Concrete cases -/

/-- The demo game, from whose initial position the system wins, meets the hypotheses of `C08_same_result` and `C09_same_positions`. -/
example : demoGame.assumptions ≠ [] ∧ demoGame.guarantees ≠ [] := ⟨by simp [demoGame], by simp [demoGame]⟩

/-- The versions on a file. -/
example : runExplicit ROBDD .recycling false false false 1000 (fun _ => true) 20 strategyText =
    runExplicit ROBDD .standard false false false 1000 (fun _ => true) 20 strategyText := by rfl

example : ∃ sts sp, runExplicit ROBDD .bias false false false 1000 (fun _ => true) 20 strategyText = .strategy sts ∧
    Denotes strategyText sp ∧ sts.length = 6 := by
  obtain ⟨sp, h⟩ := runExplicit_denotes strategyText_run
  exact ⟨_, sp, rfl, h, rfl⟩

end Slugs.Props
