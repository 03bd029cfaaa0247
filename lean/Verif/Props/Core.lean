import Verif.Lemmas.Bias
import Verif.Lemmas.Complete
import Verif.Lemmas.Determinacy
import Verif.Lemmas.Fuel

/-!
# C01–C04, C06: the core synthesis algorithm

The theorems are about `computeWinningPositions` and `checkRealizability` (`Model/Synthesis.lean`) run on the
semantic Boolean functions `semMgr`; `Props/TextToVerdict.lean` carries them over to BDDs read from a file.
`gameCtx g` is the context that represents the game `g`.
The two non-emptiness hypotheses are established by `init` (`synthesisContextBasics.cpp:224-227`).
-/

namespace Slugs.Props

open Slugs.Spec Slugs.Model

variable {I O : Type} [Finite I] [Finite O]

/-- **C03.** The computation terminates for every game, within `|positions| + 1` rounds in each loop, and
giving more rounds does not change the result (neither the positions nor the preferred transitions). -/
theorem C03_terminates (g : Game I O) :
    ∃ result, ∀ fuel, Nat.card (Pos I O) + 1 ≤ fuel →
      computeWinningPositions (semMgr I O) (gameCtx g) fuel = some result := by
  obtain ⟨dump, h, _⟩ := computeWinningPositions_eq g _ (Nat.lt_succ_self _)
  exact ⟨_, fun fuel hf => computeWinningPositions_more _ _ hf h⟩

/-- **C01.** Every position in the computed set is won by the system. -/
theorem C01_winning_positions_sound (g : Game I O) (hg : g.guarantees ≠ []) (fuel : Nat)
    (hf : Nat.card (Pos I O) + 1 ≤ fuel) :
    ∃ W dump, computeWinningPositions (semMgr I O) (gameCtx g) fuel = some (W, dump) ∧
      ∀ s t, W s t → g.SysWins s := by
  obtain ⟨dump, h, hfam⟩ := computeWinningPositions_family g fuel hf
  exact ⟨_, dump, h, fun s t hs => ⟨_, family_wins g hg hfam hs⟩⟩

/-- **C02.** Every position outside the computed set is won by the environment,
and therefore not won by the system. -/
theorem C02_losing_positions_complete (g : Game I O) (ha : g.assumptions ≠ []) (fuel : Nat)
    (hf : Nat.card (Pos I O) + 1 ≤ fuel) :
    ∃ W dump, computeWinningPositions (semMgr I O) (gameCtx g) fuel = some (W, dump) ∧
      ∀ s t, ¬ W s t → g.EnvWins s ∧ ¬ g.SysWins s := by
  obtain ⟨dump, h, _⟩ := computeWinningPositions_eq g fuel hf
  exact ⟨_, dump, h, fun s t hs =>
    ⟨⟨_, env_wins g ha hs⟩, fun hsys => not_both_win g s ⟨hsys, _, env_wins g ha hs⟩⟩⟩

/-- The computed set is the set of positions that the system wins. -/
theorem nuZ_eq_sysWins (g : Game I O) (ha : g.assumptions ≠ []) (hg : g.guarantees ≠ []) (s : Pos I O) :
    s ∈ nuZ g ↔ g.SysWins s := by
  constructor
  · intro hs
    obtain ⟨dump, h, hfam⟩ := computeWinningPositions_family g (Nat.card (Pos I O) + 1) (Nat.lt_succ_self _)
    exact ⟨_, family_wins g hg hfam hs⟩
  · intro hs
    by_contra hn
    exact not_both_win g s ⟨hs, _, env_wins g ha hn⟩

omit [Finite I] [Finite O] in
theorem semMgr_tt_ne_ff (p : Pos I O) : (semMgr I O).tt ≠ (semMgr I O).ff := by
  intro h
  have := congrFun (congrFun h p) p
  simp [semMgr] at this

omit [Finite I] [Finite O] in
/-- A constant result of a check yields the corresponding verdict. -/
theorem verdictOf_iff (q : Pos I O) (P : Prop) :
    (verdictOf (semMgr I O) (fun _ _ => P) = .realizable ↔ P) ∧
    (verdictOf (semMgr I O) (fun _ _ => P) = .unrealizable ↔ ¬ P) := by
  by_cases hP : P
  · have : (fun _ _ => P : T I O) = (semMgr I O).tt := by funext _ _; simp [semMgr, hP]
    rw [verdictOf, if_pos this]
    simp [hP]
  · have : (fun _ _ => P : T I O) = (semMgr I O).ff := by funext _ _; simp [semMgr, hP]
    rw [verdictOf, this, if_neg (semMgr_tt_ne_ff q).symm, if_pos rfl]
    simp [hP]

/-- **C04.** The verdict is exact (and the check never ends in the internal error).
There is at least one position, since a product of variable domains is never empty. -/
theorem C04_verdict_exact [Nonempty I] [Nonempty O] (alg : Algorithm) (g : Game I O) (ha : g.assumptions ≠ []) (hg : g.guarantees ≠ [])
    (fuel : Nat) (hf : Nat.card (Pos I O) + 1 ≤ fuel) :
    ∃ verdict W dump, checkRealizability alg (semMgr I O) (gameCtx g) fuel = some (verdict, W, dump) ∧
      (verdict = .realizable ↔ g.Realizable) ∧ (verdict = .unrealizable ↔ ¬ g.Realizable) := by
  obtain ⟨dump, h, _⟩ := solve_family alg g ha fuel hf
  obtain ⟨i0⟩ := ‹Nonempty I›
  obtain ⟨o0⟩ := ‹Nonempty O›
  have hres : (semMgr I O).allPreInput ((semMgr I O).imp (gameCtx g).initEnv
      ((semMgr I O).exPreOutput ((semMgr I O).and (pre (nuZ g)) (gameCtx g).initSys))) =
      fun _ _ => g.Realizable := by
    funext s t
    simp only [semMgr, Mgr.imp, gameCtx, pre, Game.Realizable, eq_iff_iff]
    refine forall_congr' fun i => ?_
    rw [← imp_iff_not_or]
    refine imp_congr_right fun _ => exists_congr fun o => ?_
    rw [nuZ_eq_sysWins g ha hg, and_comm]
  refine ⟨_, _, dump, by rw [checkRealizability, h], ?_⟩
  rw [hres]
  exact verdictOf_iff (i0, o0) _

/-- **C06.** The verdict in the robotics semantics is exact. -/
theorem C06_robotics_verdict_exact [Nonempty I] [Nonempty O] (alg : Algorithm) (g : Game I O) (ha : g.assumptions ≠ [])
    (hg : g.guarantees ≠ []) (fuel : Nat) (hf : Nat.card (Pos I O) + 1 ≤ fuel) :
    ∃ verdict W dump, checkRealizabilityRobotics alg (semMgr I O) (gameCtx g) fuel = some (verdict, W, dump) ∧
      (verdict = .realizable ↔ g.RoboticsRealizable) ∧ (verdict = .unrealizable ↔ ¬ g.RoboticsRealizable) := by
  obtain ⟨dump, h, _⟩ := solve_family alg g ha fuel hf
  obtain ⟨i0⟩ := ‹Nonempty I›
  obtain ⟨o0⟩ := ‹Nonempty O›
  have hres : (semMgr I O).allPreInput ((semMgr I O).allPreOutput ((semMgr I O).imp
      ((semMgr I O).and (gameCtx g).initEnv (gameCtx g).initSys) (pre (nuZ g)))) =
      fun _ _ => g.RoboticsRealizable := by
    funext s t
    simp only [semMgr, Mgr.imp, gameCtx, pre, Game.RoboticsRealizable, eq_iff_iff]
    refine forall_congr' fun i => forall_congr' fun o => ?_
    rw [← imp_iff_not_or, and_imp, nuZ_eq_sysWins g ha hg]
  refine ⟨_, _, dump, by rw [checkRealizabilityRobotics, h], ?_⟩
  rw [hres]
  exact verdictOf_iff (i0, o0) _

/-! ### A concrete game that meets the hypotheses -/

/-- One input `r` (request) and one output `g` (grant): a grant may not follow a grant, requests are assumed to
come infinitely often, and grants given at requests are guaranteed infinitely often. -/
def demoGame : Game Bool Bool where
  initEnv i := i = false
  initSys p := p.2 = false
  safetyEnv p i := p.1 = true → i = false
  safetySys p q := p.2 = true → q.2 = false
  assumptions := [fun _ q => q.1 = true]
  guarantees := [fun _ q => q.1 = true ∧ q.2 = true]

example : demoGame.assumptions ≠ [] ∧ demoGame.guarantees ≠ [] := ⟨by simp [demoGame], by simp [demoGame]⟩

/-- In the demo game the system wins from the initial position (so the winning set is not empty). -/
example : demoGame.SysWins (false, false) := by
  refine ⟨fun _ i => i, ?_, ?_⟩
  · intro cur h i hh hi hcur
    -- the output always copies the input, hence a grant can only follow a request
    have hcopy : ∀ h', demoGame.SysHist (fun _ i => i) (false, false) h' → ∀ c r, h' = c :: r → c.2 = c.1 := by
      intro h' hh'
      cases hh' with
      | start => rintro c r ⟨⟩; rfl
      | step _ _ => rintro c r ⟨⟩; rfl
    have := hcopy _ hh _ _ rfl
    exact hi (this ▸ hcur)
  · intro p hp hass b hb n
    simp only [demoGame, List.mem_cons, List.not_mem_nil, or_false] at hb
    subst hb
    obtain ⟨m, hm, h1⟩ := hass (fun _ q => q.1 = true) (by simp [demoGame]) n
    refine ⟨m, hm, h1, ?_⟩
    have := hp (m + 1)
    rw [prefixHist] at this
    generalize p (m + 1) = q at this h1
    cases hq : prefixHist p m with
    | nil => cases m <;> simp [prefixHist] at hq
    | cons c r =>
      rw [hq] at this
      cases this with
      | step _ _ => exact h1

/-- A variant in which the environment may stop sending requests wins for the environment somewhere: without the
liveness assumption (true instead) the system cannot reach its goal. -/
def demoLost : Game Bool Bool := { demoGame with assumptions := [fun _ _ => True] }

example : demoLost.assumptions ≠ [] ∧ demoLost.EnvWins (false, false) := by
  refine ⟨by simp [demoLost], fun _ => false, ?_, ?_⟩
  · intro cur h _ _; rfl
  · intro p hp hlive
    obtain ⟨m, _, h1, _⟩ := hlive (by simp [demoLost, InfOften]; exact fun n => ⟨n, le_refl _⟩)
      (fun _ q => q.1 = true ∧ q.2 = true) (by simp [demoLost, demoGame]) 0
    have := hp (m + 1)
    rw [prefixHist] at this
    generalize p (m + 1) = q at this h1
    cases hq : prefixHist p m with
    | nil => cases m <;> simp [prefixHist] at hq
    | cons c r =>
      rw [hq] at this
      cases this with
      | step _ _ => simp at h1

end Slugs.Props
