import Verif.Lemmas.ExplicitFuel
import Verif.Lemmas.ExplicitHom
import Verif.Props.TextToVerdict

/-! The realizability check on an accepted file, in terms of the game. -/

namespace Slugs.Props

open Slugs.Spec Slugs.Model

variable {B : Type} [DecidableEq B] [L : BddLib B]

/-- What is realizable with the given options. -/
def Wins (robotics : Bool) (sp : SpecFile) : Prop := if robotics then sp.game.RoboticsRealizable else sp.game.Realizable

/-- The check on the BDDs of an accepted file: its verdict, the winning positions, the preferred transitions and
where these come from. -/
theorem checked_full (alg : Algorithm) (ds : Decls) (F : Section → List Fml) (hn : (tableOf ds).names.Nodup) (robotics : Bool) (fuel : Nat)
    (hcard : Nat.card (Pos (specOf ds F).In (specOf ds F).Out) < fuel) :
    ∃ v dump, (if robotics = true then checkRealizabilityRobotics alg (bddMgr B (tableOf ds).types)
          ((gameCtx (padGame (specOf ds F).game)).map ((tableLayout ds hn).enc B)) fuel
        else checkRealizability alg (bddMgr B (tableOf ds).types)
          ((gameCtx (padGame (specOf ds F).game)).map ((tableLayout ds hn).enc B)) fuel) =
      some (v, (tableLayout ds hn).enc B (pre (nuZ (padGame (specOf ds F).game))), Dump.map ((tableLayout ds hn).enc B) dump) ∧
      (v = .realizable ↔ Wins robotics (specOf ds F)) ∧ (v = .unrealizable ↔ ¬ Wins robotics (specOf ds F)) ∧
      Family (padGame (specOf ds F).game) (nuZ (padGame (specOf ds F).game)) (entries dump) ∧
      (∀ s, s ∈ nuZ (padGame (specOf ds F).game) ↔ (specOf ds F).game.SysWins s) ∧
      solve alg (semMgr _ _) (gameCtx (padGame (specOf ds F).game)) fuel = some (pre (nuZ (padGame (specOf ds F).game)), dump) := by
  have ha := padGame_assumptions (specOf ds F).game
  have hg := padGame_guarantees (specOf ds F).game
  obtain ⟨dump, hcw, hfam⟩ := solve_family alg (padGame (specOf ds F).game) ha fuel hcard
  have hZ : ∀ s, s ∈ nuZ (padGame (specOf ds F).game) ↔ (specOf ds F).game.SysWins s := fun s =>
    (nuZ_eq_sysWins _ ha hg s).trans (padGame_sysWins _ s)
  -- the verdict
  obtain ⟨v, hr, hv1, hv2⟩ : ∃ v, (if robotics = true then checkRealizabilityRobotics alg (semMgr _ _)
        (gameCtx (padGame (specOf ds F).game)) fuel else checkRealizability alg (semMgr _ _) (gameCtx (padGame (specOf ds F).game)) fuel) =
      some (v, pre (nuZ (padGame (specOf ds F).game)), dump) ∧ (v = .realizable ↔ Wins robotics (specOf ds F)) ∧
      (v = .unrealizable ↔ ¬ Wins robotics (specOf ds F)) := by
    cases robotics
    · obtain ⟨v, W, dump', r, h1, h2⟩ := C04_verdict_exact alg _ ha hg fuel hcard
      rw [padGame_realizable] at h1 h2
      refine ⟨v, ?_, h1, h2⟩
      rw [if_neg (by simp), r]
      rw [checkRealizability, hcw] at r
      cases r; rfl
    · obtain ⟨v, W, dump', r, h1, h2⟩ := C06_robotics_verdict_exact alg _ ha hg fuel hcard
      rw [padGame_robotics] at h1 h2
      refine ⟨v, ?_, h1, h2⟩
      rw [if_pos rfl, r]
      rw [checkRealizabilityRobotics, hcw] at r
      cases r; rfl
  have hb : (if robotics = true then checkRealizabilityRobotics alg (bddMgr B (tableOf ds).types)
          ((gameCtx (padGame (specOf ds F).game)).map ((tableLayout ds hn).enc B)) fuel
        else checkRealizability alg (bddMgr B (tableOf ds).types)
          ((gameCtx (padGame (specOf ds F).game)).map ((tableLayout ds hn).enc B)) fuel) =
      some (v, (tableLayout ds hn).enc B (pre (nuZ (padGame (specOf ds F).game))), Dump.map ((tableLayout ds hn).enc B) dump) := by
    cases robotics
    · have e := checkRealizability_hom ((tableLayout ds hn).hom B) alg (gameCtx (padGame (specOf ds F).game)) fuel
      exact e.trans (congrArg (Option.map (Prod.map id (Prod.map ((tableLayout ds hn).enc B)
        (Dump.map ((tableLayout ds hn).enc B))))) hr)
    · have e := checkRealizabilityRobotics_hom ((tableLayout ds hn).hom B) alg (gameCtx (padGame (specOf ds F).game)) fuel
      exact e.trans (congrArg (Option.map (Prod.map id (Prod.map ((tableLayout ds hn).enc B)
        (Dump.map ((tableLayout ds hn).enc B))))) hr)
  exact ⟨v, dump, hb, hv1, hv2, hfam, hZ, hcw⟩

/-- The check on the BDDs of an accepted file: its verdict, the winning positions and the preferred transitions. -/
theorem checked (alg : Algorithm) (ds : Decls) (F : Section → List Fml) (hn : (tableOf ds).names.Nodup) (robotics : Bool) (fuel : Nat)
    (hcard : Nat.card (Pos (specOf ds F).In (specOf ds F).Out) < fuel) :
    ∃ v dump, (if robotics = true then checkRealizabilityRobotics alg (bddMgr B (tableOf ds).types)
          ((gameCtx (padGame (specOf ds F).game)).map ((tableLayout ds hn).enc B)) fuel
        else checkRealizability alg (bddMgr B (tableOf ds).types)
          ((gameCtx (padGame (specOf ds F).game)).map ((tableLayout ds hn).enc B)) fuel) =
      some (v, (tableLayout ds hn).enc B (pre (nuZ (padGame (specOf ds F).game))), Dump.map ((tableLayout ds hn).enc B) dump) ∧
      (v = .realizable ↔ Wins robotics (specOf ds F)) ∧ (v = .unrealizable ↔ ¬ Wins robotics (specOf ds F)) ∧
      Family (padGame (specOf ds F).game) (nuZ (padGame (specOf ds F).game)) (entries dump) ∧
      ∀ s, s ∈ nuZ (padGame (specOf ds F).game) ↔ (specOf ds F).game.SysWins s := by
  obtain ⟨v, dump, h1, h2, h3, h4, h5, _⟩ := checked_full (B := B) alg ds F hn robotics fuel hcard
  exact ⟨v, dump, h1, h2, h3, h4, h5⟩

end Slugs.Props
