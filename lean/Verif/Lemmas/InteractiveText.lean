import Verif.Lemmas.InteractiveSession
import Verif.Lemmas.Checked

/-! Runs with `--interactiveStrategy` on a file. -/

namespace Slugs.Props

open Slugs.Spec Slugs.Model

variable {B : Type} [DecidableEq B] [L : BddLib B]

/-- What is computed before the session. -/
def Prepared (sp : SpecFile) (sh : Shell (T sp.In sp.Out)) : Prop :=
  (sp.game.Realizable ∧ ∃ S, ShellOK sp sh S) ∨ (¬ sp.game.Realizable ∧ ∃ E, LostOK sp sh E ∧ EnvironmentMoves sp E)

theorem prepareShell_sem (alg : Algorithm) (sp : SpecFile) (fuel : Nat) (hf : Nat.card (Pos sp.In sp.Out) < fuel) :
    ∃ sh, prepareShell (semMgr sp.In sp.Out) (gameCtx (padGame sp.game)) alg fuel = some (some sh) ∧ Prepared sp sh := by
  have ha := padGame_assumptions sp.game
  have hg := padGame_guarantees sp.game
  obtain ⟨dump, hcw, hfam⟩ := solve_family alg (padGame sp.game) ha fuel hf
  have hZ : ∀ s, s ∈ nuZ (padGame sp.game) ↔ sp.game.SysWins s := fun s => (nuZ_eq_sysWins _ ha hg s).trans (padGame_sysWins _ s)
  have hZ' : nuZ (padGame sp.game) = {s | sp.game.SysWins s} := Set.ext hZ
  obtain ⟨v, W, dump', r, h1, h2⟩ := C04_verdict_exact alg _ ha hg fuel hf
  rw [padGame_realizable] at h1 h2
  have hr : checkRealizability alg (semMgr _ _) (gameCtx (padGame sp.game)) fuel = some (v, pre {s | sp.game.SysWins s}, dump) := by
    rw [r]
    rw [checkRealizability, hcw] at r
    cases r
    rw [hZ']
  rw [prepareShell, hr]
  cases v with
  | realizable =>
    refine ⟨_, rfl, .inl ⟨h1.mp rfl, fun j => strat (entries dump j), rfl, rfl, ?_, family_moves (hZ' ▸ hfam)⟩⟩
    have : (gameCtx (padGame sp.game)).livenessGuarantees.length = sp.goals := goals_padGame sp
    rw [this]
    exact List.map_congr_left fun j _ => positional_eq dump j
  | unrealizable =>
    obtain ⟨rounds, h3, h4, h5⟩ := computeWinningPositionsC_eq (padGame sp.game) fuel hf
    have hR : Rounds (padGame sp.game) rounds := ⟨h4, h5⟩
    dsimp only
    rw [h3]
    refine ⟨_, rfl, .inr ⟨h2.mp rfl, fun i => stratE (entriesI rounds.flatten i), ⟨rfl, ?_, ?_⟩, rounds_moves hR hZ⟩⟩
    · rw [hZ']; rfl
    · have : (gameCtx (padGame sp.game)).livenessAssumptions.length = sp.hopes := hopes_padGame sp
      dsimp only
      rw [this]
      exact List.map_congr_left fun i _ => envPositional_eq hR i
  | internalError =>
    exfalso
    by_cases h : sp.game.Realizable
    · exact nomatch h1.mpr h
    · exact nomatch h2.mpr h

theorem prepareShell_more {A : Type} [DecidableEq A] (M : Mgr A) (c : Ctx A) {alg : Algorithm} {n n' : Nat} (hn : n ≤ n') {r : Option (Shell A)}
    (h : prepareShell M c alg n = some r) : prepareShell M c alg n' = some r := by
  rw [prepareShell] at h ⊢
  cases hc : checkRealizability alg M c n with
  | none => rw [hc] at h; cases h
  | some q =>
    rw [hc] at h
    rw [checkRealizability_more M c hn hc]
    obtain ⟨v, W, dump⟩ := q
    cases v with
    | internalError => exact h
    | realizable => exact h
    | unrealizable =>
      dsimp only at h ⊢
      cases hw : computeWinningPositionsC M c n with
      | none => rw [hw] at h; cases h
      | some q =>
        rw [hw] at h
        rw [show computeWinningPositionsC M c n' = some q from fixLoop_more (fun _ _ _ h => goalLoopC_more M c hn h) hn hw]
        exact h

/-- The session after the preparation, on the BDDs of an accepted file. -/
theorem session_enc {ds : Decls} (F : Section → List Fml) (hn : (tableOf ds).names.Nodup) (sh : Shell (T (specOf ds F).In (specOf ds F).Out))
    (n : Nat) (i : Stdin) (rnd : List Bool) :
    sessionLoop (bddMgr B (tableOf ds).types) ((gameCtx (padGame (specOf ds F).game)).map ((tableLayout ds hn).enc B)) (tableIVars B (tableOf ds))
      (sh.map ((tableLayout ds hn).enc B)) n { cur := (bddMgr B (tableOf ds).types).ff, goal := 0 } i rnd [] =
    sessionLoop (semMgr _ _) (gameCtx (padGame (specOf ds F).game)) (semIVars ds) sh n { cur := (semMgr _ _).ff, goal := 0 } i rnd [] := by
  have hM := (tableLayout ds hn).hom B
  have e := sessionLoop_hom hM (gameCtx (padGame (specOf ds F).game)) (semIVars ds) sh n { cur := (semMgr _ _).ff, goal := 0 } i rnd []
  rw [tableIVars_eq B hn]
  have e0 : (bddMgr B (tableOf ds).types).ff = (tableLayout ds hn).enc B (semMgr _ _).ff := hM.ff
  rw [e0]
  exact e

/-- Every accepted file leads to a session, with the right verdict and the right answers. -/
theorem interactive_sem {alg : Algorithm} {cap : Nat} {order : List Char → Bool} {text : List Char} {tab : VarTable} {c : Ctx B} {sp : SpecFile}
    (h : initContext cap order text = .ok (tab, c)) (hd : Denotes text sp) :
    ∃ sh vs, IVarsOK sp vs ∧ Prepared sp sh ∧ ∀ (fuel : Nat) (input : List Char) (rnd : List Bool),
      (Nat.card (Pos sp.In sp.Out) < fuel → runInteractive B alg cap order fuel text input rnd ≠ .running) ∧
      (runInteractive B alg cap order fuel text input rnd ≠ .running →
        ∃ es e, runInteractive B alg cap order fuel text input rnd = .session sh.realizable es e ∧
          sessionLoop (semMgr sp.In sp.Out) (gameCtx (padGame sp.game)) vs sh (input.length + 1) { cur := (semMgr sp.In sp.Out).ff, goal := 0 }
            { chars := input, eof := false, fail := false } rnd [] = some (es, e)) := by
  obtain ⟨ds, F, hn, rfl, hd', _, _, _, rfl⟩ := initContext_spec h
  obtain rfl := Denotes.det hd hd'
  obtain ⟨sh, h1, h2⟩ := prepareShell_sem alg (specOf ds F) (Nat.card (Pos (specOf ds F).In (specOf ds F).Out) + 1) (Nat.lt_succ_self _)
  have hM := (tableLayout ds hn).hom B
  have h3 : prepareShell (bddMgr B (tableOf ds).types) ((gameCtx (padGame (specOf ds F).game)).map ((tableLayout ds hn).enc B)) alg
      (Nat.card (Pos (specOf ds F).In (specOf ds F).Out) + 1) = some (some (sh.map ((tableLayout ds hn).enc B))) := by
    have e := prepareShell_hom hM (gameCtx (padGame (specOf ds F).game)) alg (Nat.card (Pos (specOf ds F).In (specOf ds F).Out) + 1)
    exact e.trans (congrArg (Option.map (Option.map (Shell.map ((tableLayout ds hn).enc B)))) h1)
  have hrun : ∀ fuel input rnd r, prepareShell (bddMgr B (tableOf ds).types) ((gameCtx (padGame (specOf ds F).game)).map ((tableLayout ds hn).enc B)) alg
      fuel = some r → ∃ es e, runInteractive B alg cap order fuel text input rnd = .session sh.realizable es e ∧
          sessionLoop (semMgr _ _) (gameCtx (padGame (specOf ds F).game)) (semIVars ds) sh (input.length + 1) { cur := (semMgr _ _).ff, goal := 0 }
            { chars := input, eof := false, fail := false } rnd [] = some (es, e) := by
    intro fuel input rnd r hr
    have hr1 := prepareShell_more _ _ (le_max_left fuel (Nat.card (Pos (specOf ds F).In (specOf ds F).Out) + 1)) hr
    have hr2 := prepareShell_more _ _ (le_max_right fuel (Nat.card (Pos (specOf ds F).In (specOf ds F).Out) + 1)) h3
    rw [hr1] at hr2
    cases hr2
    obtain ⟨⟨es, e⟩, hs⟩ := sessionLoop_ends (semMgr _ _) (gameCtx (padGame (specOf ds F).game)) (semIVars ds) sh (input.length + 1)
      { cur := (semMgr _ _).ff, goal := 0 } { chars := input, eof := false, fail := false } rnd [] (Nat.lt_succ_self _)
    refine ⟨es, e, ?_, hs⟩
    rw [runInteractive, h]
    dsimp only
    rw [hr]
    dsimp only
    rw [(session_enc F hn sh (input.length + 1) { chars := input, eof := false, fail := false } rnd).trans hs]
    rfl
  refine ⟨sh, semIVars ds, semIVars_ok F hn, h2, fun fuel input rnd => ⟨fun hf => ?_, fun hne => ?_⟩⟩
  · obtain ⟨es, e, he, _⟩ := hrun fuel input rnd _ (prepareShell_more _ _ (by omega) h3)
    rw [he]
    exact nofun
  · cases hp : prepareShell (bddMgr B (tableOf ds).types) ((gameCtx (padGame (specOf ds F).game)).map ((tableLayout ds hn).enc B)) alg fuel with
    | none =>
      refine absurd ?_ hne
      rw [runInteractive, h]
      dsimp only
      rw [hp]
    | some r => exact hrun fuel input rnd r hp

end Slugs.Props
