import Verif.Lemmas.Analyze
import Verif.Model.ROBDD
import Verif.Props.Counterstrategy

/-!
# C32 and C36: the analysis of the initial positions

`runAnalyze B restrict …` is the model of a run with `--analyzeInitialPositions`, and with `--restrictToReachableStates` if `restrict = true`.
`Spec/Analyze.lean` says which positions are considered.
-/

namespace Slugs.Props

open Slugs.Spec Slugs.Model

variable {B : Type} [DecidableEq B] [L : BddLib B]

/-- **C32**.  The loop terminates, and the set it computes consists of the positions on finite paths from initial positions along which both
players obey the safety constraints. -/
theorem C32_reachable_exact {I O : Type} [Finite I] [Finite O] (g : Game I O) (fuel : Nat) (hf : Nat.card (Pos I O) < fuel) :
    reachLoop (semMgr I O) ((semMgr I O).and (gameCtx g).safetyEnv (gameCtx g).safetySys) fuel
      ((semMgr I O).and (gameCtx g).initSys (gameCtx g).initEnv) (semMgr I O).ff = some (fun s _ => g.Reachable s) :=
  reachLoop_sem g fuel {s | g.initSys s ∧ g.initEnv s.1} ∅ (by simpa using hf) (Set.empty_subset _) (fun _ h1 h2 => ⟨h2, h1⟩)
    (fun _ h => .start h.2 h.1) (fun s h => absurd h (Set.notMem_empty s))

/-- The numbers that depend on the considered positions only, and the numbers of positions. -/
structure Exact (sp : SpecFile) (lims : List Fml) (restrict : Bool) (a : Analysis) : Prop where
  nofPos : a.nofPos = some (Nat.card {p // sp.Considered lims restrict p})
  nofPosA : a.nofPosA = some (Nat.card {p : Pos sp.In sp.Out // sp.Considered lims restrict p ∧ sp.game.initEnv p.1})
  nofPosG : a.nofPosG = some (Nat.card {p // sp.Considered lims restrict p ∧ sp.game.initSys p})
  nofPosAG : a.nofPosAG = some (Nat.card {p : Pos sp.In sp.Out // sp.Considered lims restrict p ∧ sp.game.initEnv p.1 ∧ sp.game.initSys p})
  nofWPos : a.nofWPos = some (Nat.card {p // sp.Considered lims restrict p ∧ sp.game.SysWins p})
  nofWPosA : a.nofWPosA = some (Nat.card {p : Pos sp.In sp.Out // sp.Considered lims restrict p ∧ sp.game.initEnv p.1 ∧ sp.game.SysWins p})
  nofWPosG : a.nofWPosG = some (Nat.card {p // sp.Considered lims restrict p ∧ sp.game.initSys p ∧ sp.game.SysWins p})
  nofWPosAG : a.nofWPosAG = some (Nat.card {p : Pos sp.In sp.Out //
    sp.Considered lims restrict p ∧ sp.game.initEnv p.1 ∧ sp.game.initSys p ∧ sp.game.SysWins p})
  nofInputs : a.nofInputs = some (Nat.card {i : sp.In // ∃ o, sp.Considered lims restrict (i, o)})
  nofAllowedInitialInputs : a.nofAllowedInitialInputs =
    some (Nat.card {i : sp.In // (∃ o, sp.Considered lims restrict (i, o)) ∧ sp.game.initEnv i})

/-- The initial inputs after which every choice of the system that obeys its initialisation guarantees is losing. -/
def ForcedToLose (sp : SpecFile) (i : sp.In) : Prop := sp.game.initEnv i ∧ ∀ o, sp.game.initSys (i, o) → ¬ sp.game.SysWins (i, o)

/-- The number of these inputs is printed correctly. -/
def ExactLosing (sp : SpecFile) (lims : List Fml) (restrict : Bool) (a : Analysis) : Prop :=
  a.nofInputsSystemLosing = some (Nat.card {i : sp.In // (∃ o, sp.Considered lims restrict (i, o)) ∧ ForcedToLose sp i})

theorem runAnalyze_sem {cap : Nat} {order : List Char → Bool} {text : List Char} {tab : VarTable} {c : Ctx B} {limits : B}
    (h : initContextLimits cap order text = .ok (tab, c, limits)) (restrict : Bool) :
    ∃ sp lims a, Denotes text sp ∧ DenotesLimits text lims ∧ Exact sp lims restrict a ∧
      ((∀ i, (∀ o, ForcedToLose sp i → sp.Considered lims restrict (i, o)) ∨ (∀ o, ForcedToLose sp i → ¬ sp.Considered lims restrict (i, o))) →
        ExactLosing sp lims restrict a) ∧
      ((∃ i o o', ForcedToLose sp i ∧ sp.Considered lims restrict (i, o) ∧ ¬ sp.Considered lims restrict (i, o')) →
        a.nofInputsSystemLosing = none) ∧
      ∀ fuel, Nat.card (Pos sp.In sp.Out) < fuel → runAnalyze B restrict cap order fuel text = .numbers a := by
  obtain ⟨hi, ds, F, hn, lims, rfl, hd, hl, hc, hlim, _⟩ := initContextLimits_spec h
  have hfin : Finite (Pos (specOf ds F).In (specOf ds F).Out) := inferInstance
  let lay := tableLayout ds hn
  let E := lay.enc B
  let g := padGame (specOf ds F).game
  let H : MgrHom (semMgr _ _) (bddMgr B (tableOf ds).types) E := lay.hom B
  let C : Pos (specOf ds F).In (specOf ds F).Out → Prop := fun p => (specOf ds F).Considered lims restrict p
  have hreach : ∀ p, g.Reachable p ↔ (specOf ds F).game.Reachable p := by
    intro p
    constructor
    · intro hp
      induction hp with
      | start h1 h2 => exact .start h1 h2
      | step _ h2 h3 ih => exact .step ih h2 h3
    · intro hp
      induction hp with
      | start h1 h2 => exact .start h1 h2
      | step _ h2 h3 ih => exact .step ih h2 h3
  obtain ⟨_, _, _, _, _, _, hW⟩ := checked (B := B) .standard ds F hn false (Nat.card (Pos (specOf ds F).In (specOf ds F).Out)).succ (by omega)
  have enc_eq : ∀ {X Y : T (specOf ds F).In (specOf ds F).Out}, (∀ s t, X s t ↔ Y s t) → E X = E Y := fun hXY =>
    congrArg E (funext fun s => funext fun t => propext (hXY s t))
  have eW : E (pre (nuZ g)) = E (fun s _ => (specOf ds F).game.SysWins s) := enc_eq fun s _ => hW s
  have ha := numbers_enc (B := B) lay g (fun s => (specOf ds F).game.SysWins s) C
  refine ⟨specOf ds F, lims, numbers (tableOf ds).types c (E (pre (nuZ g))) (E fun s _ => C s), hd, hl, ?_, ?_, ?_, ?_⟩
  · rw [hc, eW]
    exact ⟨congrArg Analysis.nofPos ha, congrArg Analysis.nofPosA ha, congrArg Analysis.nofPosG ha, congrArg Analysis.nofPosAG ha,
      congrArg Analysis.nofWPos ha, congrArg Analysis.nofWPosA ha, congrArg Analysis.nofWPosG ha, congrArg Analysis.nofWPosAG ha,
      congrArg Analysis.nofInputs ha, congrArg Analysis.nofAllowedInitialInputs ha⟩
  · intro hind
    rw [hc, eW]
    refine (congrArg Analysis.nofInputsSystemLosing ha).trans ?_
    refine Eq.trans (congrArg (countB (varsOfTypes (tableOf ds).types [.preInput])) (enc_eq fun s _ => ?_)) (lay.count_preInput (B := B) (fun i : (specOf ds F).In =>
      (∃ o, (specOf ds F).Considered lims restrict (i, o)) ∧ ForcedToLose (specOf ds F) i))
    refine ⟨fun h => ⟨⟨s.2, h.1⟩, h.2⟩, fun ⟨⟨o, ho⟩, h2⟩ => ⟨?_, h2⟩⟩
    rcases hind s.1 with h3 | h3
    · exact h3 s.2 h2
    · exact absurd ho (h3 o h2)
  · rintro ⟨i, o, o', h1, h2, h3⟩
    rw [hc, eW]
    refine (congrArg Analysis.nofInputsSystemLosing ha).trans ?_
    exact lay.count_preInput_nan (fun s => C s ∧ ForcedToLose (specOf ds F) s.1) (i := i) (o := o) (o' := o') ⟨h2, h1⟩ fun h => h3 h.1
  · intro fuel hfuel
    obtain ⟨v, dump, hb, hv1, hv2, _⟩ := checked (B := B) .standard ds F hn false fuel hfuel
    rw [if_neg (by simp), ← hc] at hb
    have hr : restrictLimits (bddMgr B (tableOf ds).types) c restrict fuel limits = some (E fun s _ => C s) := by
      rw [hc, hlim]
      have e := restrictLimits_hom H (gameCtx g) restrict fuel (fun s _ => ∀ φ ∈ lims, (specOf ds F).holds s s φ)
      have e2 := restrictLimits_sem g restrict fuel hfuel (fun s => ∀ φ ∈ lims, (specOf ds F).holds s s φ)
      refine e.trans ((congrArg (Option.map E) e2).trans (congrArg some (enc_eq fun s _ => ?_)))
      rw [hreach]; rfl
    have hnum : ∀ v', v = v' → v' ≠ .internalError → runAnalyze B restrict cap order fuel text = .numbers (numbers (tableOf ds).types c (E (pre (nuZ g))) (E fun s _ => C s)) := by
      rintro _ rfl hne
      rw [runAnalyze, h]
      simp only
      rw [hb]
      cases hv : v with
      | internalError => exact absurd hv hne
      | realizable => simp only; rw [hr]; rfl
      | unrealizable => simp only; rw [hr]; rfl
    by_cases hw : Wins false (specOf ds F)
    · exact hnum _ (hv1.mpr hw) (by simp)
    · exact hnum _ (hv2.mpr hw) (by simp)

/-- What is printed does not depend on the bound of the model. -/
theorem runAnalyze_more {restrict : Bool} {cap : Nat} {order : List Char → Bool} {n n' : Nat} {text : List Char} {a : Analysis} (hn : n ≤ n')
    (h : runAnalyze B restrict cap order n text = .numbers a) : runAnalyze B restrict cap order n' text = .numbers a := by
  rw [runAnalyze] at h ⊢
  cases hi : initContextLimits (B := B) cap order text with
  | err e => rw [hi] at h; cases h
  | ub => rw [hi] at h; cases h
  | stuck => rw [hi] at h; cases h
  | ok r =>
    obtain ⟨tab, c, limits⟩ := r
    rw [hi] at h
    simp only at h ⊢
    cases hc : checkRealizability .standard (bddMgr B tab.types) c n with
    | none => rw [hc] at h; cases h
    | some r =>
      obtain ⟨v, W, dump⟩ := r
      rw [checkRealizability_more _ _ hn hc]
      rw [hc] at h
      have : ∀ x, restrictLimits (bddMgr B tab.types) c restrict n limits = some x → restrictLimits (bddMgr B tab.types) c restrict n' limits = some x :=
        fun x hx => restrictLimits_more hn hx
      cases v with
      | internalError => cases h
      | realizable =>
        simp only at h ⊢
        split at h
        · cases h
        · rename_i x hx; rw [this x hx]; exact h
      | unrealizable =>
        simp only at h ⊢
        split at h
        · cases h
        · rename_i x hx; rw [this x hx]; exact h

theorem runAnalyze_printed {restrict : Bool} {cap : Nat} {order : List Char → Bool} {fuel : Nat} {text : List Char} {a : Analysis}
    (h : runAnalyze B restrict cap order fuel text = .numbers a) :
    ∃ sp lims, Denotes text sp ∧ DenotesLimits text lims ∧ Exact sp lims restrict a ∧
      ((∀ i, (∀ o, ForcedToLose sp i → sp.Considered lims restrict (i, o)) ∨ (∀ o, ForcedToLose sp i → ¬ sp.Considered lims restrict (i, o))) →
        ExactLosing sp lims restrict a) ∧
      ((∃ i o o', ForcedToLose sp i ∧ sp.Considered lims restrict (i, o) ∧ ¬ sp.Considered lims restrict (i, o')) →
        a.nofInputsSystemLosing = none) := by
  cases hi : initContextLimits (B := B) cap order text with
  | err e => rw [runAnalyze, hi] at h; cases h
  | ub => rw [runAnalyze, hi] at h; cases h
  | stuck => rw [runAnalyze, hi] at h; cases h
  | ok r =>
    obtain ⟨tab, c, limits⟩ := r
    obtain ⟨sp, lims, a', h1, h2, h3, h4, h5, h6⟩ := runAnalyze_sem hi restrict
    have e := h6 (fuel + Nat.card (Pos sp.In sp.Out)).succ (by omega)
    rw [runAnalyze_more (by omega) h] at e
    cases e
    exact ⟨sp, lims, h1, h2, h3, h4, h5⟩

theorem DenotesLimits.det {text : List Char} {l1 l2 : List Fml} (h1 : DenotesLimits text l1) (h2 : DenotesLimits text l2) : l1 = l2 :=
  @forall₂_unique _ _ ReadsLine (fun _ _ _ => ReadsLine.det) _ _ _ h1 h2

/-- **C36** (without the number of inputs that force the system to lose).  Whatever the file, the other numbers that are printed are the numbers of
positions and inputs they claim to be, among the positions that satisfy the marked lines of the file (and are reachable). -/
theorem C36_numbers_exact_partial {restrict : Bool} {cap : Nat} {order : List Char → Bool} {fuel : Nat} {text : List Char} {a : Analysis}
    (h : runAnalyze B restrict cap order fuel text = .numbers a) {sp : SpecFile} (hd : Denotes text sp) {lims : List Fml}
    (hl : DenotesLimits text lims) : Exact sp lims restrict a := by
  obtain ⟨sp', lims', h1, h2, h3, _⟩ := runAnalyze_printed h
  obtain rfl := Denotes.det hd h1
  obtain rfl := DenotesLimits.det hl h2
  exact h3

/-- **C36**, the number of inputs that force the system to lose: correct when no input that forces the system to lose is considered together with some
outputs and not with others; otherwise "nan" is printed. -/
theorem C36_losing_inputs_partial {restrict : Bool} {cap : Nat} {order : List Char → Bool} {fuel : Nat} {text : List Char} {a : Analysis}
    (h : runAnalyze B restrict cap order fuel text = .numbers a) {sp : SpecFile} (hd : Denotes text sp) {lims : List Fml}
    (hl : DenotesLimits text lims) :
    ((∃ i o o', ForcedToLose sp i ∧ sp.Considered lims restrict (i, o) ∧ ¬ sp.Considered lims restrict (i, o')) ∧
      a.nofInputsSystemLosing = none) ∨
    ((¬ ∃ i o o', ForcedToLose sp i ∧ sp.Considered lims restrict (i, o) ∧ ¬ sp.Considered lims restrict (i, o')) ∧
      ExactLosing sp lims restrict a) := by
  obtain ⟨sp', lims', h1, h2, _, h4, h5⟩ := runAnalyze_printed h
  obtain rfl := Denotes.det hd h1
  obtain rfl := DenotesLimits.det hl h2
  by_cases hx : ∃ i o o', ForcedToLose sp i ∧ sp.Considered lims restrict (i, o) ∧ ¬ sp.Considered lims restrict (i, o')
  · exact .inl ⟨hx, h5 hx⟩
  · refine .inr ⟨hx, h4 fun i => ?_⟩
    by_cases hy : ∃ o, sp.Considered lims restrict (i, o)
    · obtain ⟨o, ho⟩ := hy
      exact .inl fun o' hf => by_contra fun hn => hx ⟨i, o, o', hf, ho, hn⟩
    · exact .inr fun o _ ho => hy ⟨o, ho⟩

/-- **C36**, termination.  For every file that the other modes accept the numbers are printed, unless a line in a liveness section is marked: then an
error is reported. -/
theorem C36_terminates {cap : Nat} {order : List Char → Bool} {text : List Char} {tab : VarTable} {c : Ctx B}
    (h : initContext cap order text = .ok (tab, c)) {sp : SpecFile} (hd : Denotes text sp) (restrict : Bool) (fuel : Nat)
    (hfuel : Nat.card (Pos sp.In sp.Out) < fuel) :
    ((∀ p ∈ markedItems none false (splitLines text), p.1 ≠ .envLiveness ∧ p.1 ≠ .sysLiveness) →
      ∃ a, runAnalyze B restrict cap order fuel text = .numbers a) ∧
    ((∃ p ∈ markedItems none false (splitLines text), p.1 = .envLiveness ∨ p.1 = .sysLiveness) →
      runAnalyze B restrict cap order fuel text = .inputError .limitInLiveness) := by
  obtain ⟨h1, h2⟩ := initContextLimits_total h
  constructor
  · intro hno
    obtain ⟨limits, hl⟩ := h1 hno
    obtain ⟨sp', lims, a, hd', _, _, _, _, h6⟩ := runAnalyze_sem hl restrict
    obtain rfl := Denotes.det hd hd'
    exact ⟨a, h6 fuel hfuel⟩
  · intro hex
    rw [runAnalyze, h2 hex]

/-! ### Concrete cases -/

/-- The system may not move; only the positions in which `x` holds are initial. -/
def stuckText : List Char := txt!"[INPUT]\na\n[OUTPUT]\nx\n[SYS_INIT]\nx\n[SYS_TRANS]\n0"

/-- The same, and the constraint is marked as a limit of a numeric variable. -/
def stuckLimitText : List Char := txt!"[INPUT]\na\n[OUTPUT]\nx\n[SYS_INIT]\n## Variable limits: x\nx\n[SYS_TRANS]\n0"

/-- `x` may not be reset, and `x` holds from the second position on if `a` held in the first. -/
def latchText : List Char := txt!"[INPUT]\na\n[OUTPUT]\nx\n[ENV_INIT]\na\n[SYS_INIT]\n## Variable limits: x\nx\n[SYS_TRANS]\n| ! x x'\n[SYS_LIVENESS]\nx"

/-- The hypotheses of the theorems hold for a file with a marked line: all numbers, without the restriction. -/
example : runAnalyze ROBDD false 1000 (fun _ => true) 20 latchText = .numbers
    { nofPos := some 2, nofPosA := some 1, nofPosG := some 2, nofPosAG := some 1, nofWPos := some 2, nofWPosA := some 1, nofWPosG := some 2,
      nofWPosAG := some 1, nofInputs := some 2, nofInputsSystemLosing := some 0, nofAllowedInitialInputs := some 1 } := by rfl

/-- A marked line in a liveness section. -/
example : runAnalyze ROBDD false 1000 (fun _ => true) 20
    txt!"[INPUT]\na\n[OUTPUT]\nx\n[SYS_LIVENESS]\n## Variable limits: x\n\n# another comment\nx" = .inputError .limitInLiveness := by rfl

example : markedItems none false (splitLines txt!"[INPUT]\na\n[OUTPUT]\nx\n[SYS_LIVENESS]\n## Variable limits: x\n\n# another comment\nx") =
    [(.sysLiveness, txt!"x")] := by rfl

/-- The output never changes, and is initially true. -/
def constGame : Game Bool Bool where
  initEnv _ := True
  initSys s := s.2 = true
  safetyEnv _ _ := True
  safetySys s t := t.2 = s.2
  assumptions := []
  guarantees := []

/-- The hypotheses of `C32_reachable_exact` hold: some positions are reachable and some are not. -/
example : Nat.card (Pos Bool Bool) < 5 ∧ constGame.Reachable (false, true) ∧ ¬ constGame.Reachable (true, false) := by
  refine ⟨by simp [Pos, Nat.card_prod], .step (s := (true, true)) (.start trivial rfl) trivial rfl, fun h => ?_⟩
  have : ∀ s, constGame.Reachable s → s.2 = true := by
    intro s hs
    induction hs with
    | start _ h => exact h
    | step _ _ h ih => exact h.trans ih
  cases this _ h

/-! ### A defect -/

/-- What is printed for `stuckText` with `--restrictToReachableStates`. -/
theorem stuck_restricted : runAnalyze ROBDD true 1000 (fun _ => true) 20 stuckText = .numbers
    { nofPos := some 2, nofPosA := some 2, nofPosG := some 2, nofPosAG := some 2, nofWPos := some 0, nofWPosA := some 0, nofWPosG := some 0,
      nofWPosAG := some 0, nofInputs := some 2, nofInputsSystemLosing := none, nofAllowedInitialInputs := some 2 } := by rfl

/-- What is printed for `stuckLimitText`. -/
theorem stuck_limit : runAnalyze ROBDD false 1000 (fun _ => true) 20 stuckLimitText = .numbers
    { nofPos := some 2, nofPosA := some 2, nofPosG := some 2, nofPosAG := some 2, nofWPos := some 0, nofWPosA := some 0, nofWPosG := some 0,
      nofWPosAG := some 0, nofInputs := some 2, nofInputsSystemLosing := none, nofAllowedInitialInputs := some 2 } := by rfl

/-- **C36** does not hold: with `--restrictToReachableStates`, as well as with marked lines, the number of initial inputs that force the system to lose
can be missing ("nan" is printed), because the considered positions are not projected to the inputs (`extensionAnalyzeInitialPositions.hpp:213`). -/
theorem C36_losing_inputs_violated (restrict : Bool) : ∃ (text : List Char) (a : Analysis) (sp : SpecFile) (lims : List Fml),
    runAnalyze ROBDD restrict 1000 (fun _ => true) 20 text = .numbers a ∧ Denotes text sp ∧ DenotesLimits text lims ∧
    ¬ ExactLosing sp lims restrict a := by
  cases restrict
  · obtain ⟨sp, lims, h1, h2, _⟩ := runAnalyze_printed stuck_limit
    exact ⟨_, _, sp, lims, stuck_limit, h1, h2, fun h => nomatch h⟩
  · obtain ⟨sp, lims, h1, h2, _⟩ := runAnalyze_printed stuck_restricted
    exact ⟨_, _, sp, lims, stuck_restricted, h1, h2, fun h => nomatch h⟩

end Slugs.Props
