import Verif.Lemmas.CoopHom
import Verif.Lemmas.CoopSound
import Verif.Lemmas.CoopComplete
import Verif.Lemmas.ExplicitSpec
import Verif.Lemmas.Checked
import Verif.Props.Explicit

/-!
# C33: cooperative strategies

`runCoop` is the model of a complete run with `--cooperativeGR1Strategy`, `runExplicitCoop` of one with `--cooperativeGR1Strategy
--explicitStrategy`.  `Spec/Cooperative.lean` says what makes a strategy cooperative.
-/

namespace Slugs.Props

open Slugs.Spec Slugs.Model

variable {B : Type} [DecidableEq B] [L : BddLib B]

/-! ### The game with padded liveness constraints -/

theorem padGame_assumed {I O : Type} (g : Game I O) (p : Nat → Pos I O) :
    (∀ a ∈ (padGame g).assumptions, InfOften a p) ↔ ∀ a ∈ g.assumptions, InfOften a p := by
  have ht : InfOften (fun _ _ => True) p := fun n => ⟨n, Nat.le_refl n, trivial⟩
  simp only [padGame]
  cases g.assumptions with
  | nil => simp [padLive, ht]
  | cons a l => rfl

theorem padGame_mem_guarantees {I O : Type} (g : Game I O) {G : T I O} (h : G ∈ g.guarantees) : G ∈ (padGame g).guarantees := by
  simp only [padGame]
  revert h
  cases g.guarantees with
  | nil => intro h; cases h
  | cons a l => exact id

theorem padGame_coopWins {I O : Type} (g : Game I O) (s : Pos I O) : (padGame g).CoopWins s ↔ g.CoopWins s := by
  have hh : ∀ {σ : SysStrategy I O} {h : History I O}, (padGame g).SysHist σ s h ↔ g.SysHist σ s h :=
    sysHist_env (g := g) (g' := padGame g) rfl
  refine exists_congr fun σ => and_congr ?_ ?_
  · refine and_congr ?_ ?_
    · refine forall_congr' fun cur => forall_congr' fun h => forall_congr' fun i => ?_
      rw [hh]; rfl
    · refine forall_congr' fun p => ?_
      rw [padGame_live]
      simp only [hh]
  · refine forall_congr' fun h => ?_
    rw [hh]
    refine imp_congr_right fun _ => exists_congr fun p => ?_
    rw [padGame_assumed]
    simp only [hh]

/-- What is realizable with cooperative strategies. -/
def WinsCoop (robotics : Bool) (sp : SpecFile) : Prop :=
  if robotics then sp.game.RoboticsCoopRealizable else sp.game.CoopRealizable

/-! ### The check on the game -/

theorem checkRealizabilityCoop_eq {I O : Type} [Finite I] [Finite O] [Nonempty I] [Nonempty O] (robotics : Bool) (g : Game I O)
    (ha : g.assumptions ≠ []) (hg : g.guarantees ≠ []) (fuel : Nat) (hf : Nat.card (Pos I O) < fuel) :
    ∃ verdict dump ts, checkRealizabilityCoop robotics (semMgr I O) (gameCtx g) fuel =
        some (verdict, (pre (nuZc g), (dump, gameCtx (coopGame g ts)))) ∧ CoopRound g (nuZc g) dump ts ∧
      (verdict = .realizable ↔ if robotics then g.RoboticsCoopRealizable else g.CoopRealizable) ∧
      (verdict = .unrealizable ↔ ¬ if robotics then g.RoboticsCoopRealizable else g.CoopRealizable) := by
  obtain ⟨dump, ts, h, hr⟩ := computeWinningPositionsCoop_eq g fuel hf
  obtain ⟨i0⟩ := ‹Nonempty I›
  obtain ⟨o0⟩ := ‹Nonempty O›
  have hres : (if robotics then (semMgr I O).allPreInput ((semMgr I O).allPreOutput ((semMgr I O).imp
        ((semMgr I O).and (gameCtx g).initEnv (gameCtx g).initSys) (pre (nuZc g))))
      else (semMgr I O).allPreInput ((semMgr I O).imp (gameCtx g).initEnv
        ((semMgr I O).exPreOutput ((semMgr I O).and (pre (nuZc g)) (gameCtx g).initSys)))) =
      fun _ _ => if robotics then g.RoboticsCoopRealizable else g.CoopRealizable := by
    funext s t
    cases robotics
    · simp only [semMgr, Mgr.imp, gameCtx, pre, Game.CoopRealizable, eq_iff_iff, Bool.false_eq_true, if_false]
      refine forall_congr' fun i => ?_
      rw [← imp_iff_not_or]
      refine imp_congr_right fun _ => exists_congr fun o => ?_
      rw [nuZc_eq_coopWins g ha hg, and_comm]
    · simp only [semMgr, Mgr.imp, gameCtx, pre, Game.RoboticsCoopRealizable, eq_iff_iff, if_true]
      refine forall_congr' fun i => forall_congr' fun o => ?_
      rw [← imp_iff_not_or, and_imp, nuZc_eq_coopWins g ha hg]
  refine ⟨_, dump, ts, by rw [checkRealizabilityCoop, h], hr, ?_⟩
  rw [hres]
  exact verdictOf_iff (i0, o0) _

theorem winsCoop_pad (robotics : Bool) (sp : SpecFile) :
    (if robotics then (padGame sp.game).RoboticsCoopRealizable else (padGame sp.game).CoopRealizable) ↔ WinsCoop robotics sp := by
  cases robotics
  · simp only [WinsCoop, Game.CoopRealizable, padGame_coopWins, Bool.false_eq_true, if_false]; rfl
  · simp only [WinsCoop, Game.RoboticsCoopRealizable, padGame_coopWins, if_true]; rfl

/-- The check on the BDDs of an accepted file. -/
theorem checkedCoop (ds : Decls) (F : Section → List Fml) (hn : (tableOf ds).names.Nodup) (robotics : Bool) (fuel : Nat)
    (hcard : Nat.card (Pos (specOf ds F).In (specOf ds F).Out) < fuel) :
    ∃ v dump ts, checkRealizabilityCoop robotics (bddMgr B (tableOf ds).types)
          ((gameCtx (padGame (specOf ds F).game)).map ((tableLayout ds hn).enc B)) fuel =
      some (v, ((tableLayout ds hn).enc B (pre (nuZc (padGame (specOf ds F).game))), (Dump.map ((tableLayout ds hn).enc B) dump,
        (gameCtx (coopGame (padGame (specOf ds F).game) ts)).map ((tableLayout ds hn).enc B)))) ∧
      (v = .realizable ↔ WinsCoop robotics (specOf ds F)) ∧ (v = .unrealizable ↔ ¬ WinsCoop robotics (specOf ds F)) ∧
      CoopRound (padGame (specOf ds F).game) (nuZc (padGame (specOf ds F).game)) dump ts := by
  obtain ⟨v, dump, ts, h1, h2, h3, h4⟩ := checkRealizabilityCoop_eq robotics (padGame (specOf ds F).game)
    (padGame_assumptions _) (padGame_guarantees _) fuel hcard
  rw [winsCoop_pad] at h3 h4
  refine ⟨v, dump, ts, ?_, h3, h4, h2⟩
  have e := checkRealizabilityCoop_hom ((tableLayout ds hn).hom B) robotics (gameCtx (padGame (specOf ds F).game)) fuel
  exact e.trans (congrArg (Option.map (Prod.map id (Prod.map ((tableLayout ds hn).enc B)
        (Prod.map (Dump.map ((tableLayout ds hn).enc B)) (Ctx.map ((tableLayout ds hn).enc B)))))) h1)

/-! ### Runs without strategy extraction -/

theorem runCoop_sem {cap : Nat} {order : List Char → Bool} {text : List Char} {tab : VarTable} {c : Ctx B}
    (h : initContext cap order text = .ok (tab, c)) {sp : SpecFile} (hd : Denotes text sp) (robotics : Bool)
    (fuel : Nat) (hfuel : Nat.card (Pos sp.In sp.Out) < fuel) :
    (WinsCoop robotics sp → runCoop B robotics cap order fuel text = .result true) ∧
    (¬ WinsCoop robotics sp → runCoop B robotics cap order fuel text = .result false) := by
  obtain ⟨ds, F, hn, rfl, hd', _, _, _, hc⟩ := initContext_spec h
  have := Denotes.det hd hd'
  subst this
  obtain ⟨v, dump, ts, hb, hv1, hv2, _⟩ := checkedCoop (B := B) ds F hn robotics fuel hfuel
  rw [← hc] at hb
  rw [runCoop, h]
  simp only
  rw [hb]
  exact ⟨fun hw => by rw [hv1.mpr hw]; rfl, fun hw => by rw [hv2.mpr hw]; rfl⟩

/-- **C33**, termination and verdict.  On every accepted file the computation terminates; it reports realizability if and only if
for every allowed initial input the system has an initial output from which it has a cooperative strategy (in the robotics semantics: it has
a cooperative strategy from every initial position). -/
theorem C33_cooperative_verdict_exact {cap : Nat} {order : List Char → Bool} {text : List Char} {tab : VarTable} {c : Ctx B}
    (h : initContext cap order text = .ok (tab, c)) {sp : SpecFile} (hd : Denotes text sp)
    (fuel : Nat) (hfuel : Nat.card (Pos sp.In sp.Out) + 1 ≤ fuel) :
    (sp.game.CoopRealizable → runCoop B false cap order fuel text = .result true) ∧
    (¬ sp.game.CoopRealizable → runCoop B false cap order fuel text = .result false) ∧
    (sp.game.RoboticsCoopRealizable → runCoop B true cap order fuel text = .result true) ∧
    (¬ sp.game.RoboticsCoopRealizable → runCoop B true cap order fuel text = .result false) := by
  obtain ⟨h1, h2⟩ := runCoop_sem (B := B) h hd false fuel hfuel
  obtain ⟨h3, h4⟩ := runCoop_sem (B := B) h hd true fuel hfuel
  exact ⟨h1, h2, h3, h4⟩

/-- **C33**: whatever verdict is printed is right, for any number of rounds, and there never is an internal error. -/
theorem C33_cooperative_printed_is_right {robotics : Bool} {cap : Nat} {order : List Char → Bool} {fuel : Nat} {text : List Char} :
    runCoop B robotics cap order fuel text ≠ .internalError ∧
    ∀ b, runCoop B robotics cap order fuel text = .result b → ∃ sp, Denotes text sp ∧
      (b = true ↔ if robotics then sp.game.RoboticsCoopRealizable else sp.game.CoopRealizable) := by
  cases hi : initContext (B := B) cap order text with
  | err e => rw [runCoop, hi]; exact ⟨nofun, nofun⟩
  | ub => rw [runCoop, hi]; exact ⟨nofun, nofun⟩
  | stuck => rw [runCoop, hi]; exact ⟨nofun, nofun⟩
  | ok r =>
    obtain ⟨tab, c⟩ := r
    obtain ⟨sp, hd, _⟩ := C24_accepted_denotes hi
    by_cases hrun : runCoop B robotics cap order fuel text = .running
    · rw [hrun]; exact ⟨nofun, nofun⟩
    have hmore := runCoop_more (n' := fuel + (Nat.card (Pos sp.In sp.Out) + 1)) (Nat.le_add_right _ _) hrun
    obtain ⟨h1, h2⟩ := runCoop_sem (B := B) hi hd robotics (fuel + (Nat.card (Pos sp.In sp.Out) + 1)) (by omega)
    by_cases hw : WinsCoop robotics sp
    · rw [h1 hw] at hmore
      rw [← hmore]
      exact ⟨nofun, fun b hb => ⟨sp, hd, by cases hb; exact ⟨fun _ => hw, fun _ => rfl⟩⟩⟩
    · rw [h2 hw] at hmore
      rw [← hmore]
      exact ⟨nofun, fun b hb => ⟨sp, hd, by cases hb; exact ⟨nofun, fun h => absurd h hw⟩⟩⟩

/-! ### Runs with extraction of an explicit-state strategy -/

/-- What the printed states satisfy. -/
structure PrintedCoop (sp : SpecFile) (recovery : Bool) (sts : List PState) : Prop where
  wf : WellFormed sp sts
  win : ∀ st ∈ sts, sp.game.CoopWins (st.pos sp)
  length : sts.length ≤ Nat.card (Pos sp.In sp.Out) * (max 1 sp.game.guarantees.length + max 1 sp.game.assumptions.length)
  start : ∀ s, sp.game.CoopWins s → sp.game.initSys s → (recovery = true ∨ sp.game.initEnv s.1) → ∃ st ∈ sts, st.pos sp = s ∧ st.rank = 0
  total : Complete sp sts
  det : Deterministic sp sts
  strict : recovery = false → ∀ st st', Edge sts st st' → sp.game.safetyEnv (st.pos sp) (st'.pos sp).1
  safe : Safe sp sts
  alive : ∀ st ∈ sts, ∃ i, sp.game.safetyEnv (st.pos sp) i
  live : LiveRuns sp sts
  coop : CoopRuns sp sts

theorem coopGame_length {I O : Type} {g : Game I O} {ts : List (T I O)} (h : ts.length = g.assumptions.length) :
    (coopGame g ts).guarantees.length = g.guarantees.length + g.assumptions.length := by
  simp [coopGame, coopGuarantees, gameCtx, h]

theorem padGame_lengths {I O : Type} (g : Game I O) : (padGame g).guarantees.length = max 1 g.guarantees.length ∧
    (padGame g).assumptions.length = max 1 g.assumptions.length := by
  simp only [padGame]
  constructor
  · cases g.guarantees <;> simp [padLive]
  · cases g.assumptions <;> simp [padLive]

theorem printedCoop_of_follows {sp : SpecFile} {g' : Game sp.In sp.Out} {Z : Set (Pos sp.In sp.Out)} {recovery : Bool}
    {dump : Dump (T sp.In sp.Out)} {sts : List PState} (hf : CoopFamily (padGame sp.game) g' Z (entries dump))
    (henv : g'.safetyEnv = sp.game.safetyEnv) (hsys : g'.safetySys = sp.game.safetySys)
    (hie : g'.initEnv = sp.game.initEnv) (his : g'.initSys = sp.game.initSys)
    (hass : g'.assumptions = (padGame sp.game).assumptions)
    (hgu : ∀ G ∈ (padGame sp.game).guarantees, G ∈ g'.guarantees)
    (hlen : g'.guarantees.length = max 1 sp.game.guarantees.length + max 1 sp.game.assumptions.length)
    (hZ : ∀ s, s ∈ Z ↔ sp.game.CoopWins s) (hF : Follows sp g' Z false recovery dump sts) : PrintedCoop sp recovery sts := by
  have halive : ∀ st ∈ sts, ∃ i, sp.game.safetyEnv (st.pos sp) i := fun st hst => hf.alive (hF.win st hst)
  have hcoop : CoopRuns sp sts := by
    intro st hst
    obtain ⟨r, h0, hP, hstep, hsafe, hinf⟩ := cycle_run hf henv (fun st => st ∈ sts) (Edge sts) (fun st => st.pos sp) (fun st => st.rank)
      hF.rank hF.win (fun st hst i hi => by
        obtain ⟨st', h1, h2⟩ := hF.total st hst i (henv ▸ hi)
        obtain ⟨h3, _, h5⟩ := hF.edge _ _ h1
        exact ⟨st', h1.2.1, h1, h2, h3, h5⟩) st hst
    refine ⟨r, h0, hstep, hsafe, ?_, fun G hG => hinf G (hgu G (padGame_mem_guarantees _ hG))⟩
    refine (padGame_assumed sp.game _).mp fun A hA => ?_
    obtain ⟨G, hG, hGA⟩ := hf.inside A hA
    intro n
    obtain ⟨m, hm, hG'⟩ := hinf G hG n
    refine ⟨m, hm, hGA _ _ (hF.win _ (hP m)) (hF.win _ (hP (m + 1))) ?_ hG'⟩
    obtain ⟨d, hd, hd'⟩ := moves_mem (hF.edge _ _ (hstep m)).1
    have hlt := hF.rank _ (hP m)
    exact ⟨hf.nd _ _ (List.getElem?_eq_getElem hlt) d hd _ _ hd', hsafe m⟩
  refine ⟨hF.wf, fun st hst => (hZ _).mp (hF.win st hst), by rw [← hlen]; exact hF.length, ?_, ?_, hF.det rfl, ?_, ?_, halive, ?_, hcoop⟩
  · intro s h1 h2 h3
    exact hF.start s ⟨(hZ s).mpr h1, .inr ⟨his ▸ h2, hie ▸ h3⟩⟩
  · intro st hst i hi
    exact hF.total st hst i (henv ▸ hi)
  · rintro rfl st st' he
    rcases (hF.edge _ _ he).2.1 with h | h
    · cases h
    · exact henv ▸ h
  · intro st st' he
    exact hsys ▸ hF.safe hf.family st st' he
  · intro r hr hs
    refine (padGame_live _ _).mp ?_
    have := hF.live hf.family r hr (fun n => henv ▸ hs n)
    intro ha G hG
    exact this (by rw [hass]; exact ha) G (hgu G hG)

theorem runExplicitCoop_sem {cap : Nat} {order : List Char → Bool} {text : List Char} {tab : VarTable} {c : Ctx B}
    (h : initContext cap order text = .ok (tab, c)) {sp : SpecFile} (hd : Denotes text sp) (robotics recovery : Bool)
    (fuel : Nat) (hfuel : Nat.card (Pos sp.In sp.Out) * (max 1 sp.game.guarantees.length + max 1 sp.game.assumptions.length) < fuel) :
    (WinsCoop robotics sp → ∃ sts, runExplicitCoop B robotics recovery cap order fuel text = .strategy sts ∧
      PrintedCoop sp recovery sts) ∧
    (¬ WinsCoop robotics sp → runExplicitCoop B robotics recovery cap order fuel text = .none (.result false)) := by
  obtain ⟨ds, F, hn, rfl, hd', _, _, _, hc⟩ := initContext_spec h
  have := Denotes.det hd hd'
  subst this
  have hcard : Nat.card (Pos (specOf ds F).In (specOf ds F).Out) < fuel :=
    lt_of_le_of_lt (Nat.le_mul_of_pos_right _ (by omega)) hfuel
  have hg := padGame_guarantees (specOf ds F).game
  have ha := padGame_assumptions (specOf ds F).game
  obtain ⟨v, dump, ts, hb, hv1, hv2, hr⟩ := checkedCoop (B := B) ds F hn robotics fuel hcard
  rw [← hc] at hb
  rw [runExplicitCoop, h]
  simp only
  rw [hb]
  constructor
  · intro hw
    rw [hv1.mpr hw]
    simp only
    have hfam := hr.family hg ha
    have hne : (coopGame (padGame (specOf ds F).game) ts).guarantees ≠ [] := by
      intro he
      obtain ⟨G, hG⟩ := List.exists_mem_of_ne_nil _ hg
      have := coopGuarantees_mem (ts := ts) hG
      rw [he] at this
      cases this
    have hlen : (coopGame (padGame (specOf ds F).game) ts).guarantees.length =
        max 1 (specOf ds F).game.guarantees.length + max 1 (specOf ds F).game.assumptions.length := by
      rw [coopGame_length hr.length, (padGame_lengths _).1, (padGame_lengths _).2]
    obtain ⟨ks, sts, h1, h2⟩ := extractStrategy_spec _ hne (semVars_ok hn) false recovery hfam.family fuel
      (by rw [hlen]; exact hfuel)
    refine ⟨sts, ?_, printedCoop_of_follows hfam rfl rfl rfl rfl rfl (fun G hG => coopGuarantees_mem hG) hlen
      (fun s => (nuZc_eq_coopWins _ ha hg s).trans (padGame_coopWins _ s)) (follows_of_extracted F hn false recovery hfam.family h2)⟩
    have e := extractStrategy_hom ((tableLayout ds hn).hom B) (gameCtx (coopGame (padGame (specOf ds F).game) ts)) (semVars ds) false
      recovery fuel (pre (nuZc (padGame (specOf ds F).game))) dump
    have e' : extractStrategy (bddMgr B (tableOf ds).types)
        ((gameCtx (coopGame (padGame (specOf ds F).game) ts)).map ((tableLayout ds hn).enc B))
        (tableVars B (tableOf ds)) false recovery fuel
        ((tableLayout ds hn).enc B (pre (nuZc (padGame (specOf ds F).game)))) (Dump.map ((tableLayout ds hn).enc B) dump) =
        some sts := by
      rw [tableVars_eq B hn]
      exact e.trans h1
    rw [e']
  · intro hw
    rw [hv2.mpr hw]
    rfl

/-- Whatever strategy is printed, for any number of rounds, is the one described by `PrintedCoop`. -/
theorem runExplicitCoop_printed {robotics recovery : Bool} {cap : Nat} {order : List Char → Bool} {fuel : Nat} {text : List Char}
    {sts : List PState} (h : runExplicitCoop B robotics recovery cap order fuel text = .strategy sts) {sp : SpecFile}
    (hd : Denotes text sp) : WinsCoop robotics sp ∧ PrintedCoop sp recovery sts := by
  cases hi : initContext (B := B) cap order text with
  | err e => rw [runExplicitCoop, hi] at h; cases h
  | ub => rw [runExplicitCoop, hi] at h; cases h
  | stuck => rw [runExplicitCoop, hi] at h; cases h
  | ok r =>
    obtain ⟨tab, c⟩ := r
    have hmore := runExplicitCoop_more (n' := fuel + (Nat.card (Pos sp.In sp.Out) * (max 1 sp.game.guarantees.length +
      max 1 sp.game.assumptions.length) + 1)) (Nat.le_add_right _ _) (h := by rw [h]; nofun)
    rw [h] at hmore
    obtain ⟨h1, h2⟩ := runExplicitCoop_sem (B := B) hi hd robotics recovery (fuel + (Nat.card (Pos sp.In sp.Out) *
      (max 1 sp.game.guarantees.length + max 1 sp.game.assumptions.length) + 1)) (by omega)
    by_cases hw : WinsCoop robotics sp
    · obtain ⟨sts', h3, h4⟩ := h1 hw
      rw [h3] at hmore
      cases hmore
      exact ⟨hw, h4⟩
    · rw [h2 hw] at hmore
      cases hmore

/-- A strategy is only printed for texts that denote a specification. -/
theorem runExplicitCoop_denotes {robotics recovery : Bool} {cap : Nat} {order : List Char → Bool} {fuel : Nat} {text : List Char}
    {sts : List PState} (h : runExplicitCoop B robotics recovery cap order fuel text = .strategy sts) : ∃ sp, Denotes text sp := by
  cases hi : initContext (B := B) cap order text with
  | err e => rw [runExplicitCoop, hi] at h; cases h
  | ub => rw [runExplicitCoop, hi] at h; cases h
  | stuck => rw [runExplicitCoop, hi] at h; cases h
  | ok r => exact (C24_accepted_denotes (c := r.2) hi).imp fun _ h => h.1

/-- **C33**, termination.  On accepted files the extraction terminates; a strategy is printed if and only if there is a cooperative one. -/
theorem C33_cooperative_terminates {cap : Nat} {order : List Char → Bool} {text : List Char} {tab : VarTable} {c : Ctx B}
    (h : initContext cap order text = .ok (tab, c)) {sp : SpecFile} (hd : Denotes text sp) (robotics recovery : Bool)
    (fuel : Nat) (hfuel : Nat.card (Pos sp.In sp.Out) * (max 1 sp.game.guarantees.length + max 1 sp.game.assumptions.length) + 1 ≤ fuel) :
    (WinsCoop robotics sp → ∃ sts, runExplicitCoop B robotics recovery cap order fuel text = .strategy sts) ∧
    (¬ WinsCoop robotics sp → runExplicitCoop B robotics recovery cap order fuel text = .none (.result false)) := by
  obtain ⟨h1, h2⟩ := runExplicitCoop_sem (B := B) h hd robotics recovery fuel hfuel
  exact ⟨fun hw => (h1 hw).imp fun _ h => h.1, h2⟩

/-- **C33.** The environment can move in every state of the printed cooperative strategy: the strategy never drives it into a position in which
no input is allowed. -/
theorem C33_never_dead_end {robotics recovery : Bool} {cap : Nat} {order : List Char → Bool} {fuel : Nat} {text : List Char}
    {sts : List PState} (h : runExplicitCoop B robotics recovery cap order fuel text = .strategy sts) {sp : SpecFile}
    (hd : Denotes text sp) : ∀ st ∈ sts, ∃ i, sp.game.safetyEnv (st.pos sp) i :=
  (runExplicitCoop_printed h hd).2.alive

/-- **C33**: from every state of the printed strategy there is a run on which the environment obeys its safety assumptions and fulfils all
its liveness assumptions, hence the strategy does not fulfil its task by preventing the environment from fulfilling its own. -/
theorem C33_assumptions_can_be_fulfilled {robotics recovery : Bool} {cap : Nat} {order : List Char → Bool} {fuel : Nat} {text : List Char}
    {sts : List PState} (h : runExplicitCoop B robotics recovery cap order fuel text = .strategy sts) {sp : SpecFile}
    (hd : Denotes text sp) : ∀ st ∈ sts, ∃ r : Nat → PState, r 0 = st ∧ (∀ n, Edge sts (r n) (r (n + 1))) ∧
      (∀ n, sp.game.safetyEnv ((r n).pos sp) ((r (n + 1)).pos sp).1) ∧
      (∀ a ∈ sp.game.assumptions, InfOften a fun n => (r n).pos sp) ∧
      (∀ b ∈ sp.game.guarantees, InfOften b fun n => (r n).pos sp) :=
  (runExplicitCoop_printed h hd).2.coop

/-- **C33**: the printed strategy implements the specification: exactly one successor for every allowed input, all steps obey the
safety guarantees, and every infinite run on which the environment obeys its assumptions satisfies the guarantees.  There are states for all
initial inputs (in the robotics semantics: initial positions) that are allowed. -/
theorem C33_implements {robotics recovery : Bool} {cap : Nat} {order : List Char → Bool} {fuel : Nat} {text : List Char}
    {sts : List PState} (h : runExplicitCoop B robotics recovery cap order fuel text = .strategy sts) {sp : SpecFile}
    (hd : Denotes text sp) :
    WellFormed sp sts ∧
    (∀ st ∈ sts, ∀ i, sp.game.safetyEnv (st.pos sp) i →
      ∃ st', (Edge sts st st' ∧ (st'.pos sp).1 = i) ∧ ∀ st'', Edge sts st st'' ∧ (st''.pos sp).1 = i → st'' = st') ∧
    (∀ st st', Edge sts st st' → sp.game.safetySys (st.pos sp) (st'.pos sp)) ∧
    (∀ r : Nat → PState, (∀ n, Edge sts (r n) (r (n + 1))) →
      (∀ n, sp.game.safetyEnv ((r n).pos sp) ((r (n + 1)).pos sp).1) → sp.game.Live fun n => (r n).pos sp) ∧
    (robotics = false → ∀ i, sp.game.initEnv i → ∃ st ∈ sts, st.rank = 0 ∧ (st.pos sp).1 = i ∧ sp.game.initSys (st.pos sp)) ∧
    (robotics = true → ∀ s, sp.game.initEnv s.1 → sp.game.initSys s → ∃ st ∈ sts, st.rank = 0 ∧ st.pos sp = s) := by
  obtain ⟨hw, hp⟩ := runExplicitCoop_printed h hd
  refine ⟨hp.wf, fun st hm i hi => ?_, hp.safe, hp.live, ?_, ?_⟩
  · obtain ⟨st', h1, h2⟩ := hp.total st hm i hi
    exact ⟨st', ⟨h1, h2⟩, fun st'' ⟨h3, h4⟩ => hp.det st st'' st' h3 h1 (h4.trans h2.symm)⟩
  · rintro rfl i hi
    obtain ⟨o, h1, h2⟩ := hw i hi
    obtain ⟨st, h3, h4, h5⟩ := hp.start (i, o) h2 h1 (.inr hi)
    exact ⟨st, h3, h5, by rw [h4], by rw [h4]; exact h1⟩
  · rintro rfl s hi hs
    obtain ⟨st, h3, h4, h5⟩ := hp.start s (hw s.1 s.2 hi hs) hs (.inr hi)
    exact ⟨st, h3, h5, h4⟩

/-- **C33**: a specification with cooperative strategies is realizable. -/
theorem C33_cooperative_is_winning (sp : SpecFile) : (sp.game.CoopRealizable → sp.game.Realizable) ∧
    (sp.game.RoboticsCoopRealizable → sp.game.RoboticsRealizable) :=
  ⟨fun h i hi => (h i hi).imp fun _ h => ⟨h.1, h.2.imp fun _ h => h.1⟩,
    fun h i o hi hs => (h i o hi hs).imp fun _ h => h.1⟩

/-! ### Concrete files -/

/-- The environment has no input after the system has granted once, and the system has to grant infinitely often. -/
def selfishText : List Char := txt!"[INPUT]\nr\n[OUTPUT]\ng\n[ENV_TRANS]\n! g\n[SYS_LIVENESS]\ng"

/-- This is realizable, but not with a cooperative strategy. -/
theorem selfishText_run : runSlugs ROBDD .standard false 1000 (fun _ => true) 20 selfishText = .result true ∧
    runCoop ROBDD false 1000 (fun _ => true) 20 selfishText = .result false := ⟨rfl, rfl⟩

/-- The hypotheses of `C33_cooperative_verdict_exact` hold, with both verdicts. -/
example : (∃ r, initContext (B := ROBDD) 1000 (fun _ => true) selfishText = .ok r) ∧
    ∃ sp, Denotes selfishText sp ∧ sp.game.Realizable ∧ ¬ sp.game.CoopRealizable := by
  obtain ⟨sp, hd, h⟩ := C24_printed_is_right selfishText_run.1
  obtain ⟨sp', hd', h'⟩ := C33_cooperative_printed_is_right.2 _ selfishText_run.2
  cases Denotes.det hd hd'
  exact ⟨⟨_, rfl⟩, sp, hd, h.mp rfl, fun hc => by cases h'.mpr hc⟩

/-- The environment must not request right after a grant, but has to request infinitely often.  Granting all the time would fulfil the guarantee by
preventing all requests; the strategy that is printed stops granting until there was another request. -/
def sharingText : List Char :=
  txt!"[INPUT]\nr\n[OUTPUT]\ng\n[ENV_TRANS]\n| ! r' ! g\n[ENV_LIVENESS]\nr\n[SYS_LIVENESS]\ng"

theorem sharingText_run : runExplicitCoop ROBDD false false 1000 (fun _ => true) 20 sharingText = .strategy
    [{ num := 0, rank := 0, label := [(['r'], false), (['g'], false)], succ := [1, 3] },
     { num := 1, rank := 0, label := [(['r'], false), (['g'], true)], succ := [4] },
     { num := 2, rank := 0, label := [(['r'], true), (['g'], false)], succ := [0, 3] },
     { num := 3, rank := 0, label := [(['r'], true), (['g'], true)], succ := [0] },
     { num := 4, rank := 1, label := [(['r'], false), (['g'], false)], succ := [4, 5] },
     { num := 5, rank := 1, label := [(['r'], true), (['g'], false)], succ := [0, 2] }] := by rfl

/-- The hypotheses of the theorems on printed strategies hold. -/
example : ∃ sts sp, runExplicitCoop ROBDD false false 1000 (fun _ => true) 20 sharingText = .strategy sts ∧ Denotes sharingText sp := by
  obtain ⟨sp, hd⟩ := runExplicitCoop_denotes sharingText_run
  exact ⟨_, sp, sharingText_run, hd⟩

end Slugs.Props
