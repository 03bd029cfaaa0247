import Verif.Lemmas.CounterText
import Verif.Lemmas.Checked
import Verif.Props.Explicit

/-!
# C07, C16 and C35: counterstrategies

`runCounter B robotics …` is the model of a complete run with `--counterStrategy` (and `--sysInitRoboticsSemantics`).  `Spec/Counter.lean` says what
a printed counterstrategy has to satisfy.
-/

namespace Slugs.Props

open Slugs.Spec Slugs.Model

variable {B : Type} [DecidableEq B] [L : BddLib B]

/-! ### C07 -/

/-- The check on the BDDs of an accepted file. -/
theorem checkedC (ds : Decls) (F : Section → List Fml) (hn : (tableOf ds).names.Nodup) (robotics : Bool) (fuel : Nat)
    (hcard : Nat.card (Pos (specOf ds F).In (specOf ds F).Out) < fuel) :
    ∃ v rounds, checkRealizabilityC (bddMgr B (tableOf ds).types)
          ((gameCtx (padGame (specOf ds F).game)).map ((tableLayout ds hn).enc B)) robotics fuel =
      some (v, (tableLayout ds hn).enc B (pre (nuZ (padGame (specOf ds F).game))ᶜ),
        CDump.map ((tableLayout ds hn).enc B) (List.flatten rounds)) ∧
      (v = .realizable ↔ Wins robotics (specOf ds F)) ∧ (v = .unrealizable ↔ ¬ Wins robotics (specOf ds F)) ∧
      Rounds (padGame (specOf ds F).game) rounds := by
  obtain ⟨rounds, v, dump, h1, h2, h3, h4⟩ := checkRealizabilityC_eq (padGame (specOf ds F).game) robotics fuel hcard
  obtain ⟨v', dump', h5, h6, h7, _⟩ := checked (B := B) .standard ds F hn robotics fuel hcard
  have hv : v' = v := by
    cases robotics
    · have e := checkRealizability_hom ((tableLayout ds hn).hom B) .standard (gameCtx (padGame (specOf ds F).game)) fuel
      rw [if_neg (by simp)] at h2 h5
      have e' := e.symm.trans h5
      have e2 := (congrArg (Option.map (Prod.map id (Prod.map ((tableLayout ds hn).enc B)
        (Dump.map ((tableLayout ds hn).enc B))))) h2).symm.trans e'
      exact (congrArg Prod.fst (Option.some.inj e2)).symm
    · have e := checkRealizabilityRobotics_hom ((tableLayout ds hn).hom B) .standard (gameCtx (padGame (specOf ds F).game)) fuel
      rw [if_pos rfl] at h2 h5
      have e' := e.symm.trans h5
      have e2 := (congrArg (Option.map (Prod.map id (Prod.map ((tableLayout ds hn).enc B)
        (Dump.map ((tableLayout ds hn).enc B))))) h2).symm.trans e'
      exact (congrArg Prod.fst (Option.some.inj e2)).symm
  subst hv
  have e := checkRealizabilityC_hom ((tableLayout ds hn).hom B) (gameCtx (padGame (specOf ds F).game)) robotics fuel
  exact ⟨v', rounds, e.trans (congrArg (Option.map (Prod.map id (Prod.map ((tableLayout ds hn).enc B)
        (CDump.map ((tableLayout ds hn).enc B))))) h1), h6, h7, h3, h4⟩

/-- **C07.** On every accepted file the counterstrategy algorithm and the standard algorithm terminate with the same verdict, and the BF that the first
one computes as winning for the environment is the negation of the BF that the second one computes as winning for the system. -/
theorem C07_complement {cap : Nat} {order : List Char → Bool} {text : List Char} {tab : VarTable} {c : Ctx B}
    (h : initContext cap order text = .ok (tab, c)) {sp : SpecFile} (hd : Denotes text sp) (robotics : Bool)
    (fuel : Nat) (hfuel : Nat.card (Pos sp.In sp.Out) + 1 ≤ fuel) :
    ∃ v We Ws de dump, checkRealizabilityC (bddMgr B tab.types) c robotics fuel = some (v, We, de) ∧
      (if robotics = true then checkRealizabilityRobotics .standard (bddMgr B tab.types) c fuel
        else checkRealizability .standard (bddMgr B tab.types) c fuel) = some (v, Ws, dump) ∧
      ∀ a, L.eval We a = !L.eval Ws a := by
  obtain ⟨ds, F, hn, rfl, hd', _, _, _, hc⟩ := initContext_spec h
  have := Denotes.det hd hd'
  subst this
  obtain ⟨v, rounds, h1, h2, h3, _⟩ := checkedC (B := B) ds F hn robotics fuel hfuel
  obtain ⟨v', dump, h5, h6, h7, _⟩ := checked (B := B) .standard ds F hn robotics fuel hfuel
  have hv : v = v' := by
    by_cases hw : Wins robotics (specOf ds F)
    · rw [h2.mpr hw, h6.mpr hw]
    · rw [h3.mpr hw, h7.mpr hw]
  rw [← hc] at h1 h5
  subst hv
  refine ⟨v, _, _, _, _, h1, h5, fun a => ?_⟩
  have e := ((tableLayout ds hn).hom B).not (pre (nuZ (padGame (specOf ds F).game)))
  exact (congrArg (fun f => L.eval f a) e).symm.trans (L.eval_not _ a)

/-- **C07**, for the printed verdict: on an accepted file a counterstrategy is printed if and only if the specification is unrealizable, and otherwise the
run says that the specification is realizable.  (For files with output variables; the number of rounds suffices for all loops.) -/
theorem runCounter_sem {cap : Nat} {order : List Char → Bool} {text : List Char} {tab : VarTable} {c : Ctx B}
    (h : initContext cap order text = .ok (tab, c)) {sp : SpecFile} (hd : Denotes text sp) (ho : sp.outputs ≠ []) (robotics : Bool)
    (fuel : Nat) (hfuel : Nat.card (Pos sp.In sp.Out) * (max 1 sp.envLiveness.length * max 1 sp.sysLiveness.length) < fuel) :
    (Wins robotics sp → runCounter B robotics cap order fuel text = .none (.result true)) ∧
    (¬ Wins robotics sp → ∃ sts, runCounter B robotics cap order fuel text = .counterstrategy sts ∧ CPrinted sp sts) := by
  obtain ⟨ds, F, hn, rfl, hd', _, _, _, hc⟩ := initContext_spec h
  have := Denotes.det hd hd'
  subst this
  have hlen : (padGame (specOf ds F).game).guarantees.length = max 1 (specOf ds F).sysLiveness.length := by
    have : (specOf ds F).sysLiveness.length = (specOf ds F).game.guarantees.length := by simp [SpecFile.game]
    rw [this]
    simp only [padGame]
    cases (specOf ds F).game.guarantees <;> simp [padLive]
  have hlen' : (padGame (specOf ds F).game).assumptions.length = max 1 (specOf ds F).envLiveness.length := by
    have : (specOf ds F).envLiveness.length = (specOf ds F).game.assumptions.length := by simp [SpecFile.game]
    rw [this]
    simp only [padGame]
    cases (specOf ds F).game.assumptions <;> simp [padLive]
  have hcard : Nat.card (Pos (specOf ds F).In (specOf ds F).Out) < fuel :=
    lt_of_le_of_lt (Nat.le_mul_of_pos_right _ (Nat.mul_pos (by omega) (by omega))) hfuel
  have ha := padGame_assumptions (specOf ds F).game
  have hg := padGame_guarantees (specOf ds F).game
  have hZ : ∀ s, s ∈ nuZ (padGame (specOf ds F).game) ↔ (specOf ds F).game.SysWins s := fun s =>
    (nuZ_eq_sysWins _ ha hg s).trans (padGame_sysWins _ s)
  obtain ⟨v, rounds, hb, hv1, hv2, hr⟩ := checkedC (B := B) ds F hn robotics fuel hcard
  rw [← hc] at hb
  rw [runCounter, h]
  simp only
  rw [hb]
  constructor
  · intro hw
    rw [hv1.mpr hw]
    rfl
  · intro hw
    rw [hv2.mpr hw]
    simp only
    obtain ⟨x, hx⟩ := List.exists_mem_of_ne_nil _ ho
    have : Nontrivial (specOf ds F).Out := ⟨⟨fun _ => true, fun _ => false, fun e => by
      have := congrFun e ⟨x, hx⟩; simp at this⟩⟩
    obtain ⟨ks, dn, l, h1, h2⟩ := extractCounterstrategy_spec (padGame (specOf ds F).game) ha hg (semCVars_ok hn) hr fuel
      (by rw [hlen, hlen']; exact hfuel)
    refine ⟨l.map Prod.snd, ?_, cprinted_of_extracted F hn hr hZ h2⟩
    have e := extractCounterstrategy_hom ((tableLayout ds hn).hom B) (gameCtx (padGame (specOf ds F).game)) (semCVars ds) fuel
      (pre (nuZ (padGame (specOf ds F).game))ᶜ) rounds.flatten
    have e' : extractCounterstrategy (bddMgr B (tableOf ds).types) c (tableCVars B (tableOf ds)) fuel
        ((tableLayout ds hn).enc B (pre (nuZ (padGame (specOf ds F).game))ᶜ)) (CDump.map ((tableLayout ds hn).enc B) rounds.flatten) =
        some (l.map Prod.snd) := by
      rw [hc, tableCVars_eq B hn]
      exact e.trans h1
    rw [e']

/-- Whatever counterstrategy is printed, for any number of rounds, is the one described by `CPrinted`. -/
theorem runCounter_printed {robotics : Bool} {cap : Nat} {order : List Char → Bool} {fuel : Nat} {text : List Char}
    {sts : List CState} (h : runCounter B robotics cap order fuel text = .counterstrategy sts) {sp : SpecFile}
    (hd : Denotes text sp) (ho : sp.outputs ≠ []) : ¬ Wins robotics sp ∧ CPrinted sp sts := by
  cases hi : initContext (B := B) cap order text with
  | err e => rw [runCounter, hi] at h; cases h
  | ub => rw [runCounter, hi] at h; cases h
  | stuck => rw [runCounter, hi] at h; cases h
  | ok r =>
    obtain ⟨tab, c⟩ := r
    have hbig := Nat.lt_succ_of_le (Nat.le_add_left
      (Nat.card (Pos sp.In sp.Out) * (max 1 sp.envLiveness.length * max 1 sp.sysLiveness.length)) fuel)
    have hmore := runCounter_more
      (n' := (fuel + Nat.card (Pos sp.In sp.Out) * (max 1 sp.envLiveness.length * max 1 sp.sysLiveness.length)).succ) (by omega) h
    obtain ⟨h1, h2⟩ := runCounter_sem hi hd ho robotics _ hbig
    by_cases hw : Wins robotics sp
    · rw [h1 hw] at hmore
      cases hmore
    · obtain ⟨sts', h3, h4⟩ := h2 hw
      rw [h3] at hmore
      cases hmore
      exact ⟨hw, h4⟩

/-- A counterstrategy is only printed for texts that denote a specification. -/
theorem runCounter_denotes {robotics : Bool} {cap : Nat} {order : List Char → Bool} {fuel : Nat} {text : List Char}
    {sts : List CState} (h : runCounter B robotics cap order fuel text = .counterstrategy sts) : ∃ sp, Denotes text sp := by
  cases hi : initContext (B := B) cap order text with
  | err e => rw [runCounter, hi] at h; cases h
  | ub => rw [runCounter, hi] at h; cases h
  | stuck => rw [runCounter, hi] at h; cases h
  | ok r => exact (C24_accepted_denotes (c := r.2) hi).imp fun _ h => h.1

/-- **C07**, for a complete run: on an accepted file the run ends with the message that the specification is realizable if it is, in the semantics
chosen, and never if it is not. -/
theorem C07_verdict {cap : Nat} {order : List Char → Bool} {text : List Char} {tab : VarTable} {c : Ctx B}
    (h : initContext cap order text = .ok (tab, c)) {sp : SpecFile} (hd : Denotes text sp) (robotics : Bool)
    (fuel : Nat) (hfuel : Nat.card (Pos sp.In sp.Out) + 1 ≤ fuel) :
    (runCounter B robotics cap order fuel text = .none (.result true) ↔ Wins robotics sp) ∧
    (Wins robotics sp → runCounter B robotics cap order fuel text = .none (runSlugs B .standard robotics cap order fuel text)) := by
  have key : (Wins robotics sp → runCounter B robotics cap order fuel text = .none (.result true)) ∧
      (¬ Wins robotics sp → runCounter B robotics cap order fuel text ≠ .none (.result true)) := by
    obtain ⟨ds, F, hn, rfl, hd', _, _, _, hc⟩ := initContext_spec h
    have := Denotes.det hd hd'
    subst this
    obtain ⟨v, rounds, h1, h2, h3, _⟩ := checkedC (B := B) ds F hn robotics fuel hfuel
    rw [← hc] at h1
    rw [runCounter, h]
    simp only
    rw [h1]
    constructor
    · intro hw; rw [h2.mpr hw]; rfl
    · intro hw; rw [h3.mpr hw]
      simp only
      split <;> simp
  refine ⟨⟨fun hr => by_contra fun hw => key.2 hw hr, key.1⟩, fun hw => ?_⟩
  rw [key.1 hw]
  obtain ⟨a1, _, a3, _⟩ := C24_text_to_verdict .standard h sp hd fuel hfuel
  cases robotics
  · rw [a1 hw]
  · rw [a3 hw]

/-! ### C16 -/

/-- **C16**, for specifications with at least one output variable.  (Without output variables the claim is false, see
`C16_violated_without_outputs`.)  In every state of the printed counterstrategy that has a list of successors there is a next input allowed by the
safety assumptions such that either the system has no allowed move, and the only successor is a state marked as having no successors that is labelled with
this input, or the successors are exactly the allowed moves of the system under this input (and none of them is marked).  The numbers
tell the states apart, and all listed numbers are those of printed states. -/
theorem C16_never_stuck_partial {robotics : Bool} {cap : Nat} {order : List Char → Bool} {fuel : Nat} {text : List Char}
    {sts : List CState} (h : runCounter B robotics cap order fuel text = .counterstrategy sts) {sp : SpecFile}
    (hd : Denotes text sp) (ho : sp.outputs ≠ []) : NeverStuck sp sts ∧ CWellFormed sp sts :=
  ⟨(runCounter_printed h hd ho).2.stuck, (runCounter_printed h hd ho).2.wf⟩

/-- **C16**, termination: for every unrealizable specification that is accepted and has an output variable, the extraction ends with a
counterstrategy. -/
theorem C16_terminates_partial {cap : Nat} {order : List Char → Bool} {text : List Char} {tab : VarTable} {c : Ctx B}
    (h : initContext cap order text = .ok (tab, c)) {sp : SpecFile} (hd : Denotes text sp) (ho : sp.outputs ≠ []) (robotics : Bool)
    (fuel : Nat) (hfuel : Nat.card (Pos sp.In sp.Out) * (max 1 sp.envLiveness.length * max 1 sp.sysLiveness.length) + 1 ≤ fuel)
    (hw : ¬ Wins robotics sp) : ∃ sts, runCounter B robotics cap order fuel text = .counterstrategy sts :=
  ((runCounter_sem h hd ho robotics fuel hfuel).2 hw).imp fun _ h => h.1

/-! ### C35 -/

/-- **C35**, initial states.  In the standard semantics there is an allowed initial input such that all initial positions with this input that the system
may choose are states of the counterstrategy; in the robotics semantics there is an allowed initial position that is a state of the counterstrategy.
The environment wins from all states with successors. -/
theorem C35_initial_states {robotics : Bool} {cap : Nat} {order : List Char → Bool} {fuel : Nat} {text : List Char}
    {sts : List CState} (h : runCounter B robotics cap order fuel text = .counterstrategy sts) {sp : SpecFile}
    (hd : Denotes text sp) (ho : sp.outputs ≠ []) :
    (robotics = false → ∃ i, sp.game.initEnv i ∧ ∀ o, sp.game.initSys (i, o) → ∃ st ∈ sts, st.succ ≠ none ∧ st.pos sp = (i, o)) ∧
    (robotics = true → ∃ s, sp.game.initEnv s.1 ∧ sp.game.initSys s ∧ ∃ st ∈ sts, st.succ ≠ none ∧ st.pos sp = s) ∧
    ∀ st ∈ sts, st.succ ≠ none → ¬ sp.game.SysWins (st.pos sp) := by
  obtain ⟨hw, hp⟩ := runCounter_printed h hd ho
  refine ⟨?_, ?_, hp.win⟩
  · rintro rfl
    simp only [Wins, Game.Realizable, Bool.false_eq_true, if_false] at hw
    push Not at hw
    obtain ⟨i, h1, h2⟩ := hw
    exact ⟨i, h1, fun o h3 => hp.start (i, o) (h2 o h3) h1 h3⟩
  · rintro rfl
    simp only [Wins, Game.RoboticsRealizable, if_true] at hw
    push Not at hw
    obtain ⟨i, o, h1, h2, h3⟩ := hw
    exact ⟨(i, o), h1, h2, hp.start (i, o) h3 h1 h2⟩

/-- **C35**, for specifications with at most one liveness guarantee.  (With two the claim is false, see `C35_violated_two_guarantees`.)
Every infinite run of the printed counterstrategy satisfies all liveness assumptions and violates the liveness guarantee. -/
theorem C35_losing_runs_partial {robotics : Bool} {cap : Nat} {order : List Char → Bool} {fuel : Nat} {text : List Char}
    {sts : List CState} (h : runCounter B robotics cap order fuel text = .counterstrategy sts) {sp : SpecFile}
    (hd : Denotes text sp) (ho : sp.outputs ≠ []) (hone : sp.sysLiveness.length ≤ 1) : LosingRuns sp sts := by
  refine (runCounter_printed h hd ho).2.live ?_
  simpa [SpecFile.game] using hone

/-! ### Concrete files -/

/-- A formula that is written as `Fml.text` writes it is read. -/
theorem reads_text (φ : Fml) (h1 : φ.Wf 0) (h2 : ∀ x ∈ φ.vars, (x ≠ [] ∧ ∀ c ∈ x, isSpace c = false) ∧ x ∉ reserved)
    (h3 : φ.text.length < 2 ^ 32) : ReadsLine φ.text φ :=
  ⟨[], (Spells.joinWords _ (Fml.words_good φ fun x hx => (h2 x hx).1)).reads φ 0 h3 (by decide) h1
      (fun x hx => (h2 x hx).2), by simp⟩

/-- Two guarantees; the environment wins by never violating `x` again. -/
def twoGoalsText : List Char := txt!"[INPUT]\nx\n[OUTPUT]\np\nq\n[ENV_INIT]\n! x\n[SYS_INIT]\n! p\n! q\n[SYS_TRANS]\n| q & ! ^ p' p ^ q' x'\n| ! q & ^ p' p ! q'\n[SYS_LIVENESS]\n& ! p ! q'\n& p ! q'\n"

def twoGoals : SpecFile where
  inputs := [txt!"x"]
  outputs := [txt!"p", txt!"q"]
  envInit := [.not (.var txt!"x")]
  sysInit := [.not (.var txt!"p"), .not (.var txt!"q")]
  envTrans := []
  sysTrans := [.bin .or (.var txt!"q") (.bin .and (.not (.bin .xor (.var txt!"p'") (.var txt!"p"))) (.bin .xor (.var txt!"q'") (.var txt!"x'"))),
    .bin .or (.not (.var txt!"q")) (.bin .and (.bin .xor (.var txt!"p'") (.var txt!"p")) (.not (.var txt!"q'")))]
  envLiveness := []
  sysLiveness := [.bin .and (.not (.var txt!"p")) (.not (.var txt!"q'")), .bin .and (.var txt!"p") (.not (.var txt!"q'"))]

def twoGoalsItems : List (Section × List Char) :=
  [(.input, txt!"x"), (.output, txt!"p"), (.output, txt!"q"), (.envInit, txt!"! x"), (.sysInit, txt!"! p"), (.sysInit, txt!"! q"),
    (.sysTrans, txt!"| q & ! ^ p' p ^ q' x'"), (.sysTrans, txt!"| ! q & ^ p' p ! q'"),
    (.sysLiveness, txt!"& ! p ! q'"), (.sysLiveness, txt!"& p ! q'")]

theorem twoGoals_denotes : Denotes twoGoalsText twoGoals := by
  refine ⟨twoGoalsItems, ?_, by decide, by decide, ?_, ?_, ?_, ?_, ?_, ?_⟩
  · have : splitLines twoGoalsText = [txt!"[INPUT]", txt!"x", txt!"[OUTPUT]", txt!"p", txt!"q", txt!"[ENV_INIT]", txt!"! x", txt!"[SYS_INIT]",
      txt!"! p", txt!"! q", txt!"[SYS_TRANS]", txt!"| q & ! ^ p' p ^ q' x'", txt!"| ! q & ^ p' p ! q'", txt!"[SYS_LIVENESS]",
      txt!"& ! p ! q'", txt!"& p ! q'"] := by decide
    rw [this]
    refine .header .input (by decide) (.item (by decide) (by decide) (by decide) ?_)
    refine .header .output (by decide) (.item (by decide) (by decide) (by decide) (.item (by decide) (by decide) (by decide) ?_))
    refine .header .envInit (by decide) (.item (by decide) (by decide) (by decide) ?_)
    refine .header .sysInit (by decide) (.item (by decide) (by decide) (by decide) (.item (by decide) (by decide) (by decide) ?_))
    refine .header .sysTrans (by decide) (.item (by decide) (by decide) (by decide) (.item (by decide) (by decide) (by decide) ?_))
    exact .header .sysLiveness (by decide) (.item (by decide) (by decide) (by decide) (.item (by decide) (by decide) (by decide) .nil))
  all_goals
    simp only [twoGoalsItems, twoGoals, itemsOf]
  · exact .cons (reads_text (.not (.var txt!"x")) (by simp [Fml.Wf]) (by decide) (by decide)) .nil
  · exact .cons (reads_text (.not (.var txt!"p")) (by simp [Fml.Wf]) (by decide) (by decide))
      (.cons (reads_text (.not (.var txt!"q")) (by simp [Fml.Wf]) (by decide) (by decide)) .nil)
  · exact .nil
  · exact .cons (reads_text (.bin .or (.var txt!"q") (.bin .and (.not (.bin .xor (.var txt!"p'") (.var txt!"p")))
        (.bin .xor (.var txt!"q'") (.var txt!"x'")))) (by simp [Fml.Wf]) (by decide) (by decide))
      (.cons (reads_text (.bin .or (.not (.var txt!"q")) (.bin .and (.bin .xor (.var txt!"p'") (.var txt!"p")) (.not (.var txt!"q'"))))
        (by simp [Fml.Wf]) (by decide) (by decide)) .nil)
  · exact .nil
  · exact .cons (reads_text (.bin .and (.not (.var txt!"p")) (.not (.var txt!"q'"))) (by simp [Fml.Wf]) (by decide) (by decide))
      (.cons (reads_text (.bin .and (.var txt!"p") (.not (.var txt!"q'"))) (by simp [Fml.Wf]) (by decide) (by decide)) .nil)

def twoGoalsState (n : Nat) : CState :=
  match n with
  | 0 => { num := 0, rank := (0, 0), label := [(['x'], false), (['p'], false), (['q'], false)], succ := some [1] }
  | 1 => { num := 1, rank := (0, 0), label := [(['x'], false), (['p'], false), (['q'], true)], succ := some [2] }
  | 2 => { num := 2, rank := (0, 1), label := [(['x'], false), (['p'], true), (['q'], false)], succ := some [3] }
  | _ => { num := 3, rank := (0, 1), label := [(['x'], false), (['p'], true), (['q'], true)], succ := some [0] }

theorem twoGoals_run : runCounter ROBDD false 1000 (fun _ => true) 30 twoGoalsText = .counterstrategy
    [twoGoalsState 0, twoGoalsState 1, twoGoalsState 2, twoGoalsState 3] := by rfl

/-- **C35 is violated** by specifications with two liveness guarantees: for this file a counterstrategy is printed, although its only infinite
run satisfies both guarantees infinitely often. -/
theorem C35_violated_two_guarantees : ∃ text sts sp, runCounter ROBDD false 1000 (fun _ => true) 30 text = .counterstrategy sts ∧
    Denotes text sp ∧ sp.outputs ≠ [] ∧ ¬ LosingRuns sp sts := by
  refine ⟨_, _, _, twoGoals_run, twoGoals_denotes, by decide, fun h => ?_⟩
  refine h (fun n => twoGoalsState (n % 4)) (fun n => ?_) ?_
  · have h : n % 4 = 0 ∨ n % 4 = 1 ∨ n % 4 = 2 ∨ n % 4 = 3 := by omega
    rcases h with h | h | h | h
    · rw [h, show (n + 1) % 4 = 1 by omega]; exact ⟨by simp, by simp, _, rfl, by simp [twoGoalsState]⟩
    · rw [h, show (n + 1) % 4 = 2 by omega]; exact ⟨by simp, by simp, _, rfl, by simp [twoGoalsState]⟩
    · rw [h, show (n + 1) % 4 = 3 by omega]; exact ⟨by simp, by simp, _, rfl, by simp [twoGoalsState]⟩
    · rw [h, show (n + 1) % 4 = 0 by omega]; exact ⟨by simp, by simp, _, rfl, by simp [twoGoalsState]⟩
  · intro _ G hG
    have hG' : G = (fun p q => twoGoals.holds p q (.bin .and (.not (.var txt!"p")) (.not (.var txt!"q'")))) ∨
        G = (fun p q => twoGoals.holds p q (.bin .and (.var txt!"p") (.not (.var txt!"q'")))) := by
      obtain ⟨φ, hφ, rfl⟩ := List.mem_map.mp hG
      rcases List.mem_cons.mp hφ with rfl | hφ
      · exact .inl rfl
      · rcases List.mem_cons.mp hφ with rfl | hφ
        · exact .inr rfl
        · cases hφ
    rcases hG' with rfl | rfl <;> intro n
    · refine ⟨4 * n + 1, by omega, ?_⟩
      dsimp only
      rw [show (4 * n + 1) % 4 = 1 by omega, show (4 * n + 1 + 1) % 4 = 2 by omega]
      unfold SpecFile.holds; decide
    · refine ⟨4 * n + 3, by omega, ?_⟩
      dsimp only
      rw [show (4 * n + 3) % 4 = 3 by omega, show (4 * n + 3 + 1) % 4 = 0 by omega]
      unfold SpecFile.holds; decide

/-- No outputs. -/
def noOutputsText : List Char := txt!"[INPUT]\nx\ny\n[ENV_INIT]\n! x\n[ENV_TRANS]\n| ! x & ! x' ! y'\n| x | ! y & x' ! y'\n[SYS_TRANS]\n| x | y ! x'\n"

def noOutputs : SpecFile where
  inputs := [txt!"x", txt!"y"]
  outputs := []
  envInit := [.not (.var txt!"x")]
  sysInit := []
  envTrans := [.bin .or (.not (.var txt!"x")) (.bin .and (.not (.var txt!"x'")) (.not (.var txt!"y'"))),
    .bin .or (.var txt!"x") (.bin .or (.not (.var txt!"y")) (.bin .and (.var txt!"x'") (.not (.var txt!"y'"))))]
  sysTrans := [.bin .or (.var txt!"x") (.bin .or (.var txt!"y") (.not (.var txt!"x'")))]
  envLiveness := []
  sysLiveness := []

def noOutputsItems : List (Section × List Char) :=
  [(.input, txt!"x"), (.input, txt!"y"), (.envInit, txt!"! x"), (.envTrans, txt!"| ! x & ! x' ! y'"), (.envTrans, txt!"| x | ! y & x' ! y'"),
    (.sysTrans, txt!"| x | y ! x'")]

theorem noOutputs_denotes : Denotes noOutputsText noOutputs := by
  refine ⟨noOutputsItems, ?_, by decide, by decide, ?_, ?_, ?_, ?_, ?_, ?_⟩
  · have : splitLines noOutputsText = [txt!"[INPUT]", txt!"x", txt!"y", txt!"[ENV_INIT]", txt!"! x", txt!"[ENV_TRANS]",
      txt!"| ! x & ! x' ! y'", txt!"| x | ! y & x' ! y'", txt!"[SYS_TRANS]", txt!"| x | y ! x'"] := by decide
    rw [this]
    refine .header .input (by decide) (.item (by decide) (by decide) (by decide) (.item (by decide) (by decide) (by decide) ?_))
    refine .header .envInit (by decide) (.item (by decide) (by decide) (by decide) ?_)
    refine .header .envTrans (by decide) (.item (by decide) (by decide) (by decide) (.item (by decide) (by decide) (by decide) ?_))
    exact .header .sysTrans (by decide) (.item (by decide) (by decide) (by decide) .nil)
  all_goals
    simp only [noOutputsItems, noOutputs, itemsOf]
  · exact .cons (reads_text (.not (.var txt!"x")) (by simp [Fml.Wf]) (by decide) (by decide)) .nil
  · exact .nil
  · exact .cons (reads_text (.bin .or (.not (.var txt!"x")) (.bin .and (.not (.var txt!"x'")) (.not (.var txt!"y'"))))
        (by simp [Fml.Wf]) (by decide) (by decide))
      (.cons (reads_text (.bin .or (.var txt!"x") (.bin .or (.not (.var txt!"y")) (.bin .and (.var txt!"x'") (.not (.var txt!"y'")))))
        (by simp [Fml.Wf]) (by decide) (by decide)) .nil)
  · exact .cons (reads_text (.bin .or (.var txt!"x") (.bin .or (.var txt!"y") (.not (.var txt!"x'"))))
        (by simp [Fml.Wf]) (by decide) (by decide)) .nil
  · exact .nil
  · exact .nil

def noOutputsStates : List CState :=
  [{ num := 0, rank := (0, 0), label := [(['x'], false), (['y'], false)], succ := some [2] },
   { num := 2, rank := (0, 0), label := [(['x'], true), (['y'], false)], succ := none },
   { num := 1, rank := (0, 0), label := [(['x'], false), (['y'], true)], succ := some [2] }]

theorem noOutputs_run : runCounter ROBDD false 1000 (fun _ => true) 30 noOutputsText = .counterstrategy noOutputsStates := by rfl

/-- **C16 is violated** by specifications without output variables: for this file, the third state lists a legal move of the system that leads to a state that
is marked as having no successors (it is the number of the state that stands for a deadlock with the same input elsewhere). -/
theorem C16_violated_without_outputs : ∃ text sts sp, runCounter ROBDD false 1000 (fun _ => true) 30 text = .counterstrategy sts ∧
    Denotes text sp ∧ ¬ NeverStuck sp sts ∧
    ∃ st st', CEdge sts st st' ∧ st'.succ = none ∧ sp.game.safetyEnv (st.pos sp) (st'.pos sp).1 ∧ sp.game.safetySys (st.pos sp) (st'.pos sp) := by
  have hedge : CEdge noOutputsStates { num := 1, rank := (0, 0), label := [(['x'], false), (['y'], true)], succ := some [2] }
      { num := 2, rank := (0, 0), label := [(['x'], true), (['y'], false)], succ := none } :=
    ⟨by decide, by decide, [2], rfl, by decide⟩
  have hsys : noOutputs.game.safetySys (CState.pos noOutputs { num := 1, rank := (0, 0), label := [(['x'], false), (['y'], true)], succ := some [2] })
      (CState.pos noOutputs { num := 2, rank := (0, 0), label := [(['x'], true), (['y'], false)], succ := none }) := by
    simp only [SpecFile.game]; unfold SpecFile.holds; decide
  refine ⟨_, _, _, noOutputs_run, noOutputs_denotes, fun h => ?_, _, _, hedge, rfl, ?_, hsys⟩
  · obtain ⟨i, _, ⟨h1, _, h2⟩ | ⟨_, h2, _⟩⟩ := h _ hedge.1 (by simp)
    · obtain ⟨_, h3⟩ := h2 _ hedge
      subst h3
      exact h1 _ hsys
    · exact (h2 _ hedge).1 rfl
  · simp only [SpecFile.game]; unfold SpecFile.holds; decide

/-- The hypotheses of `C16_never_stuck_partial` and of `C35_initial_states` hold. -/
example : ∃ text sts sp, runCounter ROBDD false 1000 (fun _ => true) 30 text = .counterstrategy sts ∧ Denotes text sp ∧ sp.outputs ≠ [] ∧
    sts.length = 4 :=
  ⟨_, _, _, twoGoals_run, twoGoals_denotes, by decide, rfl⟩

/-- One guarantee that cannot be satisfied: the grant has to follow the request, which never comes. -/
def oneGoalText : List Char := txt!"[INPUT]\nr\n[OUTPUT]\ng\n[ENV_INIT]\n! r\n[SYS_INIT]\n! g\n[SYS_TRANS]\n| ! g' r'\n[SYS_LIVENESS]\ng"

theorem oneGoal_run : runCounter ROBDD false 1000 (fun _ => true) 30 oneGoalText = .counterstrategy
    [{ num := 0, rank := (0, 0), label := [(['r'], false), (['g'], false)], succ := some [0] }] := by rfl

def oneGoal : SpecFile where
  inputs := [txt!"r"]
  outputs := [txt!"g"]
  envInit := [.not (.var txt!"r")]
  sysInit := [.not (.var txt!"g")]
  envTrans := []
  sysTrans := [.bin .or (.not (.var txt!"g'")) (.var txt!"r'")]
  envLiveness := []
  sysLiveness := [.var txt!"g"]

theorem oneGoal_denotes : Denotes oneGoalText oneGoal := by
  refine ⟨[(.input, txt!"r"), (.output, txt!"g"), (.envInit, txt!"! r"), (.sysInit, txt!"! g"), (.sysTrans, txt!"| ! g' r'"), (.sysLiveness, txt!"g")],
    ?_, by decide, by decide, ?_, ?_, ?_, ?_, ?_, ?_⟩
  · have : splitLines oneGoalText = [txt!"[INPUT]", txt!"r", txt!"[OUTPUT]", txt!"g", txt!"[ENV_INIT]", txt!"! r",
      txt!"[SYS_INIT]", txt!"! g", txt!"[SYS_TRANS]", txt!"| ! g' r'", txt!"[SYS_LIVENESS]", txt!"g"] := by decide
    rw [this]
    refine .header .input (by decide) (.item (by decide) (by decide) (by decide) ?_)
    refine .header .output (by decide) (.item (by decide) (by decide) (by decide) ?_)
    refine .header .envInit (by decide) (.item (by decide) (by decide) (by decide) ?_)
    refine .header .sysInit (by decide) (.item (by decide) (by decide) (by decide) ?_)
    refine .header .sysTrans (by decide) (.item (by decide) (by decide) (by decide) ?_)
    exact .header .sysLiveness (by decide) (.item (by decide) (by decide) (by decide) .nil)
  all_goals
    simp only [oneGoal, itemsOf]
  · exact .cons (reads_text (.not (.var txt!"r")) (by simp [Fml.Wf]) (by decide) (by decide)) .nil
  · exact .cons (reads_text (.not (.var txt!"g")) (by simp [Fml.Wf]) (by decide) (by decide)) .nil
  · exact .nil
  · exact .cons (reads_text (.bin .or (.not (.var txt!"g'")) (.var txt!"r'")) (by simp [Fml.Wf]) (by decide) (by decide)) .nil
  · exact .nil
  · exact .cons (reads_text (.var txt!"g") (by simp [Fml.Wf]) (by decide) (by decide)) .nil

/-- The hypotheses of `C35_losing_runs_partial` hold, and there is an infinite run. -/
example : ∃ text sts sp, runCounter ROBDD false 1000 (fun _ => true) 30 text = .counterstrategy sts ∧ Denotes text sp ∧ sp.outputs ≠ [] ∧
    sp.sysLiveness.length ≤ 1 ∧ ∃ r : Nat → CState, ∀ n, CEdge sts (r n) (r (n + 1)) := by
  refine ⟨_, _, _, oneGoal_run, oneGoal_denotes, by decide, by decide, fun _ => _, fun n => ⟨List.mem_cons_self, List.mem_cons_self, _, rfl, ?_⟩⟩
  simp

/-- A deadlock state, and a realizable file (the two cases of `C07_verdict`). -/
example : runCounter ROBDD false 1000 (fun _ => true) 30 txt!"[INPUT]\nr\n[OUTPUT]\ng\n[SYS_TRANS]\nr'" = .counterstrategy
    [{ num := 0, rank := (0, 0), label := [(['r'], false), (['g'], false)], succ := some [4] },
     { num := 4, rank := (0, 0), label := [(['r'], false)], succ := none },
     { num := 1, rank := (0, 0), label := [(['r'], false), (['g'], true)], succ := some [4] },
     { num := 2, rank := (0, 0), label := [(['r'], true), (['g'], false)], succ := some [4] },
     { num := 3, rank := (0, 0), label := [(['r'], true), (['g'], true)], succ := some [4] }] := by rfl

example : runCounter ROBDD false 1000 (fun _ => true) 30 strategyText = .none (.result true) := by rfl

end Slugs.Props
