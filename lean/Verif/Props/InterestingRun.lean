import Verif.Lemmas.InterestingRunText
import Verif.Props.Trace

/-!
# C60: the run that is printed

`runInteresting` is the model of a complete run with `--computeInterestingRunOfTheSystem`.  `Spec/InterestingRun.lean` says what the table should say (`IdealRun`)
and what is true of it (`ShownRun`).
-/

namespace Slugs.Props

open Slugs.Spec Slugs.Model

variable {B : Type} [DecidableEq B] [L : BddLib B]

/-! ### From the sets to the rows -/

theorem runValues_shown {ds : Decls} (F : Section → List Fml) (hn : (tableOf ds).names.Nodup) (s : Pos (specOf ds F).In (specOf ds F).Out) :
    runValues (semMgr _ _) (pre {s}) (semRunVars ds).inputs = (specOf ds F).inputs.map (fun x => (x, (specOf ds F).now s.1 s.2 x)) ∧
    runValues (semMgr _ _) (pre {s}) (semRunVars ds).outputs = (specOf ds F).outputs.map (fun x => (x, (specOf ds F).now s.1 s.2 x)) := by
  have key : ∀ z : DSlot ds, (slotEntry z).1 ∈ (specOf ds F).inputs ++ (specOf ds F).outputs →
      (∀ (p t t' : Pos (specOf ds F).In (specOf ds F).Out), slots p t z = slots p t' z) →
      (if (semMgr _ _).and (pre {s}) (codeVar ds (slotCode z)) = (semMgr _ _).ff then false else true) =
        (specOf ds F).now s.1 s.2 ((tableOf ds).names.getD (slotCode z) []) := by
    intro z hz hi
    rw [getD_slot hn, now_slot F hn s z hz]
    split
    · rename_i h
      symm
      rw [← Bool.not_eq_true]
      intro hs
      exact (iff_of_eq (congrFun (congrFun h s) s)).mp ⟨rfl, (codeVar_slot hn z s s).mpr hs⟩
    · rename_i h
      symm
      by_contra hs
      refine h ?_
      funext s' t'
      refine eq_false ?_
      rintro ⟨h1, h2⟩
      have h1' : s' = s := h1
      subst h1'
      exact hs ((hi s' s' t').trans ((codeVar_slot hn z s' t').mp h2))
  obtain ⟨e1, e2⟩ := varsOfType_names ds
  constructor
  · rw [show (specOf ds F).inputs = _ from e1.symm]
    refine List.map_map.trans ((List.map_congr_left fun k hk => ?_).trans List.map_map.symm)
    obtain ⟨x, rfl⟩ := (mem_preInput hn).mp hk
    exact Prod.ext rfl (key (.ci x) (List.mem_append_left _ x.2) fun _ _ _ => rfl)
  · rw [show (specOf ds F).outputs = _ from e2.symm]
    refine List.map_map.trans ((List.map_congr_left fun k hk => ?_).trans List.map_map.symm)
    obtain ⟨x, rfl⟩ := (mem_preOutput hn).mp hk
    exact Prod.ext rfl (key (.co x) (List.mem_append_right _ x.2) fun _ _ _ => rfl)

theorem pre_singleton_ne {I O : Type} (s : Pos I O) : ¬ (pre {s} : T I O) = (semMgr I O).ff := fun h => (iff_of_eq (congrFun (congrFun h s) s)).mp rfl

/-- The variables stand for the declared names, in the order of the declarations. -/
def ShowVars (sp : SpecFile) (vs : RunVars (T sp.In sp.Out)) : Prop := ∀ s : Pos sp.In sp.Out,
  runValues (semMgr sp.In sp.Out) (pre {s}) vs.inputs = sp.inputs.map (fun x => (x, sp.now s.1 s.2 x)) ∧
  runValues (semMgr sp.In sp.Out) (pre {s}) vs.outputs = sp.outputs.map (fun x => (x, sp.now s.1 s.2 x))

theorem runBody_pos {sp : SpecFile} {vs : RunVars (T sp.In sp.Out)} (hs : ShowVars sp vs) (c : Ctx (T sp.In sp.Out)) (prev : T sp.In sp.Out)
    (s : Pos sp.In sp.Out) : runBody (semMgr sp.In sp.Out) c vs prev (pre {s}) =
      .position (sp.inputs.map fun x => (x, sp.now s.1 s.2 x)) (sp.outputs.map fun x => (x, sp.now s.1 s.2 x)) := by
  rw [runBody, if_neg (pre_singleton_ne s), (hs s).1, (hs s).2]

theorem runBody_lost {I O : Type} [Nonempty O] (g : Game I O) (vs : RunVars (T I O)) (s : Pos I O) :
    runBody (semMgr I O) (gameCtx g) vs (pre {s}) (semMgr I O).ff = .envLoses ∧ (∀ i, ¬ g.safetyEnv s i) ∨
    runBody (semMgr I O) (gameCtx g) vs (pre {s}) (semMgr I O).ff = .sysLoses ∧ ∃ i, g.safetyEnv s i := by
  rw [runBody, if_pos rfl]
  by_cases h : ∃ i, g.safetyEnv s i
  · obtain ⟨i, hi⟩ := h
    refine .inr ⟨if_neg fun e => ?_, i, hi⟩
    exact (iff_of_eq (congrFun (congrFun e s) (i, Classical.arbitrary O))).mp ⟨rfl, hi⟩
  · refine .inl ⟨if_pos ?_, fun i hi => h ⟨i, hi⟩⟩
    funext s' t'
    refine eq_false ?_
    rintro ⟨h1, h2⟩
    have h1' : s' = s := h1
    subst h1'
    exact h ⟨_, h2⟩

theorem nextGoal_lt {n cur : Nat} {b : Bool} (h : cur < n) : nextGoal n cur b < n := by
  rw [nextGoal]
  split
  · exact Nat.mod_lt _ (by omega)
  · exact h

theorem rows_shown {sp : SpecFile} {vs : RunVars (T sp.In sp.Out)} (hs : ShowVars sp vs) (junk : Bool × Bool) {n : Nat}
    {s : Pos sp.In sp.Out} {sg eg : Nat} {steps : List (RunStep (T sp.In sp.Out))}
    (h : RunsFrom (padGame sp.game) {s | sp.game.SysWins s} n s sg eg steps) (hsg : sg < sp.goals)
    (heg : eg < sp.hopes) (prev : T sp.In sp.Out) :
    ShownRun sp n s eg sg (rowsOf (semMgr sp.In sp.Out) (gameCtx (padGame sp.game)) vs junk prev (pre {s}) sg eg steps) ∧
    (sp.game.AlwaysAnswer →
      ∀ r ∈ rowsOf (semMgr sp.In sp.Out) (gameCtx (padGame sp.game)) vs junk prev (pre {s}) sg eg steps, r.body ≠ .sysLoses) := by
  induction h generalizing prev with
  | @done s sg eg =>
    rw [rowsOf]
    refine ⟨.last (runBody_pos hs _ _ _) rfl rfl, fun _ r hr => ?_⟩
    rw [List.mem_singleton.mp hr, runBody_pos hs]
    exact fun e => by cases e
  | @lost n s sg eg st h1 h2 =>
    rw [rowsOf, rowsOf, h1]
    have hb := runBody_lost (padGame sp.game) vs s
    refine ⟨.stuck (runBody_pos hs _ _ _) rfl rfl hb, fun ha r hr => ?_⟩
    rcases List.mem_cons.mp hr with rfl | hr
    · rw [runBody_pos hs]
      exact fun e => by cases e
    · rw [List.mem_singleton.mp hr]
      rcases hb with ⟨e, _⟩ | ⟨_, i, hi⟩
      · rw [e]
        exact fun e => by cases e
      · exact absurd hi (h2 ha i)
  | @step n s t t' sg eg st rest hr _ ih =>
    rw [rowsOf, hr.pos]
    have e1 : st.sysGoal = nextGoal sp.goals sg st.sysSat := by rw [hr.sysGoal, goals_padGame]
    have e2 : st.envGoal = nextGoal sp.hopes eg st.envSat := by rw [hr.envGoal, hopes_padGame]
    obtain ⟨i1, i2⟩ := ih (by rw [e1]; exact nextGoal_lt hsg) (by rw [e2]; exact nextGoal_lt heg) (pre {s})
    refine ⟨?_, fun ha r hm => ?_⟩
    · rw [e1, e2] at i1 ⊢
      obtain ⟨G, hG⟩ : ∃ G, (padGame sp.game).guarantees[sg]? = some G := ⟨_, List.getElem?_eq_getElem (by rw [goals_padGame]; exact hsg)⟩
      obtain ⟨A, hA⟩ : ∃ A, (padGame sp.game).assumptions[eg]? = some A := ⟨_, List.getElem?_eq_getElem (by rw [hopes_padGame]; exact heg)⟩
      have hG' : ∀ x y, G x y ↔ sp.Reaches sg x y := by
        intro x y
        rw [← goalAt_padGame sp hsg]
        refine ⟨fun h => ⟨_, hG, h⟩, fun ⟨G', h1, h2⟩ => ?_⟩
        rw [hG] at h1
        cases h1
        exact h2
      have hA' : ∀ x y, A x y ↔ sp.Fulfils eg x y := by
        intro x y
        rw [← hopeAt_padGame sp heg]
        refine ⟨fun h => ⟨_, hA, h⟩, fun ⟨A', h1, h2⟩ => ?_⟩
        rw [hA] at h1
        cases h1
        exact h2
      refine .step (t := t) (t' := t') (runBody_pos hs _ _ _) rfl rfl hr.next hr.edge ?_ ?_ ?_ i1
      · refine (hr.sysSat _ hG).trans ?_
        simp only [hG']
      · refine (hr.envSat _ hA).trans ?_
        simp only [hA']
      · intro hv
        have := hr.violation hv
        by_contra hne
        obtain ⟨x, hx⟩ := List.exists_mem_of_ne_nil _ hne
        have e := this s (t'.1, fun y => !t'.2 y) hr.edge.1
        have e' := congrFun (congrArg (fun p : Pos sp.In sp.Out × Pos sp.In sp.Out => p.2.2) e) ⟨x, hx⟩
        simp at e'
    · rcases List.mem_cons.mp hm with rfl | hm
      · rw [runBody_pos hs]
        exact fun e => by cases e
      · exact i2 ha r hm

/-- What is said by the output. -/
def InterestingOK (sp : SpecFile) : InterestingReport → Prop
  | .noStart => ∀ s, sp.game.initEnv s.1 → sp.game.initSys s → ¬ sp.game.SysWins s
  | .table inside rows => inside = false ∧ (∃ s, sp.game.initEnv s.1 ∧ sp.game.initSys s ∧ sp.game.SysWins s ∧ ShownRun sp 100 s 0 0 rows) ∧
      (sp.game.AlwaysAnswer → ∀ r ∈ rows, r.body ≠ .sysLoses)

theorem computeRun_sem {sp : SpecFile} {vs : RunVars (T sp.In sp.Out)} (hs : ShowVars sp vs) (hv : VarsOK vs.vars) {Z : Set (Pos sp.In sp.Out)} (hZ : ∀ s, s ∈ Z ↔ sp.game.SysWins s) (fuel : Nat)
    (hf : Nat.card (Pos sp.In sp.Out) + 1 < fuel) (rnd : List Bool) (junk : Bool × Bool) (dump : Dump (T sp.In sp.Out))
    (hfam : Family (padGame sp.game) Z (entries dump)) :
    ∃ r, computeRun (semMgr sp.In sp.Out) (gameCtx (padGame sp.game)) vs fuel rnd junk (pre Z) dump = some r ∧
      InterestingOK sp r := by
  obtain rfl : Z = {s | sp.game.SysWins s} := Set.ext hZ
  rw [computeRun]
  have es : (semMgr sp.In sp.Out).and ((semMgr sp.In sp.Out).and (pre {s | sp.game.SysWins s}) (gameCtx (padGame sp.game)).initEnv)
      (gameCtx (padGame sp.game)).initSys =
      pre {s | (sp.game.SysWins s ∧ sp.game.initEnv s.1) ∧ sp.game.initSys s} := rfl
  rw [es]
  by_cases hne : {s | (sp.game.SysWins s ∧ sp.game.initEnv s.1) ∧ sp.game.initSys s}.Nonempty
  swap
  · refine ⟨.noStart, if_pos ?_, fun s h1 h2 h3 => hne ⟨s, ⟨h3, h1⟩, h2⟩⟩
    funext s t
    exact eq_false fun h => hne ⟨s, h⟩
  · rw [if_neg]
    swap
    · obtain ⟨s, hi⟩ := hne
      exact fun e => (iff_of_eq (congrFun (congrFun e s) s)).mp hi
    obtain ⟨s, hi, ed⟩ := det_pre hv hne
    obtain ⟨N, e1⟩ := deadlockLoop_sem (padGame sp.game) fuel hf
    obtain ⟨es, e2, l2, m2⟩ := hopeStrategies_sem (padGame sp.game) N fuel (by omega) (padGame sp.game).assumptions
    have hmv := family_moves hfam
    obtain ⟨steps, e3, hr⟩ := runLoop_sem (padGame sp.game) hv (Z := {s | sp.game.SysWins s})
      (S := (List.range (padGame sp.game).guarantees.length).map (positional (semMgr sp.In sp.Out) dump)) (by simp)
      (by
        intro S hS
        obtain ⟨j, hj, rfl⟩ := List.mem_map.mp hS
        rw [List.mem_range, goals_padGame] at hj
        rw [positional_eq]
        exact ⟨fun s t h => hmv.safe j hj s t h, fun s hs i hi => hmv.total j hj s i hs hi⟩)
      l2 m2 100 s 0 0 rnd hi.1.1 (List.length_pos_of_ne_nil (padGame_guarantees _)) (List.length_pos_of_ne_nil (padGame_assumptions _))
    refine ⟨.table (readsInside steps) (runRows (semMgr sp.In sp.Out) (gameCtx (padGame sp.game)) vs (pre {s}) steps junk), ?_, ?_⟩
    · simp only
      rw [e1]
      simp only
      rw [show (gameCtx (padGame sp.game)).livenessAssumptions = (padGame sp.game).assumptions from rfl,
        show (gameCtx (padGame sp.game)).livenessGuarantees = (padGame sp.game).guarantees from rfl, e2]
      simp only
      rw [show vs.preVars = vs.vars.preVars from rfl, ed, e3]
    · have hg : 0 < sp.goals := by rw [← goals_padGame]; exact List.length_pos_of_ne_nil (padGame_guarantees _)
      have hh : 0 < sp.hopes := by rw [← hopes_padGame]; exact List.length_pos_of_ne_nil (padGame_assumptions _)
      have hrow := rows_shown hs junk hr hg hh (pre {s})
      rw [runRows_eq]
      exact ⟨readsInside_false _, ⟨s, hi.1.2, hi.2, hi.1.1, hrow.1⟩, hrow.2⟩

/-! ### Complete runs -/

theorem runInteresting_sem {cap : Nat} {order : List Char → Bool} {text : List Char} {tab : VarTable} {c : Ctx B}
    (h : initContext cap order text = .ok (tab, c)) {sp : SpecFile} (hd : Denotes text sp) (hg : NoGroups sp)
    (fuel : Nat) (hf : Nat.card (Pos sp.In sp.Out) + 1 < fuel) (rnd : List Bool) (junk : Bool × Bool) :
    ∃ r, runInteresting B cap order fuel rnd junk text = .report r ∧ InterestingOK sp r := by
  obtain ⟨ds, F, hn, rfl, hd', _, _, _, hc⟩ := initContext_spec h
  have := Denotes.det hd hd'
  subst this
  obtain ⟨v, dump, h1, _, _, h4, h5⟩ := checked (B := B) .standard ds F hn false fuel (by omega)
  rw [if_neg (by decide)] at h1
  obtain ⟨r, e, hr⟩ := computeRun_sem (sp := specOf ds F) (vs := semRunVars ds) (fun s => runValues_shown F hn s) (semRunVars_ok hn) h5 fuel hf rnd junk dump h4
  refine ⟨r, ?_, hr⟩
  have key := (computeRun_hom ((tableLayout ds hn).hom B) (gameCtx (padGame (specOf ds F).game)) (semRunVars ds) fuel rnd junk
    (pre (nuZ (padGame (specOf ds F).game))) dump).trans e
  rw [runInteresting, h]
  simp only
  rw [(noGroups_iff F hn).mpr hg, hc, h1]
  simp only [Bool.false_eq_true, if_false]
  rw [runVars_eq B hn]
  have hm : ∀ x : Option InterestingReport, x = some r →
      (match x with | some r => InterestingOutcome.report r | none => InterestingOutcome.running) = .report r := by
    rintro _ rfl
    rfl
  exact hm _ key

/-- **C60**, termination: on every accepted file in which no name contains `@`, something is printed after finitely many rounds. -/
theorem C60_terminates {cap : Nat} {order : List Char → Bool} {text : List Char} {tab : VarTable} {c : Ctx B}
    (h : initContext cap order text = .ok (tab, c)) {sp : SpecFile} (hd : Denotes text sp) (hg : NoGroups sp)
    (fuel : Nat) (hf : Nat.card (Pos sp.In sp.Out) + 1 < fuel) (rnd : List Bool) (junk : Bool × Bool) :
    ∃ r, runInteresting B cap order fuel rnd junk text = .report r := by
  obtain ⟨r, h1, _⟩ := runInteresting_sem (B := B) h hd hg fuel hf rnd junk
  exact ⟨r, h1⟩

/-- Whatever is printed is described by `InterestingOK`. -/
theorem interesting_printed {cap : Nat} {order : List Char → Bool} {text : List Char} {fuel : Nat} {rnd : List Bool} {junk : Bool × Bool}
    {r : InterestingReport} (h : runInteresting B cap order fuel rnd junk text = .report r) {sp : SpecFile} (hd : Denotes text sp) :
    InterestingOK sp r := by
  cases hi : initContext (B := B) cap order text with
  | err _ => rw [runInteresting, hi] at h; cases h
  | ub => rw [runInteresting, hi] at h; cases h
  | stuck => rw [runInteresting, hi] at h; cases h
  | ok q =>
    obtain ⟨tab, c⟩ := q
    have hg : NoGroups sp := by
      obtain ⟨ds, F, hn, rfl, hd', _⟩ := initContext_spec hi
      have := Denotes.det hd hd'
      subst this
      rw [← noGroups_iff F hn]
      rw [runInteresting, hi] at h
      simp only at h
      by_contra hx
      rw [Bool.not_eq_false] at hx
      rw [if_pos hx] at h
      cases h
    obtain ⟨r', h1, h2⟩ := runInteresting_sem (B := B) hi hd hg (max fuel (Nat.card (Pos sp.In sp.Out) + 2)) (by omega) rnd junk
    rw [runInteresting_more (Nat.le_max_left _ _) h] at h1
    cases h1
    exact h2

/-- **C60**, the message: it says that there is no position that is initial for both players and from which the system wins. -/
theorem C60_no_start {cap : Nat} {order : List Char → Bool} {text : List Char} {fuel : Nat} {rnd : List Bool} {junk : Bool × Bool}
    {r : InterestingReport} (h : runInteresting B cap order fuel rnd junk text = .report r) {sp : SpecFile} (hd : Denotes text sp) :
    r = .noStart ↔ ¬ ∃ s, sp.game.initEnv s.1 ∧ sp.game.initSys s ∧ sp.game.SysWins s := by
  have hk := interesting_printed h hd
  cases r with
  | noStart => exact ⟨fun _ ⟨s, h1, h2, h3⟩ => hk s h1 h2 h3, fun _ => rfl⟩
  | table inside rows =>
    obtain ⟨_, ⟨s, h1, h2, h3, _⟩, _⟩ := hk
    exact ⟨fun e => (by cases e), fun hno => absurd ⟨s, h1, h2, h3⟩ hno⟩

/-- **C60**, the table: it begins with an initial position from which the system wins, every row shows a position with the values of all variables, and every
next row is reached by a step that both players allow and after which the system still wins; the goals are numbered one after the other; at most 100 steps are
shown, and fewer only if a row `Env.Loses` or `Sys.Loses` ends the table, the first one if and only if no input is allowed.

Missing: that the marks refer to the step shown (`C60_wrong_mark`) and that `Sys.Loses` is not printed (`C60_false_loss`). -/
theorem C60_run_partial {cap : Nat} {order : List Char → Bool} {text : List Char} {fuel : Nat} {rnd : List Bool} {junk : Bool × Bool}
    {inside : Bool} {rows : List RunRow} (h : runInteresting B cap order fuel rnd junk text = .report (.table inside rows)) {sp : SpecFile}
    (hd : Denotes text sp) : ∃ s, sp.game.initEnv s.1 ∧ sp.game.initSys s ∧ sp.game.SysWins s ∧ ShownRun sp 100 s 0 0 rows :=
  (interesting_printed h hd).2.1

/-- **C60**: if the safety guarantees leave an answer to every input, even those that the safety assumptions exclude, then `Sys.Loses` is not printed. -/
theorem C60_no_false_loss {cap : Nat} {order : List Char → Bool} {text : List Char} {fuel : Nat} {rnd : List Bool} {junk : Bool × Bool}
    {inside : Bool} {rows : List RunRow} (h : runInteresting B cap order fuel rnd junk text = .report (.table inside rows)) {sp : SpecFile}
    (hd : Denotes text sp) (ha : sp.game.AlwaysAnswer) : ∀ r ∈ rows, r.body ≠ .sysLoses :=
  (interesting_printed h hd).2.2 ha

/-- **C60**, defect: whenever a table is printed, vectors are read outside of their bounds. -/
theorem C60_reads_past_end {cap : Nat} {order : List Char → Bool} {text : List Char} {fuel : Nat} {rnd : List Bool} {junk : Bool × Bool}
    {inside : Bool} {rows : List RunRow} (h : runInteresting B cap order fuel rnd junk text = .report (.table inside rows)) {sp : SpecFile}
    (hd : Denotes text sp) : inside = false :=
  (interesting_printed h hd).1

/-! ### Concrete files -/

/-- The system can end the run by setting `x`. -/
def blockText : List Char := txt!"[INPUT]\na\n[OUTPUT]\nx\n[ENV_INIT]\n! a\n[SYS_INIT]\n! x\n[ENV_TRANS]\n! x\n[SYS_TRANS]\n[SYS_LIVENESS]\nx'"

def runRow (mark : Bool) (body : RunBody) : RunRow :=
  { envGoal := 0, envMark := mark, envViolation := false, sysGoal := 0, sysMark := mark, body := body }

def blockRows : List RunRow :=
  [runRow true (.position [(txt!"a", false)] [(txt!"x", false)]), runRow true (.position [(txt!"a", true)] [(txt!"x", true)]), runRow false .envLoses]

theorem block_run : runInteresting ROBDD 1000 (fun _ => true) 30 [] (false, false) blockText = .report (.table false blockRows) := by
  decide +kernel

/-- A file and a run that meet the hypotheses of `C60_run_partial`, with a table of three rows. -/
example : ∃ sp, Denotes blockText sp ∧ ∃ s, sp.game.initEnv s.1 ∧ sp.game.initSys s ∧ sp.game.SysWins s ∧ ShownRun sp 100 s 0 0 blockRows := by
  obtain ⟨r, hr⟩ : ∃ r, initContext (B := ROBDD) 1000 (fun _ => true) blockText = .ok r := ⟨_, rfl⟩
  obtain ⟨sp, hd, _⟩ := C24_accepted_denotes (tab := r.1) (c := r.2) hr
  exact ⟨sp, hd, C60_run_partial block_run hd⟩

/-- A file that meets the condition of `C60_no_false_loss`: `blockText` has no safety guarantee. -/
def block : SpecFile where
  inputs := [txt!"a"]
  outputs := [txt!"x"]
  envInit := [.not (.var txt!"a")]
  sysInit := [.not (.var txt!"x")]
  envTrans := [.not (.var txt!"x")]
  sysTrans := []
  envLiveness := []
  sysLiveness := [.var txt!"x'"]

example : block.game.AlwaysAnswer := fun _ _ _ => ⟨fun _ => false, fun φ hφ => absurd hφ (List.not_mem_nil (a := φ))⟩

/-- A file without a position that is initial and winning. -/
example : runInteresting ROBDD 1000 (fun _ => true) 30 [] (false, false) txt!"[INPUT]\na\n[OUTPUT]\nx\n[SYS_TRANS]\n! a'" = .report .noStart := by
  decide +kernel

/-! ### Defects -/

/-- The environment must never set `a`, and the system loses if it does. -/
def lossText : List Char := txt!"[INPUT]\na\n[OUTPUT]\nx\n[ENV_TRANS]\n! a'\n[SYS_TRANS]\n! a'\n[ENV_LIVENESS]\nx'"

def lossRows : List RunRow := [runRow true (.position [(txt!"a", false)] [(txt!"x", false)]), runRow false .sysLoses]

theorem loss_run : runInteresting ROBDD 1000 (fun _ => true) 30 [] (false, false) lossText = .report (.table false lossRows) := by
  decide +kernel

/-- **C60**, defect: there are a realizable file and a run in which the table ends with `Sys.Loses`: to reach a liveness assumption, the environment's strategy
also takes inputs that the safety assumptions exclude, if these leave no answer to the system. -/
theorem C60_false_loss : ∃ (text : List Char) (sp : SpecFile) (rows : List RunRow), Denotes text sp ∧ sp.game.Realizable ∧
    runInteresting ROBDD 1000 (fun _ => true) 30 [] (false, false) text = .report (.table false rows) ∧ ∃ r ∈ rows, r.body = .sysLoses := by
  have hv : runSlugs ROBDD .standard false 1000 (fun _ => true) 30 lossText = .result true := by decide +kernel
  obtain ⟨sp, hd, h⟩ := C24_printed_is_right hv
  exact ⟨lossText, sp, lossRows, hd, by simpa using h, loss_run, _, List.mem_cons_of_mem _ (List.mem_cons_self ..), rfl⟩

/-- The goal `x'` can be reached if `a` is set or `y` has been set. -/
def markText : List Char :=
  txt!"[INPUT]\na\n[OUTPUT]\nx\ny\n[ENV_INIT]\n! a\n[SYS_INIT]\n! x\n! y\n[ENV_TRANS]\n! x\n[SYS_TRANS]\n| ! x' | a' y\n[SYS_LIVENESS]\nx'"

def mark : SpecFile where
  inputs := [txt!"a"]
  outputs := [txt!"x", txt!"y"]
  envInit := [.not (.var txt!"a")]
  sysInit := [.not (.var txt!"x"), .not (.var txt!"y")]
  envTrans := [.not (.var txt!"x")]
  sysTrans := [.bin .or (.not (.var txt!"x'")) (.bin .or (.var txt!"a'") (.var txt!"y"))]
  envLiveness := []
  sysLiveness := [.var txt!"x'"]

theorem mark_denotes : Denotes markText mark := by
  refine ⟨[(.input, txt!"a"), (.output, txt!"x"), (.output, txt!"y"), (.envInit, txt!"! a"), (.sysInit, txt!"! x"), (.sysInit, txt!"! y"),
    (.envTrans, txt!"! x"), (.sysTrans, txt!"| ! x' | a' y"), (.sysLiveness, txt!"x'")], ?_, by decide, by decide, ?_, ?_, ?_, ?_, ?_, ?_⟩
  · have : splitLines markText = [txt!"[INPUT]", txt!"a", txt!"[OUTPUT]", txt!"x", txt!"y", txt!"[ENV_INIT]", txt!"! a", txt!"[SYS_INIT]", txt!"! x",
      txt!"! y", txt!"[ENV_TRANS]", txt!"! x", txt!"[SYS_TRANS]", txt!"| ! x' | a' y", txt!"[SYS_LIVENESS]", txt!"x'"] := by decide
    rw [this]
    refine .header .input (by decide) (.item (by decide) (by decide) (by decide) ?_)
    refine .header .output (by decide) (.item (by decide) (by decide) (by decide) (.item (by decide) (by decide) (by decide) ?_))
    refine .header .envInit (by decide) (.item (by decide) (by decide) (by decide) ?_)
    refine .header .sysInit (by decide) (.item (by decide) (by decide) (by decide) (.item (by decide) (by decide) (by decide) ?_))
    refine .header .envTrans (by decide) (.item (by decide) (by decide) (by decide) ?_)
    refine .header .sysTrans (by decide) (.item (by decide) (by decide) (by decide) ?_)
    exact .header .sysLiveness (by decide) (.item (by decide) (by decide) (by decide) .nil)
  all_goals
    simp only [mark, itemsOf]
  · exact .cons (reads_text (.not (.var txt!"a")) (by simp [Fml.Wf]) (by decide) (by decide)) .nil
  · exact .cons (reads_text (.not (.var txt!"x")) (by simp [Fml.Wf]) (by decide) (by decide))
      (.cons (reads_text (.not (.var txt!"y")) (by simp [Fml.Wf]) (by decide) (by decide)) .nil)
  · exact .cons (reads_text (.not (.var txt!"x")) (by simp [Fml.Wf]) (by decide) (by decide)) .nil
  · exact .cons (reads_text (.bin .or (.not (.var txt!"x'")) (.bin .or (.var txt!"a'") (.var txt!"y"))) (by simp [Fml.Wf]) (by decide) (by decide)) .nil
  · exact .nil
  · exact .cons (reads_text (.var txt!"x'") (by simp [Fml.Wf]) (by decide) (by decide)) .nil

def markRows : List RunRow :=
  [runRow true (.position [(txt!"a", false)] [(txt!"x", false), (txt!"y", false)]), runRow true (.position [(txt!"a", false)] [(txt!"x", false), (txt!"y", true)]),
   runRow true (.position [(txt!"a", true)] [(txt!"x", true), (txt!"y", true)]), runRow false .envLoses]

theorem mark_run : runInteresting ROBDD 1000 (fun _ => true) 30 [false, false, false, true, true, true, true] (false, false) markText =
    .report (.table false markRows) := by
  decide +kernel

theorem IdealRun.shows {sp : SpecFile} {n : Nat} {s : Pos sp.In sp.Out} {e k : Nat} {r : RunRow} {rows : List RunRow}
    (h : IdealRun sp n s e k (r :: rows)) : r.ShowsPos sp s := by
  cases h <;> assumption

/-- **C60**, defect: there are a file and a run with a table that is wrong: a mark says that the goal `x'` is reached by the first step, but `x` is false in the next
row.  The step that is shown is chosen independently of the one that the marks refer to. -/
theorem C60_wrong_mark : ∃ (text : List Char) (sp : SpecFile) (rnd : List Bool) (rows : List RunRow), Denotes text sp ∧
    runInteresting ROBDD 1000 (fun _ => true) 30 rnd (false, false) text = .report (.table false rows) ∧ (∀ r ∈ rows, r.body ≠ .sysLoses) ∧
    ¬ ∃ s, IdealRun sp 100 s 0 0 rows := by
  refine ⟨markText, mark, _, markRows, mark_denotes, mark_run, by decide, ?_⟩
  rintro ⟨s, h⟩
  cases h with
  | step h1 h2 h3 h4 h5 h6 h7 =>
    rename_i t
    have hr := h5.mp rfl _ rfl
    have hs := IdealRun.shows h7
    have hx : mark.now t.1 t.2 txt!"x" = false := by
      have h8 := (RunBody.position.inj hs).2
      have h9 : (txt!"x", mark.now t.1 t.2 txt!"x") = (txt!"x", false) := (List.cons.inj h8).1.symm
      exact congrArg Prod.snd h9
    have hx' : mark.look s t txt!"x'" = mark.now t.1 t.2 txt!"x" := rfl
    have hr' : some (mark.look s t txt!"x'") = some true := hr
    rw [hx', hx] at hr'
    cases hr'

end Slugs.Props
