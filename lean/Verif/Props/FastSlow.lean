import Verif.Props.Counterstrategy
import Verif.Lemmas.FastSlow
import Verif.Lemmas.ExplicitSpec
import Verif.Lemmas.Checked
import Verif.Props.Monotone

/-!
# C55–C56: fast and slow outputs

`runFS B robotics …` is the model of a complete run with `--IROSfastslow` (`robotics = true`: together with `--sysInitRoboticsSemantics`), and
`runFSExplicit B robotics perm recovery …` that of a run with one of the options for explicit strategies in addition.  `Spec/FastSlow.lean` says what such a file
denotes, and that the game is played with the additional obligation that the intermediate position of each step is safe.
-/

namespace Slugs.Props

open Slugs.Spec Slugs.Model

variable {B : Type} [DecidableEq B] [L : BddLib B]

/-- What is realizable with the given options. -/
def FSWins (robotics : Bool) (sp : SpecFile) (slow : List Word) : Prop :=
  if robotics then (sp.fsGame slow).RoboticsRealizable else (sp.fsGame slow).Realizable

/-! ### Runs on accepted files -/

omit L in
theorem succLoop_safetySys (M : Mgr B) (c : Ctx B) (f : B) (vs : Vars B) (perm : Bool) (rank : Nat) :
    ∀ n rem w p, succLoop M { c with safetySys := f } vs perm rank n rem w p = succLoop M c vs perm rank n rem w p := by
  intro n
  induction n with
  | zero => intro rem w p; rfl
  | succ n ih => intro rem w p; simp only [succLoop, ih]

omit L in
theorem extractLoop_safetySys (M : Mgr B) (c : Ctx B) (f : B) (vs : Vars B) (perm recovery : Bool) (strategy : Nat → B) (fuel : Nat) :
    ∀ n w out, extractLoop M { c with safetySys := f } vs perm recovery strategy fuel n w out =
      extractLoop M c vs perm recovery strategy fuel n w out := by
  intro n
  induction n with
  | zero => intro w out; rfl
  | succ n ih => intro w out; simp only [extractLoop, ih, succLoop_safetySys]

omit L in
/-- The extraction does not use the safety guarantees. -/
theorem extractStrategy_safetySys (M : Mgr B) (c : Ctx B) (f : B) (vs : Vars B) (perm recovery : Bool) (fuel : Nat) (W : B) (dump : Dump B) :
    extractStrategy M { c with safetySys := f } vs perm recovery fuel W dump = extractStrategy M c vs perm recovery fuel W dump := by
  have h : permissiveStep M { c with safetySys := f } = permissiveStep M c := rfl
  have h' : permissive M { c with safetySys := f } dump = permissive M c dump := by
    funext j; rw [permissive, permissive, h]
  simp only [extractStrategy, extractLoop_safetySys, h']

theorem checkFS_more {robotics : Bool} {types : List VarType} {c : Ctx B} {n n' : Nat} (hn : n ≤ n') {r : Verdict × B × Dump B}
    (h : checkFS robotics types c n = some r) : checkFS robotics types c n' = some r := by
  simp only [checkFS] at h ⊢
  cases robotics
  · exact checkRealizability_more _ _ hn h
  · exact checkRealizabilityRobotics_more _ _ hn h

/-- The check on an accepted file. -/
theorem checkedFS {cap : Nat} {order : List Char → Bool} {text : List Char} {tab : VarTable} {c : Ctx B}
    (h : fsInit cap order text = .ok (tab, c)) {sp : SpecFile} {slow : List Word} (hd : FSDenotes text sp slow) (robotics : Bool) (fuel : Nat)
    (hcard : Nat.card (Pos sp.In sp.Out) < fuel) :
    ∃ (ds : Decls) (F F' : Section → List Fml) (hn : (tableOf ds).names.Nodup) (v : Verdict)
      (dump : Dump (T (specOf ds F').In (specOf ds F').Out)), sp = specOf ds F ∧
      (specOf ds F').game = (specOf ds F).fsGame slow ∧ tab = ⟨(tableOf ds).names, fsTypes ds fun x => decide (x ∈ slow)⟩ ∧
      { c with safetySys := newSafetySys tab.types c.safetySys } =
        (gameCtx (padGame (specOf ds F').game)).map ((tableLayout ds hn).enc B) ∧
      checkFS robotics tab.types c fuel = some (v, (tableLayout ds hn).enc B (pre (nuZ (padGame (specOf ds F').game))),
        Dump.map ((tableLayout ds hn).enc B) dump) ∧
      (v = .realizable ↔ FSWins robotics sp slow) ∧ (v = .unrealizable ↔ ¬ FSWins robotics sp slow) ∧
      Family (padGame (specOf ds F').game) (nuZ (padGame (specOf ds F').game)) (entries dump) ∧
      ∀ s, s ∈ nuZ (padGame (specOf ds F').game) ↔ (specOf ds F').game.SysWins s := by
  obtain ⟨ds, F, slow', hn, rfl, hd', _, hc⟩ := fsInit_ok h
  obtain ⟨rfl, rfl⟩ := FSDenotes.det hd hd'
  obtain ⟨F', hg, hctx⟩ := fs_context (B := B) ds F hn slow
  obtain ⟨v, dump, hb, hv1, hv2, hfam, hZ⟩ := checked (B := B) .standard ds F' hn robotics fuel hcard
  have hw : Wins robotics (specOf ds F') ↔ FSWins robotics (specOf ds F) slow := by
    rw [Wins, FSWins, hg]
    rfl
  rw [← hc] at hctx
  refine ⟨ds, F, F', hn, v, dump, rfl, hg, rfl, hctx, ?_, hv1.trans hw, hv2.trans (not_congr hw), hfam, hZ⟩
  rw [← hb, ← hctx, checkFS]
  simp only [fsMgr_eq B hn]

theorem runFS_sem {cap : Nat} {order : List Char → Bool} {text : List Char} {tab : VarTable} {c : Ctx B}
    (h : fsInit cap order text = .ok (tab, c)) {sp : SpecFile} {slow : List Word} (hd : FSDenotes text sp slow) (robotics : Bool)
    (fuel : Nat) (hfuel : Nat.card (Pos sp.In sp.Out) < fuel) :
    (FSWins robotics sp slow → runFS B robotics cap order fuel text = .result true) ∧
    (¬ FSWins robotics sp slow → runFS B robotics cap order fuel text = .result false) := by
  obtain ⟨ds, F, F', hn, v, dump, rfl, hg, _, _, hb, hv1, hv2, _, _⟩ := checkedFS h hd robotics fuel hfuel
  rw [runFS, h]
  simp only
  rw [hb]
  constructor
  · intro hw; rw [hv1.mpr hw]; rfl
  · intro hw; rw [hv2.mpr hw]; rfl

theorem runFSExplicit_sem {cap : Nat} {order : List Char → Bool} {text : List Char} {tab : VarTable} {c : Ctx B}
    (h : fsInit cap order text = .ok (tab, c)) {sp : SpecFile} {slow : List Word} (hd : FSDenotes text sp slow) (robotics perm recovery : Bool)
    (fuel : Nat) (hfuel : Nat.card (Pos sp.In sp.Out) * max 1 sp.sysLiveness.length < fuel) :
    (FSWins robotics sp slow → ∃ sts, runFSExplicit B robotics perm recovery cap order fuel text = .strategy sts ∧
      ∃ ds F F', sp = specOf ds F ∧ (specOf ds F').game = (specOf ds F).fsGame slow ∧ Printed (specOf ds F') perm recovery sts) ∧
    (¬ FSWins robotics sp slow → runFSExplicit B robotics perm recovery cap order fuel text = .none (.result false)) := by
  have hcard : Nat.card (Pos sp.In sp.Out) < fuel :=
    lt_of_le_of_lt (Nat.le_mul_of_pos_right _ (by omega)) hfuel
  obtain ⟨ds, F, F', hn, v, dump, rfl, hg, ht, hctx, hb, hv1, hv2, hfam, hZ⟩ := checkedFS h hd robotics fuel hcard
  have hlen : (padGame (specOf ds F').game).guarantees.length = max 1 (specOf ds F).sysLiveness.length := by
    have : (specOf ds F).sysLiveness.length = (specOf ds F').game.guarantees.length := by
      rw [hg]; exact (List.length_map _).symm
    rw [this]
    simp only [padGame]
    cases (specOf ds F').game.guarantees <;> simp [padLive]
  have hgn := padGame_guarantees (specOf ds F').game
  rw [runFSExplicit, h]
  simp only
  rw [hb]
  constructor
  · intro hw
    rw [hv1.mpr hw]
    simp only
    obtain ⟨ks, sts, h1, h2⟩ := extractStrategy_spec (padGame (specOf ds F').game) hgn (semVars_ok hn) perm recovery hfam fuel
      (by rw [hlen]; exact hfuel)
    refine ⟨sts, ?_, ds, F, F', rfl, hg, printed_of_extracted F' hn perm recovery hfam hZ h2⟩
    have e := extractStrategy_hom ((tableLayout ds hn).hom B) (gameCtx (padGame (specOf ds F').game)) (semVars ds) perm recovery fuel
      (pre (nuZ (padGame (specOf ds F').game))) dump
    have e' : extractStrategy (bddMgr B tab.types) { c with safetySys := newSafetySys tab.types c.safetySys } (tableVars B tab) perm recovery fuel
        ((tableLayout ds hn).enc B (pre (nuZ (padGame (specOf ds F').game)))) (Dump.map ((tableLayout ds hn).enc B) dump) =
        some sts := by
      rw [hctx, ht, tableVars_fs, bddMgr_fs, tableVars_eq B hn]
      exact e.trans h1
    have e'' : extractStrategy (bddMgr B tab.types) c (tableVars B tab) perm recovery fuel
        ((tableLayout ds hn).enc B (pre (nuZ (padGame (specOf ds F').game)))) (Dump.map ((tableLayout ds hn).enc B) dump) =
        some sts := (extractStrategy_safetySys _ _ _ _ _ _ _ _ _).symm.trans e'
    rw [e'']
  · intro hw
    rw [hv2.mpr hw]
    rfl

theorem runFSExplicit_more {robotics perm recovery : Bool} {cap : Nat} {order : List Char → Bool} {n n' : Nat}
    (hn : n ≤ n') {text : List Char} {sts : List PState} (h : runFSExplicit B robotics perm recovery cap order n text = .strategy sts) :
    runFSExplicit B robotics perm recovery cap order n' text = .strategy sts := by
  rw [runFSExplicit] at h ⊢
  cases hi : fsInit (B := B) cap order text with
  | err e => rw [hi] at h; cases h
  | ub => rw [hi] at h; cases h
  | stuck => rw [hi] at h; cases h
  | ok r =>
    obtain ⟨tab, c⟩ := r
    rw [hi] at h
    simp only at h ⊢
    cases hr : checkFS robotics tab.types c n with
    | none => rw [hr] at h; cases h
    | some r =>
      rw [hr] at h
      rw [checkFS_more hn hr]
      obtain ⟨v, W, dump⟩ := r
      cases v
      case realizable =>
        simp only at h ⊢
        cases he : extractStrategy (bddMgr B tab.types) c (tableVars B tab) perm recovery n W dump with
        | none => rw [he] at h; cases h
        | some s => rw [he] at h; rw [extractStrategy_more _ _ _ _ _ hn he]; exact h
      all_goals cases h

/-- Whatever strategy is printed, for any number of rounds. -/
theorem runFSExplicit_printed {robotics perm recovery : Bool} {cap : Nat} {order : List Char → Bool} {fuel : Nat} {text : List Char}
    {sts : List PState} (h : runFSExplicit B robotics perm recovery cap order fuel text = .strategy sts) {sp : SpecFile} {slow : List Word}
    (hd : FSDenotes text sp slow) : FSWins robotics sp slow ∧
      ∃ ds F F', sp = specOf ds F ∧ (specOf ds F').game = (specOf ds F).fsGame slow ∧ Printed (specOf ds F') perm recovery sts := by
  cases hi : fsInit (B := B) cap order text with
  | err e => rw [runFSExplicit, hi] at h; cases h
  | ub => rw [runFSExplicit, hi] at h; cases h
  | stuck => rw [runFSExplicit, hi] at h; cases h
  | ok r =>
    obtain ⟨tab, c⟩ := r
    have hbig := Nat.lt_succ_of_le (Nat.le_add_left (Nat.card (Pos sp.In sp.Out) * max 1 sp.sysLiveness.length) fuel)
    have hmore := runFSExplicit_more (n' := (fuel + Nat.card (Pos sp.In sp.Out) * max 1 sp.sysLiveness.length).succ)
      (by omega) h
    obtain ⟨h1, h2⟩ := runFSExplicit_sem hi hd robotics perm recovery _ hbig
    by_cases hw : FSWins robotics sp slow
    · obtain ⟨sts', h3, h4⟩ := h1 hw
      rw [h3] at hmore
      cases hmore
      exact ⟨hw, h4⟩
    · rw [h2 hw] at hmore
      cases hmore

/-! ### C55 -/

/-- **C55**, reading.  Every accepted text denotes exactly one specification together with a list of slow outputs, which are outputs; and every proper
file is accepted. -/
theorem C55_accepted_denotes {cap : Nat} {order : List Char → Bool} {text : List Char} {tab : VarTable} {c : Ctx B}
    (h : fsInit cap order text = .ok (tab, c)) :
    ∃ sp slow, FSDenotes text sp slow ∧ (∀ x ∈ slow, x ∈ sp.outputs) ∧ ∀ sp' slow', FSDenotes text sp' slow' → sp' = sp ∧ slow' = slow := by
  obtain ⟨ds, F, slow, hn, _, hd, hs, _⟩ := fsInit_ok h
  exact ⟨specOf ds F, slow, hd, hs, fun sp' slow' hd' => FSDenotes.det hd' hd⟩

theorem C55_proper_accepted (cap : Nat) (order : List Char → Bool) (text : List Char) (h : FSProperFile cap text) :
    ∃ r, fsInit (B := B) cap order text = .ok r :=
  fsInit_complete order h

/-- **C55.** On accepted files the run terminates and prints "realizable" if and only if the system wins the game in which every step obeys the
safety guarantees and the intermediate position of every step is safe (`fsGame`); both in the standard and in the robotics semantics. -/
theorem C55_verdict {cap : Nat} {order : List Char → Bool} {text : List Char} {tab : VarTable} {c : Ctx B}
    (h : fsInit cap order text = .ok (tab, c)) {sp : SpecFile} {slow : List Word} (hd : FSDenotes text sp slow)
    (fuel : Nat) (hfuel : Nat.card (Pos sp.In sp.Out) + 1 ≤ fuel) :
    ((sp.fsGame slow).Realizable → runFS B false cap order fuel text = .result true) ∧
    (¬ (sp.fsGame slow).Realizable → runFS B false cap order fuel text = .result false) ∧
    ((sp.fsGame slow).RoboticsRealizable → runFS B true cap order fuel text = .result true) ∧
    (¬ (sp.fsGame slow).RoboticsRealizable → runFS B true cap order fuel text = .result false) :=
  ⟨(runFS_sem h hd false fuel hfuel).1, (runFS_sem h hd false fuel hfuel).2, (runFS_sem h hd true fuel hfuel).1,
    (runFS_sem h hd true fuel hfuel).2⟩

/-- **C55**, for any number of rounds: whatever is printed is right. -/
theorem C55_printed_is_right {robotics : Bool} {cap : Nat} {order : List Char → Bool} {fuel : Nat} {text : List Char} {b : Bool}
    (h : runFS B robotics cap order fuel text = .result b) :
    ∃ sp slow, FSDenotes text sp slow ∧
      (b = true ↔ if robotics then (sp.fsGame slow).RoboticsRealizable else (sp.fsGame slow).Realizable) := by
  cases hi : fsInit (B := B) cap order text with
  | err e => rw [runFS, hi] at h; cases h
  | ub => rw [runFS, hi] at h; cases h
  | stuck => rw [runFS, hi] at h; cases h
  | ok r =>
    obtain ⟨tab, c⟩ := r
    obtain ⟨sp, slow, hd, _⟩ := C55_accepted_denotes hi
    refine ⟨sp, slow, hd, ?_⟩
    obtain ⟨h1, h2⟩ := runFS_sem hi hd robotics (fuel + (Nat.card (Pos sp.In sp.Out) + 1)) (by omega)
    have more : runFS B robotics cap order (fuel + (Nat.card (Pos sp.In sp.Out) + 1)) text = .result b := by
      rw [runFS, hi] at h ⊢
      simp only at h ⊢
      cases hc : checkFS robotics tab.types c fuel with
      | none => rw [hc] at h; cases h
      | some r => rw [hc] at h; rw [checkFS_more (Nat.le_add_right _ _) hc]; exact h
    change b = true ↔ FSWins robotics sp slow
    by_cases hw : FSWins robotics sp slow
    · rw [h1 hw] at more; cases more; simp [hw]
    · rw [h2 hw] at more; cases more; simp [hw]

/-- **C55.** What is realizable with fast and slow outputs is realizable without the distinction. -/
theorem C55_stricter (sp : SpecFile) (slow : List Word) (s : Pos sp.In sp.Out) (h : (sp.fsGame slow).SysWins s) : sp.game.SysWins s := by
  obtain ⟨σ, h1, h2⟩ := h
  have hh : ∀ h, sp.game.SysHist σ s h → (sp.fsGame slow).SysHist σ s h := by
    intro h hh
    induction hh with
    | start => exact .start
    | step _ hi ih => exact .step ih hi
  exact ⟨σ, fun cur h i hc hi => (h1 cur h i (hh _ hc) hi).1, fun p hp => h2 p fun n => hh _ (hp n)⟩

/-! ### C56 -/

/-- **C56.** In the strategy that is printed, every state is labelled with a value for each declared variable; for every state and every next input that
the safety assumptions allow there is exactly one listed successor with this input; all steps obey the safety guarantees, and the
intermediate position of every step is safe. -/
theorem C56_complete_and_safe {robotics recovery : Bool} {cap : Nat} {order : List Char → Bool} {fuel : Nat} {text : List Char}
    {sts : List PState} (h : runFSExplicit B robotics false recovery cap order fuel text = .strategy sts) {sp : SpecFile} {slow : List Word}
    (hd : FSDenotes text sp slow) :
    (∀ st ∈ sts, st.Complete sp) ∧
    (∀ st ∈ sts, ∀ i, sp.game.safetyEnv (st.pos sp) i →
      ∃ st', (Edge sts st st' ∧ (st'.pos sp).1 = i) ∧ ∀ st'', Edge sts st st'' ∧ (st''.pos sp).1 = i → st'' = st') ∧
    (∀ st st', Edge sts st st' → sp.game.safetySys (st.pos sp) (st'.pos sp) ∧ sp.SafePos (sp.between slow (st.pos sp) (st'.pos sp))) := by
  obtain ⟨_, ds, F, F', rfl, hg, hp⟩ := runFSExplicit_printed h hd
  refine ⟨hp.wf.labels, fun st hm i hi => ?_, fun st st' he => ?_⟩
  · have hi' : (specOf ds F').game.safetyEnv (st.pos (specOf ds F')) i := by rw [hg]; exact hi
    obtain ⟨st', h1, h2⟩ := hp.total st hm i hi'
    exact ⟨st', ⟨h1, h2⟩, fun st'' ⟨h3, h4⟩ => hp.det rfl st st'' st' h3 h1 (h4.trans h2.symm)⟩
  · have := hp.safe st st' he
    rw [hg] at this
    exact this

/-- **C56**, initial states, as in C10. -/
theorem C56_initial_states {robotics recovery : Bool} {cap : Nat} {order : List Char → Bool} {fuel : Nat} {text : List Char}
    {sts : List PState} (h : runFSExplicit B robotics false recovery cap order fuel text = .strategy sts) {sp : SpecFile} {slow : List Word}
    (hd : FSDenotes text sp slow) :
    (robotics = false → ∀ i, sp.game.initEnv i → ∃ st ∈ sts, st.rank = 0 ∧ (st.pos sp).1 = i ∧ sp.game.initSys (st.pos sp)) ∧
    (robotics = true → ∀ s, sp.game.initEnv s.1 → sp.game.initSys s → ∃ st ∈ sts, st.rank = 0 ∧ st.pos sp = s) := by
  obtain ⟨hw, ds, F, F', rfl, hg, hp⟩ := runFSExplicit_printed h hd
  have hstart := hp.start
  rw [hg] at hstart
  constructor
  · rintro rfl i hi
    obtain ⟨o, h1, h2⟩ := hw i hi
    obtain ⟨st, h3, h4, h5⟩ := hstart (i, o) h2 (.inr ⟨h1, .inr hi⟩)
    have h4' : st.pos (specOf ds F) = (i, o) := h4
    exact ⟨st, h3, h5, by rw [h4'], by rw [h4']; exact h1⟩
  · rintro rfl s hi hs
    obtain ⟨st, h3, h4, h5⟩ := hstart s (hw s.1 s.2 hi hs) (.inr ⟨hs, .inr hi⟩)
    exact ⟨st, h3, h5, h4⟩

/-- **C56**, liveness: every infinite run of the printed strategy satisfies the liveness part of the specification, provided that the environment obeys
the safety assumptions from some point on (without recovery only such steps are listed). -/
theorem C56_live {robotics recovery : Bool} {cap : Nat} {order : List Char → Bool} {fuel : Nat} {text : List Char}
    {sts : List PState} (h : runFSExplicit B robotics false recovery cap order fuel text = .strategy sts) {sp : SpecFile} {slow : List Word}
    (hd : FSDenotes text sp slow) :
    (recovery = false → ∀ st st', Edge sts st st' → sp.game.safetyEnv (st.pos sp) (st'.pos sp).1) ∧
    ∀ r : Nat → PState, (∀ n, Edge sts (r n) (r (n + 1))) → ∀ N, (∀ n ≥ N, sp.game.safetyEnv ((r n).pos sp) ((r (n + 1)).pos sp).1) →
      (∀ A ∈ sp.game.assumptions, InfOften A fun n => (r n).pos sp) → ∀ G ∈ sp.game.guarantees, InfOften G fun n => (r n).pos sp := by
  obtain ⟨_, ds, F, F', rfl, hg, hp⟩ := runFSExplicit_printed h hd
  constructor
  · intro hr st st' he
    have := hp.strict hr st st' he
    rw [hg] at this
    exact this
  · intro r hr N henv ha G hG
    have := hp.live (fun n => r (n + N)) (fun n => by have := hr (n + N); rwa [Nat.add_right_comm] at this)
      (fun n => by
        have := henv (n + N) (by omega)
        rw [hg]
        rwa [Nat.add_right_comm n N 1] at this)
    rw [hg] at this
    rw [← infOften_tail G _ N]
    exact this (fun A hA => (infOften_tail A _ N).mpr (ha A hA)) G hG

/-- **C56**, termination: on accepted files a strategy is printed if and only if the specification is realizable. -/
theorem C56_terminates {cap : Nat} {order : List Char → Bool} {text : List Char} {tab : VarTable} {c : Ctx B}
    (h : fsInit cap order text = .ok (tab, c)) {sp : SpecFile} {slow : List Word} (hd : FSDenotes text sp slow) (robotics perm recovery : Bool)
    (fuel : Nat) (hfuel : Nat.card (Pos sp.In sp.Out) * max 1 sp.sysLiveness.length + 1 ≤ fuel) :
    (FSWins robotics sp slow → ∃ sts, runFSExplicit B robotics perm recovery cap order fuel text = .strategy sts) ∧
    (¬ FSWins robotics sp slow → runFSExplicit B robotics perm recovery cap order fuel text = .none (.result false)) := by
  obtain ⟨h1, h2⟩ := runFSExplicit_sem h hd robotics perm recovery fuel hfuel
  exact ⟨fun hw => (h1 hw).imp fun _ h => h.1, h2⟩

/-- **C56**, the permissive strategy: it never blocks an input that is allowed, its steps obey the safety guarantees with safe intermediate positions, every
infinite run satisfies the liveness part, and it starts from exactly the winning positions. -/
theorem C56_permissive {robotics : Bool} {cap : Nat} {order : List Char → Bool} {fuel : Nat} {text : List Char}
    {sts : List PState} (h : runFSExplicit B robotics true false cap order fuel text = .strategy sts) {sp : SpecFile} {slow : List Word}
    (hd : FSDenotes text sp slow) :
    (∀ st ∈ sts, ∀ i, sp.game.safetyEnv (st.pos sp) i → ∃ st', Edge sts st st' ∧ (st'.pos sp).1 = i) ∧
    (∀ st st', Edge sts st st' → sp.game.safetySys (st.pos sp) (st'.pos sp) ∧ sp.SafePos (sp.between slow (st.pos sp) (st'.pos sp))) ∧
    (∀ r : Nat → PState, (∀ n, Edge sts (r n) (r (n + 1))) → sp.game.Live fun n => (r n).pos sp) ∧
    (∀ s, (sp.fsGame slow).SysWins s ↔ ∃ st ∈ sts, st.rank = 0 ∧ st.pos sp = s) := by
  obtain ⟨_, ds, F, F', rfl, hg, hp⟩ := runFSExplicit_printed h hd
  refine ⟨fun st hm i hi => ?_, fun st st' he => ?_, fun r hr => ?_, fun s => ⟨fun hs => ?_, ?_⟩⟩
  · have hi' : (specOf ds F').game.safetyEnv (st.pos (specOf ds F')) i := by rw [hg]; exact hi
    exact hp.total st hm i hi'
  · have := hp.safe st st' he
    rw [hg] at this
    exact this
  · have := hp.live r hr fun n => hp.strict rfl _ _ (hr n)
    rw [hg] at this
    exact this
  · have hs' : (specOf ds F').game.SysWins s := by rw [hg]; exact hs
    obtain ⟨st, h1, h2, h3⟩ := hp.start s hs' (.inl rfl)
    exact ⟨st, h1, h3, h2⟩
  · rintro ⟨st, h1, _, rfl⟩
    have := hp.win st h1
    rw [hg] at this
    exact this

/-! ### The hypotheses hold for concrete files -/

/-- A robot that moves and takes pictures, but never both at the same time; moving is fast, and the camera is slow. -/
def cameraText : List Char :=
  txt!"[INPUT]\nr\n[OUTPUT_F]\nm\n[OUTPUT_S]\nc\n[SYS_INIT]\n! & m c\n[SYS_TRANS]\n! & m c\n! & m' c'\n[SYS_LIVENESS]\nm\nc"

/-- Exactly one of the two at every time. -/
def alternateText : List Char :=
  txt!"[INPUT]\nr\n[OUTPUT_F]\nm\n[OUTPUT_S]\nc\n[SYS_INIT]\n^ m c\n[SYS_TRANS]\n^ m c\n^ m' c'\n[SYS_LIVENESS]\nm\nc"

theorem camera_run : runFS ROBDD false 1000 (fun _ => true) 20 cameraText = .result true := by decide +kernel

theorem alternate_run : runFS ROBDD false 1000 (fun _ => true) 20 alternateText = .result false := by decide +kernel

/-- Without the distinction, the second specification is realizable. -/
example : runSlugs ROBDD .standard false 1000 (fun _ => true) 20
    (txt!"[INPUT]\nr\n[OUTPUT]\nm\nc\n[SYS_INIT]\n^ m c\n[SYS_TRANS]\n^ m c\n^ m' c'\n[SYS_LIVENESS]\nm\nc") = .result true := by decide +kernel

def camera : SpecFile where
  inputs := [txt!"r"]
  outputs := [txt!"m", txt!"c"]
  envInit := []
  sysInit := [.not (.bin .and (.var txt!"m") (.var txt!"c"))]
  envTrans := []
  sysTrans := [.not (.bin .and (.var txt!"m") (.var txt!"c")), .not (.bin .and (.var txt!"m'") (.var txt!"c'"))]
  envLiveness := []
  sysLiveness := [.var txt!"m", .var txt!"c"]

def cameraItems : List (FSSection × List Char) :=
  [(.input, txt!"r"), (.outputF, txt!"m"), (.outputS, txt!"c"), (.sysInit, txt!"! & m c"), (.sysTrans, txt!"! & m c"),
    (.sysTrans, txt!"! & m' c'"), (.sysLiveness, txt!"m"), (.sysLiveness, txt!"c")]

theorem camera_content : FSContent none (splitLines cameraText) cameraItems := by
  have : splitLines cameraText = [txt!"[INPUT]", txt!"r", txt!"[OUTPUT_F]", txt!"m", txt!"[OUTPUT_S]", txt!"c", txt!"[SYS_INIT]",
    txt!"! & m c", txt!"[SYS_TRANS]", txt!"! & m c", txt!"! & m' c'", txt!"[SYS_LIVENESS]", txt!"m", txt!"c"] := by decide
  rw [this]
  refine .header .input (by decide) (.item (by decide) (by decide) (by decide) ?_)
  refine .header .outputF (by decide) (.item (by decide) (by decide) (by decide) ?_)
  refine .header .outputS (by decide) (.item (by decide) (by decide) (by decide) ?_)
  refine .header .sysInit (by decide) (.item (by decide) (by decide) (by decide) ?_)
  refine .header .sysTrans (by decide) (.item (by decide) (by decide) (by decide) (.item (by decide) (by decide) (by decide) ?_))
  exact .header .sysLiveness (by decide) (.item (by decide) (by decide) (by decide) (.item (by decide) (by decide) (by decide) .nil))

theorem not_both_reads : ReadsLine (txt!"! & m c") (.not (.bin .and (.var txt!"m") (.var txt!"c"))) :=
  reads_text (.not (.bin .and (.var txt!"m") (.var txt!"c"))) (by simp [Fml.Wf]) (by decide) (by decide)

theorem not_both_next_reads : ReadsLine (txt!"! & m' c'") (.not (.bin .and (.var txt!"m'") (.var txt!"c'"))) :=
  reads_text (.not (.bin .and (.var txt!"m'") (.var txt!"c'"))) (by simp [Fml.Wf]) (by decide) (by decide)

theorem m_reads : ReadsLine (txt!"m") (.var txt!"m") := reads_text (.var txt!"m") (by simp [Fml.Wf]) (by decide) (by decide)

theorem c_reads : ReadsLine (txt!"c") (.var txt!"c") := reads_text (.var txt!"c") (by simp [Fml.Wf]) (by decide) (by decide)

theorem camera_denotes : FSDenotes cameraText camera [txt!"c"] := by
  refine ⟨cameraItems, camera_content, by decide, by decide, by decide, ?_, ?_, ?_, ?_, ?_, ?_⟩
  all_goals
    simp only [camera, cameraItems, fsItemsOf]
  · exact .nil
  · exact .cons not_both_reads .nil
  · exact .nil
  · exact .cons not_both_reads (.cons not_both_next_reads .nil)
  · exact .nil
  · exact .cons m_reads (.cons c_reads .nil)

/-- The hypothesis of `C55_proper_accepted` holds for the file. -/
theorem camera_proper : FSProperFile 1000 cameraText := by
  refine ⟨cameraItems, camera_content, by decide, ?_⟩
  intro before s line after h h1 h2 h3
  rcases before with _ | ⟨p1, _ | ⟨p2, _ | ⟨p3, _ | ⟨p4, _ | ⟨p5, _ | ⟨p6, _ | ⟨p7, _ | ⟨p8, before⟩⟩⟩⟩⟩⟩⟩⟩ <;>
    simp only [cameraItems, List.cons_append, List.nil_append, List.cons.injEq, Prod.mk.injEq] at h
  · exact absurd h.1.1.symm h1
  · exact absurd h.2.1.1.symm h2
  · exact absurd h.2.2.1.1.symm h3
  · obtain ⟨rfl, rfl, rfl, ⟨rfl, rfl⟩, _⟩ := h
    exact ⟨by decide, _, not_both_reads, by simp [Fml.Wf], by decide⟩
  · obtain ⟨rfl, rfl, rfl, rfl, ⟨rfl, rfl⟩, _⟩ := h
    exact ⟨by decide, _, not_both_reads, by simp [Fml.Wf], by decide⟩
  · obtain ⟨rfl, rfl, rfl, rfl, rfl, ⟨rfl, rfl⟩, _⟩ := h
    exact ⟨by decide, _, not_both_next_reads, by simp [Fml.Wf], by decide⟩
  · obtain ⟨rfl, rfl, rfl, rfl, rfl, rfl, ⟨rfl, rfl⟩, _⟩ := h
    exact ⟨by decide, _, m_reads, by simp [Fml.Wf], by decide⟩
  · obtain ⟨rfl, rfl, rfl, rfl, rfl, rfl, rfl, ⟨rfl, rfl⟩, _⟩ := h
    exact ⟨by decide, _, c_reads, by simp [Fml.Wf], by decide⟩
  · simp at h

/-- The hypotheses of the theorems for C55 are met. -/
example (order : List Char → Bool) : ∃ r, fsInit (B := ROBDD) 1000 order cameraText = .ok r :=
  C55_proper_accepted 1000 order cameraText camera_proper

theorem camera_realizable : (camera.fsGame [txt!"c"]).Realizable := by
  obtain ⟨sp, slow, hd, h⟩ := C55_printed_is_right camera_run
  obtain ⟨rfl, rfl⟩ := FSDenotes.det hd camera_denotes
  simpa using h

/-- A strategy is printed; the hypotheses of the theorems for C56 are met. -/
theorem camera_strategy (perm recovery : Bool) : ∃ sts, runFSExplicit ROBDD false perm recovery 1000 (fun _ => true)
    (Nat.card (Pos camera.In camera.Out) * max 1 camera.sysLiveness.length + 1) cameraText = .strategy sts := by
  obtain ⟨⟨tab, c⟩, hi⟩ := C55_proper_accepted (B := ROBDD) 1000 (fun _ => true) cameraText camera_proper
  exact (C56_terminates hi camera_denotes false perm recovery _ le_rfl).1 camera_realizable

/-- In it, one never starts to move and stops taking pictures in the same step. -/
example : ∃ sts, (∃ fuel, runFSExplicit ROBDD false false false 1000 (fun _ => true) fuel cameraText = .strategy sts) ∧ sts ≠ [] ∧
    ∀ st st', Edge sts st st' → camera.SafePos (camera.between [txt!"c"] (st.pos camera) (st'.pos camera)) := by
  obtain ⟨sts, h⟩ := camera_strategy false false
  refine ⟨sts, ⟨_, h⟩, ?_, fun st st' he => ((C56_complete_and_safe h camera_denotes).2.2 st st' he).2⟩
  rintro rfl
  obtain ⟨st, hm, _⟩ := (C56_initial_states h camera_denotes).1 rfl (fun _ => false) (by intro φ hφ; cases hφ)
  cases hm

end Slugs.Props
