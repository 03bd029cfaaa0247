import Verif.Lemmas.MotionText
import Verif.Props.Counterstrategy
import Verif.Model.ROBDD

/-!
# C62: non-deterministic motion abstractions

`runMotion` is the model of a complete run with `--nonDeterministicMotion`, from the text of the specification file, the region BDD files and the BDD file of
the robot to the verdict that is printed.  `Spec/Motion.lean` says what such a specification means.
-/

namespace Slugs.Props

open Slugs.Spec Slugs.Model

variable {B : Type} [DecidableEq B] [L : BddLib B]

/-! ### Rounds -/

theorem checkMotion_more {robotics : Bool} {types : List VarType} {c : Ctx B} {rob : B} {n n' : Nat} (hn : n ≤ n') {v : Verdict}
    (h : checkMotion B robotics types c rob n = some v) : checkMotion B robotics types c rob n' = some v := by
  rw [checkMotion] at h ⊢
  cases hs : computeWinningPositionsBA (bddMgr B types) (ctlMotion B types c rob) c.livenessAssumptions c.livenessGuarantees n with
  | none => rw [hs] at h; cases h
  | some q =>
    have : computeWinningPositionsBA (bddMgr B types) (ctlMotion B types c rob) c.livenessAssumptions c.livenessGuarantees n' = some q := by
      refine fixLoop_more ?_ hn hs
      intro x s r hr
      cases ht : goalLoopBA (bddMgr B types) (ctlMotion B types c rob) n c.livenessAssumptions x c.livenessGuarantees (bddMgr B types).tt with
      | none => rw [ht] at hr; cases hr
      | some q => rw [ht] at hr; rw [goalLoopBA_more hn ht]; exact hr
    rw [this]
    rw [hs] at h
    exact h

theorem runMotion_more {robotics : Bool} {bddFile : List Char → Option BitPred} {robot : BitPred} {cap : Nat} {order : List Char → Bool} {n n' : Nat}
    (hn : n ≤ n') {text : List Char} (h : runMotion B robotics bddFile robot cap order n text ≠ .running) :
    runMotion B robotics bddFile robot cap order n' text = runMotion B robotics bddFile robot cap order n text := by
  rw [runMotion] at h ⊢
  rw [runMotion]
  cases hi : mInit (B := B) bddFile robot cap order text with
  | err e => rfl
  | ub => rfl
  | stuck => rfl
  | ok r =>
    obtain ⟨tab, c, rob⟩ := r
    rw [hi] at h
    simp only at h ⊢
    cases hc : checkMotion B robotics tab.types c rob n with
    | none => rw [hc] at h; exact absurd rfl h
    | some v => rw [checkMotion_more hn hc]

/-! ### The verdict -/

/-- Replacing an empty list of guarantees by one that always holds does not change who wins. -/
theorem motionWins_pad {I Y : Type} (S : Y → Prop) (rob : (Y → Bool) → (Y → Bool) → Prop) (g : Game I (Y → Bool)) (s : Pos I (Y → Bool)) :
    MotionWins S rob { g with guarantees := padLive g.guarantees } s ↔ MotionWins S rob g s := by
  have hh : ∀ σ h, MotionHist S rob { g with guarantees := padLive g.guarantees } σ s h ↔ MotionHist S rob g σ s h := by
    intro σ h
    constructor
    · intro h
      induction h with
      | start => exact .start
      | step _ h1 h2 h3 ih => exact .step ih h1 h2 h3
    · intro h
      induction h with
      | start => exact .start
      | step _ h1 h2 h3 ih => exact .step ih h1 h2 h3
  have hl : ∀ p, Game.Live { g with guarantees := padLive g.guarantees } p ↔ g.Live p := by
    intro p
    have ht : InfOften (fun _ _ => True) p := fun n => ⟨n, Nat.le_refl n, trivial⟩
    simp only [Game.Live]
    cases g.guarantees with
    | nil => simp [padLive, ht]
    | cons a l => rfl
  refine exists_congr fun σ => and_congr ?_ ?_
  · simp only [hh]
  · simp only [hh, hl]

/-- What a run prints. -/
def MotionReport (P : Prop) : MotionOutcome → Prop
  | .realizable => P
  | .unrealizable => ¬ P
  | _ => False

theorem runMotion_sem {bddFile : List Char → Option BitPred} (robot : BitPred) {cap : Nat} (order : List Char → Bool) {text : List Char}
    (hp : MProperFile cap bddFile text) {m : MotionSpec} (hd : MDenotes bddFile robot text m) (robotics : Bool) (fuel : Nat)
    (hf : Nat.card (Pos (Reaction m.file.In {x // x ∈ m.file.outputs}) m.file.Out) < fuel) :
    MotionReport (if robotics then m.RoboticsRealizable else m.Realizable) (runMotion B robotics bddFile robot cap order fuel text) := by
  obtain ⟨items, hc, -⟩ := id hp
  have := mDenotes_eq hc hd
  subst this
  obtain ⟨hn, c, hi, h1, h2, h3, h4, h5, h6⟩ := mInit_proper (B := B) (robot := robot) (order := order) hp hc
  rw [runMotion, hi]
  have hS : (mSpec bddFile robot items).IsMotion = mSet (mDecls items) (isMotionIn items) := by
    funext y
    simp [MotionSpec.IsMotion, mSet, isMotionIn, mSpec, mItemsOf]
  have hg : padLive (mGame bddFile robot items).guarantees ≠ [] := by
    cases (mGame bddFile robot items).guarantees <;> simp [padLive]
  obtain ⟨v, hv, e1, e2⟩ := checkMotion_enc B hn (isMotionIn items) robotics
    { mGame bddFile robot items with guarantees := padLive (mGame bddFile robot items).guarantees } (mMoves bddFile robot items) hg
    (c := c) h1 h2 h3 h4 h5 h6 fuel hf
  have hv' : checkMotion B robotics (mTab (mDecls items) (isMotionIn items)).types c
      ((tableLayout (mDecls items) hn).enc B (fun s t => mMoves bddFile robot items s.2 t.2)) fuel = some v := hv
  simp only [hv']
  simp only [motionWins_pad] at e1 e2
  have hw : ∀ p, (mSpec bddFile robot items).Wins p ↔
      MotionWins (mSet (mDecls items) (isMotionIn items)) (mMoves bddFile robot items) (mGame bddFile robot items) p := by
    intro p
    rw [MotionSpec.Wins, hS]
    exact Iff.rfl
  cases robotics
  · have e1 := e1 rfl
    have hR : (mSpec bddFile robot items).Realizable ↔ ∀ i, (mGame bddFile robot items).initEnv i → ∃ o, (mGame bddFile robot items).initSys (i, o) ∧
        MotionWins (mSet (mDecls items) (isMotionIn items)) (mMoves bddFile robot items) (mGame bddFile robot items) (i, o) :=
      forall_congr' fun i => imp_congr Iff.rfl (exists_congr fun o => and_congr Iff.rfl (hw _))
    cases v
    · exact hR.mpr (e1.1.mp rfl)
    · exact fun h => e1.2.mp rfl (hR.mp h)
    · by_cases hx : (mSpec bddFile robot items).Realizable
      · cases e1.1.mpr (hR.mp hx)
      · cases e1.2.mpr fun h => hx (hR.mpr h)
  · have e1 := e2 rfl
    have hR : (mSpec bddFile robot items).RoboticsRealizable ↔ ∀ i, (mGame bddFile robot items).initEnv i → ∀ o,
        MotionWins (mSet (mDecls items) (isMotionIn items)) (mMoves bddFile robot items) (mGame bddFile robot items) (i, o) :=
      forall_congr' fun i => imp_congr Iff.rfl (forall_congr' fun o => hw _)
    cases v
    · exact hR.mpr (e1.1.mp rfl)
    · exact fun h => e1.2.mp rfl (hR.mp h)
    · by_cases hx : (mSpec bddFile robot items).RoboticsRealizable
      · cases e1.1.mpr (hR.mp hx)
      · cases e1.2.mpr fun h => hx (hR.mpr h)

/-- **C62**, reading: every proper file denotes exactly one specification. -/
theorem C62_proper_denotes {bddFile : List Char → Option BitPred} (robot : BitPred) {cap : Nat} {text : List Char} (hp : MProperFile cap bddFile text) :
    ∃ m, MDenotes bddFile robot text m ∧ ∀ m', MDenotes bddFile robot text m' → m' = m := by
  obtain ⟨items, hc, hd⟩ := mDenotes_mSpec robot hp
  exact ⟨_, hd, fun m' hd' => mDenotes_eq hc hd'⟩

/-- **C62.**  On every proper file, for every abstraction of the robot, the run terminates, and it prints "realizable" if the system can win and
"unrealizable" if it cannot; in the standard semantics (`robotics = false`) for some, and in the robotics semantics for all, initial values of the outputs.
Partial: files with "other" outputs, files whose initial or safety assumptions mention the motion state that the robot will have, and BDD files that mention
further variables are not covered; for the first two, the theorems below show what goes wrong. -/
theorem C62_motion_verdict_partial {bddFile : List Char → Option BitPred} (robot : BitPred) {cap : Nat} (order : List Char → Bool) {text : List Char}
    (hp : MProperFile cap bddFile text) {m : MotionSpec} (hd : MDenotes bddFile robot text m) (robotics : Bool) :
    ∃ n, ∀ fuel, n ≤ fuel →
      (runMotion B robotics bddFile robot cap order fuel text = .realizable ↔ if robotics then m.RoboticsRealizable else m.Realizable) ∧
      (runMotion B robotics bddFile robot cap order fuel text = .unrealizable ↔ ¬ if robotics then m.RoboticsRealizable else m.Realizable) := by
  refine ⟨Nat.card (Pos (Reaction m.file.In {x // x ∈ m.file.outputs}) m.file.Out) + 1, fun fuel hf => ?_⟩
  have h := runMotion_sem (B := B) robot order hp hd robotics fuel (Nat.lt_of_succ_le hf)
  cases e : runMotion B robotics bddFile robot cap order fuel text <;> rw [e] at h <;> simp only [MotionReport] at h <;> simp [h]

/-- **C62**: whatever a run on a proper file prints is right, after any number of rounds. -/
theorem C62_printed_is_right_partial {bddFile : List Char → Option BitPred} {robot : BitPred} {cap : Nat} {order : List Char → Bool} {text : List Char}
    (hp : MProperFile cap bddFile text) {m : MotionSpec} (hd : MDenotes bddFile robot text m) {robotics : Bool} {fuel : Nat}
    (h : runMotion B robotics bddFile robot cap order fuel text ≠ .running) :
    MotionReport (if robotics then m.RoboticsRealizable else m.Realizable) (runMotion B robotics bddFile robot cap order fuel text) := by
  have := runMotion_sem (B := B) robot order hp hd robotics
    (fuel + Nat.card (Pos (Reaction m.file.In {x // x ∈ m.file.outputs}) m.file.Out) + 1) (by omega)
  rwa [runMotion_more (by omega) h] at this

/-! ### The hypotheses hold for concrete files -/

/-- The region `home`: the motion state is 1. -/
def homeFile : List Char → Option BitPred := fun f => if f = txt!"home.bdd" then some fun l => l.headD false else none

/-- A robot with two motion states: without the command `go` it stays where it is, with the command it may stay or move. -/
def lazyRobot : BitPred
  | [m, go, m'] => go || (m == m')
  | _ => false

/-- The robot shall be at home and not at home, again and again. -/
def patrolText : List Char :=
  txt!"[INPUT]\ncall\n[MOTION STATE OUTPUT]\nm\n[MOTION CONTROLLER OUTPUT]\ngo\n[ABSTRACTION_REGION_BDDS]\nhome home.bdd\n[SYS_INIT]\n! home\n[SYS_LIVENESS]\nhome\n! home"

/-- The same, but the command must not be given while there is a call; there is no call, again and again. -/
def hesitantText : List Char :=
  txt!"[INPUT]\ncall\n[MOTION STATE OUTPUT]\nm\n[MOTION CONTROLLER OUTPUT]\ngo\n[ABSTRACTION_REGION_BDDS]\nhome home.bdd\n[SYS_TRANS]\n| ! call' ! go'\n[ENV_LIVENESS]\n! call'\n[SYS_LIVENESS]\nhome\n! home"

/-- The robot moves if it always gets the command: it is assumed not to ignore it forever. -/
theorem patrol_run : runMotion ROBDD false homeFile lazyRobot 1000 (fun _ => true) 20 patrolText = .realizable := by decide +kernel

theorem patrol_run_robotics : runMotion ROBDD true homeFile lazyRobot 1000 (fun _ => true) 20 patrolText = .realizable := by decide +kernel

/-- Between two calls, the robot may ignore the command. -/
theorem hesitant_run : runMotion ROBDD false homeFile lazyRobot 1000 (fun _ => true) 20 hesitantText = .unrealizable := by decide +kernel

def patrolItems : List (MSection × List Char) :=
  [(.input, txt!"call"), (.motionState, txt!"m"), (.motionControl, txt!"go"), (.regions, txt!"home home.bdd"), (.sysInit, txt!"! home"),
    (.sysLiveness, txt!"home"), (.sysLiveness, txt!"! home")]

theorem patrol_content : MContent none (splitLines patrolText) patrolItems := by
  have : splitLines patrolText = [txt!"[INPUT]", txt!"call", txt!"[MOTION STATE OUTPUT]", txt!"m", txt!"[MOTION CONTROLLER OUTPUT]", txt!"go",
    txt!"[ABSTRACTION_REGION_BDDS]", txt!"home home.bdd", txt!"[SYS_INIT]", txt!"! home", txt!"[SYS_LIVENESS]", txt!"home", txt!"! home"] := by decide
  rw [this]
  refine .header .input (by decide) (.item (by decide) (by decide) (by decide) ?_)
  refine .header .motionState (by decide) (.item (by decide) (by decide) (by decide) ?_)
  refine .header .motionControl (by decide) (.item (by decide) (by decide) (by decide) ?_)
  refine .header .regions (by decide) (.item (by decide) (by decide) (by decide) ?_)
  refine .header .sysInit (by decide) (.item (by decide) (by decide) (by decide) ?_)
  exact .header .sysLiveness (by decide) (.item (by decide) (by decide) (by decide) (.item (by decide) (by decide) (by decide) .nil))

theorem home_reads : ReadsLine (txt!"home") (.var txt!"home") := reads_text (.var txt!"home") (by simp [Fml.Wf]) (by decide) (by decide)

theorem not_home_reads : ReadsLine (txt!"! home") (.not (.var txt!"home")) := reads_text (.not (.var txt!"home")) (by simp [Fml.Wf]) (by decide) (by decide)

/-- The hypothesis of the theorems for C62 holds for the file. -/
theorem patrol_proper : MProperFile 1000 homeFile patrolText := by
  refine ⟨patrolItems, patrol_content, by decide, by decide, ?_, ?_⟩
  · intro before line after h
    rcases before with _ | ⟨p1, _ | ⟨p2, _ | ⟨p3, _ | ⟨p4, _ | ⟨p5, _ | ⟨p6, _ | ⟨p7, before⟩⟩⟩⟩⟩⟩⟩ <;>
      simp only [patrolItems, List.cons_append, List.nil_append, List.cons.injEq, Prod.mk.injEq] at h
    · exact absurd h.1.1 (by decide)
    · exact absurd h.2.1.1 (by decide)
    · exact absurd h.2.2.1.1 (by decide)
    · obtain ⟨rfl, rfl, rfl, ⟨-, rfl⟩, rfl⟩ := h
      exact ⟨by decide, txt!"home", txt!"home.bdd", ⟨by decide, by decide⟩, by decide⟩
    · exact absurd h.2.2.2.2.1.1 (by decide)
    · exact absurd h.2.2.2.2.2.1.1 (by decide)
    · exact absurd h.2.2.2.2.2.2.1.1 (by decide)
    · simp at h
  · intro before s line after h hs
    rcases before with _ | ⟨p1, _ | ⟨p2, _ | ⟨p3, _ | ⟨p4, _ | ⟨p5, _ | ⟨p6, _ | ⟨p7, before⟩⟩⟩⟩⟩⟩⟩ <;>
      simp only [patrolItems, List.cons_append, List.nil_append, List.cons.injEq, Prod.mk.injEq] at h
    · obtain ⟨⟨rfl, rfl⟩, _⟩ := h
      exact absurd hs (by simp [MSection.IsConstraint])
    · obtain ⟨rfl, ⟨rfl, rfl⟩, _⟩ := h
      exact absurd hs (by simp [MSection.IsConstraint])
    · obtain ⟨rfl, rfl, ⟨rfl, rfl⟩, _⟩ := h
      exact absurd hs (by simp [MSection.IsConstraint])
    · obtain ⟨rfl, rfl, rfl, ⟨rfl, rfl⟩, _⟩ := h
      exact absurd hs (by simp [MSection.IsConstraint])
    · obtain ⟨rfl, rfl, rfl, rfl, ⟨rfl, rfl⟩, _⟩ := h
      exact ⟨by decide, _, not_home_reads, by simp [Fml.Wf], by decide⟩
    · obtain ⟨rfl, rfl, rfl, rfl, rfl, ⟨rfl, rfl⟩, _⟩ := h
      exact ⟨by decide, _, home_reads, by simp [Fml.Wf], by decide⟩
    · obtain ⟨rfl, rfl, rfl, rfl, rfl, rfl, ⟨rfl, rfl⟩, _⟩ := h
      exact ⟨by decide, _, not_home_reads, by simp [Fml.Wf], by decide⟩
    · simp at h

def patrol : MotionSpec where
  file :=
    { inputs := [txt!"call"], outputs := [txt!"m", txt!"go"], envInit := [], sysInit := [.not (.var txt!"home")], envTrans := [], sysTrans := [],
      envLiveness := [], sysLiveness := [.var txt!"home", .not (.var txt!"home")] }
  motion := [txt!"m"]
  controls := [txt!"go"]
  regions := [(txt!"home", fun l => l.headD false)]
  robot := lazyRobot

theorem patrol_denotes : MDenotes homeFile lazyRobot patrolText patrol := by
  refine ⟨patrolItems, patrol_content, by decide, by decide, by decide, by decide, ?_, rfl, ?_, ?_, ?_, ?_, ?_, ?_⟩
  · exact .cons ⟨txt!"home.bdd", ⟨by decide, by decide⟩, rfl⟩ .nil
  · exact .nil
  · exact .cons not_home_reads .nil
  · exact .nil
  · exact .nil
  · exact .nil
  · exact .cons home_reads (.cons not_home_reads .nil)

/-- So there is a strategy with which the robot is at home and not at home infinitely often, whatever the robot does. -/
theorem patrol_realizable : patrol.Realizable := by
  have h := C62_printed_is_right_partial (B := ROBDD) (order := fun _ => true) (robotics := false) (fuel := 20) patrol_proper patrol_denotes
  generalize hr : runMotion ROBDD false homeFile lazyRobot 1000 (fun _ => true) 20 patrolText = r at h
  obtain rfl := hr.symm.trans patrol_run
  exact h (by simp)

/-! ### What is not as it should be -/

/-- Initial assumptions about the motion state (which are accepted) are treated as if the system could choose a motion state that violates them: the system
cannot win from any position of this specification, since its guarantee is unsatisfiable; but already the assumption that the motion state is initially 1
makes the specification realizable, also in the robotics semantics. -/
theorem C62_initial_assumption_defect :
    runMotion ROBDD true homeFile lazyRobot 1000 (fun _ => true) 20
      (txt!"[INPUT]\ncall\n[MOTION STATE OUTPUT]\nm\n[MOTION CONTROLLER OUTPUT]\ngo\n[SYS_LIVENESS]\n0") = .unrealizable ∧
    runMotion ROBDD true homeFile lazyRobot 1000 (fun _ => true) 20
      (txt!"[INPUT]\ncall\n[MOTION STATE OUTPUT]\nm\n[MOTION CONTROLLER OUTPUT]\ngo\n[ENV_INIT]\nm\n[SYS_LIVENESS]\n0") = .realizable := by
  constructor <;> decide +kernel

/-- A specification with an output that has nothing to do with the motion, which shall always be set, ends in an internal error. -/
theorem C62_other_output_defect :
    runMotion ROBDD false homeFile lazyRobot 1000 (fun _ => true) 20
      (txt!"[INPUT]\ncall\n[MOTION STATE OUTPUT]\nm\n[MOTION CONTROLLER OUTPUT]\ngo\n[OTHER OUTPUT]\nx\n[SYS_TRANS]\nx'") = .internalError := by
  decide +kernel

/-- A region name with a prime is accepted in an initial assumption, where there is no next motion state; the run ends in an internal error. -/
theorem C62_region_defect :
    runMotion ROBDD false homeFile lazyRobot 1000 (fun _ => true) 20
      (txt!"[INPUT]\ncall\n[MOTION STATE OUTPUT]\nm\n[MOTION CONTROLLER OUTPUT]\ngo\n[ABSTRACTION_REGION_BDDS]\nhome home.bdd\n[ENV_INIT]\nhome'\n[SYS_LIVENESS]\n0") =
      .internalError := by
  decide +kernel

/-- If the robot stays in the motion states `A` once it is there and can always move, no strategy reaches an unsatisfiable goal from there. -/
theorem not_motionWins_stay {I Y : Type} (S : Y → Prop) (rob : (Y → Bool) → (Y → Bool) → Prop) (A : (Y → Bool) → Prop) [Inhabited I]
    (hstay : ∀ o c, A o → ∃ o', SameControls S c o' ∧ rob o o' ∧ A o') (hsame : ∀ o o', A o → rob o o' → SameMotion S o o') {g : Game I (Y → Bool)}
    (hsafe : ∀ p i, g.safetyEnv p i) (hass : g.assumptions = []) {φ : T I (Y → Bool)} (hφ : φ ∈ g.guarantees) (hF : ∀ p q, ¬ φ p q)
    {s : Pos I (Y → Bool)} (hs : A s.2) : ¬ MotionWins S rob g s := by
  classical
  rintro ⟨σ, -, hlive⟩
  choose! nx hnx using hstay
  let step : History I (Y → Bool) → Pos I (Y → Bool) := fun h => (default, nx (h.headD s).2 (σ h default))
  let hist : Nat → History I (Y → Bool) := fun n => Nat.rec [s] (fun _ h => step h :: h) n
  let p : Nat → Pos I (Y → Bool) := fun n => (hist n).headD s
  have hp : ∀ n, prefixHist p n = hist n := by
    intro n
    induction n with
    | zero => rfl
    | succ n ih =>
      rw [prefixHist, ih]
      rfl
  have hcons : ∀ n, ∃ h, hist n = p n :: h := by
    intro n
    cases n with
    | zero => exact ⟨[], rfl⟩
    | succ n => exact ⟨hist n, rfl⟩
  have hA : ∀ n, A (p n).2 := by
    intro n
    induction n with
    | zero => exact hs
    | succ n ih => exact (hnx _ _ ih).2.2
  have hh : ∀ n, MotionHist S rob g σ s (hist n) := by
    intro n
    induction n with
    | zero => exact .start
    | succ n ih =>
      obtain ⟨h, e⟩ := hcons n
      have h1 := hnx (p n).2 (σ (hist n) default) (hA n)
      have e2 : hist (n + 1) = step (hist n) :: hist n := rfl
      have e3 : step (hist n) = (default, nx (p n).2 (σ (hist n) default)) := rfl
      rw [e2, e3]
      rw [e] at ih h1 ⊢
      exact .step ih (hsafe _ _) h1.1 h1.2.1
  refine hF _ _ ((hlive p (fun n => by rw [hp]; exact hh n) ?_ ?_ φ hφ 0).choose_spec.2)
  · intro n
    refine ⟨n, le_rfl, ?_⟩
    rintro ⟨o, -, h1, h2⟩
    exact absurd (hsame _ _ (hA n) h1) h2
  · rw [hass]
    simp

/-- Safety assumptions about the next motion state are accepted, but the verdict is wrong: this specification assumes that the robot stays at 1 if it is there
and has an unsatisfiable guarantee, and it is said to be realizable from 1.  With a robot of which this is true, the system cannot win from there. -/
theorem C62_safety_assumption_defect :
    runMotion ROBDD false homeFile lazyRobot 1000 (fun _ => true) 20
      (txt!"[INPUT]\ncall\n[MOTION STATE OUTPUT]\nm\n[MOTION CONTROLLER OUTPUT]\ngo\n[SYS_INIT]\nm\n[ENV_TRANS]\n| ! m m'\n[SYS_LIVENESS]\n0") = .realizable ∧
    ∀ s : Pos Bool (Bool → Bool), s.2 true = true →
      ¬ MotionWins (fun y => y = true) (fun o o' => lazyRobot [o true, o' false, o' true] = true ∧ (o true = true → o' true = true))
        { initEnv := fun _ => True, initSys := fun s => s.2 true = true, safetyEnv := fun _ _ => True, safetySys := fun _ _ => True, assumptions := [],
          guarantees := [fun _ _ => False] } s := by
  refine ⟨by decide +kernel, fun s hs => ?_⟩
  refine not_motionWins_stay _ _ (fun o => o true = true) ?_ ?_ (fun _ _ => trivial) rfl (List.mem_singleton.mpr rfl) (fun _ _ h => h) hs
  · intro o c ho
    refine ⟨fun y => if y = true then true else c y, fun y hy => by simp [hy], ⟨?_, fun _ => rfl⟩, rfl⟩
    simp [lazyRobot, ho]
  · intro o o' ho h y hy
    subst hy
    rw [ho, h.2 ho]

end Slugs.Props
