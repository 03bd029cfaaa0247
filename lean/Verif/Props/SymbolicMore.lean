import Verif.Lemmas.SymbolicMore

/-!
# C77–C78: symbolic strategies that are cooperative, and with fast and slow outputs

`runSymbolicCoop B robotics ge …` is the model of a run with `--cooperativeGR1Strategy` together with `--simpleSymbolicStrategy` (`ge = true`) or `--symbolicStrategy`
(`ge = false`), and `runFSSymbolic B robotics ge …` the same with `--IROSfastslow`.  `Executes` (`Lemmas/SymbolicMore.lean`) says how a strategy is executed: it is
defined from what the written Boolean function allows.
-/

namespace Slugs.Props

open Slugs.Spec Slugs.Model

variable {B : Type} [DecidableEq B] [L : BddLib B]

/-- The number of goals that a cooperative strategy pursues in turn: the guarantees, and then one goal per assumption. -/
def coopGoals (sp : SpecFile) : Nat := max 1 sp.game.guarantees.length + max 1 sp.game.assumptions.length

/-! ### Cooperative strategies -/

theorem runSymbolicCoop_sem {cap : Nat} {order : List Char → Bool} {text : List Char} {tab : VarTable} {c : Ctx B}
    (h : initContext cap order text = .ok (tab, c)) {sp : SpecFile} (hd : Denotes text sp) (robotics ge : Bool)
    (fuel : Nat) (hfuel : Nat.card (Pos sp.In sp.Out) < fuel) :
    ∃ (ds : Decls) (F : Section → List Fml) (hn : (tableOf ds).names.Nodup) (dump : Dump (T (specOf ds F).In (specOf ds F).Out))
      (ts : List (T (specOf ds F).In (specOf ds F).Out)) (R : SymbolicStrategy B), sp = specOf ds F ∧
      FromGame ge F hn (coopGame (padGame (specOf ds F).game) ts) dump R ∧
      CoopRound (padGame (specOf ds F).game) (nuZc (padGame (specOf ds F).game)) dump ts ∧
      (WinsCoop robotics (specOf ds F) → runSymbolicCoop B robotics ge cap order fuel text = .strategy R) ∧
      (¬ WinsCoop robotics (specOf ds F) → runSymbolicCoop B robotics ge cap order fuel text = .none (.result false)) := by
  obtain ⟨ds, F, hn, rfl, hd', _, _, _, hc⟩ := initContext_spec h
  have := Denotes.det hd hd'
  subst this
  obtain ⟨v, dump, ts, hb, hv1, hv2, hr⟩ := checkedCoop (B := B) ds F hn robotics fuel hfuel
  rw [← hc] at hb
  refine ⟨ds, F, hn, dump, ts, _, rfl, ⟨_, rfl, rfl, rfl, rfl, rfl, rfl⟩, hr, ?_, ?_⟩
  · intro hw
    rw [runSymbolicCoop, h]
    simp only
    rw [hb, hv1.mpr hw]
  · intro hw
    rw [runSymbolicCoop, h]
    simp only
    rw [hb, hv2.mpr hw]
    rfl

theorem runSymbolicCoop_more {robotics ge : Bool} {cap : Nat} {order : List Char → Bool} {n n' : Nat} {text : List Char}
    {R : SymbolicStrategy B} (hn : n ≤ n') (h : runSymbolicCoop B robotics ge cap order n text = .strategy R) :
    runSymbolicCoop B robotics ge cap order n' text = .strategy R := by
  rw [runSymbolicCoop] at h ⊢
  cases hi : initContext (B := B) cap order text with
  | err e => rw [hi] at h; cases h
  | ub => rw [hi] at h; cases h
  | stuck => rw [hi] at h; cases h
  | ok r =>
    obtain ⟨tab, c⟩ := r
    rw [hi] at h
    simp only at h ⊢
    split at h
    · rename_i W D c' hr
      rw [checkRealizabilityCoop_more _ _ hn hr]
      exact h
    · cases h

theorem runSymbolicCoop_produced {robotics ge : Bool} {cap : Nat} {order : List Char → Bool} {fuel : Nat} {text : List Char}
    {R : SymbolicStrategy B} (h : runSymbolicCoop B robotics ge cap order fuel text = .strategy R) {sp : SpecFile} (hd : Denotes text sp) :
    ∃ (ds : Decls) (F : Section → List Fml) (hn : (tableOf ds).names.Nodup) (dump : Dump (T (specOf ds F).In (specOf ds F).Out))
      (ts : List (T (specOf ds F).In (specOf ds F).Out)), sp = specOf ds F ∧
      FromGame ge F hn (coopGame (padGame (specOf ds F).game) ts) dump R ∧
      CoopFamily (padGame (specOf ds F).game) (coopGame (padGame (specOf ds F).game) ts) (nuZc (padGame (specOf ds F).game)) (entries dump) ∧
      WinsCoop robotics (specOf ds F) ∧ (coopGame (padGame (specOf ds F).game) ts).guarantees.length = coopGoals (specOf ds F) ∧
      ∀ s, s ∈ nuZc (padGame (specOf ds F).game) ↔ (specOf ds F).game.CoopWins s := by
  cases hi : initContext (B := B) cap order text with
  | err e => rw [runSymbolicCoop, hi] at h; cases h
  | ub => rw [runSymbolicCoop, hi] at h; cases h
  | stuck => rw [runSymbolicCoop, hi] at h; cases h
  | ok r =>
    obtain ⟨tab, c⟩ := r
    obtain ⟨ds, F, hn, dump, ts, R', rfl, hR, hr, h1, h2⟩ := runSymbolicCoop_sem hi hd robotics ge
      (fuel + (Nat.card (Pos sp.In sp.Out) + 1)) (by omega)
    have hmore := runSymbolicCoop_more (Nat.le_add_right fuel (Nat.card (Pos (specOf ds F).In (specOf ds F).Out) + 1)) h
    have hg := padGame_guarantees (specOf ds F).game
    have ha := padGame_assumptions (specOf ds F).game
    by_cases hw : WinsCoop robotics (specOf ds F)
    · rw [h1 hw] at hmore
      cases hmore
      refine ⟨ds, F, hn, dump, ts, rfl, hR, hr.family hg ha, hw, ?_, fun s => (nuZc_eq_coopWins _ ha hg s).trans (padGame_coopWins _ s)⟩
      rw [coopGame_length hr.length, (padGame_lengths _).1, (padGame_lengths _).2, coopGoals]
    · rw [h2 hw] at hmore
      cases hmore

/-- **C77**, termination.  A symbolic strategy is written for exactly those accepted files for which there is a cooperative strategy. -/
theorem C77_written {cap : Nat} {order : List Char → Bool} {text : List Char} {tab : VarTable} {c : Ctx B}
    (h : initContext cap order text = .ok (tab, c)) {sp : SpecFile} (hd : Denotes text sp) (robotics ge : Bool)
    (fuel : Nat) (hfuel : Nat.card (Pos sp.In sp.Out) < fuel) :
    (WinsCoop robotics sp → ∃ R, runSymbolicCoop B robotics ge cap order fuel text = .strategy R) ∧
    (¬ WinsCoop robotics sp → runSymbolicCoop B robotics ge cap order fuel text = .none (.result false)) := by
  obtain ⟨ds, F, hn, dump, ts, R, rfl, _, _, h1, h2⟩ := runSymbolicCoop_sem h hd robotics ge fuel hfuel
  exact ⟨fun hw => ⟨R, h1 hw⟩, h2⟩

/-- **C77**, reading the file. -/
theorem C77_readable {robotics ge : Bool} {cap : Nat} {order : List Char → Bool} {fuel : Nat} {text : List Char}
    {R : SymbolicStrategy B} (h : runSymbolicCoop B robotics ge cap order fuel text = .strategy R) {sp : SpecFile} (hd : Denotes text sp) :
    Readable ge sp R (coopGoals sp) := by
  obtain ⟨ds, F, hn, dump, ts, rfl, hR, _, _, hlen, _⟩ := runSymbolicCoop_produced h hd
  rw [← hlen]
  exact hR.readable

/-- **C77.** In the positions from which there is a cooperative strategy (among them enough initial ones), the environment has an allowed input, and the strategy blocks
none of them, whatever goal it pursues.  Its transitions obey the safety guarantees and lead to such positions again; while it pursues a guarantee, it moves on to the
next goal exactly if the transition fulfils the guarantee, and otherwise stays. -/
theorem C77_never_blocks {robotics ge : Bool} {cap : Nat} {order : List Char → Bool} {fuel : Nat} {text : List Char}
    {R : SymbolicStrategy B} (h : runSymbolicCoop B robotics ge cap order fuel text = .strategy R) {sp : SpecFile} (hd : Denotes text sp) :
    (if robotics then sp.game.RoboticsCoopRealizable else sp.game.CoopRealizable) ∧
    (∀ s, sp.game.CoopWins s → ∃ i, sp.game.safetyEnv s i) ∧
    (∀ s j i, sp.game.CoopWins s → j < coopGoals sp → sp.game.safetyEnv s i →
      ∃ o j', j' < coopGoals sp ∧ Executes ge sp R (coopGoals sp) s (i, o) j j') ∧
    (∀ s t j j', j < coopGoals sp → j' < 2 ^ R.counterPre.length → Executes ge sp R (coopGoals sp) s t j j' →
      sp.game.safetySys s t ∧ sp.game.CoopWins t ∧ j' < coopGoals sp ∧
      (j < sp.goals → (sp.Reaches j s t → j' = (j + 1) % coopGoals sp) ∧ (¬ sp.Reaches j s t → j' = j))) := by
  obtain ⟨ds, F, hn, dump, ts, rfl, hR, hf, hw, hlen, hZ⟩ := runSymbolicCoop_produced h hd
  refine ⟨hw, fun s hs => hf.alive ((hZ s).mpr hs), ?_, ?_⟩
  · intro s j i hs hj hi
    rw [← hlen] at hj ⊢
    exact hR.total hf.family ((hZ s).mpr hs) hj hi
  · intro s t j j' hj hj' ha
    rw [← hlen] at hj ha ⊢
    obtain ⟨h1, h2, h3, h4, h5⟩ := hR.step hf.family hj hj' ha
    refine ⟨h1, (hZ t).mp h2, h3, fun hjg => ?_⟩
    have e : goalAt (coopGame (padGame (specOf ds F).game) ts) j s t ↔ (specOf ds F).Reaches j s t := by
      rw [← goalAt_padGame _ hjg]
      have : (coopGame (padGame (specOf ds F).game) ts).guarantees[j]? = (padGame (specOf ds F).game).guarantees[j]? :=
        List.getElem?_append_left (by rw [← goals_padGame] at hjg; exact hjg)
      rw [goalAt, goalAt, this]
    rw [← e]
    exact ⟨h4, h5⟩

/-- **C77**: every infinite run of the strategy from such a position on which the environment obeys its safety assumptions satisfies the safety guarantees and the liveness
part of the specification. -/
theorem C77_live {robotics ge : Bool} {cap : Nat} {order : List Char → Bool} {fuel : Nat} {text : List Char}
    {R : SymbolicStrategy B} (h : runSymbolicCoop B robotics ge cap order fuel text = .strategy R) {sp : SpecFile} (hd : Denotes text sp)
    (p : Nat → Pos sp.In sp.Out) (j : Nat → Nat) (hp : sp.game.CoopWins (p 0)) (hj0 : j 0 < coopGoals sp) (hj : ∀ n, j n < 2 ^ R.counterPre.length)
    (hrun : ∀ n, Executes ge sp R (coopGoals sp) (p n) (p (n + 1)) (j n) (j (n + 1))) (henv : ∀ n, sp.game.safetyEnv (p n) (p (n + 1)).1) :
    (∀ n, sp.game.safetySys (p n) (p (n + 1))) ∧ sp.game.Live p := by
  have hnb := (C77_never_blocks h hd).2.2.2
  have hlt : ∀ n, j n < coopGoals sp := by
    intro n
    induction n with
    | zero => exact hj0
    | succ n ih => exact (hnb _ _ _ _ ih (hj (n + 1)) (hrun n)).2.2.1
  refine ⟨fun n => (hnb _ _ _ _ (hlt n) (hj (n + 1)) (hrun n)).1, ?_⟩
  obtain ⟨ds, F, hn, dump, ts, rfl, hR, hf, hw, hlen, hZ⟩ := runSymbolicCoop_produced h hd
  rw [← hlen] at hlt hrun
  have := hR.live hf.family p j ((hZ _).mpr hp) hlt hrun henv
  refine (padGame_live _ _).mp fun ha G hG => ?_
  exact this ha G (coopGuarantees_mem hG)

/-- **C77**: from every such position and every goal number, the strategy has an infinite run on which the environment obeys its safety assumptions and fulfils all its
liveness assumptions (and on which all guarantees are fulfilled): at no time does the strategy keep the environment from fulfilling its assumptions for good. -/
theorem C77_assumptions_can_be_fulfilled {robotics ge : Bool} {cap : Nat} {order : List Char → Bool} {fuel : Nat} {text : List Char}
    {R : SymbolicStrategy B} (h : runSymbolicCoop B robotics ge cap order fuel text = .strategy R) {sp : SpecFile} (hd : Denotes text sp)
    (s : Pos sp.In sp.Out) (hs : sp.game.CoopWins s) (j : Nat) (hj : j < coopGoals sp) :
    ∃ (p : Nat → Pos sp.In sp.Out) (q : Nat → Nat), p 0 = s ∧ q 0 = j ∧ (∀ n, q n < coopGoals sp) ∧
      (∀ n, Executes ge sp R (coopGoals sp) (p n) (p (n + 1)) (q n) (q (n + 1))) ∧
      (∀ n, sp.game.safetyEnv (p n) (p (n + 1)).1) ∧
      (∀ a ∈ sp.game.assumptions, InfOften a p) ∧ (∀ b ∈ sp.game.guarantees, InfOften b p) := by
  obtain ⟨ds, F, hn, dump, ts, rfl, hR, hf, hw, hlen, hZ⟩ := runSymbolicCoop_produced h hd
  rw [← hlen] at hj ⊢
  have hbits := hR.readable.bits
  obtain ⟨r, h0, hP, hstep, hsafe, hinf⟩ := cycle_run (g := padGame (specOf ds F).game) hf rfl
    (fun x : Pos (specOf ds F).In (specOf ds F).Out × Nat => x.1 ∈ nuZc (padGame (specOf ds F).game) ∧
      x.2 < (coopGame (padGame (specOf ds F).game) ts).guarantees.length)
    (fun x y => Executes ge (specOf ds F) R (coopGame (padGame (specOf ds F).game) ts).guarantees.length x.1 y.1 x.2 y.2)
    (fun x => x.1) (fun x => x.2) (fun x hx => hx.2) (fun x hx => hx.1)
    (fun x hx i hi => by
      obtain ⟨o, j', hj', he⟩ := hR.total hf.family hx.1 hx.2 hi
      have hst := (hR.executes_iff hx.2 (lt_trans hj' hbits)).mp he
      refine ⟨((i, o), j'), ⟨(hR.step hf.family hx.2 (lt_trans hj' hbits) he).2.1, hj'⟩, he, rfl, hst.1, hst.2.2, fun hg => ?_⟩
      have hlt := hx.2
      refine ⟨1, Nat.le_refl 1, by omega, hst.2.1 hg, ?_⟩
      intro l hl
      have : l = 0 := by omega
      subst this
      rw [Nat.add_zero, Nat.mod_eq_of_lt hlt]
      exact hg) (s, j) ⟨(hZ s).mpr hs, hj⟩
  refine ⟨fun n => (r n).1, fun n => (r n).2, by simp only [h0], by simp only [h0], fun n => (hP n).2, hstep, hsafe, ?_,
    fun G hG => hinf G (coopGuarantees_mem (padGame_mem_guarantees _ hG))⟩
  refine (padGame_assumed (specOf ds F).game _).mp fun A hA => ?_
  obtain ⟨G, hG, hGA⟩ := hf.inside A hA
  intro n
  obtain ⟨m, hm, hG'⟩ := hinf G hG n
  refine ⟨m, hm, hGA _ _ (hP m).1 (hP (m + 1)).1 ?_ hG'⟩
  obtain ⟨d, hd, hd'⟩ := strat_mem ((hR.executes_iff (hP m).2 (lt_trans (hP (m + 1)).2 hbits)).mp (hstep m)).1
  exact ⟨hf.nd _ _ (List.getElem?_eq_getElem (hP m).2) d hd _ _ hd', hsafe m⟩

/-- The hypotheses hold for the file `sharingText` (`Props/Cooperative.lean`): a strategy is written … -/
example (ge : Bool) : ∃ R sp, runSymbolicCoop ROBDD false ge 1000 (fun _ => true) 20 sharingText = .strategy R ∧ Denotes sharingText sp := by
  obtain ⟨sp, h⟩ := runExplicitCoop_denotes sharingText_run
  obtain ⟨R, hR⟩ := exists_of_written (o := runSymbolicCoop ROBDD false ge 1000 (fun _ => true) 20 sharingText) (by cases ge <;> rfl)
  exact ⟨R, sp, hR, h⟩

/-- … and none for `selfishText`, whose specification is realizable, but not with a cooperative strategy. -/
example : runSymbolicCoop ROBDD false true 1000 (fun _ => true) 20 selfishText = .none (.result false) := by rfl

/-- The header of the strategy for `sharingText`. -/
example : (written (runSymbolicCoop ROBDD false true 1000 (fun _ => true) 20 sharingText)).map (fun w => (w.1, w.2.1, w.2.2.2.1)) =
    some ([4, 6], [5, 7], [txt!"r", txt!"r'", txt!"g", txt!"g'", txt!"_jx_b0", txt!"_jx_b0'", txt!"_jx_b1", txt!"_jx_b1'"]) := by rfl

/-! ### Fast and slow outputs -/

theorem runFSSymbolic_sem {cap : Nat} {order : List Char → Bool} {text : List Char} {tab : VarTable} {c : Ctx B}
    (h : fsInit cap order text = .ok (tab, c)) {sp : SpecFile} {slow : List Word} (hd : FSDenotes text sp slow) (robotics ge : Bool)
    (fuel : Nat) (hfuel : Nat.card (Pos sp.In sp.Out) < fuel) :
    ∃ (ds : Decls) (F F' : Section → List Fml) (hn : (tableOf ds).names.Nodup) (dump : Dump (T (specOf ds F).In (specOf ds F).Out))
      (R : SymbolicStrategy B), sp = specOf ds F ∧ (specOf ds F').game = (specOf ds F).fsGame slow ∧
      FromGame ge F hn (padGame ((specOf ds F).fsGame slow)) dump R ∧
      Family (padGame ((specOf ds F).fsGame slow)) (nuZ (padGame ((specOf ds F).fsGame slow))) (entries dump) ∧
      (∀ s, s ∈ nuZ (padGame ((specOf ds F).fsGame slow)) ↔ ((specOf ds F).fsGame slow).SysWins s) ∧
      (FSWins robotics (specOf ds F) slow → runFSSymbolic B robotics ge cap order fuel text = .strategy R) ∧
      (¬ FSWins robotics (specOf ds F) slow → runFSSymbolic B robotics ge cap order fuel text = .none (.result false)) := by
  obtain ⟨ds, F, F', hn, v, dump, rfl, hg, ht, hctx, hb, hv1, hv2, hfam, hZ⟩ := checkedFS h hd robotics fuel hfuel
  have e : extractSymbolic ge tab c (Dump.map ((tableLayout ds hn).enc B) dump) =
      extractSymbolic ge ⟨(tableOf ds).names, fsTypes ds fun x => decide (x ∈ slow)⟩
        ((gameCtx (padGame (specOf ds F').game)).map ((tableLayout ds hn).enc B)) (Dump.map ((tableLayout ds hn).enc B) dump) := by
    rw [← hctx, ← ht]; rfl
  have hR : FromGame ge F' hn (padGame (specOf ds F').game) dump (extractSymbolic ge tab c (Dump.map ((tableLayout ds hn).enc B) dump)) :=
    ⟨_, rfl, extractSymbolic_fs ge ds _ _ _ e rfl⟩
  refine ⟨ds, F, F', hn, dump, extractSymbolic ge tab c (Dump.map ((tableLayout ds hn).enc B) dump), rfl, hg, ?_, ?_, ?_, ?_, ?_⟩
  · rw [← hg]
    exact ⟨hR.out⟩
  · rw [← hg]; exact hfam
  · rw [← hg]; exact hZ
  · intro hw
    rw [runFSSymbolic, h]
    simp only
    rw [hb, hv1.mpr hw]
  · intro hw
    rw [runFSSymbolic, h]
    simp only
    rw [hb, hv2.mpr hw]
    rfl

theorem runFSSymbolic_more {robotics ge : Bool} {cap : Nat} {order : List Char → Bool} {n n' : Nat} {text : List Char}
    {R : SymbolicStrategy B} (hn : n ≤ n') (h : runFSSymbolic B robotics ge cap order n text = .strategy R) :
    runFSSymbolic B robotics ge cap order n' text = .strategy R := by
  rw [runFSSymbolic] at h ⊢
  cases hi : fsInit (B := B) cap order text with
  | err e => rw [hi] at h; cases h
  | ub => rw [hi] at h; cases h
  | stuck => rw [hi] at h; cases h
  | ok r =>
    obtain ⟨tab, c⟩ := r
    rw [hi] at h
    simp only at h ⊢
    split at h
    · rename_i W D hr
      rw [checkFS_more hn hr]
      exact h
    · cases h

theorem runFSSymbolic_produced {robotics ge : Bool} {cap : Nat} {order : List Char → Bool} {fuel : Nat} {text : List Char}
    {R : SymbolicStrategy B} (h : runFSSymbolic B robotics ge cap order fuel text = .strategy R) {sp : SpecFile} {slow : List Word}
    (hd : FSDenotes text sp slow) :
    ∃ (ds : Decls) (F F' : Section → List Fml) (hn : (tableOf ds).names.Nodup) (dump : Dump (T (specOf ds F).In (specOf ds F).Out)),
      sp = specOf ds F ∧ (specOf ds F').game = (specOf ds F).fsGame slow ∧
      FromGame ge F hn (padGame ((specOf ds F).fsGame slow)) dump R ∧
      Family (padGame ((specOf ds F).fsGame slow)) (nuZ (padGame ((specOf ds F).fsGame slow))) (entries dump) ∧
      (∀ s, s ∈ nuZ (padGame ((specOf ds F).fsGame slow)) ↔ ((specOf ds F).fsGame slow).SysWins s) ∧
      FSWins robotics (specOf ds F) slow ∧ (padGame ((specOf ds F).fsGame slow)).guarantees.length = (specOf ds F).goals := by
  cases hi : fsInit (B := B) cap order text with
  | err e => rw [runFSSymbolic, hi] at h; cases h
  | ub => rw [runFSSymbolic, hi] at h; cases h
  | stuck => rw [runFSSymbolic, hi] at h; cases h
  | ok r =>
    obtain ⟨tab, c⟩ := r
    obtain ⟨ds, F, F', hn, dump, R', rfl, hg, hR, hfam, hZ, h1, h2⟩ := runFSSymbolic_sem hi hd robotics ge
      (fuel + (Nat.card (Pos sp.In sp.Out) + 1)) (by omega)
    have hmore := runFSSymbolic_more (Nat.le_add_right fuel (Nat.card (Pos (specOf ds F).In (specOf ds F).Out) + 1)) h
    by_cases hw : FSWins robotics (specOf ds F) slow
    · rw [h1 hw] at hmore
      cases hmore
      exact ⟨ds, F, F', hn, dump, rfl, hg, hR, hfam, hZ, hw, goals_padGame (specOf ds F)⟩
    · rw [h2 hw] at hmore
      cases hmore

/-- **C78**, termination.  A symbolic strategy is written for exactly those accepted files that are realizable with safe intermediate positions. -/
theorem C78_written {cap : Nat} {order : List Char → Bool} {text : List Char} {tab : VarTable} {c : Ctx B}
    (h : fsInit cap order text = .ok (tab, c)) {sp : SpecFile} {slow : List Word} (hd : FSDenotes text sp slow) (robotics ge : Bool)
    (fuel : Nat) (hfuel : Nat.card (Pos sp.In sp.Out) < fuel) :
    (FSWins robotics sp slow → ∃ R, runFSSymbolic B robotics ge cap order fuel text = .strategy R) ∧
    (¬ FSWins robotics sp slow → runFSSymbolic B robotics ge cap order fuel text = .none (.result false)) := by
  obtain ⟨ds, F, F', hn, dump, R, rfl, _, _, _, _, h1, h2⟩ := runFSSymbolic_sem h hd robotics ge fuel hfuel
  exact ⟨fun hw => ⟨R, h1 hw⟩, h2⟩

/-- **C78**, reading the file. -/
theorem C78_readable {robotics ge : Bool} {cap : Nat} {order : List Char → Bool} {fuel : Nat} {text : List Char}
    {R : SymbolicStrategy B} (h : runFSSymbolic B robotics ge cap order fuel text = .strategy R) {sp : SpecFile} {slow : List Word}
    (hd : FSDenotes text sp slow) : Readable ge sp R sp.goals := by
  obtain ⟨ds, F, F', hn, dump, rfl, _, hR, _, _, _, hlen⟩ := runFSSymbolic_produced h hd
  rw [← hlen]
  exact hR.readable

/-- **C78.** From the winning positions (among them enough initial ones), no allowed input is blocked.  Transitions obey the safety guarantees, pass through safe intermediate
positions and lead to winning positions; the strategy moves on to the next goal exactly if the current one is reached. -/
theorem C78_never_blocks {robotics ge : Bool} {cap : Nat} {order : List Char → Bool} {fuel : Nat} {text : List Char}
    {R : SymbolicStrategy B} (h : runFSSymbolic B robotics ge cap order fuel text = .strategy R) {sp : SpecFile} {slow : List Word}
    (hd : FSDenotes text sp slow) :
    (if robotics then (sp.fsGame slow).RoboticsRealizable else (sp.fsGame slow).Realizable) ∧
    (∀ s j i, (sp.fsGame slow).SysWins s → j < sp.goals → sp.game.safetyEnv s i →
      ∃ o j', j' < sp.goals ∧ Executes ge sp R sp.goals s (i, o) j j') ∧
    (∀ s t j j', j < sp.goals → j' < 2 ^ R.counterPre.length → Executes ge sp R sp.goals s t j j' →
      sp.game.safetySys s t ∧ sp.SafePos (sp.between slow s t) ∧ (sp.fsGame slow).SysWins t ∧ j' < sp.goals ∧
      (sp.Reaches j s t → j' = (j + 1) % sp.goals) ∧ (¬ sp.Reaches j s t → j' = j)) := by
  obtain ⟨ds, F, F', hn, dump, rfl, hg, hR, hfam, hZ, hw, hlen⟩ := runFSSymbolic_produced h hd
  refine ⟨hw, ?_, ?_⟩
  · intro s j i hs hj hi
    rw [← hlen] at hj ⊢
    exact hR.total hfam ((hZ s).mpr hs) hj hi
  · intro s t j j' hj hj' ha
    have e : goalAt (padGame ((specOf ds F).fsGame slow)) j s t ↔ (specOf ds F).Reaches j s t := goalAt_padGame (specOf ds F) hj s t
    rw [← hlen] at hj ha ⊢
    obtain ⟨h1, h2, h3, h4, h5⟩ := hR.step hfam hj hj' ha
    rw [e] at h4 h5
    exact ⟨h1.1, h1.2, (hZ t).mp h2, h3, h4, h5⟩

/-- **C78**: every infinite run of the strategy from a winning position on which the environment obeys its safety assumptions satisfies the safety guarantees, has safe
intermediate positions and satisfies the liveness part of the specification. -/
theorem C78_live {robotics ge : Bool} {cap : Nat} {order : List Char → Bool} {fuel : Nat} {text : List Char}
    {R : SymbolicStrategy B} (h : runFSSymbolic B robotics ge cap order fuel text = .strategy R) {sp : SpecFile} {slow : List Word}
    (hd : FSDenotes text sp slow) (p : Nat → Pos sp.In sp.Out) (j : Nat → Nat) (hp : (sp.fsGame slow).SysWins (p 0)) (hj0 : j 0 < sp.goals)
    (hj : ∀ n, j n < 2 ^ R.counterPre.length) (hrun : ∀ n, Executes ge sp R sp.goals (p n) (p (n + 1)) (j n) (j (n + 1)))
    (henv : ∀ n, sp.game.safetyEnv (p n) (p (n + 1)).1) :
    (∀ n, sp.game.safetySys (p n) (p (n + 1)) ∧ sp.SafePos (sp.between slow (p n) (p (n + 1)))) ∧ sp.game.Live p := by
  have hnb := (C78_never_blocks h hd).2.2
  have hlt : ∀ n, j n < sp.goals := by
    intro n
    induction n with
    | zero => exact hj0
    | succ n ih => exact (hnb _ _ _ _ ih (hj (n + 1)) (hrun n)).2.2.2.1
  refine ⟨fun n => ⟨(hnb _ _ _ _ (hlt n) (hj (n + 1)) (hrun n)).1, (hnb _ _ _ _ (hlt n) (hj (n + 1)) (hrun n)).2.1⟩, ?_⟩
  obtain ⟨ds, F, F', hn, dump, rfl, hg, hR, hfam, hZ, hw, hlen⟩ := runFSSymbolic_produced h hd
  rw [← hlen] at hlt hrun
  have := hR.live hfam p j ((hZ _).mpr hp) hlt hrun henv
  exact (padGame_live ((specOf ds F).fsGame slow) p).mp this

/-- The hypotheses hold for the file of a robot with a camera (`Props/FastSlow.lean`): a strategy is written … -/
theorem camera_symbolic (ge : Bool) : ∃ fuel R, runFSSymbolic ROBDD false ge 1000 (fun _ => true) fuel cameraText = .strategy R := by
  obtain ⟨⟨tab, c⟩, hi⟩ := C55_proper_accepted (B := ROBDD) 1000 (fun _ => true) cameraText camera_proper
  exact ⟨_, (C78_written hi camera_denotes false ge _ (Nat.lt_succ_self _)).1 camera_realizable⟩

/-- … and there is a position from which it can be executed. -/
example (ge : Bool) : ∃ R s, (camera.fsGame [txt!"c"]).SysWins s ∧
    ∀ i, ∃ o j', Executes (B := ROBDD) ge camera R camera.goals s (i, o) 0 j' := by
  obtain ⟨fuel, R, h⟩ := camera_symbolic ge
  obtain ⟨h1, h2, _⟩ := C78_never_blocks h camera_denotes
  obtain ⟨o, _, ho⟩ := h1 (fun _ => false) (by intro φ hφ; cases hφ)
  refine ⟨R, _, ho, fun i => ?_⟩
  obtain ⟨o', j', _, he⟩ := h2 _ 0 i ho (by decide) (by intro φ hφ; cases hφ)
  exact ⟨o', j', he⟩

end Slugs.Props
