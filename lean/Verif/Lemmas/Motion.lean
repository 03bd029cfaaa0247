import Verif.Lemmas.Interleave
import Verif.Model.Motion

/-!
Non-deterministic motion: the game is that in which the environment chooses, together with the next input, how the robot would react to every choice of the
controls.
-/

namespace Slugs.Model

open Slugs.Spec

section
variable {I Y : Type}

theorem mergeOut_controls {S : Y → Prop} {o o' : Y → Bool} (h : SameControls S o o') : mergeOut S o' o = o' := by
  funext y
  by_cases hy : S y
  · simp [mergeOut, hy]
  · simp [mergeOut, hy, h y hy]

theorem sameControls_merge (S : Y → Prop) (b o : Y → Bool) : SameControls S o (mergeOut S b o) := by
  intro y hy
  simp [mergeOut, hy]

/-- With the controls of `o`, the robot can move. -/
def CanMove (S : Y → Prop) (rob : (Y → Bool) → (Y → Bool) → Prop) (x o : Y → Bool) : Prop := ∃ o', SameControls S o o' ∧ rob x o'

/-- Inputs together with the reaction of the robot. -/
abbrev Reaction (I Y : Type) := I × ((Y → Bool) → (Y → Bool))

/-- The actual position. -/
noncomputable def actualM (S : Y → Prop) (p : Pos (Reaction I Y) (Y → Bool)) : Pos I (Y → Bool) := (p.1.1, mergeOut S (p.1.2 p.2) p.2)

/-- The game in which the environment chooses the reaction of the robot. -/
noncomputable def reactGame (S : Y → Prop) (rob : (Y → Bool) → (Y → Bool) → Prop) (g : Game I (Y → Bool)) : Game (Reaction I Y) (Y → Bool) where
  initEnv _ := True
  initSys _ := True
  safetyEnv p F := g.safetyEnv (actualM S p) F.1 ∧ ∀ o, CanMove S rob (actualM S p).2 o → rob (actualM S p).2 (mergeOut S (F.2 o) o)
  safetySys p q := CanMove S rob (actualM S p).2 q.2 ∧ g.safetySys (actualM S p) (actualM S q)
  assumptions := (g.assumptions ++ [MovesIfPossible S rob]).map fun (a : T I (Y → Bool)) p q => a (actualM S p) (actualM S q)
  guarantees := g.guarantees.map fun a p q => a (actualM S p) (actualM S q)

/-- The system can force a transition in `R`. -/
def CoxM (S : Y → Prop) (rob : (Y → Bool) → (Y → Bool) → Prop) (g : Game I (Y → Bool)) (R : T I (Y → Bool)) (s : Pos I (Y → Bool)) : Prop :=
  ∀ i, g.safetyEnv s i → ∃ o, CanMove S rob s.2 o ∧ ∀ o', SameControls S o o' → rob s.2 o' → g.safetySys s (i, o') ∧ R s (i, o')

variable (S : Y → Prop) (rob : (Y → Bool) → (Y → Bool) → Prop) (g : Game I (Y → Bool))

open Classical in
/-- One round. -/
theorem coxM_react (R : T I (Y → Bool)) (p : Pos (Reaction I Y) (Y → Bool)) :
    CoxM S rob g R (actualM S p) ↔ ∀ F, (reactGame S rob g).safetyEnv p F →
      ∃ o, R (actualM S p) (actualM S (F, o)) ∧ (reactGame S rob g).safetySys p (F, o) := by
  constructor
  · rintro h F ⟨hF1, hF2⟩
    obtain ⟨o, h1, h2⟩ := h F.1 hF1
    obtain ⟨h3, h4⟩ := h2 _ (sameControls_merge S (F.2 o) o) (hF2 o h1)
    exact ⟨o, h4, h1, h3⟩
  · intro h i hi
    by_contra hn
    simp only [not_exists, not_and, not_forall] at hn
    choose bad hb1 hb2 hb3 using hn
    let r : (Y → Bool) → (Y → Bool) := fun o => if hc : CanMove S rob (actualM S p).2 o then bad o hc else o
    have hr : ∀ o hc, mergeOut S (r o) o = bad o hc := by
      intro o hc
      simp only [r, dif_pos hc]
      exact mergeOut_controls (hb1 o hc)
    obtain ⟨o, h1, h2, h3⟩ := h (i, r) ⟨hi, fun o hc => by rw [hr o hc]; exact hb2 o hc⟩
    have e : actualM S ((i, r), o) = (i, bad o h2) := by simp only [actualM, hr o h2]
    rw [e] at h1 h3
    exact hb3 o h2 h3 h1

theorem actualM_surj (s : Pos I (Y → Bool)) : actualM S ((s.1, fun _ => s.2), s.2) = s := by
  simp [actualM, mergeOut_self]

/-- Boolean functions about actual positions. -/
noncomputable def reactT (R : T I (Y → Bool)) : T (Reaction I Y) (Y → Bool) := fun p q => R (actualM S p) (actualM S q)

theorem react_hom :
    CtlHom (semMgr I (Y → Bool)) (semMgr (Reaction I Y) (Y → Bool)) (fun R s _ => CoxM S rob g R s)
      (ctlStd (semMgr _ _) (gameCtx (reactGame S rob g))) (reactT S) where
  inj := by
    intro R R' h
    funext s t
    have := congrFun (congrFun h ((s.1, fun _ => s.2), s.2)) ((t.1, fun _ => t.2), t.2)
    simpa only [reactT, actualM_surj] using this
  tt := rfl
  ff := rfl
  and _ _ := rfl
  or _ _ := rfl
  not _ := rfl
  swap _ := rfl
  ctl R := by
    funext p q
    apply propext
    simp only [ctlStd, semMgr, Mgr.imp, gameCtx, reactT]
    rw [coxM_react]
    refine forall_congr' fun F => ?_
    constructor
    · rintro ⟨o, ho⟩ hF
      exact ⟨o, ho.resolve_left (not_not_intro hF)⟩
    · intro h
      by_cases hF : (reactGame S rob g).safetyEnv p F
      · obtain ⟨o, ho⟩ := h hF
        exact ⟨o, .inr ho⟩
      · exact ⟨fun _ => false, .inl hF⟩

/-- The winning positions, in terms of the game with reactions. -/
theorem computeWinningPositionsM_react [Finite I] [Finite Y] (hg : g.guarantees ≠ [])
    (fuel : Nat) (hf : Nat.card (Pos (Reaction I Y) (Y → Bool)) < fuel) :
    ∃ W : T I (Y → Bool), computeWinningPositionsBA (semMgr I (Y → Bool)) (fun R s _ => CoxM S rob g R s) (g.assumptions ++ [MovesIfPossible S rob])
        g.guarantees fuel = some (W, ()) ∧
      ∀ s t, W s t ↔ (reactGame S rob g).SysWins ((s.1, fun _ => s.2), s.2) := by
  have e := computeWinningPositionsBA_hom (react_hom S rob g) (g.assumptions ++ [MovesIfPossible S rob]) g.guarantees fuel
  have e2 := computeWinningPositionsBA_std (semMgr (Reaction I Y) (Y → Bool)) (gameCtx (reactGame S rob g)) fuel
  obtain ⟨dump, h, _⟩ := computeWinningPositions_eq (reactGame S rob g) fuel hf
  rw [h] at e2
  have e3 := e.symm.trans e2
  cases hW : computeWinningPositionsBA (semMgr I (Y → Bool)) (fun R s _ => CoxM S rob g R s) (g.assumptions ++ [MovesIfPossible S rob]) g.guarantees fuel with
  | none => rw [hW] at e3; cases e3
  | some r =>
    obtain ⟨W, ⟨⟩⟩ := r
    rw [hW] at e3
    have e4 : reactT S W = pre (nuZ (reactGame S rob g)) := congrArg Prod.fst (Option.some.inj e3)
    refine ⟨W, rfl, fun s t => ?_⟩
    rw [← Props.nuZ_eq_sysWins (reactGame S rob g) (by simp [reactGame]) (by simpa [reactGame] using hg)]
    have := congrFun (congrFun e4 ((s.1, fun _ => s.2), s.2)) ((t.1, fun _ => t.2), t.2)
    simp only [reactT, actualM_surj] at this
    exact iff_of_eq this

/-! ### Strategies -/

theorem react_live (p : Nat → Pos (Reaction I Y) (Y → Bool)) :
    (reactGame S rob g).Live p ↔
      (InfOften (MovesIfPossible S rob) (fun n => actualM S (p n)) → g.Live (fun n => actualM S (p n))) := by
  simp only [Game.Live, reactGame, List.map_append, List.map_cons, List.map_nil, List.mem_append, List.mem_singleton, or_imp, forall_and, forall_eq,
    List.mem_map, forall_exists_index, and_imp, forall_apply_eq_imp_iff₂]
  constructor
  · intro h h1 h2
    exact h h2 h1
  · intro h h1 h2
    exact h h2 h1

variable {S rob g}

/-- A winning strategy against the robot wins the game with reactions. -/
theorem react_of_wins {p : Pos (Reaction I Y) (Y → Bool)} (hw : MotionWins S rob g (actualM S p)) : (reactGame S rob g).SysWins p := by
  obtain ⟨σ, hs, hl⟩ := hw
  let τ : SysStrategy (Reaction I Y) (Y → Bool) := fun h F => σ (h.map (actualM S)) F.1
  have hh : ∀ h, (reactGame S rob g).SysHist τ p h → MotionHist S rob g σ (actualM S p) (h.map (actualM S)) := by
    intro h hh
    induction hh with
    | start => exact .start
    | @step cur r F _ hF ih =>
      simp only [List.map_cons] at ih ⊢
      refine .step ih hF.1 (sameControls_merge S _ _) ?_
      exact hF.2 _ (hs _ _ _ ih hF.1).1
  refine ⟨τ, fun cur h F hc hF => ?_, fun q hq => ?_⟩
  · have h1 := hh _ hc
    rw [List.map_cons] at h1
    obtain ⟨h2, h3⟩ := hs _ _ _ h1 hF.1
    exact ⟨h2, h3 _ (sameControls_merge S _ _) (hF.2 _ h2)⟩
  · rw [react_live]
    refine hl _ fun n => ?_
    rw [← prefixHist_map]
    exact hh _ (hq n)

open Classical in
/-- A winning strategy of the game with reactions yields one against the robot. -/
theorem wins_of_react {p : Pos (Reaction I Y) (Y → Bool)} (hw : (reactGame S rob g).SysWins p) : MotionWins S rob g (actualM S p) := by
  obtain ⟨τ, h1, h2⟩ := hw
  -- after every history and for every input there are controls such that every move of the robot is the reaction in some choice of the environment that is
  -- answered with these controls
  have key : ∀ (h : History (Reaction I Y) (Y → Bool)) (i : I), ∃ (o : Y → Bool) (G : (Y → Bool) → (Y → Bool) → (Y → Bool)),
      ∀ cur r, h = cur :: r → (reactGame S rob g).SysHist τ p h → g.safetyEnv (actualM S cur) i →
        CanMove S rob (actualM S cur).2 o ∧ ∀ o', SameControls S o o' → rob (actualM S cur).2 o' →
          (reactGame S rob g).safetyEnv cur (i, G o') ∧ τ h (i, G o') = o ∧ mergeOut S (G o' o) o = o' := by
    intro h i
    rcases h with _ | ⟨cur, r⟩
    · exact ⟨fun _ => false, fun _ o => o, by simp⟩
    · by_cases hc : (reactGame S rob g).SysHist τ p (cur :: r) ∧ g.safetyEnv (actualM S cur) i
      · obtain ⟨hc, hi⟩ := hc
        have : ∃ o, CanMove S rob (actualM S cur).2 o ∧ ∀ o', SameControls S o o' → rob (actualM S cur).2 o' →
            ∃ G, (reactGame S rob g).safetyEnv cur (i, G) ∧ τ (cur :: r) (i, G) = o ∧ mergeOut S (G o) o = o' := by
          by_contra hn
          simp only [not_exists, not_and, not_forall] at hn
          choose bad hb1 hb2 hb3 using hn
          let G : (Y → Bool) → (Y → Bool) := fun o => if hm : CanMove S rob (actualM S cur).2 o then bad o hm else o
          have hG : ∀ o hm, mergeOut S (G o) o = bad o hm := by
            intro o hm
            simp only [G, dif_pos hm]
            exact mergeOut_controls (hb1 o hm)
          have hF : (reactGame S rob g).safetyEnv cur (i, G) := ⟨hi, fun o hm => by
            show rob _ (mergeOut S (G o) o)
            rw [hG o hm]; exact hb2 o hm⟩
          have hm := (h1 cur r (i, G) hc hF).1
          exact hb3 _ hm G hF rfl (hG _ hm)
        obtain ⟨o, ho1, ho2⟩ := this
        have hG : ∀ o', ∃ G : (Y → Bool) → (Y → Bool), SameControls S o o' → rob (actualM S cur).2 o' →
            (reactGame S rob g).safetyEnv cur (i, G) ∧ τ (cur :: r) (i, G) = o ∧ mergeOut S (G o) o = o' := by
          intro o'
          by_cases h3 : SameControls S o o' ∧ rob (actualM S cur).2 o'
          · obtain ⟨G, hG⟩ := ho2 o' h3.1 h3.2
            exact ⟨G, fun _ _ => hG⟩
          · exact ⟨fun o => o, fun h4 h5 => absurd ⟨h4, h5⟩ h3⟩
        choose G hG using hG
        refine ⟨o, G, ?_⟩
        rintro cur' r' e _ _
        cases e
        exact ⟨ho1, hG⟩
      · refine ⟨fun _ => false, fun _ o => o, ?_⟩
        rintro cur' r' e h3 h4
        cases e
        exact absurd ⟨h3, h4⟩ hc
  choose c G hcG using key
  -- histories of the game with reactions
  let lift : History I (Y → Bool) → History (Reaction I Y) (Y → Bool) := fun h =>
    List.rec [] (fun q r l => match r with
      | [] => [p]
      | _ :: _ => ((q.1, G l q.1 q.2), τ l (q.1, G l q.1 q.2)) :: l) h
  have hl1 : ∀ q, lift [q] = [p] := fun q => rfl
  have hl2 : ∀ q q' r, lift (q :: q' :: r) =
      ((q.1, G (lift (q' :: r)) q.1 q.2), τ (lift (q' :: r)) (q.1, G (lift (q' :: r)) q.1 q.2)) :: lift (q' :: r) := fun q q' r => rfl
  let σ : SysStrategy I (Y → Bool) := fun h i => c (lift h) i
  have hcons : ∀ {cur : Pos I (Y → Bool)} {r}, (lift (cur :: r)).map (actualM S) = cur :: r →
      ∃ cur' r', lift (cur :: r) = cur' :: r' ∧ actualM S cur' = cur := by
    intro cur r i2
    cases hc : lift (cur :: r) with
    | nil => rw [hc] at i2; cases i2
    | cons c r' =>
      rw [hc] at i2
      exact ⟨c, r', rfl, (List.cons.inj i2).1⟩
  have hstep : ∀ {cur r}, (reactGame S rob g).SysHist τ p (lift (cur :: r)) → (lift (cur :: r)).map (actualM S) = cur :: r → ∀ i o, g.safetyEnv cur i →
      SameControls S (σ (cur :: r) i) o → rob cur.2 o →
      (reactGame S rob g).SysHist τ p (lift ((i, o) :: cur :: r)) ∧ (lift ((i, o) :: cur :: r)).map (actualM S) = (i, o) :: cur :: r ∧
      g.safetySys cur (i, o) := by
    intro cur r i1 i2 i o hi hc hr
    obtain ⟨cur', r', e, ec⟩ := hcons i2
    obtain ⟨_, k2⟩ := hcG (lift (cur :: r)) i cur' r' e i1 (ec ▸ hi)
    obtain ⟨k3, k4, k5⟩ := k2 o hc (ec ▸ hr)
    have ea : actualM S ((i, G (lift (cur :: r)) i o), τ (lift (cur :: r)) (i, G (lift (cur :: r)) i o)) = (i, o) := by
      simp only [actualM]
      rw [k4, k5]
    have i1' := i1
    rw [e] at i1'
    refine ⟨?_, ?_, ?_⟩
    · rw [hl2]
      have := Game.SysHist.step i1' k3
      rwa [← e] at this
    · rw [hl2, List.map_cons, i2, ea]
    · have := (h1 cur' r' _ i1' k3).2
      rw [← e] at this
      rwa [ea, ec] at this
  have hh : ∀ h, MotionHist S rob g σ (actualM S p) h → (reactGame S rob g).SysHist τ p (lift h) ∧ (lift h).map (actualM S) = h := by
    intro h hh
    induction hh with
    | start => exact ⟨.start, rfl⟩
    | step _ hi hc hr ih =>
      obtain ⟨k1, k2, _⟩ := hstep ih.1 ih.2 _ _ hi hc hr
      exact ⟨k1, k2⟩
  refine ⟨σ, ?_, ?_⟩
  · intro cur r i hc hi
    obtain ⟨i1, i2⟩ := hh _ hc
    refine ⟨?_, fun o ho hr => (hstep i1 i2 i o hi ho hr).2.2⟩
    obtain ⟨cur', r', e, ec⟩ := hcons i2
    have := (hcG (lift (cur :: r)) i cur' r' e i1 (ec ▸ hi)).1
    rw [ec] at this
    exact this
  · intro q hq
    -- the play of the game with reactions
    have hp0 : q 0 = actualM S p := by
      have := (hh _ (hq 0)).2
      simp only [prefixHist, hl1, List.map_cons, List.map_nil] at this
      exact (List.cons.inj this).1.symm
    let q' : Nat → Pos (Reaction I Y) (Y → Bool) := fun n => (lift (prefixHist q n)).headD p
    have hpre : ∀ n, prefixHist q' n = lift (prefixHist q n) := by
      intro n
      induction n with
      | zero => rfl
      | succ n ih =>
        have hne : ∃ x r, prefixHist q n = x :: r := by cases n <;> exact ⟨_, _, rfl⟩
        obtain ⟨x, r, e⟩ := hne
        have e2 : ∃ y, lift (prefixHist q (n + 1)) = y :: lift (prefixHist q n) := by
          rw [prefixHist, e, hl2]
          exact ⟨_, rfl⟩
        obtain ⟨y, e2⟩ := e2
        rw [prefixHist, ih, e2]
        show (lift (prefixHist q (n + 1))).headD p :: _ = _
        rw [e2]
        rfl
    have := h2 q' fun n => hpre n ▸ (hh _ (hq n)).1
    rw [react_live] at this
    have e : (fun n => actualM S (q' n)) = q := by
      funext n
      have h3 := (hh _ (hq n)).2
      rw [← hpre, prefixHist_map] at h3
      cases n with
      | zero => exact (List.cons.inj h3).1
      | succ n => exact (List.cons.inj h3).1
    rwa [e] at this

theorem react_iff (s : Pos I (Y → Bool)) : (reactGame S rob g).SysWins ((s.1, fun _ => s.2), s.2) ↔ MotionWins S rob g s := by
  constructor
  · intro h
    have := wins_of_react h
    rwa [actualM_surj] at this
  · intro h
    refine react_of_wins ?_
    rwa [actualM_surj]

variable (S rob g)

/-- The fixed point that `checkMotion` computes is the set of positions from which the system wins. -/
theorem computeWinningPositionsM_sem [Finite I] [Finite Y] (hg : g.guarantees ≠ [])
    (fuel : Nat) (hf : Nat.card (Pos (Reaction I Y) (Y → Bool)) < fuel) :
    computeWinningPositionsBA (semMgr I (Y → Bool)) (fun R s _ => CoxM S rob g R s) (g.assumptions ++ [MovesIfPossible S rob])
        g.guarantees fuel = some (fun s _ => MotionWins S rob g s, ()) := by
  obtain ⟨W, h, hW⟩ := computeWinningPositionsM_react S rob g hg fuel hf
  rw [h]
  congr 2
  funext s t
  apply propext
  rw [hW, react_iff]

end

end Slugs.Model
