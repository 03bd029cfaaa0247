import Verif.Model.Sem
import Mathlib.Logic.Function.Basic

/-!
The algorithms commute with injective maps that respect the BF operations.
-/

namespace Slugs.Model

variable {A B : Type} [DecidableEq A] [DecidableEq B]

/-- `h` respects all operations and is injective. -/
structure MgrHom (M : Mgr A) (N : Mgr B) (h : A → B) : Prop where
  inj : Function.Injective h
  tt : N.tt = h M.tt
  ff : N.ff = h M.ff
  and : ∀ a b, N.and (h a) (h b) = h (M.and a b)
  or : ∀ a b, N.or (h a) (h b) = h (M.or a b)
  not : ∀ a, N.not (h a) = h (M.not a)
  swap : ∀ a, N.swap (h a) = h (M.swap a)
  exPostOutput : ∀ a, N.exPostOutput (h a) = h (M.exPostOutput a)
  exPostInput : ∀ a, N.exPostInput (h a) = h (M.exPostInput a)
  exPost : ∀ a, N.exPost (h a) = h (M.exPost a)
  exPre : ∀ a, N.exPre (h a) = h (M.exPre a)
  exPreOutput : ∀ a, N.exPreOutput (h a) = h (M.exPreOutput a)
  exPreInput : ∀ a, N.exPreInput (h a) = h (M.exPreInput a)
  allPostInput : ∀ a, N.allPostInput (h a) = h (M.allPostInput a)
  allPostOutput : ∀ a, N.allPostOutput (h a) = h (M.allPostOutput a)
  allPreInput : ∀ a, N.allPreInput (h a) = h (M.allPreInput a)
  allPreOutput : ∀ a, N.allPreOutput (h a) = h (M.allPreOutput a)

/-- Mapping a context. -/
def Ctx.map (h : A → B) (c : Ctx A) : Ctx B where
  livenessAssumptions := c.livenessAssumptions.map h
  livenessGuarantees := c.livenessGuarantees.map h
  initEnv := h c.initEnv
  initSys := h c.initSys
  safetyEnv := h c.safetyEnv
  safetySys := h c.safetySys

/-- Mapping the dumping data. -/
def Dump.map (h : A → B) (d : Dump A) : Dump B := List.map (fun p => (p.1, h p.2)) d

/-- Mapping the table of recycled fixed points. -/
def Recycled.map (h : A → B) (r : Recycled A) : Recycled B := fun j i => (r j i).map h

omit [DecidableEq A] [DecidableEq B] in
theorem MgrHom.imp {M : Mgr A} {N : Mgr B} {h : A → B} (H : MgrHom M N h) (a b : A) :
    N.imp (h a) (h b) = h (M.imp a b) := by
  rw [Mgr.imp, Mgr.imp, H.not, H.or]

theorem fixLoop_hom {σ τ : Type} {h : A → B} (hi : Function.Injective h) {g : σ → τ}
    {step : A → σ → Option (A × σ)} {step' : B → τ → Option (B × τ)}
    (hs : ∀ x s, step' (h x) (g s) = (step x s).map (Prod.map h g)) :
    ∀ (n : Nat) (x : A) (s : σ), fixLoop step' n (h x) (g s) = (fixLoop step n x s).map (Prod.map h g) := by
  intro n
  induction n with
  | zero => intro x s; rfl
  | succ n ih =>
    intro x s
    rw [fixLoop, fixLoop, hs]
    cases hx : step x s with
    | none => rfl
    | some r =>
      obtain ⟨y, t⟩ := r
      simp only [Option.map_some, Prod.map_apply]
      by_cases hxy : x = y
      · simp [hxy]
      · rw [if_neg hxy, if_neg (fun e => hxy (hi e)), ih]

section
variable {M : Mgr A} {N : Mgr B} {h : A → B} (H : MgrHom M N h)
include H

theorem nu0Loop_hom (c : Ctx A) (fuel : Nat) (lt a : A) :
    nu0Loop N (c.map h) fuel (h lt) (h a) = (nu0Loop M c fuel lt a).map (Prod.map h h) := by
  rw [nu0Loop, nu0Loop, H.tt]
  refine fixLoop_hom H.inj (fun x s => ?_) fuel M.tt M.tt
  simp [nu0Step, Ctx.map, H.swap, H.not, H.and, H.or, H.imp, H.exPostOutput, H.allPostInput]

theorem assumptionLoop_hom (c : Ctx A) (fuel j : Nat) (lt : A) : ∀ (as : List A) (good : A) (d : Dump A),
    assumptionLoop N (c.map h) fuel j (h lt) (as.map h) (h good, d.map h) =
      (assumptionLoop M c fuel j lt as (good, d)).map (Prod.map h (Dump.map h)) := by
  intro as
  induction as with
  | nil => intro good d; rfl
  | cons a as ih =>
    intro good d
    simp only [List.map_cons, assumptionLoop]
    rw [nu0Loop_hom H]
    cases nu0Loop M c fuel lt a with
    | none => rfl
    | some r =>
      obtain ⟨nu0, fp⟩ := r
      simp only [Option.map_some, Prod.map_apply, H.or]
      rw [← ih]
      simp [Dump.map]

theorem mu1Loop_hom (c : Ctx A) (fuel j : Nat) (nu2 goal : A) (d : Dump A) :
    mu1Loop N (c.map h) fuel j (h nu2) (h goal) (d.map h) =
      (mu1Loop M c fuel j nu2 goal d).map (Prod.map h (Prod.map h (Dump.map h))) := by
  rw [mu1Loop, mu1Loop, H.ff, H.swap, H.and]
  refine fixLoop_hom H.inj (g := Prod.map h (Dump.map h)) (fun x s => ?_) fuel M.ff (_, d)
  obtain ⟨lt, d⟩ := s
  simp only [mu1Step, Prod.map_apply, H.swap, H.or]
  rw [show (c.map h).livenessAssumptions = c.livenessAssumptions.map h from rfl, assumptionLoop_hom H]
  cases assumptionLoop M c fuel j (M.or lt (M.swap x)) c.livenessAssumptions (x, d) <;> rfl

theorem goalLoop_hom (c : Ctx A) (fuel : Nat) (nu2 : A) : ∀ (gs : List A) (j : Nat) (next : A) (d : Dump A),
    goalLoop N (c.map h) fuel (h nu2) j (gs.map h) (h next, d.map h) =
      (goalLoop M c fuel nu2 j gs (next, d)).map (Prod.map h (Dump.map h)) := by
  intro gs
  induction gs with
  | nil => intro j next d; rfl
  | cons g gs ih =>
    intro j next d
    simp only [List.map_cons, goalLoop]
    rw [mu1Loop_hom H]
    cases mu1Loop M c fuel j nu2 g d with
    | none => rfl
    | some r =>
      obtain ⟨mu1, lt, d'⟩ := r
      simp only [Option.map_some, Prod.map_apply, H.and]
      rw [← ih]

theorem computeWinningPositions_hom (c : Ctx A) (fuel : Nat) :
    computeWinningPositions N (c.map h) fuel = (computeWinningPositions M c fuel).map (Prod.map h (Dump.map h)) := by
  rw [computeWinningPositions, computeWinningPositions, H.tt]
  refine fixLoop_hom H.inj (g := Dump.map h) (fun x s => ?_) fuel M.tt []
  rw [nu2Step, nu2Step, H.tt]
  exact goalLoop_hom H c fuel x c.livenessGuarantees 0 M.tt []

omit H in
omit [DecidableEq A] [DecidableEq B] in
theorem Recycled.map_set (r : Recycled A) (j i : Nat) (b : A) :
    Recycled.set (r.map h) j i (h b) = Recycled.map h (r.set j i b) := by
  funext j' i'
  simp only [Recycled.set, Recycled.map]
  split <;> rfl

theorem assumptionLoopRecycling_hom (c : Ctx A) (fuel j : Nat) (nu2 lt : A) (recycle : Bool) :
    ∀ (as : List A) (i : Nat) (good : A) (d : Dump A) (r : Recycled A),
    assumptionLoopRecycling N (c.map h) fuel j (h nu2) (h lt) recycle i (as.map h) (h good, (d.map h, r.map h)) =
      (assumptionLoopRecycling M c fuel j nu2 lt recycle i as (good, (d, r))).map
        (Prod.map h (Prod.map (Dump.map h) (Recycled.map h))) := by
  intro as
  induction as with
  | nil => intro i good d r; rfl
  | cons a as ih =>
    intro i good d r
    simp only [List.map_cons, assumptionLoopRecycling]
    have hst : recycledStart N recycle (r.map h j i) (h nu2) = (recycledStart M recycle (r j i) nu2).map h := by
      cases recycle
      · rfl
      · simp only [recycledStart, Recycled.map, if_pos]
        cases r j i with
        | none => rfl
        | some b => simp [H.and]
    rw [hst]
    cases recycledStart M recycle (r j i) nu2 with
    | none => rfl
    | some start =>
      simp only [Option.map_some]
      have e := fixLoop_hom H.inj (g := h) (step := nu0Step M c lt a) (step' := nu0Step N (c.map h) (h lt) (h a))
        (fun x s => by simp [nu0Step, Ctx.map, H.swap, H.not, H.and, H.or, H.imp, H.exPostOutput, H.allPostInput])
        fuel start M.tt
      rw [H.tt, e]
      cases fixLoop (nu0Step M c lt a) fuel start M.tt with
      | none => rfl
      | some q =>
        obtain ⟨nu0, fp⟩ := q
        simp only [Option.map_some, Prod.map_apply, H.or, Recycled.map_set]
        rw [← ih]
        simp [Dump.map]

theorem mu1LoopRecycling_hom (c : Ctx A) (fuel j : Nat) (nu2 : A) (first : Bool) (goal : A) (d : Dump A) (r : Recycled A) :
    mu1LoopRecycling N (c.map h) fuel j (h nu2) first (h goal) (d.map h) (r.map h) =
      (mu1LoopRecycling M c fuel j nu2 first goal d r).map
        (Prod.map h (Prod.map h (Prod.map (Dump.map h) (Prod.map (Recycled.map h) id)))) := by
  rw [mu1LoopRecycling, mu1LoopRecycling, H.ff, H.swap, H.and]
  refine fixLoop_hom H.inj (g := Prod.map h (Prod.map (Dump.map h) (Prod.map (Recycled.map h) id))) (fun x s => ?_) fuel M.ff
    (_, (d, (r, true)))
  obtain ⟨lt, d, r, fm⟩ := s
  simp only [mu1StepRecycling, Prod.map_apply, H.swap, H.or, id]
  rw [show (c.map h).livenessAssumptions = c.livenessAssumptions.map h from rfl, assumptionLoopRecycling_hom H]
  cases assumptionLoopRecycling M c fuel j nu2 (M.or lt (M.swap x)) (fm && !first) 0 c.livenessAssumptions (x, (d, r)) <;> rfl

theorem goalLoopRecycling_hom (c : Ctx A) (fuel : Nat) (nu2 : A) (first : Bool) :
    ∀ (gs : List A) (j : Nat) (next : A) (d : Dump A) (r : Recycled A),
    goalLoopRecycling N (c.map h) fuel (h nu2) first j (gs.map h) (h next, (d.map h, r.map h)) =
      (goalLoopRecycling M c fuel nu2 first j gs (next, (d, r))).map
        (Prod.map h (Prod.map (Dump.map h) (Recycled.map h))) := by
  intro gs
  induction gs with
  | nil => intro j next d r; rfl
  | cons g gs ih =>
    intro j next d r
    simp only [List.map_cons, goalLoopRecycling]
    rw [mu1LoopRecycling_hom H]
    cases mu1LoopRecycling M c fuel j nu2 first g d r with
    | none => rfl
    | some q =>
      obtain ⟨mu1, lt, d', r', fm⟩ := q
      simp only [Option.map_some, Prod.map_apply, H.and]
      rw [← ih]

theorem computeWinningPositionsRecycling_hom (c : Ctx A) (fuel : Nat) :
    computeWinningPositionsRecycling N (c.map h) fuel =
      (computeWinningPositionsRecycling M c fuel).map (Prod.map h (Dump.map h)) := by
  rw [computeWinningPositionsRecycling, computeWinningPositionsRecycling, H.tt]
  have e := fixLoop_hom H.inj (g := Prod.map (Dump.map h) (Prod.map (Recycled.map h) id))
    (step := nu2StepRecycling M c fuel) (step' := nu2StepRecycling N (c.map h) fuel) (fun x s => by
      obtain ⟨d, r, f⟩ := s
      rw [nu2StepRecycling, nu2StepRecycling, H.tt]
      have e := goalLoopRecycling_hom H c fuel x f c.livenessGuarantees 0 M.tt [] r
      simp only [Prod.map_apply, id]
      rw [show (c.map h).livenessGuarantees = c.livenessGuarantees.map h from rfl, show ([] : Dump B) = Dump.map h [] from rfl, e]
      cases goalLoopRecycling M c fuel x f 0 c.livenessGuarantees (M.tt, ([], r)) <;> rfl)
    fuel M.tt ([], (fun _ _ => none, true))
  rw [show (([], (fun _ _ => none, true)) : Dump B × (Recycled B × Bool)) =
    Prod.map (Dump.map h) (Prod.map (Recycled.map h) id) ([], (fun _ _ => none, true)) from rfl, e]
  cases fixLoop (nu2StepRecycling M c fuel) fuel M.tt ([], (fun _ _ => none, true)) <;> rfl

theorem mu1LoopBias_hom (c : Ctx A) (fuel j : Nat) (nu2 goal : A) (d : Dump A) :
    mu1LoopBias N (c.map h) fuel j (h nu2) (h goal) (d.map h) =
      (mu1LoopBias M c fuel j nu2 goal d).map (Prod.map h (Prod.map h (Dump.map h))) := by
  rw [mu1LoopBias, mu1LoopBias, H.ff, H.swap, H.and]
  refine fixLoop_hom H.inj (g := Prod.map h (Dump.map h)) (fun x s => ?_) fuel M.ff (_, d)
  obtain ⟨lt, d⟩ := s
  simp only [mu1StepBias, Prod.map_apply, H.swap, H.or]
  have e := fixLoop_hom H.inj (g := Dump.map h) (step := mu1bStep M c j (M.or lt (M.swap x)))
    (step' := mu1bStep N (c.map h) j (h (M.or lt (M.swap x))))
    (fun x s => by simp [mu1bStep, Ctx.map, H.swap, H.and, H.or, H.imp, H.exPostOutput, H.allPostInput, Dump.map]) fuel x d
  rw [e]
  cases fixLoop (mu1bStep M c j (M.or lt (M.swap x))) fuel x d with
  | none => rfl
  | some q =>
    obtain ⟨y, d⟩ := q
    simp only [Option.map_some, Prod.map_apply]
    rw [show (c.map h).livenessAssumptions = c.livenessAssumptions.map h from rfl, assumptionLoop_hom H]
    cases assumptionLoop M c fuel j (M.or lt (M.swap x)) c.livenessAssumptions (y, d) <;> rfl

theorem goalLoopBias_hom (c : Ctx A) (fuel : Nat) (nu2 : A) : ∀ (gs : List A) (j : Nat) (next : A) (d : Dump A),
    goalLoopBias N (c.map h) fuel (h nu2) j (gs.map h) (h next, d.map h) =
      (goalLoopBias M c fuel nu2 j gs (next, d)).map (Prod.map h (Dump.map h)) := by
  intro gs
  induction gs with
  | nil => intro j next d; rfl
  | cons g gs ih =>
    intro j next d
    simp only [List.map_cons, goalLoopBias]
    rw [mu1LoopBias_hom H]
    cases mu1LoopBias M c fuel j nu2 g d with
    | none => rfl
    | some r =>
      obtain ⟨mu1, lt, d'⟩ := r
      simp only [Option.map_some, Prod.map_apply, H.and]
      rw [← ih]

theorem computeWinningPositionsBias_hom (c : Ctx A) (fuel : Nat) :
    computeWinningPositionsBias N (c.map h) fuel =
      (computeWinningPositionsBias M c fuel).map (Prod.map h (Dump.map h)) := by
  rw [computeWinningPositionsBias, computeWinningPositionsBias, H.tt]
  refine fixLoop_hom H.inj (g := Dump.map h) (fun x s => ?_) fuel M.tt []
  rw [nu2StepBias, nu2StepBias, H.tt]
  exact goalLoopBias_hom H c fuel x c.livenessGuarantees 0 M.tt []

theorem solve_hom (alg : Algorithm) (c : Ctx A) (fuel : Nat) :
    solve alg N (c.map h) fuel = (solve alg M c fuel).map (Prod.map h (Dump.map h)) := by
  cases alg
  · exact computeWinningPositions_hom H c fuel
  · exact computeWinningPositionsRecycling_hom H c fuel
  · exact computeWinningPositionsBias_hom H c fuel

theorem verdictOf_hom (r : A) : verdictOf N (h r) = verdictOf M r := by
  rw [verdictOf, verdictOf, H.tt, H.ff]
  simp only [H.inj.eq_iff]

theorem checkRealizability_hom (alg : Algorithm) (c : Ctx A) (fuel : Nat) :
    checkRealizability alg N (c.map h) fuel =
      (checkRealizability alg M c fuel).map (Prod.map id (Prod.map h (Dump.map h))) := by
  rw [checkRealizability, checkRealizability, solve_hom H]
  cases solve alg M c fuel with
  | none => rfl
  | some r =>
    obtain ⟨W, d⟩ := r
    simp only [Option.map_some, Prod.map_apply, Ctx.map, H.and, H.exPreOutput, H.imp, H.allPreInput, verdictOf_hom H, id]

theorem checkRealizabilityRobotics_hom (alg : Algorithm) (c : Ctx A) (fuel : Nat) :
    checkRealizabilityRobotics alg N (c.map h) fuel =
      (checkRealizabilityRobotics alg M c fuel).map (Prod.map id (Prod.map h (Dump.map h))) := by
  rw [checkRealizabilityRobotics, checkRealizabilityRobotics, solve_hom H]
  cases solve alg M c fuel with
  | none => rfl
  | some r =>
    obtain ⟨W, d⟩ := r
    simp only [Option.map_some, Prod.map_apply, Ctx.map, H.and, H.imp, H.allPreInput, H.allPreOutput, verdictOf_hom H, id]

end

end Slugs.Model
