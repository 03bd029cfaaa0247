import Verif.Model.Cooperative
import Verif.Lemmas.ExplicitHom
import Verif.Lemmas.ExplicitFuel

/-! The computation of cooperative strategies commutes with maps that respect the BF operations, and more rounds do not change its outcome. -/

namespace Slugs.Model

variable {A B : Type} [DecidableEq A] [DecidableEq B]

section
variable {M : Mgr A} {N : Mgr B} {h : A → B} (H : MgrHom M N h)
include H

omit [DecidableEq A] [DecidableEq B] in
theorem nonDeadEnd_hom (c : Ctx A) : nonDeadEnd N (c.map h) = h (nonDeadEnd M c) := by
  simp only [nonDeadEnd, Ctx.map, H.exPost, H.swap, H.and]

theorem nu0StepCoop_hom (c : Ctx A) (fuel : Nat) (lt a x : A) (st : A × List A) :
    nu0StepCoop N (c.map h) fuel (h lt) (h a) (h x) (Prod.map h (List.map h) st) =
      (nu0StepCoop M c fuel lt a x st).map (Prod.map h (Prod.map h (List.map h))) := by
  rw [nu0StepCoop, nu0StepCoop, H.ff]
  have e := fixLoop_hom H.inj (g := Prod.map h (List.map h)) (step := muCoopStep M c lt a x)
    (step' := muCoopStep N (c.map h) (h lt) (h a) (h x))
    (fun y s => by
      simp only [muCoopStep, nonDeadEnd_hom H]
      simp [Ctx.map, H.swap, H.not, H.and, H.or, H.exPost])
    fuel M.ff (st.1, [lt])
  rw [show ((Prod.map h (List.map h) st).1, [h lt]) = Prod.map h (List.map h) (st.1, [lt]) from rfl, e]
  cases fixLoop (muCoopStep M c lt a x) fuel M.ff (st.1, [lt]) with
  | none => rfl
  | some r =>
    obtain ⟨y, f, fs⟩ := r
    simp [Ctx.map, H.imp, H.exPostOutput, H.allPostInput]

theorem assumptionLoopCoop_hom (c : Ctx A) (fuel j : Nat) (lt : A) : ∀ (as : List A) (good : A) (d : Dump A),
    assumptionLoopCoop N (c.map h) fuel j (h lt) (as.map h) (h good, d.map h) =
      (assumptionLoopCoop M c fuel j lt as (good, d)).map (Prod.map h (Dump.map h)) := by
  intro as
  induction as with
  | nil => intro good d; rfl
  | cons a as ih =>
    intro good d
    simp only [List.map_cons, assumptionLoopCoop]
    have e := fixLoop_hom H.inj (g := Prod.map h (List.map h)) (nu0StepCoop_hom H c fuel lt a) fuel M.tt (M.tt, [])
    rw [H.tt, show (h M.tt, []) = Prod.map h (List.map h) (M.tt, []) from rfl, e]
    cases fixLoop (nu0StepCoop M c fuel lt a) fuel M.tt (M.tt, []) with
    | none => rfl
    | some r =>
      obtain ⟨nu0, f, fs⟩ := r
      simp only [Option.map_some, Prod.map_apply, H.or]
      rw [← ih]
      simp [Dump.map, H.and, Function.comp_def]

theorem mu1LoopCoop_hom (c : Ctx A) (fuel j : Nat) (nu2 goal : A) (d : Dump A) :
    mu1LoopCoop N (c.map h) fuel j (h nu2) (h goal) (d.map h) =
      (mu1LoopCoop M c fuel j nu2 goal d).map (Prod.map h (Prod.map h (Dump.map h))) := by
  rw [mu1LoopCoop, mu1LoopCoop, H.ff, H.swap, H.and]
  refine fixLoop_hom H.inj (g := Prod.map h (Dump.map h)) (fun x s => ?_) fuel M.ff (_, d)
  obtain ⟨lt, d⟩ := s
  simp only [mu1StepCoop, Prod.map_apply, H.swap, H.or]
  rw [show (c.map h).livenessAssumptions = c.livenessAssumptions.map h from rfl, assumptionLoopCoop_hom H]
  cases assumptionLoopCoop M c fuel j (M.or lt (M.swap x)) c.livenessAssumptions (x, d) <;> rfl

theorem goalLoopCoop_hom (c : Ctx A) (fuel : Nat) (nu2 : A) : ∀ (gs : List A) (j : Nat) (next : A) (d : Dump A),
    goalLoopCoop N (c.map h) fuel (h nu2) j (gs.map h) (h next, d.map h) =
      (goalLoopCoop M c fuel nu2 j gs (next, d)).map (Prod.map h (Dump.map h)) := by
  intro gs
  induction gs with
  | nil => intro j next d; rfl
  | cons g gs ih =>
    intro j next d
    simp only [List.map_cons, goalLoopCoop]
    rw [mu1LoopCoop_hom H]
    cases mu1LoopCoop M c fuel j nu2 g d with
    | none => rfl
    | some r =>
      obtain ⟨mu1, lt, d'⟩ := r
      simp only [Option.map_some, Prod.map_apply, H.and]
      rw [← ih]

theorem towardsLoop_hom (c : Ctx A) (fuel : Nat) (nu2 : A) : ∀ (as : List A) (j : Nat) (next : A) (d : Dump A) (ts : List A),
    towardsLoop N (c.map h) fuel (h nu2) j (as.map h) (h next, (d.map h, ts.map h)) =
      (towardsLoop M c fuel nu2 j as (next, (d, ts))).map (Prod.map h (Prod.map (Dump.map h) (List.map h))) := by
  intro as
  induction as with
  | nil => intro j next d ts; rfl
  | cons a as ih =>
    intro j next d ts
    simp only [List.map_cons, towardsLoop]
    rw [nonDeadEnd_hom H, show (c.map h).safetyEnv = h c.safetyEnv from rfl, H.swap, H.swap, H.and, H.and, H.and, H.and, H.and, H.ff]
    have e := fixLoop_hom H.inj (g := Prod.map h (Dump.map h)) (step := towardsStep M c j next)
      (step' := towardsStep N (c.map h) j (h next))
      (fun y s => by
        simp only [towardsStep, nonDeadEnd_hom H]
        simp [Ctx.map, H.swap, H.and, H.or, H.exPost, Dump.map])
      fuel M.ff (M.and (M.and (M.and (M.and a (nonDeadEnd M c)) next) c.safetyEnv) (M.swap next), d)
    simp only [Prod.map_apply] at e
    rw [e]
    cases fixLoop (towardsStep M c j next) fuel M.ff (M.and (M.and (M.and (M.and a (nonDeadEnd M c)) next) c.safetyEnv) (M.swap next), d) with
    | none => rfl
    | some r =>
      obtain ⟨mu1, good, d'⟩ := r
      simp only [Option.map_some, Prod.map_apply, H.and]
      rw [← ih]
      simp [Dump.map]

omit [DecidableEq A] [DecidableEq B] in
theorem coopGuarantees_hom (c : Ctx A) (ts : List A) :
    coopGuarantees N (c.map h) (ts.map h) = (coopGuarantees M c ts).map h := by
  simp [coopGuarantees, Ctx.map, List.zipWith_map, List.map_zipWith, H.or, H.not]

theorem computeWinningPositionsCoop_hom (c : Ctx A) (fuel : Nat) :
    computeWinningPositionsCoop N (c.map h) fuel =
      (computeWinningPositionsCoop M c fuel).map (Prod.map h (Prod.map (Dump.map h) (Ctx.map h))) := by
  rw [computeWinningPositionsCoop, computeWinningPositionsCoop, H.tt]
  have e := fixLoop_hom H.inj (g := Prod.map (Dump.map h) (List.map h)) (step := nu2StepCoop M c fuel)
    (step' := nu2StepCoop N (c.map h) fuel)
    (fun x s => by
      rw [nu2StepCoop, nu2StepCoop, H.tt, show ([] : Dump B) = Dump.map h [] from rfl,
        show (c.map h).livenessGuarantees = c.livenessGuarantees.map h from rfl, goalLoopCoop_hom H]
      cases goalLoopCoop M c fuel x 0 c.livenessGuarantees (M.tt, []) with
      | none => rfl
      | some r =>
        obtain ⟨next, d⟩ := r
        simp only [Option.map_some, Prod.map_apply]
        have e := towardsLoop_hom H c fuel x c.livenessAssumptions c.livenessGuarantees.length next d []
        rw [List.length_map]
        exact e)
    fuel M.tt ([], [])
  rw [show (([], []) : Dump B × List B) = Prod.map (Dump.map h) (List.map h) ([], []) from rfl, e]
  cases fixLoop (nu2StepCoop M c fuel) fuel M.tt ([], []) with
  | none => rfl
  | some r =>
    obtain ⟨W, d, ts⟩ := r
    simp only [Option.map_some, Prod.map_apply, coopGuarantees_hom H]
    rfl

theorem checkRealizabilityCoop_hom (robotics : Bool) (c : Ctx A) (fuel : Nat) :
    checkRealizabilityCoop robotics N (c.map h) fuel =
      (checkRealizabilityCoop robotics M c fuel).map (Prod.map id (Prod.map h (Prod.map (Dump.map h) (Ctx.map h)))) := by
  rw [checkRealizabilityCoop, checkRealizabilityCoop, computeWinningPositionsCoop_hom H]
  cases computeWinningPositionsCoop M c fuel with
  | none => rfl
  | some r =>
    obtain ⟨W, d⟩ := r
    cases robotics <;>
      simp only [Option.map_some, Prod.map_apply, Ctx.map, H.and, H.imp, H.exPreOutput, H.allPreInput, H.allPreOutput, verdictOf_hom H, id,
        if_true, if_false, Bool.false_eq_true]

end

/-! ### More rounds -/

theorem assumptionLoopCoop_more (M : Mgr B) (c : Ctx B) {n n' : Nat} (hn : n ≤ n') {j : Nat} {live : B} {as : List B}
    {st : B × Dump B} {r : B × Dump B} (h : assumptionLoopCoop M c n j live as st = some r) :
    assumptionLoopCoop M c n' j live as st = some r := by
  induction as generalizing st with
  | nil => exact h
  | cons a as ih =>
    obtain ⟨good, dump⟩ := st
    rw [assumptionLoopCoop] at h ⊢
    cases hs : fixLoop (nu0StepCoop M c n live a) n M.tt (M.tt, []) with
    | none => rw [hs] at h; cases h
    | some q =>
      obtain ⟨x, f⟩ := q
      rw [hs] at h
      have : fixLoop (nu0StepCoop M c n' live a) n' M.tt (M.tt, []) = some (x, f) := by
        refine fixLoop_more (fun x s r hr => ?_) hn hs
        rw [nu0StepCoop] at hr ⊢
        cases hm : fixLoop (muCoopStep M c live a x) n M.ff (s.1, [live]) with
        | none => rw [hm] at hr; cases hr
        | some q => rw [hm] at hr; rw [fixLoop_more (fun _ _ _ h => h) hn hm]; exact hr
      rw [this]
      exact ih h

theorem goalLoopCoop_more (M : Mgr B) (c : Ctx B) {n n' : Nat} (hn : n ≤ n') {nu2 : B} {j : Nat} {goals : List B}
    {st r : B × Dump B} (h : goalLoopCoop M c n nu2 j goals st = some r) : goalLoopCoop M c n' nu2 j goals st = some r := by
  induction goals generalizing j st with
  | nil => exact h
  | cons a as ih =>
    obtain ⟨next, dump⟩ := st
    rw [goalLoopCoop] at h ⊢
    cases hs : mu1LoopCoop M c n j nu2 a dump with
    | none => rw [hs] at h; cases h
    | some q =>
      rw [hs] at h
      have : mu1LoopCoop M c n' j nu2 a dump = some q := by
        refine fixLoop_more (fun x s r hr => ?_) hn hs
        rw [mu1StepCoop] at hr ⊢
        cases hs : assumptionLoopCoop M c n j (M.or s.1 (M.swap x)) c.livenessAssumptions (x, s.2) with
        | none => rw [hs] at hr; cases hr
        | some q => rw [hs] at hr; rw [assumptionLoopCoop_more M c hn hs]; exact hr
      rw [this]
      exact ih h

theorem towardsLoop_more (M : Mgr B) (c : Ctx B) {n n' : Nat} (hn : n ≤ n') {nu2 : B} {j : Nat} {as : List B}
    {st r : B × (Dump B × List B)} (h : towardsLoop M c n nu2 j as st = some r) : towardsLoop M c n' nu2 j as st = some r := by
  induction as generalizing j st with
  | nil => exact h
  | cons a as ih =>
    obtain ⟨next, dump, ts⟩ := st
    rw [towardsLoop] at h ⊢
    cases hs : fixLoop (towardsStep M c j next) n M.ff (M.and (M.and (M.and (M.and a (nonDeadEnd M c)) next) c.safetyEnv) (M.swap next),
        dump) with
    | none => rw [hs] at h; cases h
    | some q =>
      rw [hs] at h
      rw [fixLoop_more (fun _ _ _ h => h) hn hs]
      exact ih h

theorem computeWinningPositionsCoop_more (M : Mgr B) (c : Ctx B) {n n' : Nat} (hn : n ≤ n') {r : B × (Dump B × Ctx B)}
    (h : computeWinningPositionsCoop M c n = some r) : computeWinningPositionsCoop M c n' = some r := by
  rw [computeWinningPositionsCoop] at h ⊢
  cases hs : fixLoop (nu2StepCoop M c n) n M.tt ([], []) with
  | none => rw [hs] at h; cases h
  | some q =>
    rw [hs] at h
    rw [fixLoop_more (step' := nu2StepCoop M c n') (fun x s r hr => ?_) hn hs]
    · exact h
    · rw [nu2StepCoop] at hr ⊢
      cases hg : goalLoopCoop M c n x 0 c.livenessGuarantees (M.tt, []) with
      | none => rw [hg] at hr; cases hr
      | some q =>
        rw [hg] at hr
        rw [goalLoopCoop_more M c hn hg]
        exact towardsLoop_more M c hn hr

theorem checkRealizabilityCoop_more {robotics : Bool} (M : Mgr B) (c : Ctx B) {n n' : Nat} (hn : n ≤ n')
    {r : Verdict × (B × (Dump B × Ctx B))} (h : checkRealizabilityCoop robotics M c n = some r) :
    checkRealizabilityCoop robotics M c n' = some r := by
  rw [checkRealizabilityCoop] at h ⊢
  cases hs : computeWinningPositionsCoop M c n with
  | none => rw [hs] at h; cases h
  | some q => rw [hs] at h; rw [computeWinningPositionsCoop_more M c hn hs]; exact h

theorem runCoop_more [L : BddLib B] {robotics : Bool} {cap : Nat} {order : List Char → Bool} {n n' : Nat} (hn : n ≤ n')
    {text : List Char} (h : runCoop B robotics cap order n text ≠ .running) :
    runCoop B robotics cap order n' text = runCoop B robotics cap order n text := by
  rw [runCoop, runCoop]
  rw [runCoop] at h
  cases hi : initContext (B := B) cap order text with
  | err e => rfl
  | ub => rfl
  | stuck => rfl
  | ok r =>
    obtain ⟨tab, c⟩ := r
    rw [hi] at h
    simp only at h ⊢
    cases hs : checkRealizabilityCoop robotics (bddMgr B tab.types) c n with
    | none => rw [hs] at h; exact absurd rfl h
    | some q => rw [checkRealizabilityCoop_more _ _ hn hs]

theorem runExplicitCoop_more [L : BddLib B] {robotics recovery : Bool} {cap : Nat} {order : List Char → Bool} {n n' : Nat} (hn : n ≤ n')
    {text : List Char} (h : runExplicitCoop B robotics recovery cap order n text ≠ .none .running) :
    runExplicitCoop B robotics recovery cap order n' text = runExplicitCoop B robotics recovery cap order n text := by
  rw [runExplicitCoop, runExplicitCoop]
  rw [runExplicitCoop] at h
  cases hi : initContext (B := B) cap order text with
  | err e => rfl
  | ub => rfl
  | stuck => rfl
  | ok r =>
    obtain ⟨tab, c⟩ := r
    rw [hi] at h
    simp only at h ⊢
    cases hs : checkRealizabilityCoop robotics (bddMgr B tab.types) c n with
    | none => rw [hs] at h; exact absurd rfl h
    | some q =>
      rw [hs] at h
      rw [checkRealizabilityCoop_more _ _ hn hs]
      obtain ⟨v, W, dump, c'⟩ := q
      cases v with
      | realizable =>
        simp only at h ⊢
        cases he : extractStrategy (bddMgr B tab.types) c' (tableVars B tab) false recovery n W dump with
        | none => rw [he] at h; exact absurd rfl h
        | some sts => rw [extractStrategy_more _ _ _ _ _ hn he]
      | unrealizable => rfl
      | internalError => rfl

end Slugs.Model
