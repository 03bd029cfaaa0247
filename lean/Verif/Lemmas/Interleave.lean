import Verif.Model.Interleave
import Verif.Spec.Interleave
import Verif.Lemmas.Hom
import Verif.Lemmas.Fuel
import Verif.Props.Core

/-!
The winning positions with outputs that are set before the input is known: reduction to a game in which the environment answers the values of these outputs.
-/

namespace Slugs.Model

open Slugs.Spec

/-! ### Loops -/

section
variable {A B : Type} [DecidableEq A] [DecidableEq B]

/-- What is needed of a map. -/
structure CtlHom (M : Mgr A) (N : Mgr B) (ctl : A → A) (ctl' : B → B) (h : A → B) : Prop where
  inj : Function.Injective h
  tt : N.tt = h M.tt
  ff : N.ff = h M.ff
  and : ∀ a b, N.and (h a) (h b) = h (M.and a b)
  or : ∀ a b, N.or (h a) (h b) = h (M.or a b)
  not : ∀ a, N.not (h a) = h (M.not a)
  swap : ∀ a, N.swap (h a) = h (M.swap a)
  ctl : ∀ a, ctl' (h a) = h (ctl a)

variable {M : Mgr A} {N : Mgr B} {ctl : A → A} {ctl' : B → B} {h : A → B} (H : CtlHom M N ctl ctl' h)
include H

theorem nu0LoopBA_hom (fuel : Nat) (lt a : A) :
    nu0LoopBA N ctl' fuel (h lt) (h a) = (nu0LoopBA M ctl fuel lt a).map (Prod.map h id) := by
  rw [nu0LoopBA, nu0LoopBA, H.tt]
  refine fixLoop_hom H.inj (g := id) (fun x s => ?_) fuel M.tt ()
  simp [H.swap, H.not, H.and, H.or, H.ctl]

theorem assumptionLoopBA_hom (fuel : Nat) (lt : A) : ∀ (as : List A) (good : A),
    assumptionLoopBA N ctl' fuel (h lt) (as.map h) (h good) = (assumptionLoopBA M ctl fuel lt as good).map h := by
  intro as
  induction as with
  | nil => intro good; rfl
  | cons a as ih =>
    intro good
    simp only [List.map_cons, assumptionLoopBA]
    rw [nu0LoopBA_hom H]
    cases nu0LoopBA M ctl fuel lt a with
    | none => rfl
    | some r =>
      obtain ⟨nu0, fp⟩ := r
      simp only [Option.map_some, Prod.map_apply, H.or]
      rw [← ih]

theorem mu1LoopBA_hom (fuel : Nat) (as : List A) (nu2 goal : A) :
    mu1LoopBA N ctl' fuel (as.map h) (h nu2) (h goal) = (mu1LoopBA M ctl fuel as nu2 goal).map (Prod.map h h) := by
  rw [mu1LoopBA, mu1LoopBA, H.ff, H.swap, H.and]
  refine fixLoop_hom H.inj (g := h) (fun x s => ?_) fuel M.ff _
  simp only [H.swap, H.or]
  rw [assumptionLoopBA_hom H]
  cases assumptionLoopBA M ctl fuel (M.or s (M.swap x)) as x <;> rfl

theorem goalLoopBA_hom (fuel : Nat) (as : List A) (nu2 : A) : ∀ (gs : List A) (next : A),
    goalLoopBA N ctl' fuel (as.map h) (h nu2) (gs.map h) (h next) = (goalLoopBA M ctl fuel as nu2 gs next).map h := by
  intro gs
  induction gs with
  | nil => intro next; rfl
  | cons g gs ih =>
    intro next
    simp only [List.map_cons, goalLoopBA]
    rw [mu1LoopBA_hom H]
    cases mu1LoopBA M ctl fuel as nu2 g with
    | none => rfl
    | some r =>
      obtain ⟨mu1, lt⟩ := r
      simp only [Option.map_some, Prod.map_apply, H.and]
      rw [← ih]

theorem computeWinningPositionsBA_hom (as gs : List A) (fuel : Nat) :
    computeWinningPositionsBA N ctl' (as.map h) (gs.map h) fuel = (computeWinningPositionsBA M ctl as gs fuel).map (Prod.map h id) := by
  rw [computeWinningPositionsBA, computeWinningPositionsBA, H.tt]
  refine fixLoop_hom H.inj (g := id) (fun x s => ?_) fuel M.tt ()
  rw [goalLoopBA_hom H]
  cases goalLoopBA M ctl fuel as x gs M.tt <;> rfl

end

section
variable {B : Type} [DecidableEq B]

/-- The usual enforceable predecessor operator. -/
def ctlStd (M : Mgr B) (c : Ctx B) (foundPaths : B) : B := M.allPostInput (M.exPostOutput (M.imp c.safetyEnv (M.and foundPaths c.safetySys)))

theorem nu0LoopBA_std (M : Mgr B) (c : Ctx B) (fuel : Nat) (lt a : B) :
    nu0LoopBA M (ctlStd M c) fuel lt a = (nu0Loop M c fuel lt a).map (Prod.map id (fun _ => ())) :=
  fixLoop_hom (h := id) Function.injective_id (g := fun _ => ()) (fun _ _ => rfl) fuel M.tt M.tt

theorem assumptionLoopBA_std (M : Mgr B) (c : Ctx B) (fuel j : Nat) (lt : B) : ∀ (as : List B) (good : B) (d : Dump B),
    assumptionLoopBA M (ctlStd M c) fuel lt as good = (assumptionLoop M c fuel j lt as (good, d)).map Prod.fst := by
  intro as
  induction as with
  | nil => intro good d; rfl
  | cons a as ih =>
    intro good d
    simp only [assumptionLoopBA, assumptionLoop]
    rw [nu0LoopBA_std]
    cases nu0Loop M c fuel lt a with
    | none => rfl
    | some r => exact ih _ _

theorem mu1LoopBA_std (M : Mgr B) (c : Ctx B) (fuel j : Nat) (nu2 goal : B) (d : Dump B) :
    mu1LoopBA M (ctlStd M c) fuel c.livenessAssumptions nu2 goal = (mu1Loop M c fuel j nu2 goal d).map (Prod.map id Prod.fst) := by
  refine fixLoop_hom (h := id) Function.injective_id (g := Prod.fst) (fun x s => ?_) fuel M.ff (_, d)
  simp only [mu1Step, id]
  rw [assumptionLoopBA_std M c fuel j _ _ _ s.2]
  cases assumptionLoop M c fuel j (M.or s.1 (M.swap x)) c.livenessAssumptions (x, s.2) <;> rfl

theorem goalLoopBA_std (M : Mgr B) (c : Ctx B) (fuel : Nat) (nu2 : B) : ∀ (gs : List B) (j : Nat) (next : B) (d : Dump B),
    goalLoopBA M (ctlStd M c) fuel c.livenessAssumptions nu2 gs next = (goalLoop M c fuel nu2 j gs (next, d)).map Prod.fst := by
  intro gs
  induction gs with
  | nil => intro j next d; rfl
  | cons g gs ih =>
    intro j next d
    simp only [goalLoopBA, goalLoop]
    rw [mu1LoopBA_std M c fuel j nu2 g d]
    cases mu1Loop M c fuel j nu2 g d with
    | none => rfl
    | some r => exact ih _ _ _

theorem computeWinningPositionsBA_std (M : Mgr B) (c : Ctx B) (fuel : Nat) :
    computeWinningPositionsBA M (ctlStd M c) c.livenessAssumptions c.livenessGuarantees fuel =
      (computeWinningPositions M c fuel).map (Prod.map id (fun _ => ())) := by
  refine fixLoop_hom (h := id) Function.injective_id (g := fun _ => ()) (fun x s => ?_) fuel M.tt []
  rw [nu2Step, id, goalLoopBA_std M c fuel x _ 0 _ []]
  cases goalLoop M c fuel x 0 c.livenessGuarantees (M.tt, []) <;> rfl

/-! More rounds. -/

theorem assumptionLoopBA_more {M : Mgr B} {ctl : B → B} {n n' : Nat} (hn : n ≤ n') {lt : B} {as : List B} {good r : B}
    (h : assumptionLoopBA M ctl n lt as good = some r) : assumptionLoopBA M ctl n' lt as good = some r := by
  induction as generalizing good with
  | nil => exact h
  | cons a as ih =>
    rw [assumptionLoopBA] at h ⊢
    cases hs : nu0LoopBA M ctl n lt a with
    | none => rw [hs] at h; cases h
    | some q =>
      rw [hs] at h
      have : nu0LoopBA M ctl n' lt a = some q := fixLoop_more (fun _ _ _ h => h) hn hs
      rw [this]
      exact ih h

theorem mu1LoopBA_more {M : Mgr B} {ctl : B → B} {n n' : Nat} (hn : n ≤ n') {as : List B} {nu2 goal : B} {r : B × B}
    (h : mu1LoopBA M ctl n as nu2 goal = some r) : mu1LoopBA M ctl n' as nu2 goal = some r := by
  refine fixLoop_more ?_ hn h
  intro x s r hr
  simp only at hr ⊢
  cases hs : assumptionLoopBA M ctl n (M.or s (M.swap x)) as x with
  | none => rw [hs] at hr; cases hr
  | some q => rw [hs] at hr; rw [assumptionLoopBA_more hn hs]; exact hr

theorem goalLoopBA_more {M : Mgr B} {ctl : B → B} {n n' : Nat} (hn : n ≤ n') {as gs : List B} {nu2 next r : B}
    (h : goalLoopBA M ctl n as nu2 gs next = some r) : goalLoopBA M ctl n' as nu2 gs next = some r := by
  induction gs generalizing next with
  | nil => exact h
  | cons a gs ih =>
    rw [goalLoopBA] at h ⊢
    cases hs : mu1LoopBA M ctl n as nu2 a with
    | none => rw [hs] at h; cases h
    | some q =>
      rw [hs] at h
      rw [mu1LoopBA_more hn hs]
      exact ih h

theorem checkRealizabilityBA_more {M : Mgr B} {ctl : B → B} {c : Ctx B} {n n' : Nat} (hn : n ≤ n') {v : Verdict}
    (h : checkRealizabilityBA M ctl c n = some v) : checkRealizabilityBA M ctl c n' = some v := by
  rw [checkRealizabilityBA] at h ⊢
  cases hs : computeWinningPositionsBA M ctl c.livenessAssumptions c.livenessGuarantees n with
  | none => rw [hs] at h; cases h
  | some q =>
    have : computeWinningPositionsBA M ctl c.livenessAssumptions c.livenessGuarantees n' = some q := by
      refine fixLoop_more ?_ hn hs
      intro x s r hr
      cases ht : goalLoopBA M ctl n c.livenessAssumptions x c.livenessGuarantees M.tt with
      | none => rw [ht] at hr; cases hr
      | some q => rw [ht] at hr; rw [goalLoopBA_more hn ht]; exact hr
    rw [this]
    rw [hs] at h
    exact h

end

/-! ### The game in which the environment answers -/

section
variable {I Y : Type}

open Classical in
/-- The values of the outputs in `S` from `b`, the others from `a`. -/
noncomputable def mergeOut (S : Y → Prop) (b a : Y → Bool) : Y → Bool := fun y => if S y then b y else a y

/-- What is said about the outputs in `S`. -/
noncomputable def maskOut (S : Y → Prop) (b : Y → Bool) : Y → Bool := mergeOut S b (fun _ => false)

theorem mergeOut_mask (S : Y → Prop) (b a : Y → Bool) : mergeOut S (maskOut S b) a = mergeOut S b a := by
  funext y; by_cases h : S y <;> simp [mergeOut, maskOut, h]

theorem mergeOut_self (S : Y → Prop) (b : Y → Bool) : mergeOut S b b = b := by
  funext y; simp [mergeOut]

theorem maskOut_merge (S : Y → Prop) (b a : Y → Bool) : maskOut S (mergeOut S b a) = maskOut S b := by
  funext y; by_cases h : S y <;> simp [mergeOut, maskOut, h]

theorem maskOut_mask (S : Y → Prop) (b : Y → Bool) : maskOut S (maskOut S b) = maskOut S b := by
  funext y; by_cases h : S y <;> simp [mergeOut, maskOut, h]

theorem maskOut_eq {S : Y → Prop} {b b' : Y → Bool} : maskOut S b = maskOut S b' ↔ ∀ y, S y → b y = b' y := by
  constructor
  · intro h y hy
    have := congrFun h y
    simpa [maskOut, mergeOut, hy] using this
  · intro h
    funext y
    by_cases hy : S y
    · simp [maskOut, mergeOut, hy, h y hy]
    · simp [maskOut, mergeOut, hy]

theorem mergeOut_of_mask {S : Y → Prop} {b a : Y → Bool} (h : maskOut S b = maskOut S a) : mergeOut S b a = a := by
  funext y
  by_cases hy : S y
  · simp [mergeOut, hy, maskOut_eq.mp h y hy]
  · simp [mergeOut, hy]

/-- The actual position: the input is the answer to the outputs in `S`. -/
noncomputable def actual (S : Y → Prop) (p : Pos ((Y → Bool) → I) (Y → Bool)) : Pos I (Y → Bool) := (p.1 (maskOut S p.2), p.2)

/-- The game in which the environment chooses an answer to the values of the outputs in `S`. -/
noncomputable def answerGame (S : Y → Prop) (g : Game I (Y → Bool)) : Game ((Y → Bool) → I) (Y → Bool) where
  initEnv _ := True
  initSys _ := True
  safetyEnv p F := ∀ b, g.safetyEnv (actual S p) (F b)
  safetySys p q := g.safetySys (actual S p) (actual S q)
  assumptions := g.assumptions.map fun a p q => a (actual S p) (actual S q)
  guarantees := g.guarantees.map fun a p q => a (actual S p) (actual S q)

/-- The system can force a transition in `R` although it has to set the outputs in `S` first. -/
def CoxBA (S : Y → Prop) (g : Game I (Y → Bool)) (R : T I (Y → Bool)) (s : Pos I (Y → Bool)) : Prop :=
  ∃ b, ∀ i, g.safetyEnv s i → ∃ a, g.safetySys s (i, mergeOut S b a) ∧ R s (i, mergeOut S b a)

/-- One round. -/
theorem coxBA_answer (S : Y → Prop) (g : Game I (Y → Bool)) (R : T I (Y → Bool)) (p : Pos ((Y → Bool) → I) (Y → Bool)) :
    CoxBA S g R (actual S p) ↔ ∀ F, (answerGame S g).safetyEnv p F →
      ∃ o, R (actual S p) (actual S (F, o)) ∧ g.safetySys (actual S p) (actual S (F, o)) := by
  constructor
  · rintro ⟨b, hb⟩ F hF
    obtain ⟨a, h1, h2⟩ := hb _ (hF (maskOut S b))
    have e : actual S (F, mergeOut S b a) = (F (maskOut S b), mergeOut S b a) := by simp [actual, maskOut_merge]
    exact ⟨mergeOut S b a, e ▸ h2, e ▸ h1⟩
  · intro h
    by_contra hn
    simp only [CoxBA, not_exists, not_forall] at hn
    choose F hF hno using hn
    obtain ⟨o, h1, h2⟩ := h F hF
    refine hno (maskOut S o) o ?_
    rw [mergeOut_mask, mergeOut_self]
    exact ⟨h2, h1⟩

theorem actual_surj (S : Y → Prop) (s : Pos I (Y → Bool)) : actual S (fun _ => s.1, s.2) = s := rfl

/-- Boolean functions about actual positions. -/
noncomputable def answerT (S : Y → Prop) (R : T I (Y → Bool)) : T ((Y → Bool) → I) (Y → Bool) := fun p q => R (actual S p) (actual S q)

theorem answer_hom (S : Y → Prop) (g : Game I (Y → Bool)) :
    CtlHom (semMgr I (Y → Bool)) (semMgr ((Y → Bool) → I) (Y → Bool)) (fun R s _ => CoxBA S g R s)
      (ctlStd (semMgr _ _) (gameCtx (answerGame S g))) (answerT S) where
  inj := by
    intro R R' h
    funext s t
    have := congrFun (congrFun h (fun _ => s.1, s.2)) (fun _ => t.1, t.2)
    exact this
  tt := rfl
  ff := rfl
  and _ _ := rfl
  or _ _ := rfl
  not _ := rfl
  swap _ := rfl
  ctl R := by
    funext p q
    apply propext
    simp only [ctlStd, semMgr, Mgr.imp, gameCtx, answerT]
    rw [coxBA_answer]
    refine forall_congr' fun F => ?_
    constructor
    · rintro ⟨o, ho⟩ hF
      exact ⟨o, ho.resolve_left (not_not_intro hF)⟩
    · intro h
      by_cases hF : (answerGame S g).safetyEnv p F
      · obtain ⟨o, ho⟩ := h hF
        exact ⟨o, .inr ho⟩
      · exact ⟨fun _ => false, .inl hF⟩

/-- The winning positions of the game with answers. -/
theorem computeWinningPositionsBA_sem [Finite I] [Finite Y] (S : Y → Prop) (g : Game I (Y → Bool)) (ha : g.assumptions ≠ []) (hg : g.guarantees ≠ [])
    (fuel : Nat) (hf : Nat.card (Pos ((Y → Bool) → I) (Y → Bool)) < fuel) :
    ∃ W : T I (Y → Bool), computeWinningPositionsBA (semMgr I (Y → Bool)) (fun R s _ => CoxBA S g R s) g.assumptions g.guarantees fuel = some (W, ()) ∧
      ∀ s t, W s t ↔ (answerGame S g).SysWins (fun _ => s.1, s.2) := by
  have e := computeWinningPositionsBA_hom (answer_hom S g) g.assumptions g.guarantees fuel
  have e2 := computeWinningPositionsBA_std (semMgr ((Y → Bool) → I) (Y → Bool)) (gameCtx (answerGame S g)) fuel
  obtain ⟨dump, h, _⟩ := computeWinningPositions_eq (answerGame S g) fuel hf
  rw [h] at e2
  have e3 := e.symm.trans e2
  cases hW : computeWinningPositionsBA (semMgr I (Y → Bool)) (fun R s _ => CoxBA S g R s) g.assumptions g.guarantees fuel with
  | none => rw [hW] at e3; cases e3
  | some r =>
    obtain ⟨W, ⟨⟩⟩ := r
    rw [hW] at e3
    have e4 : answerT S W = pre (nuZ (answerGame S g)) := congrArg Prod.fst (Option.some.inj e3)
    refine ⟨W, rfl, fun s t => ?_⟩
    rw [← Props.nuZ_eq_sysWins (answerGame S g) (by simpa [answerGame] using ha) (by simpa [answerGame] using hg)]
    have := congrFun (congrFun e4 (fun _ => s.1, s.2)) (fun _ => t.1, t.2)
    exact iff_of_eq this

/-! ### Strategies -/

theorem prefixHist_map {I O I' O' : Type} (f : Pos I O → Pos I' O') (p : Nat → Pos I O) (n : Nat) :
    (prefixHist p n).map f = prefixHist (fun k => f (p k)) n := by
  induction n with
  | zero => rfl
  | succ n ih => simp [prefixHist, ih]

theorem answer_live (S : Y → Prop) (g : Game I (Y → Bool)) (p : Nat → Pos ((Y → Bool) → I) (Y → Bool)) :
    (answerGame S g).Live p ↔ g.Live (fun n => actual S (p n)) := by
  simp only [Game.Live, answerGame, List.mem_map, forall_exists_index, and_imp, forall_apply_eq_imp_iff₂]
  rfl

/-- A strategy that does not look at the input for the outputs in `S` wins the game with answers. -/
theorem answer_of_blind {S : Y → Prop} {g : Game I (Y → Bool)} {σ : SysStrategy I (Y → Bool)} (hb : BlindFor S σ)
    {p : Pos ((Y → Bool) → I) (Y → Bool)} (hw : g.SysWinning σ (actual S p)) : (answerGame S g).SysWins p := by
  let inp : History ((Y → Bool) → I) (Y → Bool) → ((Y → Bool) → I) → I :=
    fun h F => F (maskOut S (σ (h.map (actual S)) (F fun _ => false)))
  let τ : SysStrategy ((Y → Bool) → I) (Y → Bool) := fun h F => σ (h.map (actual S)) (inp h F)
  have hact : ∀ h F, actual S (F, τ h F) = (inp h F, σ (h.map (actual S)) (inp h F)) := by
    intro h F
    have : maskOut S (τ h F) = maskOut S (σ (h.map (actual S)) (F fun _ => false)) := maskOut_eq.mpr fun y hy => hb _ _ _ y hy
    simp only [actual, this]
    rfl
  have hh : ∀ h, (answerGame S g).SysHist τ p h → g.SysHist σ (actual S p) (h.map (actual S)) := by
    intro h hh
    induction hh with
    | start => exact .start
    | step _ hF ih =>
      simp only [List.map_cons] at ih ⊢
      rw [hact]
      exact .step ih (hF _)
  refine ⟨τ, fun cur h F hc hF => ?_, fun q hq => ?_⟩
  · show g.safetySys _ _
    rw [hact]
    exact hw.1 _ _ _ (hh _ hc) (hF _)
  · rw [answer_live]
    refine hw.2 _ fun n => ?_
    rw [← prefixHist_map]
    exact hh _ (hq n)

/-- A winning strategy of the game with answers yields one that does not look at the input for the outputs in `S`. -/
theorem blind_of_answer {S : Y → Prop} {g : Game I (Y → Bool)} {p : Pos ((Y → Bool) → I) (Y → Bool)}
    (hw : (answerGame S g).SysWins p) : ∃ σ, BlindFor S σ ∧ g.SysWinning σ (actual S p) := by
  obtain ⟨τ, h1, h2⟩ := hw
  -- for every history some values of the outputs in `S` are such that every allowed input is the answer in some choice of the environment that is answered with them
  have key : ∀ h : History ((Y → Bool) → I) (Y → Bool), ∃ (b : Y → Bool) (G : I → (Y → Bool) → I), ∀ cur r, h = cur :: r → ∀ i, g.safetyEnv (actual S cur) i →
      (answerGame S g).safetyEnv cur (G i) ∧ maskOut S b = maskOut S (τ h (G i)) ∧ G i (maskOut S b) = i := by
    intro h
    rcases h with _ | ⟨cur, r⟩
    · exact ⟨fun _ => false, fun i _ => i, by simp⟩
    · have : ∃ b : Y → Bool, ∀ i, g.safetyEnv (actual S cur) i → ∃ F, (answerGame S g).safetyEnv cur F ∧ maskOut S b = maskOut S (τ (cur :: r) F) ∧
          F (maskOut S b) = i := by
        by_contra hn
        push Not at hn
        choose f hf hno using hn
        have hF : (answerGame S g).safetyEnv cur (fun b => f (maskOut S b)) := fun b => hf _
        have := hno (maskOut S (τ (cur :: r) fun b => f (maskOut S b))) (fun b => f (maskOut S b)) hF (maskOut_mask S _)
        simp only [maskOut_mask] at this
        exact this rfl
      obtain ⟨b, hb⟩ := this
      have hG : ∀ i, ∃ F : (Y → Bool) → I, g.safetyEnv (actual S cur) i →
          (answerGame S g).safetyEnv cur F ∧ maskOut S b = maskOut S (τ (cur :: r) F) ∧ F (maskOut S b) = i := by
        intro i
        by_cases hi : g.safetyEnv (actual S cur) i
        · obtain ⟨F, hF⟩ := hb i hi
          exact ⟨F, fun _ => hF⟩
        · exact ⟨fun _ => i, fun h => absurd h hi⟩
      choose G hG using hG
      refine ⟨b, G, ?_⟩
      rintro cur' r' e i hi
      cases e
      exact hG i hi
  choose b G hbG using key
  -- histories of the game with answers
  let lift : History I (Y → Bool) → History ((Y → Bool) → I) (Y → Bool) := fun h =>
    List.rec [] (fun q r l => match r with
      | [] => [p]
      | _ :: _ => (G l q.1, τ l (G l q.1)) :: l) h
  have hl1 : ∀ q, lift [q] = [p] := fun q => rfl
  have hl2 : ∀ q q' r, lift (q :: q' :: r) = (G (lift (q' :: r)) q.1, τ (lift (q' :: r)) (G (lift (q' :: r)) q.1)) :: lift (q' :: r) := fun q q' r => rfl
  let σ : SysStrategy I (Y → Bool) := fun h i => mergeOut S (b (lift h)) (τ (lift h) (G (lift h) i))
  have hstep : ∀ {h : History I (Y → Bool)} {cur r}, lift h = cur :: r → ∀ i, g.safetyEnv (actual S cur) i →
      actual S (G (lift h) i, τ (lift h) (G (lift h) i)) = (i, σ h i) ∧ (answerGame S g).safetyEnv cur (G (lift h) i) := by
    intro h cur r e i hi
    obtain ⟨k1, k2, k3⟩ := hbG (lift h) cur r e i hi
    refine ⟨?_, k1⟩
    have : σ h i = τ (lift h) (G (lift h) i) := mergeOut_of_mask k2
    rw [this]
    simp only [actual, ← k2, k3]
  have hh : ∀ h, g.SysHist σ (actual S p) h → (answerGame S g).SysHist τ p (lift h) ∧ (lift h).map (actual S) = h := by
    intro h hh
    induction hh with
    | start => exact ⟨.start, rfl⟩
    | @step cur r i _ hi ih =>
      obtain ⟨i1, i2⟩ := ih
      obtain ⟨cur', r', e⟩ : ∃ c r', lift (cur :: r) = c :: r' := by
        cases hc : lift (cur :: r) with
        | nil => rw [hc] at i2; cases i2
        | cons c r' => exact ⟨c, r', rfl⟩
      have ec : actual S cur' = cur := by
        rw [e] at i2
        exact (List.cons.inj i2).1
      obtain ⟨k1, k2⟩ := hstep (h := cur :: r) e i (ec ▸ hi)
      rw [hl2]
      refine ⟨?_, ?_⟩
      · have i1' := i1
        rw [e] at i1'
        have := Game.SysHist.step i1' k2
        rwa [← e] at this
      · rw [List.map_cons, i2, k1]
  refine ⟨σ, ?_, ?_, ?_⟩
  · intro h i i' y hy
    simp [σ, mergeOut, hy]
  · intro cur r i hc hi
    obtain ⟨i1, i2⟩ := hh _ hc
    obtain ⟨cur', r', e⟩ : ∃ c r', lift (cur :: r) = c :: r' := by
      cases hc : lift (cur :: r) with
      | nil => rw [hc] at i2; cases i2
      | cons c r' => exact ⟨c, r', rfl⟩
    have ec : actual S cur' = cur := by
      rw [e] at i2
      exact (List.cons.inj i2).1
    obtain ⟨k1, k2⟩ := hstep (h := cur :: r) e i (ec ▸ hi)
    have := h1 cur' r' _ (e ▸ i1) k2
    rw [← e] at this
    have h3 : g.safetySys (actual S cur') (actual S (G (lift (cur :: r)) i, τ (lift (cur :: r)) (G (lift (cur :: r)) i))) := this
    rwa [k1, ec] at h3
  · intro q hq
    -- the play of the game with answers
    have hp0 : q 0 = actual S p := by
      have := (hh _ (hq 0)).2
      simp only [prefixHist, hl1, List.map_cons, List.map_nil] at this
      exact (List.cons.inj this).1.symm
    let q' : Nat → Pos ((Y → Bool) → I) (Y → Bool) := fun n => (lift (prefixHist q n)).headD p
    have hpre : ∀ n, prefixHist q' n = lift (prefixHist q n) := by
      intro n
      induction n with
      | zero => rfl
      | succ n ih =>
        have hne : ∃ x r, prefixHist q n = x :: r := by cases n <;> exact ⟨_, _, rfl⟩
        obtain ⟨x, r, e⟩ := hne
        have e2 : lift (prefixHist q (n + 1)) = (G (lift (prefixHist q n)) (q (n + 1)).1, τ (lift (prefixHist q n)) (G (lift (prefixHist q n)) (q (n + 1)).1)) ::
            lift (prefixHist q n) := by
          rw [prefixHist, e]
        rw [prefixHist, ih, e2]
        show (lift (prefixHist q (n + 1))).headD p :: _ = _
        rw [e2]
        rfl
    have := h2 q' fun n => hpre n ▸ (hh _ (hq n)).1
    rw [answer_live] at this
    have e : (fun n => actual S (q' n)) = q := by
      funext n
      have h3 := (hh _ (hq n)).2
      rw [← hpre, prefixHist_map] at h3
      cases n with
      | zero => exact (List.cons.inj h3).1
      | succ n => exact (List.cons.inj h3).1
    rwa [e] at this

theorem answer_iff (S : Y → Prop) (g : Game I (Y → Bool)) (s : Pos I (Y → Bool)) :
    (answerGame S g).SysWins (fun _ => s.1, s.2) ↔ ∃ σ, BlindFor S σ ∧ g.SysWinning σ s :=
  ⟨fun h => blind_of_answer h, fun ⟨_, h1, h2⟩ => answer_of_blind (p := (fun _ => s.1, s.2)) h1 h2⟩

/-- The check, on games. -/
theorem checkRealizabilityBA_sem [Finite I] [Nonempty I] [Finite Y] (S : Y → Prop) (g : Game I (Y → Bool)) (ha : g.assumptions ≠ [])
    (hg : g.guarantees ≠ []) (fuel : Nat) (hf : Nat.card (Pos ((Y → Bool) → I) (Y → Bool)) < fuel) :
    ∃ v, checkRealizabilityBA (semMgr I (Y → Bool)) (fun R s _ => CoxBA S g R s) (gameCtx g) fuel = some v ∧
      (v = .realizable ↔ ∀ i, g.initEnv i → ∃ o, g.initSys (i, o) ∧ ∃ σ, BlindFor S σ ∧ g.SysWinning σ (i, o)) ∧
      (v = .unrealizable ↔ ¬ ∀ i, g.initEnv i → ∃ o, g.initSys (i, o) ∧ ∃ σ, BlindFor S σ ∧ g.SysWinning σ (i, o)) := by
  obtain ⟨W, h, hW⟩ := computeWinningPositionsBA_sem S g ha hg fuel hf
  obtain ⟨i0⟩ := ‹Nonempty I›
  have hres : (semMgr I (Y → Bool)).allPreInput ((semMgr I (Y → Bool)).imp (gameCtx g).initEnv
      ((semMgr I (Y → Bool)).exPreOutput ((semMgr I (Y → Bool)).and W (gameCtx g).initSys))) =
      fun _ _ => ∀ i, g.initEnv i → ∃ o, g.initSys (i, o) ∧ ∃ σ, BlindFor S σ ∧ g.SysWinning σ (i, o) := by
    funext s t
    simp only [semMgr, Mgr.imp, gameCtx, eq_iff_iff]
    refine forall_congr' fun i => ?_
    rw [← imp_iff_not_or]
    refine imp_congr_right fun _ => exists_congr fun o => ?_
    rw [hW, answer_iff S g (i, o), and_comm]
  refine ⟨_, by rw [checkRealizabilityBA]; simp only [gameCtx]; rw [h], ?_⟩
  simp only [gameCtx] at hres
  rw [hres]
  exact Props.verdictOf_iff (i0, fun _ => false) _

end

end Slugs.Model
