import Verif.Lemmas.ExplicitFuel
import Verif.Model.Counter

/-! The computations for counterstrategies commute with injective maps that respect the BF operations, and more rounds do not change their result. -/

namespace Slugs.Model

open Slugs.Spec

section
variable {A B : Type} [DecidableEq A] [DecidableEq B]

def CDump.map (h : A → B) (d : CDump A) : CDump B := List.map (fun e => (e.1, e.2.1, h e.2.2)) d

def CVars.map (h : A → B) (vs : CVars A) : CVars B where
  toVars := vs.toVars.map h
  postInputVars := vs.postInputVars.map h
  postOutputVars := vs.postOutputVars.map h
  inputLabels := vs.inputLabels.map fun v => (v.1, h v.2)

variable {M : Mgr A} {N : Mgr B} {h : A → B} (H : MgrHom M N h)
include H

theorem assumptionLoopC_hom (c : Ctx A) (fuel j : Nat) (lt : A) : ∀ (as : List A) (i : Nat) (good : A) (d : CDump A),
    assumptionLoopC N (c.map h) fuel j (h lt) i (as.map h) (h good, d.map h) =
      (assumptionLoopC M c fuel j lt i as (good, d)).map (Prod.map h (CDump.map h)) := by
  intro as
  induction as with
  | nil => intro i good d; rfl
  | cons a as ih =>
    intro i good d
    simp only [List.map_cons, assumptionLoopC]
    rw [H.ff, fixLoop_hom H.inj (g := CDump.map h) (step := mu0Step M c i j lt a) (fun x s => by
      simp [mu0Step, Ctx.map, CDump.map, H.swap, H.and, H.or, H.imp, H.exPostInput, H.allPostOutput])]
    cases fixLoop (mu0Step M c i j lt a) fuel M.ff d with
    | none => rfl
    | some r =>
      obtain ⟨mu0, d'⟩ := r
      simp only [Option.map_some, Prod.map_apply, H.and]
      rw [← ih]

theorem nu1LoopC_hom (c : Ctx A) (fuel j : Nat) (mu2 goal : A) (d : CDump A) :
    nu1LoopC N (c.map h) fuel j (h mu2) (h goal) (d.map h) =
      (nu1LoopC M c fuel j mu2 goal d).map (Prod.map h (Prod.map h (CDump.map h))) := by
  rw [nu1LoopC, nu1LoopC, H.tt, H.swap, H.not, H.or]
  refine fixLoop_hom H.inj (g := Prod.map h (CDump.map h)) (fun x s => ?_) fuel M.tt (_, d)
  obtain ⟨lt, d'⟩ := s
  simp only [nu1StepC, Prod.map_apply, H.swap, H.and]
  rw [show (c.map h).livenessAssumptions = c.livenessAssumptions.map h from rfl, assumptionLoopC_hom H]
  cases assumptionLoopC M c fuel j (M.and lt (M.swap x)) 0 c.livenessAssumptions (x, d) <;> rfl

theorem goalLoopC_hom (c : Ctx A) (fuel : Nat) (mu2 : A) : ∀ (gs : List A) (j : Nat) (next : A) (d : CDump A),
    goalLoopC N (c.map h) fuel (h mu2) j (gs.map h) (h next, d.map h) =
      (goalLoopC M c fuel mu2 j gs (next, d)).map (Prod.map h (CDump.map h)) := by
  intro gs
  induction gs with
  | nil => intro j next d; rfl
  | cons g gs ih =>
    intro j next d
    simp only [List.map_cons, goalLoopC]
    rw [nu1LoopC_hom H]
    cases nu1LoopC M c fuel j mu2 g d with
    | none => rfl
    | some r =>
      obtain ⟨nu1, lt, d'⟩ := r
      simp only [Option.map_some, Prod.map_apply, H.or]
      rw [← ih]

theorem computeWinningPositionsC_hom (c : Ctx A) (fuel : Nat) :
    computeWinningPositionsC N (c.map h) fuel = (computeWinningPositionsC M c fuel).map (Prod.map h (CDump.map h)) := by
  rw [computeWinningPositionsC, computeWinningPositionsC, H.ff]
  refine fixLoop_hom H.inj (g := CDump.map h) (fun x s => ?_) fuel M.ff []
  rw [mu2StepC, mu2StepC, H.ff]
  exact goalLoopC_hom H c fuel x c.livenessGuarantees 0 M.ff s

theorem checkRealizabilityC_hom (c : Ctx A) (robotics : Bool) (fuel : Nat) :
    checkRealizabilityC N (c.map h) robotics fuel =
      (checkRealizabilityC M c robotics fuel).map (Prod.map id (Prod.map h (CDump.map h))) := by
  rw [checkRealizabilityC, checkRealizabilityC, computeWinningPositionsC_hom H]
  cases computeWinningPositionsC M c fuel with
  | none => rfl
  | some r =>
    obtain ⟨W, d⟩ := r
    have hv : ∀ r : A, verdictOfC N (h r) = verdictOfC M r := by
      intro r
      simp only [verdictOfC, H.tt, H.ff, H.inj.eq_iff]
    simp only [Option.map_some, Prod.map_apply, id]
    cases robotics <;>
      simp [Ctx.map, H.and, H.imp, H.exPreOutput, H.exPreInput, H.allPreOutput, hv]

theorem positionalC_hom (dump : CDump A) (i j : Nat) : positionalC N (dump.map h) i j = h (positionalC M dump i j) := by
  have key : ∀ (ds : List A) (st : A), (ds.map h).foldl (positionalStepC N) (h st) = h (ds.foldl (positionalStepC M) st) := by
    intro ds
    induction ds with
    | nil => intro st; rfl
    | cons d ds ih =>
      intro st
      simp only [List.map_cons, List.foldl_cons]
      rw [← ih]
      simp [positionalStepC, H.exPost, H.allPostOutput, H.not, H.and, H.or]
  rw [positionalC, positionalC, H.ff]
  have e : ((dump.map h).filter (fun e => e.1 == i && e.2.1 == j)).map (fun e => e.2.2) =
      ((dump.filter (fun e => e.1 == i && e.2.1 == j)).map (fun e => e.2.2)).map h := by
    simp [CDump.map, List.filter_map, Function.comp_def]
  rw [e]
  exact key _ M.ff

theorem find_hom {R : Type} [DecidableEq R] (w : Work A R) (k : A × R) : (w.map h).find (mapKey h k) = w.find k :=
  lookup_hom H _ _

theorem firstGoal_hom (n : Nat) (strategy : Nat → A) (strategy' : Nat → B) (hs : ∀ j, strategy' j = h (strategy j)) (f : A) :
    firstGoal N n strategy' (h f) = firstGoal M n strategy f := by
  simp only [firstGoal, hs, H.and, ne_eq, eq_ff_hom H]

theorem initLoopC_hom (vs : CVars A) (k : Nat) (strategy : Nat → A) (strategy' : Nat → B) (hs : ∀ j, strategy' j = h (strategy j)) :
    ∀ (n : Nat) (f : A) (w : Work A (Nat × Nat)),
    initLoopC N k (vs.map h) strategy' n (h f) (w.map h) = (initLoopC M k vs strategy n f w).map (Work.map h) := by
  intro n
  induction n with
  | zero => intro f w; rfl
  | succ n ih =>
    intro f w
    rw [initLoopC, initLoopC]
    simp only [eq_ff_hom H]
    split
    · rfl
    · rw [show (vs.map h).preVars = vs.preVars.map h from rfl, determinize_hom H, H.not, H.and, firstGoal_hom H k strategy strategy' hs]
      rw [show (h (determinize M vs.preVars f), ((0, firstGoal M k strategy (determinize M vs.preVars f)) : Nat × Nat)) =
        mapKey h (determinize M vs.preVars f, (0, firstGoal M k strategy (determinize M vs.preVars f))) from rfl, enter_hom, ih]

theorem succLoopC_hom (c : Ctx A) (vs : CVars A) (rank : Nat × Nat) : ∀ (n : Nat) (f : A) (w : Work A (Nat × Nat)) (printed : List Nat),
    succLoopC N (c.map h) (vs.map h) rank n (h f) (w.map h) printed =
      (succLoopC M c vs rank n f w printed).map (Prod.map (Work.map h) id) := by
  intro n
  induction n with
  | zero => intro f w printed; rfl
  | succ n ih =>
    intro f w printed
    rw [succLoopC, succLoopC, show (c.map h).safetySys = h c.safetySys from rfl, H.and]
    simp only [eq_ff_hom H]
    split
    · rfl
    · rw [show (vs.map h).postOutputVars = vs.postOutputVars.map h from rfl, determinize_hom H,
        show (c.map h).livenessGuarantees = c.livenessGuarantees.map h from rfl,
        show (c.map h).livenessAssumptions = c.livenessAssumptions.map h from rfl, goalJump_hom H, goalJump_hom H, List.length_map, List.length_map]
      generalize determinize M vs.postOutputVars (M.and f c.safetySys) = comb
      cases goalJump M c.livenessAssumptions comb rank.1 (c.livenessAssumptions.length + 1) rank.1 true with
      | none => rfl
      | some nextA =>
        cases goalJump M c.livenessGuarantees comb rank.2 (c.livenessGuarantees.length + 1) rank.2 true with
        | none => rfl
        | some nextG =>
          dsimp only
          rw [H.exPre, H.swap, show (h (M.swap (M.exPre comb)), (nextA, nextG)) = mapKey h (M.swap (M.exPre comb), (nextA, nextG)) from rfl,
            H.not, H.and]
          have e2 : (if (w.map h).find (mapKey h (M.swap (M.exPre comb), (nextA, nextG))) = none then
              (w.map h).enter (mapKey h (M.swap (M.exPre comb), (nextA, nextG))) else w.map h) =
              (if w.find (M.swap (M.exPre comb), (nextA, nextG)) = none then w.enter (M.swap (M.exPre comb), (nextA, nextG)) else w).map h := by
            rw [find_hom H]
            split
            · exact enter_hom _ _
            · rfl
          rw [e2, num_hom H, ih]

theorem inputLabelOf_hom (vs : CVars A) (f : A) : inputLabelOf N (vs.map h) (h f) = inputLabelOf M vs f := by
  simp only [inputLabelOf, CVars.map, List.map_map]
  refine List.map_congr_left fun v _ => ?_
  simp only [Function.comp_apply, H.and, eq_ff_hom H]

theorem addDeadlocked_hom (vs : CVars A) (rank : Nat × Nat) (f : A) (w : Work A (Nat × Nat)) :
    addDeadlocked N (vs.map h) rank (h f) (w.map h) = Prod.map (Work.map h) id (addDeadlocked M vs rank f w) := by
  rw [addDeadlocked, addDeadlocked, show (vs.map h).postVars = vs.postVars.map h from rfl, determinize_hom H, H.exPostOutput, H.exPre, H.swap]
  dsimp only
  generalize M.swap (M.exPre (M.exPostOutput (determinize M vs.postVars f))) = comb
  rw [show (h comb, rank) = mapKey h (comb, rank) from rfl, find_hom H]
  have e : (w.map h).enterDead (mapKey h (comb, rank)) = (w.enterDead (comb, rank)).map h := by
    simp [Work.enterDead, Work.map, mapKey]
  split
  · rw [e, num_hom H, inputLabelOf_hom H]; rfl
  · rw [num_hom H]; rfl

theorem extractLoopC_hom (c : Ctx A) (vs : CVars A) (strategy : Nat → Nat → A) (strategy' : Nat → Nat → B)
    (hs : ∀ i j, strategy' i j = h (strategy i j)) (fuel : Nat) : ∀ (n : Nat) (w : Work A (Nat × Nat)) (out : List CState),
    extractLoopC N (c.map h) (vs.map h) strategy' fuel n (w.map h) out = extractLoopC M c vs strategy fuel n w out := by
  intro n
  induction n with
  | zero => intro w out; rfl
  | succ n ih =>
    intro w out
    rw [extractLoopC, extractLoopC]
    rw [show (w.map h).todo = w.todo.map (mapKey h) from rfl]
    cases htodo : w.todo with
    | nil => rfl
    | cons cur rest =>
      simp only [List.map_cons]
      have e0 : ({ w.map h with todo := rest.map (mapKey h) } : Work B (Nat × Nat)) =
        ({ w with todo := rest } : Work A (Nat × Nat)).map h := rfl
      rw [e0, num_hom H]
      rw [show (w.map h).bfs = w.bfs.map h from rfl, List.getElem?_map]
      cases w.bfs[({ w with todo := rest } : Work A (Nat × Nat)).num cur]? with
      | none => rfl
      | some f =>
        simp only [Option.map_some]
        rw [show (mapKey h cur).2 = cur.2 from rfl, hs, show (c.map h).safetyEnv = h c.safetyEnv from rfl,
          show (c.map h).safetySys = h c.safetySys from rfl, H.not, H.and, H.and, H.allPostOutput, H.and,
          show (vs.map h).toVars = vs.toVars.map h from rfl, labelOf_hom H]
        simp only [ne_eq, eq_ff_hom H]
        split
        · rw [addDeadlocked_hom H]
          exact ih _ _
        · rw [show (vs.map h).postInputVars = vs.postInputVars.map h from rfl, determinize_hom H, succLoopC_hom H]
          cases succLoopC M c vs cur.2 fuel (determinize M vs.postInputVars (M.and f (strategy cur.2.1 cur.2.2))) { w with todo := rest } [] with
          | none => rfl
          | some r =>
            obtain ⟨w', succ⟩ := r
            simp only [Option.map_some, Prod.map_apply, id, ih]

theorem extractCounterstrategy_hom (c : Ctx A) (vs : CVars A) (fuel : Nat) (W : A) (dump : CDump A) :
    extractCounterstrategy N (c.map h) (vs.map h) fuel (h W) (dump.map h) = extractCounterstrategy M c vs fuel W dump := by
  rw [extractCounterstrategy, extractCounterstrategy]
  have e1 : N.and (N.and (h W) (c.map h).initEnv) (c.map h).initSys = h (M.and (M.and W c.initEnv) c.initSys) := by
    simp only [Ctx.map, H.and]
  have e2 : ({ keys := [], bfs := [], todo := [] } : Work B (Nat × Nat)) = ({ keys := [], bfs := [], todo := [] } : Work A (Nat × Nat)).map h := rfl
  rw [e1, e2]
  rw [initLoopC_hom H vs _ (positionalC M dump 0) _ (fun j => positionalC_hom H dump 0 j),
    show (c.map h).livenessGuarantees.length = c.livenessGuarantees.length from List.length_map _]
  cases initLoopC M c.livenessGuarantees.length vs (positionalC M dump 0) fuel (M.and (M.and W c.initEnv) c.initSys) { keys := [], bfs := [], todo := [] } with
  | none => rfl
  | some w =>
    simp only [Option.map_some]
    exact extractLoopC_hom H c vs _ _ (fun i j => positionalC_hom H dump i j) fuel fuel w []

end

/-! ### More rounds -/

section
variable {B : Type} [DecidableEq B]

theorem assumptionLoopC_more (M : Mgr B) (c : Ctx B) {n n' : Nat} (hn : n ≤ n') {j : Nat} {live : B} {as : List B} {i : Nat}
    {st : B × CDump B} {r : B × CDump B} (h : assumptionLoopC M c n j live i as st = some r) :
    assumptionLoopC M c n' j live i as st = some r := by
  induction as generalizing st i with
  | nil => exact h
  | cons a as ih =>
    obtain ⟨good, dump⟩ := st
    rw [assumptionLoopC] at h ⊢
    cases hs : fixLoop (mu0Step M c i j live a) n M.ff dump with
    | none => rw [hs] at h; cases h
    | some q =>
      obtain ⟨x, f⟩ := q
      rw [hs] at h
      rw [fixLoop_more (fun _ _ _ h => h) hn hs]
      exact ih h

theorem nu1LoopC_more (M : Mgr B) (c : Ctx B) {n n' : Nat} (hn : n ≤ n') {j : Nat} {mu2 goal : B} {dump : CDump B}
    {r : B × (B × CDump B)} (h : nu1LoopC M c n j mu2 goal dump = some r) : nu1LoopC M c n' j mu2 goal dump = some r := by
  refine fixLoop_more ?_ hn h
  intro x s r hr
  rw [nu1StepC] at hr ⊢
  cases hs : assumptionLoopC M c n j (M.and s.1 (M.swap x)) 0 c.livenessAssumptions (x, dump) with
  | none => simp only [hs] at hr; cases hr
  | some q => simp only [hs] at hr; simp only [assumptionLoopC_more M c hn hs]; exact hr

theorem goalLoopC_more (M : Mgr B) (c : Ctx B) {n n' : Nat} (hn : n ≤ n') {mu2 : B} {j : Nat} {goals : List B}
    {st r : B × CDump B} (h : goalLoopC M c n mu2 j goals st = some r) : goalLoopC M c n' mu2 j goals st = some r := by
  induction goals generalizing j st with
  | nil => exact h
  | cons a as ih =>
    obtain ⟨next, dump⟩ := st
    rw [goalLoopC] at h ⊢
    cases hs : nu1LoopC M c n j mu2 a dump with
    | none => rw [hs] at h; cases h
    | some q =>
      rw [hs] at h
      rw [nu1LoopC_more M c hn hs]
      exact ih h

theorem checkRealizabilityC_more (M : Mgr B) (c : Ctx B) (robotics : Bool) {n n' : Nat} (hn : n ≤ n') {r : Verdict × B × CDump B}
    (h : checkRealizabilityC M c robotics n = some r) : checkRealizabilityC M c robotics n' = some r := by
  rw [checkRealizabilityC] at h ⊢
  cases hc : computeWinningPositionsC M c n with
  | none => rw [hc] at h; cases h
  | some q =>
    rw [hc] at h
    rw [show computeWinningPositionsC M c n' = some q from fixLoop_more (fun _ _ _ h => goalLoopC_more M c hn h) hn hc]
    exact h

theorem initLoopC_more (M : Mgr B) (k : Nat) (vs : CVars B) (strategy : Nat → B) : ∀ {n n' : Nat}, n ≤ n' → ∀ {f : B} {w r : Work B (Nat × Nat)},
    initLoopC M k vs strategy n f w = some r → initLoopC M k vs strategy n' f w = some r
  | 0, _, _, _, _, _, h => by simp [initLoopC] at h
  | n + 1, 0, h, _, _, _, _ => by omega
  | n + 1, n' + 1, hn, f, w, r, h => by
    rw [initLoopC] at h ⊢
    split at h
    · rename_i hf; rw [if_pos hf]; exact h
    · rename_i hf; rw [if_neg hf]; exact initLoopC_more M k vs strategy (by omega) h

theorem succLoopC_more (M : Mgr B) (c : Ctx B) (vs : CVars B) (rank : Nat × Nat) : ∀ {n n' : Nat}, n ≤ n' →
    ∀ {f : B} {w : Work B (Nat × Nat)} {p : List Nat} {r : Work B (Nat × Nat) × List Nat},
    succLoopC M c vs rank n f w p = some r → succLoopC M c vs rank n' f w p = some r
  | 0, _, _, _, _, _, _, h => by simp [succLoopC] at h
  | n + 1, 0, h, _, _, _, _, _ => by omega
  | n + 1, n' + 1, hn, f, w, p, r, h => by
    rw [succLoopC] at h ⊢
    split at h
    · rename_i hf; rw [if_pos hf]; exact h
    · rename_i hf
      rw [if_neg hf]
      dsimp only at h ⊢
      generalize goalJump M c.livenessAssumptions (determinize M vs.postOutputVars (M.and f c.safetySys)) rank.1
        (c.livenessAssumptions.length + 1) rank.1 true = a at h ⊢
      generalize goalJump M c.livenessGuarantees (determinize M vs.postOutputVars (M.and f c.safetySys)) rank.2
        (c.livenessGuarantees.length + 1) rank.2 true = b at h ⊢
      cases a with
      | none => cases h
      | some a =>
        cases b with
        | none => cases h
        | some b => exact succLoopC_more M c vs rank (by omega) h

theorem extractLoopC_more (M : Mgr B) (c : Ctx B) (vs : CVars B) (strategy : Nat → Nat → B) {fuel fuel' : Nat}
    (hfuel : fuel ≤ fuel') : ∀ {n n' : Nat}, n ≤ n' → ∀ {w : Work B (Nat × Nat)} {out r : List CState},
    extractLoopC M c vs strategy fuel n w out = some r → extractLoopC M c vs strategy fuel' n' w out = some r
  | 0, _, _, _, _, _, h => by simp [extractLoopC] at h
  | n + 1, 0, h, _, _, _, _ => by omega
  | n + 1, n' + 1, hn, w, out, r, h => by
    rw [extractLoopC] at h ⊢
    cases hw : w.todo with
    | nil => rw [hw] at h; exact h
    | cons cur rest =>
      rw [hw] at h
      simp only at h ⊢
      generalize hb : w.bfs[({ w with todo := rest } : Work B (Nat × Nat)).num cur]? = fo at h ⊢
      cases fo with
      | none => cases h
      | some f =>
        simp only at h ⊢
        split at h
        · rename_i hf
          rw [if_pos hf]
          exact extractLoopC_more M c vs strategy hfuel (by omega) h
        · rename_i hf
          rw [if_neg hf]
          generalize hs : succLoopC M c vs cur.2 fuel (determinize M vs.postInputVars (M.and f (strategy cur.2.1 cur.2.2)))
            { w with todo := rest } [] = so at h
          cases so with
          | none => cases h
          | some so =>
            rw [succLoopC_more M c vs cur.2 hfuel hs]
            exact extractLoopC_more M c vs strategy hfuel (by omega) h

theorem extractCounterstrategy_more (M : Mgr B) (c : Ctx B) (vs : CVars B) {n n' : Nat} (hn : n ≤ n') {W : B}
    {dump : CDump B} {r : List CState} (h : extractCounterstrategy M c vs n W dump = some r) :
    extractCounterstrategy M c vs n' W dump = some r := by
  rw [extractCounterstrategy] at h ⊢
  generalize hi : initLoopC M c.livenessGuarantees.length vs (positionalC M dump 0) n (M.and (M.and W c.initEnv) c.initSys)
    { keys := [], bfs := [], todo := [] } = wo at h
  cases wo with
  | none => cases h
  | some w =>
    rw [initLoopC_more M _ vs _ hn hi]
    exact extractLoopC_more M c vs _ hn hn h

theorem runCounter_more [L : BddLib B] {robotics : Bool} {cap : Nat} {order : List Char → Bool} {n n' : Nat}
    (hn : n ≤ n') {text : List Char} {sts : List CState} (h : runCounter B robotics cap order n text = .counterstrategy sts) :
    runCounter B robotics cap order n' text = .counterstrategy sts := by
  rw [runCounter] at h ⊢
  cases hi : initContext (B := B) cap order text with
  | err e => rw [hi] at h; cases h
  | ub => rw [hi] at h; cases h
  | stuck => rw [hi] at h; cases h
  | ok r =>
    obtain ⟨tab, c⟩ := r
    rw [hi] at h
    simp only at h ⊢
    cases hr : checkRealizabilityC (bddMgr B tab.types) c robotics n with
    | none => rw [hr] at h; cases h
    | some r =>
      rw [hr] at h
      rw [checkRealizabilityC_more _ _ _ hn hr]
      obtain ⟨v, W, dump⟩ := r
      cases v with
      | realizable => cases h
      | internalError => cases h
      | unrealizable =>
        simp only at h ⊢
        generalize he : extractCounterstrategy (bddMgr B tab.types) c (tableCVars B tab) n W dump = so at h
        cases so with
        | none => cases h
        | some sts' => rw [extractCounterstrategy_more _ _ _ hn he]; exact h

end

end Slugs.Model
