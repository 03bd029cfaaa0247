import Verif.Model.Variants

/-! Once a loop has ended, allowing more rounds does not change the outcome. -/

namespace Slugs.Model

variable {B : Type} [DecidableEq B]

theorem fixLoop_more {σ : Type} {step step' : B → σ → Option (B × σ)}
    (h : ∀ x s r, step x s = some r → step' x s = some r) {n n' : Nat} (hn : n ≤ n') {x : B} {s : σ} {r : B × σ}
    (hr : fixLoop step n x s = some r) : fixLoop step' n' x s = some r := by
  induction n generalizing n' x s with
  | zero => simp [fixLoop] at hr
  | succ n ih =>
    obtain ⟨n', rfl⟩ : ∃ m, n' = m + 1 := ⟨n' - 1, by omega⟩
    rw [fixLoop] at hr ⊢
    cases hs : step x s with
    | none => rw [hs] at hr; cases hr
    | some q =>
      obtain ⟨y, t⟩ := q
      rw [hs] at hr
      rw [h _ _ _ hs]
      simp only at hr ⊢
      split
      · rwa [if_pos ‹_›] at hr
      · rw [if_neg ‹_›] at hr
        exact ih (by omega) hr

theorem assumptionLoop_more (M : Mgr B) (c : Ctx B) {n n' : Nat} (hn : n ≤ n') {j : Nat} {live : B} {as : List B}
    {st : B × Dump B} {r : B × Dump B} (h : assumptionLoop M c n j live as st = some r) :
    assumptionLoop M c n' j live as st = some r := by
  induction as generalizing st with
  | nil => exact h
  | cons a as ih =>
    obtain ⟨good, dump⟩ := st
    rw [assumptionLoop] at h ⊢
    cases hs : nu0Loop M c n live a with
    | none => rw [hs] at h; cases h
    | some q =>
      obtain ⟨x, f⟩ := q
      rw [hs] at h
      have : nu0Loop M c n' live a = some (x, f) := fixLoop_more (fun _ _ _ h => h) hn hs
      rw [this]
      exact ih h

theorem mu1Loop_more (M : Mgr B) (c : Ctx B) {n n' : Nat} (hn : n ≤ n') {j : Nat} {nu2 goal : B} {dump : Dump B}
    {r : B × (B × Dump B)} (h : mu1Loop M c n j nu2 goal dump = some r) : mu1Loop M c n' j nu2 goal dump = some r := by
  refine fixLoop_more ?_ hn h
  intro x s r hr
  rw [mu1Step] at hr ⊢
  cases hs : assumptionLoop M c n j (M.or s.1 (M.swap x)) c.livenessAssumptions (x, s.2) with
  | none => rw [hs] at hr; cases hr
  | some q => rw [hs] at hr; rw [assumptionLoop_more M c hn hs]; exact hr

theorem goalLoop_more (M : Mgr B) (c : Ctx B) {n n' : Nat} (hn : n ≤ n') {nu2 : B} {j : Nat} {goals : List B}
    {st r : B × Dump B} (h : goalLoop M c n nu2 j goals st = some r) : goalLoop M c n' nu2 j goals st = some r := by
  induction goals generalizing j st with
  | nil => exact h
  | cons a as ih =>
    obtain ⟨next, dump⟩ := st
    rw [goalLoop] at h ⊢
    cases hs : mu1Loop M c n j nu2 a dump with
    | none => rw [hs] at h; cases h
    | some q =>
      rw [hs] at h
      rw [mu1Loop_more M c hn hs]
      exact ih h

theorem computeWinningPositions_more (M : Mgr B) (c : Ctx B) {n n' : Nat} (hn : n ≤ n') {r : B × Dump B}
    (h : computeWinningPositions M c n = some r) : computeWinningPositions M c n' = some r :=
  fixLoop_more (fun _ _ _ h => goalLoop_more M c hn h) hn h

theorem assumptionLoopRecycling_more (M : Mgr B) (c : Ctx B) {n n' : Nat} (hn : n ≤ n') {j : Nat} {nu2 live : B} {rc : Bool}
    {i : Nat} {as : List B} {st r : B × (Dump B × Recycled B)}
    (h : assumptionLoopRecycling M c n j nu2 live rc i as st = some r) :
    assumptionLoopRecycling M c n' j nu2 live rc i as st = some r := by
  induction as generalizing i st with
  | nil => exact h
  | cons a as ih =>
    obtain ⟨good, dump, rec⟩ := st
    rw [assumptionLoopRecycling] at h ⊢
    cases hr : recycledStart M rc (rec j i) nu2 with
    | none => rw [hr] at h; cases h
    | some start =>
      rw [hr] at h
      simp only at h ⊢
      cases hs : fixLoop (nu0Step M c live a) n start M.tt with
      | none => rw [hs] at h; cases h
      | some q =>
        obtain ⟨x, f⟩ := q
        rw [hs] at h
        rw [fixLoop_more (fun _ _ _ h => h) hn hs]
        exact ih h

theorem mu1LoopRecycling_more (M : Mgr B) (c : Ctx B) {n n' : Nat} (hn : n ≤ n') {j : Nat} {nu2 goal : B} {first : Bool}
    {dump : Dump B} {rec : Recycled B} {r : B × (B × (Dump B × (Recycled B × Bool)))}
    (h : mu1LoopRecycling M c n j nu2 first goal dump rec = some r) :
    mu1LoopRecycling M c n' j nu2 first goal dump rec = some r := by
  refine fixLoop_more ?_ hn h
  intro x s r hr
  rw [mu1StepRecycling] at hr ⊢
  cases hs : assumptionLoopRecycling M c n j nu2 (M.or s.1 (M.swap x)) (s.2.2.2 && !first) 0 c.livenessAssumptions
      (x, (s.2.1, s.2.2.1)) with
  | none => rw [hs] at hr; cases hr
  | some q => rw [hs] at hr; rw [assumptionLoopRecycling_more M c hn hs]; exact hr

theorem goalLoopRecycling_more (M : Mgr B) (c : Ctx B) {n n' : Nat} (hn : n ≤ n') {nu2 : B} {first : Bool} {j : Nat}
    {goals : List B} {st r : B × (Dump B × Recycled B)}
    (h : goalLoopRecycling M c n nu2 first j goals st = some r) : goalLoopRecycling M c n' nu2 first j goals st = some r := by
  induction goals generalizing j st with
  | nil => exact h
  | cons a as ih =>
    obtain ⟨next, dump, rec⟩ := st
    rw [goalLoopRecycling] at h ⊢
    cases hs : mu1LoopRecycling M c n j nu2 first a dump rec with
    | none => rw [hs] at h; cases h
    | some q =>
      rw [hs] at h
      rw [mu1LoopRecycling_more M c hn hs]
      exact ih h

theorem mu1LoopBias_more (M : Mgr B) (c : Ctx B) {n n' : Nat} (hn : n ≤ n') {j : Nat} {nu2 goal : B} {dump : Dump B}
    {r : B × (B × Dump B)} (h : mu1LoopBias M c n j nu2 goal dump = some r) :
    mu1LoopBias M c n' j nu2 goal dump = some r := by
  refine fixLoop_more ?_ hn h
  intro x s r hr
  rw [mu1StepBias] at hr ⊢
  cases hb : fixLoop (mu1bStep M c j (M.or s.1 (M.swap x))) n x s.2 with
  | none => rw [hb] at hr; cases hr
  | some p =>
    rw [hb] at hr
    rw [fixLoop_more (fun _ _ _ h => h) hn hb]
    simp only at hr ⊢
    cases hs : assumptionLoop M c n j (M.or s.1 (M.swap x)) c.livenessAssumptions (p.1, p.2) with
    | none => rw [hs] at hr; cases hr
    | some q => rw [hs] at hr; rw [assumptionLoop_more M c hn hs]; exact hr

theorem goalLoopBias_more (M : Mgr B) (c : Ctx B) {n n' : Nat} (hn : n ≤ n') {nu2 : B} {j : Nat} {goals : List B}
    {st r : B × Dump B} (h : goalLoopBias M c n nu2 j goals st = some r) : goalLoopBias M c n' nu2 j goals st = some r := by
  induction goals generalizing j st with
  | nil => exact h
  | cons a as ih =>
    obtain ⟨next, dump⟩ := st
    rw [goalLoopBias] at h ⊢
    cases hs : mu1LoopBias M c n j nu2 a dump with
    | none => rw [hs] at h; cases h
    | some q =>
      rw [hs] at h
      rw [mu1LoopBias_more M c hn hs]
      exact ih h

theorem solve_more (alg : Algorithm) (M : Mgr B) (c : Ctx B) {n n' : Nat} (hn : n ≤ n') {r : B × Dump B}
    (h : solve alg M c n = some r) : solve alg M c n' = some r := by
  cases alg with
  | standard => exact computeWinningPositions_more M c hn h
  | recycling =>
    rw [solve, computeWinningPositionsRecycling] at h ⊢
    cases hs : fixLoop (nu2StepRecycling M c n) n M.tt ([], (fun _ _ => none, true)) with
    | none => rw [hs] at h; cases h
    | some q =>
      rw [hs] at h
      rw [fixLoop_more (step' := nu2StepRecycling M c n') (fun x s r hr => ?_) hn hs]
      · exact h
      · rw [nu2StepRecycling] at hr ⊢
        cases hg : goalLoopRecycling M c n x s.2.2 0 c.livenessGuarantees (M.tt, ([], s.2.1)) with
        | none => rw [hg] at hr; cases hr
        | some q => rw [hg] at hr; rw [goalLoopRecycling_more M c hn hg]; exact hr
  | bias => exact fixLoop_more (fun _ _ _ h => goalLoopBias_more M c hn h) hn h

end Slugs.Model
