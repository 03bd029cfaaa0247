import Verif.Lemmas.Interaction
import Verif.Lemmas.CnfText

/-! The analysis of the interaction of safety and liveness: loops, transfer to BDDs, more rounds. -/

namespace Slugs.Model

open Slugs.Spec Slugs.Props

/-! ### The loops on sets of positions -/

section
variable {B : Type} [DecidableEq B]

theorem envRounds_distance (M : Mgr B) (c : Ctx B) : ∀ (n : Nat) (W old : B) (ds : List B),
    envRounds M c n W old ds.length =
      (distanceLoop M c true n W old ds).map fun r => (r.1, if r.2.2 = true then some r.2.1.length else none) := by
  intro n
  induction n with
  | zero => intro W old ds; rfl
  | succ n ih =>
    intro W old ds
    rw [envRounds, distanceLoop]
    by_cases hw : W = old
    · rw [if_pos hw, if_pos hw]; rfl
    · rw [if_neg hw, if_neg hw]
      dsimp only [forcePre, startTest]
      simp only [if_true]
      split
      · rfl
      · exact ih _ _ (W :: ds)
end

section
variable {I O : Type}

theorem sysStep_eq (g : Game I O) (W : Set (Pos I O)) :
    (semMgr I O).allPostInput ((semMgr I O).exPostOutput ((semMgr I O).or ((semMgr I O).and (gameCtx g).safetySys ((semMgr I O).swap (pre W)))
      ((semMgr I O).not (gameCtx g).safetyEnv))) = forcePre (semMgr I O) (gameCtx g) false (pre W) := by
  funext s t
  simp only [forcePre, semMgr, Mgr.imp, Bool.false_eq_true, if_false, eq_iff_iff]
  exact forall_congr' fun i => exists_congr fun o => or_comm

theorem sysTest_iff [Nonempty I] [Nonempty O] (g : Game I O) (W : Set (Pos I O)) :
    (semMgr I O).allPreInput ((semMgr I O).imp (gameCtx g).initEnv ((semMgr I O).exPreOutput ((semMgr I O).and (pre W) (gameCtx g).initSys))) =
      (semMgr I O).tt ↔ Starts g false W := by
  rw [← startTest_sem g false W]
  refine Eq.congr_left ?_
  funext s t
  simp only [startTest, semMgr, Mgr.imp, gameCtx, pre, Bool.false_eq_true, if_false, eq_iff_iff]
  refine forall_congr' fun i => ⟨fun h => ?_, fun ⟨o, h⟩ => ?_⟩
  · rcases h with h | ⟨o, h⟩
    · exact ⟨s.2, .inl h⟩
    · exact ⟨o, .inr h.symm⟩
  · exact h.imp_right fun h => ⟨o, h.symm⟩

/-- The first round in which the test is passed, among the first `k`. -/
def FirstTo (g : Game I O) (env : Bool) (k : Nat) : Option Nat → Prop
  | none => ∀ m, 1 ≤ m → m ≤ k → ¬ Starts g env (stage g env m)
  | some n => 1 ≤ n ∧ Starts g env (stage g env n) ∧ ∀ m, 1 ≤ m → m < n → ¬ Starts g env (stage g env m)

/-- The first round in which the test is passed. -/
def First (g : Game I O) (env : Bool) : Option Nat → Prop
  | none => ∀ m, 1 ≤ m → ¬ Starts g env (stage g env m)
  | some n => 1 ≤ n ∧ Starts g env (stage g env n) ∧ ∀ m, 1 ≤ m → m < n → ¬ Starts g env (stage g env m)

theorem firstTo_step (g : Game I O) (env : Bool) {k : Nat} {f : Option Nat} (h : FirstTo g env k f) (P : Prop) [Decidable P]
    (hP : P ↔ f = none ∧ Starts g env (stage g env (k + 1))) : FirstTo g env (k + 1) (if P then some (k + 1) else f) := by
  by_cases hp : P
  · rw [if_pos hp]
    obtain ⟨rfl, hs⟩ := hP.mp hp
    exact ⟨by omega, hs, fun m h1 h2 => h m h1 (by omega)⟩
  · rw [if_neg hp]
    cases f with
    | some n => exact h
    | none =>
      intro m h1 h2
      by_cases hm : m ≤ k
      · exact h m h1 hm
      · obtain rfl : m = k + 1 := by omega
        exact fun hs => hp (hP.mpr ⟨rfl, hs⟩)

theorem sysRounds_aux [Finite I] [Finite O] [Nonempty I] [Nonempty O] (g : Game I O) : ∀ (fuel k : Nat) (f : Option Nat),
    Nat.card (Pos I O) - (stage g false k).ncard < fuel → FirstTo g false (k + 1) f →
    ∃ f', sysRounds (semMgr I O) (gameCtx g) fuel (pre (stage g false (k + 1))) (pre (stage g false k)) (k + 1) f = some f' ∧ First g false f' := by
  intro fuel
  induction fuel with
  | zero => intro k f h; omega
  | succ fuel ih =>
    intro k f hf hF
    rw [sysRounds]
    by_cases he : pre (stage g false (k + 1)) = pre (stage g false k)
    · rw [if_pos he]
      refine ⟨f, rfl, ?_⟩
      cases f with
      | some n => exact hF
      | none =>
        have hst := stage_stable g false (pre_inj.mp he)
        intro m h1 hs
        by_cases hm : m ≤ k + 1
        · exact hF m h1 hm hs
        · rw [hst m (by omega), ← hst (k + 1) (by omega)] at hs
          exact hF (k + 1) (by omega) (by omega) hs
    · rw [if_neg he]
      have hne : stage g false (k + 1) ≠ stage g false k := fun h => he (congrArg pre h)
      have hlt : (stage g false k).ncard < (stage g false (k + 1)).ncard :=
        Set.ncard_lt_ncard (lt_of_le_of_ne (stage_succ g false k) (Ne.symm hne)) (Set.toFinite _)
      have hle : (stage g false (k + 1)).ncard ≤ Nat.card (Pos I O) := by
        rw [← Set.ncard_univ]; exact Set.ncard_le_ncard (Set.subset_univ _) (Set.toFinite _)
      dsimp only
      rw [sysStep_eq, or_stage]
      exact ih (k + 1) _ (by omega) (firstTo_step g false hF _ (and_congr_right fun _ => sysTest_iff g _))

theorem sysRounds_sem [Finite I] [Finite O] [Nonempty I] [Nonempty O] (g : Game I O) (fuel : Nat) (hf : Nat.card (Pos I O) + 1 < fuel) :
    ∃ f, sysRounds (semMgr I O) (gameCtx g) fuel (semMgr I O).ff ((semMgr I O).not (semMgr I O).ff) 0 none = some f ∧ First g false f := by
  obtain ⟨fuel, rfl⟩ : ∃ m, fuel = m + 1 := ⟨fuel - 1, by omega⟩
  have e0 : (semMgr I O).ff = pre (stage g false 0) := rfl
  rw [sysRounds, if_neg]
  swap
  · intro h
    have := congrFun (congrFun h (Classical.arbitrary _)) (Classical.arbitrary _)
    exact (iff_of_eq this).mpr fun h => h
  dsimp only
  rw [e0, sysStep_eq, or_stage]
  exact sysRounds_aux g fuel 0 _ (by omega)
    (firstTo_step g false (k := 0) (f := none) (fun m h1 h2 => by omega) _ (and_congr_right fun _ => sysTest_iff g _))

theorem envRounds_sem [Finite I] [Finite O] [Nonempty I] [Nonempty O] (g : Game I O) (fuel : Nat) (hf : Nat.card (Pos I O) + 1 < fuel) :
    ∃ W f, envRounds (semMgr I O) (gameCtx g) fuel (semMgr I O).ff ((semMgr I O).not (semMgr I O).ff) 0 = some (W, f) ∧ First g true f ∧
      ∀ n, f = some n → W = pre (stage g true n) := by
  have e := envRounds_distance (semMgr I O) (gameCtx g) fuel (semMgr I O).ff ((semMgr I O).not (semMgr I O).ff) []
  rw [List.length_nil] at e
  rcases distanceLoop_sem g true fuel hf with ⟨n, h1, h2, h3, _, h4⟩ | ⟨h1, W, ds, h2⟩
  · refine ⟨_, some n, ?_, ⟨h1, h2, h3⟩, fun m hm => by cases hm; rfl⟩
    rw [e, h4]
    simp [stages_length]
  · refine ⟨W, none, ?_, h1, fun m hm => by cases hm⟩
    rw [e, h2]
    rfl

/-- What the last message says. -/
def FiniteOK (g : Game I O) (safetyRow : Bool) : FiniteReport → Prop
  | .env n b => safetyRow = false ∧ First g true (some n) ∧ (b = true ↔ ∀ i o, g.initEnv i → g.initSys (i, o) → (i, o) ∉ stage g true n)
  | .envCannot => safetyRow = false ∧ First g true none
  | .sys n => safetyRow = true ∧ First g false (some n)
  | .sysCannot => safetyRow = true ∧ First g false none

theorem finiteReport_sem [Finite I] [Finite O] [Nonempty I] [Nonempty O] (g : Game I O) (fuel : Nat) (hf : Nat.card (Pos I O) + 1 < fuel) (b : Bool) :
    ∃ r, finiteReport (semMgr I O) (gameCtx g) fuel b = some r ∧ FiniteOK g b r := by
  rw [finiteReport]
  cases b
  · obtain ⟨W, f, e, h1, h2⟩ := envRounds_sem g fuel hf
    rw [if_neg (by simp), e]
    cases f with
    | none => exact ⟨_, rfl, rfl, h1⟩
    | some n =>
      refine ⟨_, rfl, rfl, h1, ?_⟩
      rw [decide_eq_true_eq, h2 n rfl]
      constructor
      · intro h i o h3 h4 h5
        have := congrFun (congrFun h (i, o)) (i, o)
        exact (iff_of_eq this).mp ⟨⟨h3, h4⟩, h5⟩
      · intro h
        funext s t
        exact propext ⟨fun ⟨⟨h3, h4⟩, h5⟩ => h s.1 s.2 h3 h4 h5, fun h => h.elim⟩
  · obtain ⟨f, e, h1⟩ := sysRounds_sem g fuel hf
    rw [if_pos rfl, e]
    cases f with
    | none => exact ⟨_, rfl, rfl, h1⟩
    | some n => exact ⟨_, rfl, rfl, h1⟩

theorem checkBoth_sem [Finite I] [Finite O] [Nonempty I] [Nonempty O] (g : Game I O) (ha : g.assumptions ≠ []) (hg : g.guarantees ≠ []) (fuel : Nat)
    (hf : Nat.card (Pos I O) < fuel) :
    ∃ r : Bool × Bool, checkBoth (semMgr I O) (gameCtx g) fuel = some r ∧ (r.1 = true ↔ g.Realizable) ∧ (r.2 = true ↔ g.RoboticsRealizable) := by
  obtain ⟨dump, h, _⟩ := computeWinningPositions_eq g fuel hf
  have hp : ∀ P : Prop, ((fun _ _ => P : T I O) = (semMgr I O).tt) ↔ P := by
    intro P
    constructor
    · intro h
      have := congrFun (congrFun h (Classical.arbitrary _)) (Classical.arbitrary _)
      exact (iff_of_eq this).mpr trivial
    · intro h
      funext s t
      exact propext ⟨fun _ => trivial, fun _ => h⟩
  refine ⟨_, by rw [checkBoth, h], ?_, ?_⟩
  · rw [decide_eq_true_eq, ← hp g.Realizable]
    refine Eq.congr_left ?_
    funext s t
    simp only [semMgr, Mgr.imp, gameCtx, pre, Game.Realizable, eq_iff_iff]
    refine forall_congr' fun i => ?_
    rw [← imp_iff_not_or]
    refine imp_congr_right fun _ => exists_congr fun o => ?_
    rw [nuZ_eq_sysWins g ha hg, and_comm]
  · rw [decide_eq_true_eq, ← hp g.RoboticsRealizable]
    refine Eq.congr_left ?_
    funext s t
    simp only [semMgr, Mgr.imp, gameCtx, pre, Game.RoboticsRealizable, eq_iff_iff]
    refine forall_congr' fun i => forall_congr' fun o => ?_
    rw [← imp_iff_not_or, and_imp, nuZ_eq_sysWins g ha hg]

end

/-! ### Transfer -/

section
variable {A B : Type} [DecidableEq A] [DecidableEq B] {M : Mgr A} {N : Mgr B} {h : A → B} (H : MgrHom M N h)
include H

theorem checkBoth_hom (c : Ctx A) (fuel : Nat) : checkBoth N (c.map h) fuel = checkBoth M c fuel := by
  rw [checkBoth, checkBoth, computeWinningPositions_hom H]
  cases computeWinningPositions M c fuel with
  | none => rfl
  | some r =>
    obtain ⟨W, d⟩ := r
    simp [Ctx.map, H.and, H.imp, H.exPreOutput, H.allPreInput, H.allPreOutput, H.tt, H.inj.eq_iff]

theorem envRounds_hom (c : Ctx A) : ∀ (n : Nat) (W old : A) (k : Nat),
    envRounds N (c.map h) n (h W) (h old) k = (envRounds M c n W old k).map (Prod.map h id) := by
  intro n
  induction n with
  | zero => intro W old k; rfl
  | succ n ih =>
    intro W old k
    rw [envRounds, envRounds]
    by_cases hw : W = old
    · subst hw; simp
    · rw [if_neg hw, if_neg fun e => hw (H.inj e)]
      simp only [Ctx.map, H.swap, H.not, H.and, H.or, H.exPostInput, H.allPostOutput, H.exPreInput, H.allPreOutput, H.tt, H.inj.eq_iff]
      split
      · rfl
      · rw [← ih]; rfl

theorem sysRounds_hom (c : Ctx A) : ∀ (n : Nat) (W old : A) (k : Nat) (f : Option Nat),
    sysRounds N (c.map h) n (h W) (h old) k f = sysRounds M c n W old k f := by
  intro n
  induction n with
  | zero => intro W old k f; rfl
  | succ n ih =>
    intro W old k f
    rw [sysRounds, sysRounds]
    by_cases hw : W = old
    · subst hw; simp
    · rw [if_neg hw, if_neg fun e => hw (H.inj e)]
      simp only [Ctx.map, H.swap, H.not, H.and, H.or, H.imp, H.exPostOutput, H.allPostInput, H.exPreOutput, H.allPreInput, H.tt, H.inj.eq_iff]
      rw [← ih]; rfl

theorem finiteReport_hom (c : Ctx A) (fuel : Nat) (b : Bool) : finiteReport N (c.map h) fuel b = finiteReport M c fuel b := by
  rw [finiteReport, finiteReport, H.ff, H.not, sysRounds_hom H, envRounds_hom H]
  cases b
  · simp only [Bool.false_eq_true, if_false]
    cases envRounds M c fuel M.ff (M.not M.ff) 0 with
    | none => rfl
    | some r =>
      obtain ⟨W, f⟩ := r
      cases f with
      | none => rfl
      | some n => simp [Ctx.map, H.and, H.inj.eq_iff]
  · rfl

omit [DecidableEq A] [DecidableEq B] in
theorem rowCtx_hom (c : Ctx A) (i : Nat) : rowCtx N (c.map h) i = (rowCtx M c i).map h := by
  simp only [rowCtx, Ctx.map, H.tt, Ctx.mk.injEq]
  refine ⟨?_, ?_, trivial, trivial, ?_, ?_⟩ <;> split <;> rfl

theorem rowLoop_hom (c : Ctx A) (fuel : Nat) (is : List Nat) : rowLoop N (c.map h) fuel is = rowLoop M c fuel is := by
  induction is with
  | nil => rfl
  | cons i is ih => rw [rowLoop, rowLoop, rowCtx_hom H, checkBoth_hom H, ih]

omit [DecidableEq A] [DecidableEq B] in
theorem MgrHom.comp {C : Type} {P : Mgr C} {k : B → C} (K : MgrHom N P k) : MgrHom M P (fun a => k (h a)) where
  inj _ _ e := H.inj (K.inj e)
  tt := by rw [K.tt, H.tt]
  ff := by rw [K.ff, H.ff]
  and _ _ := by rw [K.and, H.and]
  or _ _ := by rw [K.or, H.or]
  not _ := by rw [K.not, H.not]
  swap _ := by rw [K.swap, H.swap]
  exPostOutput _ := by rw [K.exPostOutput, H.exPostOutput]
  exPostInput _ := by rw [K.exPostInput, H.exPostInput]
  exPost _ := by rw [K.exPost, H.exPost]
  exPre _ := by rw [K.exPre, H.exPre]
  exPreOutput _ := by rw [K.exPreOutput, H.exPreOutput]
  exPreInput _ := by rw [K.exPreInput, H.exPreInput]
  allPostInput _ := by rw [K.allPostInput, H.allPostInput]
  allPostOutput _ := by rw [K.allPostOutput, H.allPostOutput]
  allPreInput _ := by rw [K.allPreInput, H.allPreInput]
  allPreOutput _ := by rw [K.allPreOutput, H.allPreOutput]

end

/-! ### More rounds -/

section
variable {B : Type} [DecidableEq B] {M : Mgr B} {c : Ctx B}

theorem checkBoth_more {n n' : Nat} (hn : n ≤ n') {r : Bool × Bool} (h : checkBoth M c n = some r) : checkBoth M c n' = some r := by
  rw [checkBoth] at h ⊢
  cases e : computeWinningPositions M c n with
  | none => rw [e] at h; cases h
  | some w => rw [computeWinningPositions_more M c hn e]; rw [e] at h; exact h

theorem rowLoop_more {n n' : Nat} (hn : n ≤ n') : ∀ {is : List Nat} {r : List (Bool × Bool)}, rowLoop M c n is = some r → rowLoop M c n' is = some r
  | [], _, h => h
  | i :: is, r, h => by
    rw [rowLoop] at h ⊢
    cases e : checkBoth M (rowCtx M c i) n with
    | none => rw [e] at h; cases h
    | some x =>
      rw [checkBoth_more hn e]
      rw [e] at h
      cases e' : rowLoop M c n is with
      | none => rw [e'] at h; cases h
      | some xs => rw [rowLoop_more hn e']; rw [e'] at h; exact h

theorem envRounds_more : ∀ {n : Nat} {W old : B} {k : Nat} {r : B × Option Nat}, envRounds M c n W old k = some r → ∀ {n' : Nat}, n ≤ n' →
    envRounds M c n' W old k = some r := by
  intro n
  induction n with
  | zero => intro W old k r h; cases h
  | succ n ih =>
    intro W old k r h n' hn
    obtain ⟨n', rfl⟩ : ∃ m, n' = m + 1 := ⟨n' - 1, by omega⟩
    rw [envRounds] at h ⊢
    split at h
    · rename_i hc; rw [if_pos hc]; exact h
    · rename_i hc
      rw [if_neg hc]
      dsimp only at h ⊢
      split at h
      · rename_i hc'; rw [if_pos hc']; exact h
      · rename_i hc'; rw [if_neg hc']; exact ih h (by omega)

theorem sysRounds_more : ∀ {n : Nat} {W old : B} {k : Nat} {f r : Option Nat}, sysRounds M c n W old k f = some r → ∀ {n' : Nat}, n ≤ n' →
    sysRounds M c n' W old k f = some r := by
  intro n
  induction n with
  | zero => intro W old k f r h; cases h
  | succ n ih =>
    intro W old k f r h n' hn
    obtain ⟨n', rfl⟩ : ∃ m, n' = m + 1 := ⟨n' - 1, by omega⟩
    rw [sysRounds] at h ⊢
    split at h
    · rename_i hc; rw [if_pos hc]; exact h
    · rename_i hc
      rw [if_neg hc]
      exact ih h (by omega)

theorem finiteReport_more {n n' : Nat} (hn : n ≤ n') {b : Bool} {r : FiniteReport} (h : finiteReport M c n b = some r) :
    finiteReport M c n' b = some r := by
  rw [finiteReport] at h ⊢
  cases b
  · rw [if_neg (by simp)] at h ⊢
    cases e : envRounds M c n M.ff (M.not M.ff) 0 with
    | none => rw [e] at h; cases h
    | some w => rw [envRounds_more e hn]; rw [e] at h; exact h
  · rw [if_pos rfl] at h ⊢
    cases e : sysRounds M c n M.ff (M.not M.ff) 0 none with
    | none => rw [e] at h; cases h
    | some w => rw [sysRounds_more e hn]; rw [e] at h; exact h

theorem executeInteraction_more {B : Type} [DecidableEq B] [BddLib B] {tab : VarTable} {c : Ctx B} {n n' : Nat} (hn : n ≤ n') {r : InteractionReport}
    (h : executeInteraction B tab c n = some r) : executeInteraction B tab c n' = some r := by
  rw [executeInteraction] at h ⊢
  cases e : rowLoop (bddMgr B tab.types) c n (List.range 16) with
  | none => rw [e] at h; cases h
  | some rows =>
    rw [rowLoop_more hn e]
    rw [e] at h
    dsimp only at h ⊢
    split at h
    · rename_i hc
      rw [if_pos hc]
      cases e1 : checkBoth (bddMgr B ((tab.add .preOutput "safetyGuaranteesFailed".toList).add .postOutput "safetyGuaranteesFailed".toList).types)
          (nonStrictCtx B c tab.types.length) n with
      | none => rw [e1] at h; cases h
      | some x =>
        rw [checkBoth_more hn e1]
        rw [e1] at h
        dsimp only at h ⊢
        cases e2 : finiteReport (bddMgr B ((tab.add .preOutput "safetyGuaranteesFailed".toList).add .postOutput "safetyGuaranteesFailed".toList).types)
            c n (rows.getD 10 (false, false)).1 with
        | none => rw [e2] at h; cases h
        | some f => rw [finiteReport_more hn e2]; rw [e2] at h; exact h
    · rename_i hc
      rw [if_neg hc]
      cases e2 : finiteReport (bddMgr B tab.types) c n (rows.getD 10 (false, false)).1 with
      | none => rw [e2] at h; cases h
      | some f => rw [finiteReport_more hn e2]; rw [e2] at h; exact h

end

/-! ### Two more variables -/

theorem swapPerm_snoc : ∀ (xs ys : List Nat) (a b : Nat) (p : Nat → Nat), xs.length = ys.length → ∀ k,
    swapPerm (xs ++ [a]) (ys ++ [b]) p k = if k = b then a else if k = a then b else swapPerm xs ys p k
  | [], [], a, b, p, _, k => by simp [swapPerm]
  | x :: xs, y :: ys, a, b, p, h, k => by
    simp only [List.cons_append, swapPerm]
    exact swapPerm_snoc xs ys a b _ (by simpa using h) k

theorem mem_varsOfType_two (types : List VarType) (t t' ty : VarType) (k : Nat) : k ∈ varsOfType (types ++ [t, t']) ty ↔
    k ∈ varsOfType types ty ∨ k = types.length ∧ ty ∈ t.closure ∨ k = types.length + 1 ∧ ty ∈ t'.closure := by
  rw [varsOfType_append, List.mem_append]
  refine or_congr_right ?_
  have e : varsOfType [t, t'] ty = (if ty ∈ t.closure then [0] else []) ++ (if ty ∈ t'.closure then [1] else []) := by
    simp only [varsOfType, List.length_cons, List.length_nil, List.range_succ, List.range_zero, List.nil_append, List.filter_append, List.filter_cons,
      List.filter_nil, List.getElem?_cons_zero, List.getElem?_cons_succ, List.contains_iff_mem, Nat.zero_add]
  rw [e]
  by_cases h : ty ∈ t.closure <;> by_cases h' : ty ∈ t'.closure <;> simp [h, h', eq_comm]

theorem varsOfTypes_pre (types : List VarType) : varsOfTypes (types ++ [.preOutput, .postOutput]) [.preInput, .preOutput] =
    varsOfTypes types [.preInput, .preOutput] ++ [types.length] := by
  simp only [varsOfTypes, List.flatMap_cons, List.flatMap_nil, List.append_nil, varsOfType_append, List.append_assoc]
  have h1 : varsOfType [.preOutput, .postOutput] .preInput = [] := by decide
  have h2 : varsOfType [.preOutput, .postOutput] .preOutput = [0] := by decide
  rw [h1, h2]; simp

theorem varsOfTypes_post (types : List VarType) : varsOfTypes (types ++ [.preOutput, .postOutput]) [.postInput, .postOutput] =
    varsOfTypes types [.postInput, .postOutput] ++ [types.length + 1] := by
  simp only [varsOfTypes, List.flatMap_cons, List.flatMap_nil, List.append_nil, varsOfType_append, List.append_assoc]
  have h1 : varsOfType [.preOutput, .postOutput] .postInput = [] := by decide
  have h2 : varsOfType [.preOutput, .postOutput] .postOutput = [1] := by decide
  rw [h1, h2]; simp

section
variable {X Y : Type} {types : List VarType}

/-- The number of a role when a pair of variables for an output has been added. -/
def bitCode (lay : Layout X Y types) : Slot X (Option Y) → Nat
  | .ci x => lay.code (.ci x)
  | .ni x => lay.code (.ni x)
  | .co (some y) => lay.code (.co y)
  | .no (some y) => lay.code (.no y)
  | .co none => types.length
  | .no none => types.length + 1

/-- The layout when a pair of variables for an output has been added. -/
def Layout.addBit (lay : Layout X Y types)
    (hlen : (varsOfTypes types [.preInput, .preOutput]).length = (varsOfTypes types [.postInput, .postOutput]).length) :
    Layout X (Option Y) (types ++ [.preOutput, .postOutput]) :=
  have hb : ∀ z, lay.code z < types.length := lay.bound
  have hswap : ∀ k, k < types.length → swapPerm (varsOfTypes (types ++ [.preOutput, .postOutput]) [.preInput, .preOutput])
      (varsOfTypes (types ++ [.preOutput, .postOutput]) [.postInput, .postOutput]) id k =
      swapPerm (varsOfTypes types [.preInput, .preOutput]) (varsOfTypes types [.postInput, .postOutput]) id k := fun k hk => by
    rw [varsOfTypes_pre, varsOfTypes_post, swapPerm_snoc _ _ _ _ _ hlen, if_neg (by omega), if_neg (by omega)]
  { code := bitCode lay
    inj := by
      intro z z' h
      rcases z with x | (_ | y) | x | (_ | y) <;> rcases z' with x' | (_ | y') | x' | (_ | y') <;> simp only [bitCode] at h <;>
        first
          | rfl
          | (cases lay.inj h <;> rfl)
          | (have := hb (.ci x); omega) | (have := hb (.ni x); omega) | (have := hb (.co y); omega) | (have := hb (.no y); omega)
          | (have := hb (.ci x'); omega) | (have := hb (.ni x'); omega) | (have := hb (.co y'); omega) | (have := hb (.no y'); omega)
          | omega
    bound := by
      rintro (x | (_ | y) | x | (_ | y)) <;> simp only [bitCode, List.length_append, List.length_cons, List.length_nil]
      · have := hb (.ci x); omega
      · omega
      · have := hb (.co y); omega
      · have := hb (.ni x); omega
      · omega
      · have := hb (.no y); omega
    preInput := fun k => by
      rw [mem_varsOfType_two, lay.preInput, or_iff_left]
      · rfl
      · rintro (⟨_, h⟩ | ⟨_, h⟩) <;> exact absurd h (by decide)
    preOutput := fun k => by
      rw [mem_varsOfType_two, lay.preOutput]
      constructor
      · rintro (⟨y, h⟩ | ⟨h, _⟩ | ⟨_, h⟩)
        · exact ⟨some y, h⟩
        · exact ⟨none, h.symm⟩
        · exact absurd h (by decide)
      · rintro ⟨_ | y, h⟩
        · exact .inr (.inl ⟨h.symm, by decide⟩)
        · exact .inl ⟨y, h⟩
    postInput := fun k => by
      rw [mem_varsOfType_two, lay.postInput, or_iff_left]
      · rfl
      · rintro (⟨_, h⟩ | ⟨_, h⟩) <;> exact absurd h (by decide)
    postOutput := fun k => by
      rw [mem_varsOfType_two, lay.postOutput]
      constructor
      · rintro (⟨y, h⟩ | ⟨_, h⟩ | ⟨h, _⟩)
        · exact ⟨some y, h⟩
        · exact absurd h (by decide)
        · exact ⟨none, h.symm⟩
      · rintro ⟨_ | y, h⟩
        · exact .inr (.inr ⟨h.symm, by decide⟩)
        · exact .inl ⟨y, h⟩
    swap_ci := fun x => (hswap _ (hb _)).trans (lay.swap_ci x)
    swap_ni := fun x => (hswap _ (hb _)).trans (lay.swap_ni x)
    swap_co := fun y => by
      cases y with
      | some y => exact (hswap _ (hb _)).trans (lay.swap_co y)
      | none =>
        rw [varsOfTypes_pre, varsOfTypes_post, swapPerm_snoc _ _ _ _ _ hlen]
        simp [bitCode]
    swap_no := fun y => by
      cases y with
      | some y => exact (hswap _ (hb _)).trans (lay.swap_no y)
      | none =>
        rw [varsOfTypes_pre, varsOfTypes_post, swapPerm_snoc _ _ _ _ _ hlen]
        simp [bitCode] }

variable (B : Type) [DecidableEq B] [L : BddLib B] (lay : Layout X Y types)
    (hlen : (varsOfTypes types [.preInput, .preOutput]).length = (varsOfTypes types [.postInput, .postOutput]).length)

theorem enc_lift (f : T (X → Bool) (Y → Bool)) : lay.enc B f = (lay.addBit hlen).enc B (liftT f) :=
  (lay.addBit hlen).eq_enc B fun a => lay.eval_enc B f a

include hlen in
/-- The BDDs of the original variables in the larger table. -/
theorem lift_hom : MgrHom (semMgr (X → Bool) (Y → Bool)) (bddMgr B (types ++ [.preOutput, .postOutput])) (lay.enc B) := by
  have h := (liftT_hom (I := X → Bool) (Y := Y)).comp ((lay.addBit hlen).hom B)
  have e : (fun f => (lay.addBit hlen).enc B (liftT f)) = lay.enc B := funext fun f => (enc_lift B lay hlen f).symm
  rw [e] at h
  exact h

/-- The specification with the extra bit represents the game with the extra bit. -/
theorem nonStrictCtx_enc (g : Game (X → Bool) (Y → Bool)) :
    nonStrictCtx B ((gameCtx g).map (lay.enc B)) types.length = (gameCtx (failGame g)).map ((lay.addBit hlen).enc B) := by
  have hbit : L.not (L.var (types.length + 1)) = (lay.addBit hlen).enc B (fun _ t => bitOf t = false) := by
    refine (lay.addBit hlen).eq_enc B fun a => ?_
    rw [L.eval_not, L.eval_var]
    simp only [Bool.not_eq_true']
    rfl
  have hmap : ∀ l : List (T (X → Bool) (Y → Bool)), l.map (lay.enc B) = (l.map liftT).map ((lay.addBit hlen).enc B) := by
    intro l
    rw [List.map_map]
    exact List.map_congr_left fun f _ => enc_lift B lay hlen f
  simp only [nonStrictCtx, Ctx.map, gameCtx, failGame, Ctx.mk.injEq]
  refine ⟨hmap _, ?_, enc_lift B lay hlen _, enc_lift B lay hlen _, enc_lift B lay hlen _, ?_⟩
  · rw [List.map_append, ← hmap, hbit]; rfl
  · rw [hbit, enc_lift B lay hlen]
    refine (lay.addBit hlen).eq_enc B fun a => ?_
    have h1 := (lay.addBit hlen).eval_enc B (fun _ t => bitOf t = false) a
    have h2 := (lay.addBit hlen).eval_enc B (liftT g.safetySys) a
    have h3 : L.eval (L.var types.length) a = bitOf (curPos ((lay.addBit hlen).get a)) := L.eval_var _ _
    rw [L.eval_xor, L.eval_or, L.eval_not, h3]
    revert h1 h2
    generalize L.eval ((lay.addBit hlen).enc B (fun _ t => bitOf t = false)) a = u
    generalize L.eval ((lay.addBit hlen).enc B (liftT g.safetySys)) a = w
    generalize bitOf (curPos ((lay.addBit hlen).get a)) = x
    generalize bitOf (nxtPos ((lay.addBit hlen).get a)) = y
    simp only [liftT]
    intro h1 h2
    rw [← h2]
    cases u <;> cases w <;> cases x <;> cases y <;> simp_all

end

theorem tableLayout_length (ds : Decls) :
    (varsOfTypes (tableOf ds).types [.preInput, .preOutput]).length = (varsOfTypes (tableOf ds).types [.postInput, .postOutput]).length := by
  simp [varsOfTypes, varsOfType_post]

end Slugs.Model
