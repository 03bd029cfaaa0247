import Verif.Model.Assumptions
import Verif.Lemmas.Recycling
import Verif.Lemmas.Hom
import Verif.Lemmas.Fuel
import Verif.Props.Core

/-! Lemmas about the analysis of assumptions: distances, the most general strategy, and findings. -/

namespace Slugs.Model

open Slugs.Spec Slugs.Props

section sem
variable {I O : Type}

/-- The values of the middle loop. -/
def approx (g : Game I O) (G : T I O) (Z : Set (Pos I O)) : Nat → Set (Pos I O)
  | 0 => ∅
  | k + 1 => FY g G Z (approx g G Z k)

theorem approx_sub_succ (g : Game I O) (G : T I O) (Z : Set (Pos I O)) (k : Nat) : approx g G Z k ⊆ approx g G Z (k + 1) :=
  fun _ hs => .inl hs

theorem approx_mono (g : Game I O) (G : T I O) (Z : Set (Pos I O)) {k n : Nat} (h : k ≤ n) : approx g G Z k ⊆ approx g G Z n := by
  induction h with
  | refl => exact subset_rfl
  | step _ ih => exact ih.trans (approx_sub_succ g G Z _)

theorem approx_sub_muY (g : Game I O) (G : T I O) (Z : Set (Pos I O)) (k : Nat) : approx g G Z k ⊆ muY g G Z := by
  induction k with
  | zero => exact Set.empty_subset _
  | succ k ih =>
    calc approx g G Z (k + 1) ⊆ FY g G Z (muY g G Z) := (FY g G Z).monotone ih
      _ = muY g G Z := (FY g G Z).map_lfp

/-- What is stored for a goal. -/
structure DistOf (g : Game I O) (G : T I O) (Z : Set (Pos I O)) (d : List (T I O)) : Prop where
  eq : d = (List.range d.length).map fun k => pre (approx g G Z (k + 1))
  pos : 0 < d.length
  last : approx g G Z d.length = muY g G Z

theorem assumptionLoopD_eq [Finite I] [Finite O] (g : Game I O) (G : T I O) (Z Y : Set (Pos I O)) (fuel : Nat)
    (hf : Nat.card (Pos I O) < fuel) (as : List (T I O)) (S : Set (Pos I O)) (all : T I O) :
    ∃ all', assumptionLoopD (semMgr I O) (gameCtx g) fuel (liveT G Z Y) as (pre S, all) =
      some (pre (S ∪ {s | ∃ A ∈ as, s ∈ nuX g G A Z Y}), all') := by
  induction as generalizing S all with
  | nil => exact ⟨all, by simp [assumptionLoopD]⟩
  | cons A as ih =>
    have hor : (semMgr I O).or (pre S) (pre (nuX g G A Z Y)) = pre (S ∪ nuX g G A Z Y) := rfl
    obtain ⟨all', h⟩ := ih (S ∪ nuX g G A Z Y) ((semMgr I O).or all (paths g G A Z Y (nuX g G A Z Y)))
    refine ⟨all', ?_⟩
    rw [assumptionLoopD, nu0Loop_eq g G A Z Y fuel hf]
    simp only [hor, h]
    simp only [Option.some.injEq, Prod.mk.injEq, pre_inj, and_true]
    ext s
    simp only [Set.mem_union, Set.mem_ofPred_eq, List.mem_cons, exists_eq_or_imp, or_assoc]

theorem mu1StepD_eq [Finite I] [Finite O] (g : Game I O) (G : T I O) (Z Yp Y : Set (Pos I O)) (fuel : Nat)
    (hf : Nat.card (Pos I O) < fuel) (hYp : Yp ⊆ Y) (d st : List (T I O)) :
    ∃ all, mu1StepD (semMgr I O) (gameCtx g) fuel (pre Y) (liveT G Z Yp, (d, st)) =
      some (pre (FY g G Z Y), (liveT G Z Y, (d ++ [pre (FY g G Z Y)], st ++ [all]))) := by
  have h : (semMgr I O).or (liveT G Z Yp) ((semMgr I O).swap (pre Y)) = liveT G Z Y := by
    funext s t
    simp only [semMgr, liveT, pre, or_assoc, eq_iff_iff]
    exact or_congr_right (or_iff_right_of_imp (fun h => hYp h))
  obtain ⟨all, ha⟩ := assumptionLoopD_eq g G Z Y fuel hf g.assumptions Y (semMgr I O).ff
  refine ⟨all, ?_⟩
  simp only [mu1StepD, h]
  rw [show (gameCtx g).livenessAssumptions = g.assumptions from rfl, ha]
  rfl

theorem mu1LoopD_eq [Finite I] [Finite O] (g : Game I O) (G : T I O) (Z : Set (Pos I O)) (fuel : Nat)
    (hf : Nat.card (Pos I O) < fuel) :
    ∃ live d st, mu1LoopD (semMgr I O) (gameCtx g) fuel (pre Z) G = some (pre (muY g G Z), (live, (d, st))) ∧ DistOf g G Z d := by
  have hd : ∀ n, ((List.range n).map fun k => pre (approx g G Z (k + 1))) ++ [pre (FY g G Z (approx g G Z n))] =
      (List.range (n + 1)).map fun k => pre (approx g G Z (k + 1)) := by
    intro n
    rw [List.range_succ, List.map_append]
    rfl
  obtain ⟨y, t, t', h1, ⟨n, st, rfl, ht⟩, h3⟩ := fixLoop_rule
    (step := mu1StepD (semMgr I O) (gameCtx g) fuel)
    (fun x s => ∃ (n : Nat) (st : List (T I O)), x = pre (approx g G Z n) ∧
      s = (liveT G Z (approx g G Z (n - 1)), ((List.range n).map fun k => pre (approx g G Z (k + 1)), st))) cocardOf
    (by
      rintro x s ⟨n, st, rfl, rfl⟩
      obtain ⟨all, ha⟩ := mu1StepD_eq g G Z (approx g G Z (n - 1)) (approx g G Z n) fuel hf (approx_mono g G Z (by omega))
        ((List.range n).map fun k => pre (approx g G Z (k + 1))) st
      refine ⟨_, _, ha, ?_⟩
      intro hne
      have hne' : approx g G Z n ≠ FY g G Z (approx g G Z n) := fun h => hne (by rw [← h])
      exact ⟨⟨n + 1, st ++ [all], rfl, by rw [hd]; rfl⟩, cocardOf_lt (approx_sub_succ g G Z n) hne'⟩)
    fuel (semMgr I O).ff ((semMgr I O).and G ((semMgr I O).swap (pre Z)), ([], []))
    ⟨0, [], by funext s t; simp [semMgr, pre, approx], by
      simp only [List.range_zero, List.map_nil, Prod.mk.injEq, and_true]
      funext s t; simp [semMgr, pre, liveT, approx]⟩
    (lt_of_le_of_lt (cocardOf_le _) hf)
  subst ht
  obtain ⟨all, ha⟩ := mu1StepD_eq g G Z (approx g G Z (n - 1)) (approx g G Z n) fuel hf (approx_mono g G Z (by omega))
    ((List.range n).map fun k => pre (approx g G Z (k + 1))) st
  rw [ha] at h3
  simp only [Option.some.injEq, Prod.mk.injEq, pre_inj] at h3
  have hY : approx g G Z n = muY g G Z := Set.Subset.antisymm (approx_sub_muY g G Z n) ((FY g G Z).lfp_le h3.1.le)
  refine ⟨liveT G Z (approx g G Z n), (List.range (n + 1)).map fun k => pre (approx g G Z (k + 1)), st ++ [all], ?_, ?_⟩
  · rw [mu1LoopD, h1, ← h3.2, ← hd, hY]
  · refine ⟨by simp, by simp, ?_⟩
    rw [List.length_map, List.length_range]
    exact h3.1.trans hY

theorem goalLoopD_eq [Finite I] [Finite O] (g : Game I O) (Z : Set (Pos I O)) (fuel : Nat)
    (hf : Nat.card (Pos I O) < fuel) (goals : List (T I O)) (S : Set (Pos I O)) (D St : List (List (T I O))) :
    ∃ D' St', goalLoopD (semMgr I O) (gameCtx g) fuel (pre Z) goals (pre S, (D, St)) =
        some (pre (S ∩ {s | ∀ G ∈ goals, s ∈ muY g G Z}), (D ++ D', St ++ St')) ∧
      List.Forall₂ (fun G d => DistOf g G Z d) goals D' := by
  induction goals generalizing S D St with
  | nil => exact ⟨[], [], by simp [goalLoopD], .nil⟩
  | cons G goals ih =>
    obtain ⟨live, d, st, h1, h2⟩ := mu1LoopD_eq g G Z fuel hf
    have hand : (semMgr I O).and (pre S) (pre (muY g G Z)) = pre (S ∩ muY g G Z) := rfl
    obtain ⟨D', St', h3, h4⟩ := ih (S ∩ muY g G Z) (D ++ [d]) (St ++ [st])
    refine ⟨d :: D', st :: St', ?_, .cons h2 h4⟩
    simp only [goalLoopD, h1, hand, h3, List.append_assoc, List.singleton_append, Option.some.injEq, Prod.mk.injEq, and_true, pre_inj]
    ext s; simp [and_assoc]

/-- The whole computation. -/
theorem reactiveDistances_eq [Finite I] [Finite O] (g : Game I O) (fuel : Nat) (hf : Nat.card (Pos I O) < fuel) :
    ∃ D St, reactiveDistances (semMgr I O) (gameCtx g) fuel = some (pre (nuZ g), (D, St)) ∧
      List.Forall₂ (fun G d => DistOf g G (nuZ g) d) g.guarantees D := by
  have hstep : ∀ Z, ∃ D St, goalLoopD (semMgr I O) (gameCtx g) fuel (pre Z) (gameCtx g).livenessGuarantees ((semMgr I O).tt, ([], [])) =
      some (pre (FZ g Z), (D, St)) ∧ List.Forall₂ (fun G d => DistOf g G Z d) g.guarantees D := by
    intro Z
    obtain ⟨D, St, h1, h2⟩ := goalLoopD_eq g Z fuel hf g.guarantees Set.univ [] []
    refine ⟨D, St, ?_, h2⟩
    have : (semMgr I O).tt = pre Set.univ := by funext s t; simp [semMgr, pre]
    rw [this, show (gameCtx g).livenessGuarantees = g.guarantees from rfl, h1]
    simp only [Set.univ_inter, List.nil_append]
    rfl
  obtain ⟨y, t, t', h1, ⟨Z, rfl, hZ1, hZ2⟩, h3⟩ := fixLoop_rule
    (step := fun nu2 (_ : List (List (T I O)) × List (List (T I O))) =>
      goalLoopD (semMgr I O) (gameCtx g) fuel nu2 (gameCtx g).livenessGuarantees ((semMgr I O).tt, ([], [])))
    (fun x _ => ∃ Z, x = pre Z ∧ FZ g Z ⊆ Z ∧ nuZ g ⊆ Z) cardOf
    (by
      rintro x s ⟨Z, rfl, hz1, hz2⟩
      obtain ⟨D, St, hs, _⟩ := hstep Z
      refine ⟨_, _, hs, ?_⟩
      intro hne
      have hne' : FZ g Z ≠ Z := fun h => hne (by rw [h])
      refine ⟨⟨_, rfl, (FZ g).monotone hz1, ?_⟩, cardOf_lt hz1 hne'⟩
      calc nuZ g = FZ g (nuZ g) := (FZ g).map_gfp.symm
        _ ⊆ FZ g Z := (FZ g).monotone hz2)
    fuel (semMgr I O).tt ([], [])
    ⟨Set.univ, by funext s t; simp [semMgr, pre], Set.subset_univ _, Set.subset_univ _⟩
    (lt_of_le_of_lt (cardOf_le _) hf)
  obtain ⟨D, St, hs, hg⟩ := hstep Z
  rw [hs] at h3
  simp only [Option.some.injEq, Prod.mk.injEq, pre_inj] at h3
  have hZ : Z = nuZ g := Set.Subset.antisymm ((FZ g).le_gfp h3.1.ge) hZ2
  subst hZ
  exact ⟨D, St, by rw [reactiveDistances, h1, ← h3.2], hg⟩

/-! ### The most general strategy -/

theorem reachInner_eq [Finite I] [Finite O] (strategy goal : T I O) (fuel : Nat) (hf : Nat.card (Pos I O) < fuel) (P : Set (Pos I O)) :
    ∃ X P', reachInner (semMgr I O) strategy goal fuel (pre P) = some (pre X, pre P') := by
  obtain ⟨y, t, t', h1, ⟨X, P', rfl, rfl⟩, h3⟩ := fixLoop_rule
    (step := fun x tp => some ((semMgr I O).or x ((semMgr I O).swap ((semMgr I O).exPre ((semMgr I O).and x strategy))),
      (semMgr I O).or tp ((semMgr I O).swap ((semMgr I O).exPre ((semMgr I O).and ((semMgr I O).and x strategy) goal)))))
    (fun x tp => ∃ X P' : Set (Pos I O), x = pre X ∧ tp = pre P') cocardOf
    (by
      rintro x tp ⟨X, P', rfl, rfl⟩
      refine ⟨pre (X ∪ {t | ∃ s ∈ X, strategy s t}), pre (P' ∪ {t | ∃ s, (s ∈ X ∧ strategy s t) ∧ goal s t}), rfl, fun hne => ⟨⟨_, _, rfl, rfl⟩, ?_⟩⟩
      exact cocardOf_lt Set.subset_union_left fun h => hne (by rw [← h]))
    fuel (pre P) (pre P) ⟨P, P, rfl, rfl⟩ (lt_of_le_of_lt (cocardOf_le _) hf)
  refine ⟨X, P' ∪ {t | ∃ s, (s ∈ X ∧ strategy s t) ∧ goal s t}, ?_⟩
  simp only [Option.some.injEq, Prod.mk.injEq] at h3
  rw [reachInner]
  refine h1.trans ?_
  rw [← h3.2]
  rfl

theorem reachGoals_eq [Finite I] [Finite O] (fuel : Nat) (hf : Nat.card (Pos I O) < fuel) (l : List (T I O × T I O)) (A P : Set (Pos I O)) :
    ∃ A' P', reachGoals (semMgr I O) fuel l (pre A, pre P) = some (pre A', pre P') ∧ A ⊆ A' := by
  induction l generalizing A P with
  | nil => exact ⟨A, P, rfl, subset_rfl⟩
  | cons q l ih =>
    obtain ⟨strategy, goal⟩ := q
    obtain ⟨X, P', h1⟩ := reachInner_eq strategy goal fuel hf P
    obtain ⟨A', P'', h2, h3⟩ := ih (A ∪ X) P'
    refine ⟨A', P'', ?_, Set.subset_union_left.trans h3⟩
    rw [reachGoals, h1]
    exact h2

theorem reachableInGeneral_eq [Finite I] [Finite O] (g : Game I O) (fuel : Nat) (hf : Nat.card (Pos I O) < fuel) (st : List (List (T I O))) :
    ∃ R, reachableInGeneral (semMgr I O) (gameCtx g) fuel st = some R := by
  obtain ⟨y, t, t', h1, _, _⟩ := fixLoop_rule
    (step := fun x tp => reachGoals (semMgr I O) fuel ((st.map (goalStrategy (semMgr I O))).zip (gameCtx g).livenessGuarantees) (x, tp))
    (fun x tp => ∃ X P' : Set (Pos I O), x = pre X ∧ tp = pre P') cocardOf
    (by
      rintro x tp ⟨X, P', rfl, rfl⟩
      obtain ⟨A', P'', h2, h3⟩ := reachGoals_eq fuel hf ((st.map (goalStrategy (semMgr I O))).zip (gameCtx g).livenessGuarantees) X P'
      exact ⟨_, _, h2, fun hne => ⟨⟨_, _, rfl, rfl⟩, cocardOf_lt h3 fun h => hne (by rw [← h])⟩⟩)
    fuel ((semMgr I O).and (gameCtx g).initEnv (gameCtx g).initSys) ((semMgr I O).and (gameCtx g).initEnv (gameCtx g).initSys)
    ⟨{s | g.initEnv s.1 ∧ g.initSys s}, {s | g.initEnv s.1 ∧ g.initSys s}, rfl, rfl⟩ (lt_of_le_of_lt (cocardOf_le _) hf)
  exact ⟨y, by rw [reachableInGeneral, h1]; rfl⟩

/-! ### Comparing with a harder game -/

/-- In `g'` there is less to assume than in `g`. -/
structure Harder (g g' : Game I O) : Prop where
  safetyEnv : ∀ s i, g.safetyEnv s i → g'.safetyEnv s i
  safetySys : g'.safetySys = g.safetySys
  assumptions : ∀ a ∈ g'.assumptions, a ∈ g.assumptions
  guarantees : g'.guarantees = g.guarantees

theorem Harder.nuX {g g' : Game I O} (h : Harder g g') (G A : T I O) {Z Z' Y Y' : Set (Pos I O)} (hZ : Z' ⊆ Z) (hY : Y' ⊆ Y) :
    nuX g' G A Z' Y' ⊆ nuX g G A Z Y := by
  apply le_nuX
  intro s hs
  rw [← nuX_fix] at hs
  intro i hi
  obtain ⟨o, h1, h2⟩ := hs i (h.safetyEnv s i hi)
  refine ⟨o, ?_, h.safetySys ▸ h2⟩
  rcases h1 with h1 | h1 | h1
  · exact .inl ⟨h1.1, hZ h1.2⟩
  · exact .inr (.inl (hY h1))
  · exact .inr (.inr h1)

theorem Harder.approx {g g' : Game I O} (h : Harder g g') (G : T I O) {Z Z' : Set (Pos I O)} (hZ : Z' ⊆ Z) (k : Nat) :
    approx g' G Z' k ⊆ approx g G Z k := by
  induction k with
  | zero => exact subset_rfl
  | succ k ih =>
    rintro s (hs | ⟨A, hA, hs⟩)
    · exact .inl (ih hs)
    · exact .inr ⟨A, h.assumptions A hA, h.nuX G A hZ ih hs⟩

theorem Harder.muY {g g' : Game I O} (h : Harder g g') (G : T I O) {Z Z' : Set (Pos I O)} (hZ : Z' ⊆ Z) : muY g' G Z' ⊆ muY g G Z :=
  muY_le g' G fun A hA => (h.nuX G A hZ subset_rfl).trans (nuX_sub_muY g G A Z (h.assumptions A hA))

theorem Harder.nuZ {g g' : Game I O} (h : Harder g g') : nuZ g' ⊆ nuZ g := by
  refine (FZ g).le_gfp fun s hs G hG => ?_
  have : s ∈ FZ g' (Slugs.Model.nuZ g') := by rw [Slugs.Model.nuZ, (FZ g').map_gfp]; exact hs
  exact h.muY G subset_rfl (this G (h.guarantees ▸ hG))

theorem mem_nuX (g : Game I O) (G A : T I O) (Z Y : Set (Pos I O)) (s : Pos I O) :
    s ∈ nuX g G A Z Y ↔ ∃ X : Pos I O → Prop, X s ∧ ∀ p, X p → ∀ i, g.safetyEnv p i → ∃ o, g.safetySys p (i, o) ∧
      ((G p (i, o) ∧ (i, o) ∈ Z) ∨ (i, o) ∈ Y ∨ (X (i, o) ∧ ¬ A p (i, o))) := by
  constructor
  · intro hs
    refine ⟨fun p => p ∈ nuX g G A Z Y, hs, fun p hp i hi => ?_⟩
    have hp' : p ∈ cox g (paths g G A Z Y (nuX g G A Z Y)) := by rw [nuX_fix]; exact hp
    obtain ⟨o, h1, h2⟩ := hp' i hi
    exact ⟨o, h2, h1⟩
  · rintro ⟨X, hs, hX⟩
    refine le_nuX g G A (X := {p | X p}) (fun p hp i hi => ?_) hs
    obtain ⟨o, h1, h2⟩ := hX p hp i hi
    exact ⟨o, h2, h1⟩

theorem within_iff (g : Game I O) (G : T I O) (Z : Set (Pos I O)) (k : Nat) (s : Pos I O) :
    g.Within (fun p => p ∈ Z) G k s ↔ s ∈ approx g G Z k := by
  induction k generalizing s with
  | zero => exact Iff.rfl
  | succ k ih =>
    rw [Game.Within]
    refine or_congr (ih s) (exists_congr fun A => and_congr_right fun _ => ?_)
    rw [mem_nuX]
    simp only [ih]

theorem lt_pre (A C : Set (Pos I O)) : (semMgr I O).lt (pre A) (pre C) ↔ A ⊆ C ∧ A ≠ C := by
  rw [Mgr.lt, ne_eq, pre_inj]
  refine and_congr_left fun _ => ⟨fun h s hs => ?_, fun h => ?_⟩
  · have := congrFun (congrFun h s) s
    have h2 : (¬ s ∈ A) ∨ s ∈ C := (iff_of_eq this).mpr trivial
    exact h2.resolve_left (not_not_intro hs)
  · funext s t
    refine propext ⟨fun _ => trivial, fun _ => ?_⟩
    by_cases hs : s ∈ A
    · exact .inr (h hs)
    · exact .inl hs

theorem passes_iff [Nonempty I] [Nonempty O] (g : Game I O) (W : Set (Pos I O)) :
    passes (semMgr I O) (gameCtx g) (pre W) ↔ ∀ i, g.initEnv i → ∃ o, g.initSys (i, o) ∧ (i, o) ∈ W := by
  obtain ⟨i0⟩ := ‹Nonempty I›
  obtain ⟨o0⟩ := ‹Nonempty O›
  rw [passes]
  have hres : (semMgr I O).allPreInput ((semMgr I O).imp (gameCtx g).initEnv
      ((semMgr I O).exPreOutput ((semMgr I O).and (pre W) (gameCtx g).initSys))) =
      fun _ _ => ∀ i, g.initEnv i → ∃ o, g.initSys (i, o) ∧ (i, o) ∈ W := by
    funext s t
    simp only [semMgr, Mgr.imp, gameCtx, pre, eq_iff_iff]
    refine forall_congr' fun i => ?_
    rw [← imp_iff_not_or]
    exact imp_congr_right fun _ => exists_congr fun o => and_comm
  rw [hres]
  constructor
  · intro h
    have := congrFun (congrFun h (i0, o0)) (i0, o0)
    exact (iff_of_eq this).mpr trivial
  · intro h
    funext s t
    exact propext ⟨fun _ => trivial, fun _ => h⟩

theorem DistOf.get {g : Game I O} {G : T I O} {Z : Set (Pos I O)} {d : List (T I O)} (h : DistOf g G Z d) (k : Nat) :
    d.getD (min (d.length - 1) k) (semMgr I O).ff = pre (approx g G Z (k + 1)) := by
  have hpos := h.pos
  have hlt : min (d.length - 1) k < d.length := by omega
  rw [List.getD_eq_getElem?_getD]
  have e : d[min (d.length - 1) k]? = some (pre (approx g G Z (min (d.length - 1) k + 1))) := by
    generalize min (d.length - 1) k = m at *
    conv_lhs => rw [h.eq]
    rw [List.getElem?_map, List.getElem?_range hlt]
    rfl
  rw [e, Option.getD_some, pre_inj]
  by_cases hk : k ≤ d.length - 1
  · rw [min_eq_right hk]
  · rw [min_eq_left (by omega), show d.length - 1 + 1 = d.length by omega]
    refine Set.Subset.antisymm (approx_mono g G Z (by omega)) ?_
    rw [h.last]
    exact approx_sub_muY g G Z _

theorem DistOf.mem {g : Game I O} {G : T I O} {Z : Set (Pos I O)} {d : List (T I O)} (h : DistOf g G Z d) (p : T I O × Nat) :
    p ∈ d.zipIdx ↔ p.2 < d.length ∧ p.1 = pre (approx g G Z (p.2 + 1)) := by
  rw [List.mem_zipIdx_iff_getElem?]
  have e : d[p.2]? = if p.2 < d.length then some (pre (approx g G Z (p.2 + 1))) else none := by
    conv_lhs => rw [h.eq]
    rw [List.getElem?_map]
    by_cases hp : p.2 < d.length
    · rw [List.getElem?_range hp, if_pos hp]; rfl
    · rw [if_neg hp, List.getElem?_eq_none (by simpa using hp)]; rfl
  rw [e]
  by_cases hp : p.2 < d.length
  · rw [if_pos hp]; simp [hp, eq_comm]
  · simp [hp]

theorem compareGoal_none {g g' : Game I O} {G : T I O} {Z Z' : Set (Pos I O)} {d d' : List (T I O)} (h : DistOf g G Z d) (h' : DistOf g' G Z' d')
    (hlim : muY g G Z = muY g' G Z') (R : T I O) :
    compareGoal (semMgr I O) d d' R = none ↔ ∀ k, approx g G Z k = approx g' G Z' k := by
  have key : ((d'.zipIdx.map fun p => (d.getD (min (d.length - 1) p.2) (semMgr I O).ff, p.1)).filter fun p => p.1 ≠ p.2) = [] ↔
      ∀ k, approx g G Z k = approx g' G Z' k := by
    rw [List.filter_eq_nil_iff]
    constructor
    · intro hd
      have h1 : ∀ k, k < d'.length → approx g G Z (k + 1) = approx g' G Z' (k + 1) := by
        intro k hk
        have := hd (d.getD (min (d.length - 1) k) (semMgr I O).ff, pre (approx g' G Z' (k + 1)))
          (List.mem_map.mpr ⟨(pre (approx g' G Z' (k + 1)), k), (h'.mem _).mpr ⟨hk, rfl⟩, rfl⟩)
        rw [h.get] at this
        simpa [pre_inj] using this
      have hn : approx g G Z d'.length = muY g G Z := by
        have hpos := h'.pos
        have := h1 (d'.length - 1) (by omega)
        rw [show d'.length - 1 + 1 = d'.length by omega] at this
        rw [this, h'.last, hlim]
      intro k
      cases k with
      | zero => rfl
      | succ k =>
        by_cases hk : k < d'.length
        · exact h1 k hk
        · have e1 : approx g G Z (k + 1) = muY g G Z := by
            refine Set.Subset.antisymm (approx_sub_muY g G Z _) ?_
            rw [← hn]; exact approx_mono g G Z (by omega)
          have e2 : approx g' G Z' (k + 1) = muY g' G Z' := by
            refine Set.Subset.antisymm (approx_sub_muY g' G Z' _) ?_
            rw [← h'.last]; exact approx_mono g' G Z' (by omega)
          rw [e1, e2, hlim]
    · intro hk p hp
      obtain ⟨q, hq, rfl⟩ := List.mem_map.mp hp
      have := ((h'.mem q).mp hq).2
      simp only [ne_eq, decide_not, Bool.not_eq_eq_eq_not, Bool.not_true, decide_eq_false_iff_not, not_not]
      rw [h.get, this, hk]
  rw [compareGoal, ← key]
  split
  · rename_i hh; exact ⟨fun _ => hh, fun _ => rfl⟩
  · rename_i hh; exact ⟨fun e => (by cases e), fun e => absurd e hh⟩

/-- The comparison of all distances. -/
theorem compareDistances_eq {g g' : Game I O} {Z Z' : Set (Pos I O)} {goals : List (T I O)} {D D' : List (List (T I O))}
    (h : List.Forall₂ (fun G d => DistOf g G Z d) goals D) (h' : List.Forall₂ (fun G d => DistOf g' G Z' d) goals D')
    (hlim : ∀ G ∈ goals, muY g G Z = muY g' G Z') (R : T I O) :
    (compareDistances (semMgr I O) D D' R = .superfluous ∧ ∀ G ∈ goals, ∀ k, approx g G Z k = approx g' G Z' k) ∨
    (∃ needs, compareDistances (semMgr I O) D D' R = .easier needs ∧ needs ≠ [] ∧ (needs.map Prod.fst).Pairwise (· < ·) ∧
      ∀ j, j ∈ needs.map Prod.fst ↔ ∃ G, goals[j]? = some G ∧ ∃ k, approx g G Z k ≠ approx g' G Z' k) := by
  have key : ∀ (n : Nat) (goals : List (T I O)) (D D' : List (List (T I O))), List.Forall₂ (fun G d => DistOf g G Z d) goals D →
      List.Forall₂ (fun G d => DistOf g' G Z' d) goals D' → (∀ G ∈ goals, muY g G Z = muY g' G Z') →
      ∀ needs, needs = (((D.zip D').zipIdx n).filterMap fun p => (compareGoal (semMgr I O) p.1.1 p.1.2 R).map fun b => (p.2, b)) →
      (needs.map Prod.fst).Pairwise (· < ·) ∧ (∀ j ∈ needs.map Prod.fst, n ≤ j) ∧
      ∀ j, j + n ∈ needs.map Prod.fst ↔ ∃ G, goals[j]? = some G ∧ ∃ k, approx g G Z k ≠ approx g' G Z' k := by
    intro n goals D D' h
    induction h generalizing n D' with
    | nil =>
      intro h' _ needs hneeds
      cases h'
      subst hneeds
      simp
    | @cons G d goals D hd _ ih =>
      intro h' hlim needs hneeds
      cases h' with
      | @cons _ d' _ D' hd' h' =>
        obtain ⟨i1, i2, i3⟩ := ih (n + 1) D' h' (fun G hG => hlim G (by simp [hG])) _ rfl
        rw [List.zip_cons_cons, List.zipIdx_cons, List.filterMap_cons] at hneeds
        have hc := compareGoal_none hd hd' (hlim G (by simp)) R
        have i3' : ∀ j, j + 1 + n ∈ List.map Prod.fst (((D.zip D').zipIdx (n + 1)).filterMap fun p =>
            (compareGoal (semMgr I O) p.1.1 p.1.2 R).map fun b => (p.2, b)) ↔
            ∃ G, goals[j]? = some G ∧ ∃ k, approx g G Z k ≠ approx g' G Z' k := by
          intro j; rw [← i3 j, show j + 1 + n = j + (n + 1) by omega]
        cases hcg : compareGoal (semMgr I O) d d' R with
        | none =>
          rw [hcg] at hneeds
          simp only [Option.map_none] at hneeds
          subst hneeds
          refine ⟨i1, fun j hj => by have := i2 j hj; omega, fun j => ?_⟩
          cases j with
          | zero =>
            refine ⟨fun hj => ?_, ?_⟩
            · have := i2 _ hj; omega
            · rintro ⟨G', hG', k, hk⟩
              simp at hG'; subst hG'
              exact absurd (hc.mp hcg k) hk
          | succ j => rw [i3' j]; simp
        | some b =>
          rw [hcg] at hneeds
          simp only [Option.map_some] at hneeds
          subst hneeds
          refine ⟨List.pairwise_cons.mpr ⟨fun j hj => by have := i2 j hj; simp; omega, i1⟩, fun j hj => ?_, fun j => ?_⟩
          · rw [List.map_cons, List.mem_cons] at hj
            rcases hj with rfl | hj
            · exact le_refl _
            · have := i2 j hj; omega
          · rw [List.map_cons, List.mem_cons]
            cases j with
            | zero =>
              refine ⟨fun _ => ⟨G, rfl, ?_⟩, fun _ => .inl (by simp)⟩
              by_contra hn
              push Not at hn
              rw [hc.mpr hn] at hcg
              cases hcg
            | succ j =>
              rw [i3' j]
              simp only [List.getElem?_cons_succ]
              refine ⟨fun hh => hh.resolve_left (by simp), .inr⟩
  obtain ⟨h1, _, h3⟩ := key 0 goals D D' h h' hlim _ rfl
  rw [compareDistances]
  split
  · rename_i he
    refine .inl ⟨rfl, fun G hG k => ?_⟩
    obtain ⟨j, hj⟩ := List.getElem?_of_mem hG
    by_contra hn
    have := (h3 j).mpr ⟨G, hj, k, hn⟩
    rw [he] at this
    simp at this
  · rename_i hne
    exact .inr ⟨_, rfl, hne, h1, fun j => h3 j⟩

/-- What is printed about an assumption, in terms of the computed sets. -/
theorem finding_sem [Nonempty I] [Nonempty O] {g g' : Game I O} (hh : Harder g g') {D D' : List (List (T I O))}
    (h : List.Forall₂ (fun G d => DistOf g G (nuZ g) d) g.guarantees D) (h' : List.Forall₂ (fun G d => DistOf g' G (nuZ g') d) g'.guarantees D')
    (R : T I O) (red : Prop) [Decidable red] :
    (finding (semMgr I O) (gameCtx g) (pre (nuZ g)) D R red (pre (nuZ g')) D' = .crucial ∧
      ¬ ∀ i, g.initEnv i → ∃ o, g.initSys (i, o) ∧ (i, o) ∈ nuZ g') ∨
    ((∀ i, g.initEnv i → ∃ o, g.initSys (i, o) ∧ (i, o) ∈ nuZ g') ∧
      ((∃ b, finding (semMgr I O) (gameCtx g) (pre (nuZ g)) D R red (pre (nuZ g')) D' = .morePositions b ∧
          (∃ s, s ∈ nuZ g ∧ s ∉ nuZ g') ∧ (b = true ↔ ∃ s : Pos I O, g.initEnv s.1 ∧ s ∈ nuZ g ∧ s ∉ nuZ g')) ∨
        (nuZ g = nuZ g' ∧
          ((finding (semMgr I O) (gameCtx g) (pre (nuZ g)) D R red (pre (nuZ g')) D' = .redundant ∧ red) ∨
          (¬ red ∧
            ((finding (semMgr I O) (gameCtx g) (pre (nuZ g)) D R red (pre (nuZ g')) D' = .superfluous ∧
                ∀ G ∈ g.guarantees, ∀ k, approx g G (nuZ g) k = approx g' G (nuZ g') k) ∨
              ∃ needs, finding (semMgr I O) (gameCtx g) (pre (nuZ g)) D R red (pre (nuZ g')) D' = .easier needs ∧ needs ≠ [] ∧
                (needs.map Prod.fst).Pairwise (· < ·) ∧ ∀ j, j ∈ needs.map Prod.fst ↔
                  ∃ G, g.guarantees[j]? = some G ∧ ∃ k, approx g G (nuZ g) k ≠ approx g' G (nuZ g') k)))))) := by
  have hsub := hh.nuZ
  rw [finding]
  by_cases hp : passes (semMgr I O) (gameCtx g) (pre (nuZ g'))
  swap
  · rw [if_neg hp]
    exact .inl ⟨rfl, fun hq => hp ((passes_iff g _).mpr hq)⟩
  refine .inr ⟨(passes_iff g _).mp hp, ?_⟩
  rw [if_pos hp]
  by_cases hl : (semMgr I O).lt (pre (nuZ g')) (pre (nuZ g))
  · rw [if_pos hl]
    refine .inl ⟨_, rfl, ?_, ?_⟩
    · rw [lt_pre] at hl
      by_contra hn
      push Not at hn
      exact hl.2 (Set.Subset.antisymm hsub hn)
    · have e : ∀ A : Set (Pos I O), (semMgr I O).and (pre A) (gameCtx g).initEnv = pre (A ∩ {s | g.initEnv s.1}) := fun _ => rfl
      rw [decide_eq_true_iff, e, e, lt_pre]
      constructor
      · rintro ⟨_, hne⟩
        by_contra hn
        push Not at hn
        refine hne (Set.Subset.antisymm (fun s hs => ⟨hsub hs.1, hs.2⟩) fun s hs => ⟨hn s hs.2 hs.1, hs.2⟩)
      · rintro ⟨s, h1, h2, h3⟩
        refine ⟨fun s hs => ⟨hsub hs.1, hs.2⟩, fun e => h3 ?_⟩
        have : s ∈ nuZ g' ∩ {s | g.initEnv s.1} := e ▸ ⟨h2, h1⟩
        exact this.1
  · rw [if_neg hl]
    have heq : nuZ g = nuZ g' := by
      by_contra hne
      exact hl ((lt_pre _ _).mpr ⟨hsub, fun e => hne e.symm⟩)
    refine .inr ⟨heq, ?_⟩
    by_cases hr : red
    · rw [if_pos hr]; exact .inl ⟨rfl, hr⟩
    · rw [if_neg hr]
      refine .inr ⟨hr, compareDistances_eq h (hh.guarantees ▸ h') (fun G hG => ?_) R⟩
      rw [muY_nuZ g hG, muY_nuZ g' (hh.guarantees.symm ▸ hG), heq]

end sem

end Slugs.Model
