import Verif.Model.Counter
import Verif.Lemmas.Recycling

/-!
The fixed point of `extensionCounterstrategy.hpp` is the complement of the one of `synthesisAlgorithm.cpp`, and the lists of preferred transitions
it produces.
-/

namespace Slugs.Model

open Slugs.Spec

variable {I O : Type}

/-- Transitions with which the environment avoids `paths`. -/
def envPaths (g : Game I O) (G A : T I O) (Z Y X : Set (Pos I O)) : T I O :=
  fun s t => g.safetyEnv s t.1 ∧ ∀ o, ¬ paths g G A Z Y X s (t.1, o)

/-- `livetransitions` of the counterstrategy computation. -/
def nlive (G : T I O) (Z Y : Set (Pos I O)) : T I O := fun s t => ¬ liveT G Z Y s t

/-- Positions in which some entry of the list offers an input. -/
def CovE (ds : List (T I O)) : Set (Pos I O) := {s | ∃ d ∈ ds, ∃ t, d s t}

theorem CovE_mono {ds ds' : List (T I O)} (h : ∀ d ∈ ds, d ∈ ds') : CovE ds ⊆ CovE ds' :=
  fun _ ⟨d, hd, t, ht⟩ => ⟨d, h d hd, t, ht⟩

theorem not_mem_cox (g : Game I O) (G A : T I O) (Z Y X : Set (Pos I O)) (s : Pos I O) :
    s ∉ cox g (paths g G A Z Y X) ↔ ∃ t, envPaths g G A Z Y X s t := by
  simp only [cox, Set.mem_ofPred_eq, not_forall, not_exists, envPaths]
  constructor
  · rintro ⟨i, hi, h⟩; exact ⟨(i, s.2), hi, h⟩
  · rintro ⟨t, hi, h⟩; exact ⟨t.1, hi, h⟩

theorem mu0Step_eq (g : Game I O) (G A : T I O) (Z Y X : Set (Pos I O)) (i j : Nat) (dump : CDump (T I O)) :
    mu0Step (semMgr I O) (gameCtx g) i j (nlive G Z Y) A (pre Xᶜ) dump =
      some (pre (cox g (paths g G A Z Y X))ᶜ, dump ++ [(i, j, envPaths g G A Z Y X)]) := by
  have h : (semMgr I O).allPostOutput ((semMgr I O).and (gameCtx g).safetyEnv ((semMgr I O).imp (gameCtx g).safetySys
      ((semMgr I O).and (nlive G Z Y) ((semMgr I O).or ((semMgr I O).swap (pre Xᶜ)) A)))) = envPaths g G A Z Y X := by
    funext s t
    simp only [semMgr, Mgr.imp, gameCtx, nlive, liveT, pre, envPaths, paths, Set.mem_compl_iff, eq_iff_iff]
    constructor
    · intro h
      refine ⟨(h s.2).1, fun o ho => ?_⟩
      have := (h o).2
      tauto
    · rintro ⟨h1, h2⟩ o
      have := h2 o
      tauto
  have h' : (semMgr I O).exPostInput (envPaths g G A Z Y X) = pre (cox g (paths g G A Z Y X))ᶜ := by
    funext s t
    rw [pre, Set.mem_compl_iff, not_mem_cox, eq_iff_iff]
    simp only [semMgr, envPaths]
    constructor
    · rintro ⟨i, h⟩; exact ⟨(i, t.2), h⟩
    · rintro ⟨t', h⟩; exact ⟨t'.1, h⟩
  simp only [mu0Step, h, h']

/-- What is known about the list for guarantee `G` and assumption `A` after the innermost loop: every offered input is allowed, and whatever the
system then does, the transition is not a live one, and satisfies the assumption or leads to a position with an earlier entry. -/
structure EnvList (g : Game I O) (G A : T I O) (Z Y : Set (Pos I O)) (ds : List (T I O)) : Prop where
  step : ∀ m d, ds[m]? = some d → ∀ s t, d s t → g.safetyEnv s t.1 ∧ ∀ o, g.safetySys s (t.1, o) →
    ¬ liveT G Z Y s (t.1, o) ∧ (A s (t.1, o) ∨ (t.1, o) ∈ CovE (ds.take m))
  indep : ∀ d ∈ ds, ∀ s i o o', d s (i, o) → d s (i, o')
  covers : (nuX g G A Z Y)ᶜ ⊆ CovE ds

theorem envList_snoc {g : Game I O} {G A : T I O} {Z Y X : Set (Pos I O)} {ds : List (T I O)}
    (h : ∀ m d, ds[m]? = some d → ∀ s t, d s t → g.safetyEnv s t.1 ∧ ∀ o, g.safetySys s (t.1, o) →
      ¬ liveT G Z Y s (t.1, o) ∧ (A s (t.1, o) ∨ (t.1, o) ∈ CovE (ds.take m))) (hX : Xᶜ ⊆ CovE ds) :
    ∀ m d, (ds ++ [envPaths g G A Z Y X])[m]? = some d → ∀ s t, d s t → g.safetyEnv s t.1 ∧ ∀ o, g.safetySys s (t.1, o) →
      ¬ liveT G Z Y s (t.1, o) ∧ (A s (t.1, o) ∨ (t.1, o) ∈ CovE ((ds ++ [envPaths g G A Z Y X]).take m)) := by
  intro m d hd s t hst
  by_cases hm : m < ds.length
  · rw [List.getElem?_append_left hm] at hd
    rw [List.take_append_of_le_length (by omega)]
    exact h m d hd s t hst
  · have hm : m = ds.length := by
      by_contra hne
      rw [List.getElem?_eq_none (by simp; omega)] at hd; cases hd
    subst hm
    simp at hd
    subst hd
    rw [List.take_append_of_le_length (le_refl _), List.take_length]
    refine ⟨hst.1, fun o ho => ?_⟩
    have := hst.2 o
    simp only [paths, ho, and_true] at this
    refine ⟨fun hl => this (hl.elim .inl fun h => .inr (.inl h)), ?_⟩
    by_cases hA : A s (t.1, o)
    · exact .inl hA
    · exact .inr (hX fun hx => this (.inr (.inr ⟨hx, hA⟩)))

theorem mu0Loop_eq [Finite I] [Finite O] (g : Game I O) (G A : T I O) (Z Y : Set (Pos I O)) (i j fuel : Nat)
    (hf : Nat.card (Pos I O) < fuel) (dump : CDump (T I O)) :
    ∃ ds : List (T I O), fixLoop (mu0Step (semMgr I O) (gameCtx g) i j (nlive G Z Y) A) fuel (semMgr I O).ff dump =
      some (pre (nuX g G A Z Y)ᶜ, dump ++ ds.map fun d => (i, j, d)) ∧ EnvList g G A Z Y ds := by
  obtain ⟨y, t, t', h1, ⟨X, ds, rfl, rfl, hX1, hX2, hs, hi, hc⟩, h3⟩ := fixLoop_rule
    (step := mu0Step (semMgr I O) (gameCtx g) i j (nlive G Z Y) A)
    (fun x st => ∃ (X : Set (Pos I O)) (ds : List (T I O)), x = pre Xᶜ ∧ st = dump ++ ds.map (fun d => (i, j, d)) ∧
      cox g (paths g G A Z Y X) ⊆ X ∧ nuX g G A Z Y ⊆ X ∧
      (∀ m d, ds[m]? = some d → ∀ s t, d s t → g.safetyEnv s t.1 ∧ ∀ o, g.safetySys s (t.1, o) →
        ¬ liveT G Z Y s (t.1, o) ∧ (A s (t.1, o) ∨ (t.1, o) ∈ CovE (ds.take m))) ∧
      (∀ d ∈ ds, ∀ s i o o', d s (i, o) → d s (i, o')) ∧ Xᶜ ⊆ CovE ds) cocardOf
    (by
      rintro x s ⟨X, ds, rfl, rfl, h1, h2, h3, h4, h5⟩
      refine ⟨_, _, mu0Step_eq g G A Z Y X i j _, ?_⟩
      intro hne
      have hne' : cox g (paths g G A Z Y X) ≠ X := fun h => hne (by rw [h])
      refine ⟨⟨_, ds ++ [envPaths g G A Z Y X], rfl, by simp, cox_mono g (paths_mono g G A subset_rfl subset_rfl h1), ?_,
        envList_snoc h3 h5, ?_, ?_⟩, cocardOf_lt (Set.compl_subset_compl.mpr h1) fun e => hne' (compl_injective e.symm)⟩
      · rw [← nuX_fix]
        exact cox_mono g (paths_mono g G A subset_rfl subset_rfl h2)
      · intro d hd s i o o' hdo
        rcases List.mem_append.mp hd with hd | hd
        · exact h4 d hd s i o o' hdo
        · simp at hd; subst hd; exact hdo
      · intro s hs
        rw [Set.mem_compl_iff, not_mem_cox] at hs
        exact ⟨_, by simp, hs⟩)
    fuel (semMgr I O).ff dump
    ⟨Set.univ, [], by funext s t; simp [semMgr, pre], by simp, Set.subset_univ _, Set.subset_univ _, by simp, by simp, by simp⟩
    (lt_of_le_of_lt (cocardOf_le _) hf)
  rw [mu0Step_eq] at h3
  simp only [Option.some.injEq, Prod.mk.injEq, pre_inj] at h3
  have hX' : cox g (paths g G A Z Y X) = X := compl_injective h3.1
  have hX : X = nuX g G A Z Y := Set.Subset.antisymm (le_nuX g G A hX'.superset) hX2
  refine ⟨ds ++ [envPaths g G A Z Y X], ?_, envList_snoc hs hc, ?_, ?_⟩
  · rw [h1, ← h3.2, hX]; simp
  · intro d hd s i o o' hdo
    rcases List.mem_append.mp hd with hd | hd
    · exact hi d hd s i o o' hdo
    · simp at hd; subst hd; exact hdo
  · rw [← hX]
    exact hc.trans (CovE_mono (by simp +contextual))

/-! ### The loop over the assumptions -/

/-- The entries for assumption `i` and guarantee `j`. -/
def entriesC {B : Type} (dump : CDump B) (i j : Nat) : List B := (dump.filter fun e => e.1 == i && e.2.1 == j).map fun e => e.2.2

theorem entriesC_append {B : Type} (d d' : CDump B) (i j : Nat) : entriesC (d ++ d') i j = entriesC d i j ++ entriesC d' i j := by
  simp [entriesC]

theorem entriesC_same {B : Type} (ds : List B) (i j : Nat) : entriesC (ds.map fun d => (i, j, d)) i j = ds := by
  simp [entriesC, List.filter_map, Function.comp_def]

theorem entriesC_none {B : Type} {d : CDump B} {i j : Nat} (h : ∀ e ∈ d, ¬ (e.1 = i ∧ e.2.1 = j)) : entriesC d i j = [] := by
  simp only [entriesC, List.map_eq_nil_iff, List.filter_eq_nil_iff, Bool.and_eq_true, beq_iff_eq]
  exact h

theorem assumptionLoopC_eq [Finite I] [Finite O] (g : Game I O) (G : T I O) (Z Y : Set (Pos I O)) (j fuel : Nat)
    (hf : Nat.card (Pos I O) < fuel) (as : List (T I O)) (i : Nat) (S : Set (Pos I O)) (dump : CDump (T I O)) :
    ∃ dump', assumptionLoopC (semMgr I O) (gameCtx g) fuel j (nlive G Z Y) i as (pre S, dump) =
        some (pre (S ∩ {s | ∀ A ∈ as, s ∉ nuX g G A Z Y}), dump ++ dump') ∧
      (∀ k A, as[k]? = some A → EnvList g G A Z Y (entriesC dump' (i + k) j)) ∧
      (∀ e ∈ dump', i ≤ e.1 ∧ e.1 < i + as.length ∧ e.2.1 = j) := by
  induction as generalizing i S dump with
  | nil => exact ⟨[], by simp [assumptionLoopC], by simp, by simp⟩
  | cons A as ih =>
    obtain ⟨ds, h1, h2⟩ := mu0Loop_eq g G A Z Y i j fuel hf dump
    obtain ⟨dump', h3, h4, h5⟩ := ih (i + 1) (S ∩ (nuX g G A Z Y)ᶜ) (dump ++ ds.map fun d => (i, j, d))
    refine ⟨ds.map (fun d => (i, j, d)) ++ dump', ?_, ?_, ?_⟩
    · rw [assumptionLoopC, h1]
      simp only
      rw [show (semMgr I O).and (pre S) (pre (nuX g G A Z Y)ᶜ) = pre (S ∩ (nuX g G A Z Y)ᶜ) from rfl, h3]
      simp only [List.append_assoc, Option.some.injEq, Prod.mk.injEq, and_true, pre_inj]
      ext s
      simp [and_assoc]
    · intro k A' hk
      rw [entriesC_append]
      cases k with
      | zero =>
        simp at hk; subst hk
        rw [entriesC_none (d := dump') (fun e he h => by have := h5 e he; omega), List.append_nil, Nat.add_zero, entriesC_same]
        exact h2
      | succ k =>
        rw [entriesC_none (d := ds.map _) (fun e he h => by
          obtain ⟨d, _, rfl⟩ := List.mem_map.mp he
          have := h.1
          dsimp only at this
          omega), List.nil_append, show i + (k + 1) = i + 1 + k by omega]
        exact h4 k A' (by simpa using hk)
    · intro e he
      rcases List.mem_append.mp he with he | he
      · obtain ⟨d, _, rfl⟩ := List.mem_map.mp he
        simp
      · have := h5 e he
        simp only [List.length_cons]
        omega

/-! ### The middle loop -/

theorem FY_compl (g : Game I O) (G : T I O) (Z Y : Set (Pos I O)) :
    Yᶜ ∩ {s | ∀ A ∈ g.assumptions, s ∉ nuX g G A Z Y} = (FY g G Z Y)ᶜ := by
  ext s
  simp only [Set.mem_inter_iff, Set.mem_compl_iff, Set.mem_ofPred_eq]
  constructor
  · rintro ⟨h1, h2⟩ (h | ⟨A, hA, h⟩)
    · exact h1 h
    · exact h2 A hA h
  · intro h
    exact ⟨fun h1 => h (.inl h1), fun A hA h1 => h (.inr ⟨A, hA, h1⟩)⟩

theorem nu1StepC_eq [Finite I] [Finite O] (g : Game I O) (G : T I O) (Z Yp Y : Set (Pos I O)) (j fuel : Nat)
    (hf : Nat.card (Pos I O) < fuel) (hYp : Yp ⊆ Y) (old dump : CDump (T I O)) :
    ∃ dump', nu1StepC (semMgr I O) (gameCtx g) fuel j old (pre Yᶜ) (nlive G Z Yp, dump) =
        some (pre (FY g G Z Y)ᶜ, (nlive G Z Y, old ++ dump')) ∧
      (∀ k A, g.assumptions[k]? = some A → EnvList g G A Z Y (entriesC dump' k j)) ∧
      (∀ e ∈ dump', e.1 < g.assumptions.length ∧ e.2.1 = j) := by
  have h : (semMgr I O).and (nlive G Z Yp) ((semMgr I O).swap (pre Yᶜ)) = nlive G Z Y := by
    funext s t
    simp only [semMgr, nlive, liveT, pre, Set.mem_compl_iff, eq_iff_iff]
    have := @hYp t
    tauto
  obtain ⟨dump', h1, h2, h3⟩ := assumptionLoopC_eq g G Z Y j fuel hf g.assumptions 0 Yᶜ old
  refine ⟨dump', ?_, by simpa using h2, fun e he => ⟨by have := h3 e he; omega, (h3 e he).2.2⟩⟩
  simp only [nu1StepC, h]
  rw [show (gameCtx g).livenessAssumptions = g.assumptions from rfl, h1, FY_compl]

theorem nu1LoopC_eq [Finite I] [Finite O] (g : Game I O) (G : T I O) (Z : Set (Pos I O)) (j fuel : Nat)
    (hf : Nat.card (Pos I O) < fuel) (dump : CDump (T I O)) :
    ∃ live dump', nu1LoopC (semMgr I O) (gameCtx g) fuel j (pre Zᶜ) G dump =
        some (pre (muY g G Z)ᶜ, (live, dump ++ dump')) ∧
      (∀ k A, g.assumptions[k]? = some A → EnvList g G A Z (muY g G Z) (entriesC dump' k j)) ∧
      (∀ e ∈ dump', e.1 < g.assumptions.length ∧ e.2.1 = j) := by
  obtain ⟨y, t, t', h1, ⟨Y, Yp, d, rfl, hYp, rfl, hY⟩, h3⟩ := fixLoop_rule
    (step := nu1StepC (semMgr I O) (gameCtx g) fuel j dump)
    (fun x st => ∃ (Y Yp : Set (Pos I O)) (d : CDump (T I O)), x = pre Yᶜ ∧ Yp ⊆ Y ∧ st = (nlive G Z Yp, d) ∧ Y ⊆ muY g G Z) cardOf
    (by
      rintro x s ⟨Y, Yp, d, rfl, hYp, rfl, hY⟩
      obtain ⟨dump', hs, _⟩ := nu1StepC_eq g G Z Yp Y j fuel hf hYp dump d
      refine ⟨_, _, hs, fun hne => ?_⟩
      have hsub : Y ⊆ FY g G Z Y := fun s hs => .inl hs
      refine ⟨⟨_, Y, _, rfl, hsub, rfl, ?_⟩, cardOf_lt (Set.compl_subset_compl.mpr hsub) fun e => hne (by rw [e])⟩
      calc FY g G Z Y ⊆ FY g G Z (muY g G Z) := (FY g G Z).monotone hY
        _ = muY g G Z := (FY g G Z).map_lfp)
    fuel (semMgr I O).tt ((semMgr I O).or ((semMgr I O).not G) ((semMgr I O).swap (pre Zᶜ)), dump)
    ⟨∅, ∅, dump, by funext s t; simp [semMgr, pre], subset_rfl, by
      simp only [Prod.mk.injEq, and_true]
      funext s t
      simp only [semMgr, pre, nlive, liveT, Set.mem_compl_iff, Set.mem_empty_iff_false, or_false, eq_iff_iff]
      tauto, Set.empty_subset _⟩
    (lt_of_le_of_lt (cardOf_le _) hf)
  obtain ⟨dump', hs, hl, he⟩ := nu1StepC_eq g G Z Yp Y j fuel hf hYp dump d
  rw [hs] at h3
  simp only [Option.some.injEq, Prod.mk.injEq, pre_inj] at h3
  have hYe : FY g G Z Y = Y := compl_injective h3.1
  have hYeq : Y = muY g G Z := Set.Subset.antisymm hY ((FY g G Z).lfp_le hYe.le)
  rw [hYeq] at hl h1 h3
  exact ⟨_, dump', by rw [nu1LoopC, h1, ← h3.2], hl, he⟩

/-! ### The loop over the goals and the outermost loop -/

/-- The lists that one round of the outermost loop produces. -/
structure RoundOK (g : Game I O) (Z : Set (Pos I O)) (dump : CDump (T I O)) : Prop where
  lists : ∀ i A j G, g.assumptions[i]? = some A → g.guarantees[j]? = some G → EnvList g G A Z (muY g G Z) (entriesC dump i j)
  range : ∀ e ∈ dump, e.1 < g.assumptions.length ∧ e.2.1 < g.guarantees.length
  sorted : dump.Pairwise fun e e' => e.2.1 ≤ e'.2.1

theorem goalLoopC_eq [Finite I] [Finite O] (g : Game I O) (Z : Set (Pos I O)) (fuel : Nat)
    (hf : Nat.card (Pos I O) < fuel) (goals : List (T I O)) (j : Nat) (S : Set (Pos I O)) (dump : CDump (T I O)) :
    ∃ dump', goalLoopC (semMgr I O) (gameCtx g) fuel (pre Zᶜ) j goals (pre S, dump) =
        some (pre (S ∪ {s | ∃ G ∈ goals, s ∉ muY g G Z}), dump ++ dump') ∧
      (∀ k G, goals[k]? = some G → ∀ i A, g.assumptions[i]? = some A →
        EnvList g G A Z (muY g G Z) (entriesC dump' i (j + k))) ∧
      (∀ e ∈ dump', e.1 < g.assumptions.length ∧ j ≤ e.2.1 ∧ e.2.1 < j + goals.length) ∧
      dump'.Pairwise (fun e e' => e.2.1 ≤ e'.2.1) := by
  induction goals generalizing j S dump with
  | nil => exact ⟨[], by simp [goalLoopC], by simp, by simp, .nil⟩
  | cons G goals ih =>
    obtain ⟨live, d1, h1, h2, h2'⟩ := nu1LoopC_eq g G Z j fuel hf dump
    obtain ⟨dump', h3, h4, h5, h6⟩ := ih (j + 1) (S ∪ (muY g G Z)ᶜ) (dump ++ d1)
    refine ⟨d1 ++ dump', ?_, ?_, ?_, ?_⟩
    · rw [goalLoopC, h1]
      simp only
      rw [show (semMgr I O).or (pre S) (pre (muY g G Z)ᶜ) = pre (S ∪ (muY g G Z)ᶜ) from rfl, h3]
      simp only [List.append_assoc, Option.some.injEq, Prod.mk.injEq, and_true, pre_inj]
      ext s
      simp [or_assoc]
    · intro k G' hk i A hA
      rw [entriesC_append]
      cases k with
      | zero =>
        simp at hk; subst hk
        rw [entriesC_none (d := dump') (fun e he h => by have := h5 e he; omega), List.append_nil, Nat.add_zero]
        exact h2 i A hA
      | succ k =>
        rw [entriesC_none (d := d1) (fun e he h => by have := h2' e he; omega), List.nil_append,
          show j + (k + 1) = j + 1 + k by omega]
        exact h4 k G' (by simpa using hk) i A hA
    · intro e he
      rcases List.mem_append.mp he with he | he
      · have := h2' e he
        simp only [List.length_cons]
        omega
      · have := h5 e he
        simp only [List.length_cons]
        omega
    · refine List.pairwise_append.mpr ⟨List.pairwise_of_forall_mem_list fun a ha b hb => ?_, h6, fun a ha b hb => ?_⟩
      · rw [(h2' a ha).2, (h2' b hb).2]
      · rw [(h2' a ha).2]
        have := (h5 b hb).2.1
        omega

/-- The values of the outermost loop. -/
def Zseq (g : Game I O) (n : Nat) : Set (Pos I O) := (FZ g)^[n] Set.univ

theorem Zseq_succ (g : Game I O) (n : Nat) : Zseq g (n + 1) = FZ g (Zseq g n) := Function.iterate_succ_apply' _ _ _

theorem Zseq_anti (g : Game I O) (n : Nat) : Zseq g (n + 1) ⊆ Zseq g n := by
  induction n with
  | zero => exact Set.subset_univ _
  | succ n ih => rw [Zseq_succ g n, Zseq_succ g (n + 1)]; exact (FZ g).monotone ih

theorem Zseq_outer (g : Game I O) (n : Nat) : Outer g (Zseq g n) := by
  cases n with
  | zero => exact .inl rfl
  | succ n => exact .inr ⟨Zseq g n, Zseq_succ g n, Zseq_anti g n⟩

theorem nuZ_sub_Zseq (g : Game I O) (n : Nat) : nuZ g ⊆ Zseq g n := by
  induction n with
  | zero => exact Set.subset_univ _
  | succ n ih =>
    rw [Zseq_succ]
    calc nuZ g = FZ g (nuZ g) := (FZ g).map_gfp.symm
      _ ⊆ FZ g (Zseq g n) := (FZ g).monotone ih

/-- The whole computation: it terminates and computes the complement of `nuZ`; the preferred transitions are those of the rounds of the
outermost loop, the last of which leaves the fixed point as it is. -/
theorem computeWinningPositionsC_eq [Finite I] [Finite O] (g : Game I O) (fuel : Nat) (hf : Nat.card (Pos I O) < fuel) :
    ∃ rounds : List (CDump (T I O)), computeWinningPositionsC (semMgr I O) (gameCtx g) fuel = some (pre (nuZ g)ᶜ, rounds.flatten) ∧
      (∀ m D, rounds[m]? = some D → RoundOK g (Zseq g m) D) ∧ ∃ n, rounds.length = n + 1 ∧ Zseq g n = nuZ g := by
  have hstep : ∀ n (st : CDump (T I O)), ∃ D, mu2StepC (semMgr I O) (gameCtx g) fuel (pre (Zseq g n)ᶜ) st =
      some (pre (Zseq g (n + 1))ᶜ, st ++ D) ∧ RoundOK g (Zseq g n) D := by
    intro n st
    obtain ⟨D, h1, h2, h3, h4⟩ := goalLoopC_eq g (Zseq g n) fuel hf g.guarantees 0 ∅ st
    refine ⟨D, ?_, fun i A j G hA hG => by simpa using h2 j G hG i A hA, fun e he => by have := h3 e he; omega, h4⟩
    have : (semMgr I O).ff = pre ∅ := by funext s t; simp [semMgr, pre]
    rw [mu2StepC, this, show (gameCtx g).livenessGuarantees = g.guarantees from rfl, h1]
    simp only [Option.some.injEq, Prod.mk.injEq, and_true, pre_inj]
    rw [Zseq_succ]
    ext s
    simp only [Set.empty_union, Set.mem_compl_iff, Set.mem_ofPred_eq]
    constructor
    · rintro ⟨G, hG, h⟩ h'
      exact h (h' G hG)
    · intro h
      by_contra h'
      exact h fun G hG => by_contra fun h'' => h' ⟨G, hG, h''⟩
  obtain ⟨y, t, t', h1, ⟨rounds, rfl, rfl, hr⟩, h3⟩ := fixLoop_rule
    (step := mu2StepC (semMgr I O) (gameCtx g) fuel)
    (fun x st => ∃ rounds : List (CDump (T I O)), x = pre (Zseq g rounds.length)ᶜ ∧ st = rounds.flatten ∧
      ∀ m D, rounds[m]? = some D → RoundOK g (Zseq g m) D) cocardOf
    (by
      rintro x s ⟨rounds, rfl, rfl, hr⟩
      obtain ⟨D, hs, hD⟩ := hstep rounds.length rounds.flatten
      refine ⟨_, _, hs, fun hne => ⟨⟨rounds ++ [D], by simp, by simp, ?_⟩,
        cocardOf_lt (Set.compl_subset_compl.mpr (Zseq_anti g _)) fun e => hne (by rw [e])⟩⟩
      intro m D' hm
      by_cases hml : m < rounds.length
      · rw [List.getElem?_append_left hml] at hm
        exact hr m D' hm
      · have hml : m = rounds.length := by
          by_contra hne
          rw [List.getElem?_eq_none (by simp; omega)] at hm; cases hm
        subst hml
        simp at hm
        subst hm
        exact hD)
    fuel (semMgr I O).ff []
    ⟨[], by funext s t; simp [semMgr, pre, Zseq], by simp, by simp⟩
    (lt_of_le_of_lt (cocardOf_le _) hf)
  obtain ⟨D, hs, hD⟩ := hstep rounds.length rounds.flatten
  rw [hs] at h3
  simp only [Option.some.injEq, Prod.mk.injEq, pre_inj] at h3
  have hfix : Zseq g (rounds.length + 1) = Zseq g rounds.length := compl_injective h3.1
  have hZ : Zseq g rounds.length = nuZ g := by
    refine Set.Subset.antisymm ((FZ g).le_gfp ?_) (nuZ_sub_Zseq g _)
    rw [← Zseq_succ, hfix]
  refine ⟨rounds ++ [D], ?_, ?_, rounds.length, by simp, hZ⟩
  · rw [computeWinningPositionsC, h1, ← h3.2, hZ]; simp
  · intro m D' hm
    by_cases hml : m < rounds.length
    · rw [List.getElem?_append_left hml] at hm
      exact hr m D' hm
    · have hml : m = rounds.length := by
        by_contra hne
        rw [List.getElem?_eq_none (by simp; omega)] at hm; cases hm
      subst hml
      simp at hm
      subst hm
      exact hD

/-! ### The check -/

theorem checkRealizabilityC_eq [Finite I] [Finite O] [Nonempty (Pos I O)] (g : Game I O) (robotics : Bool) (fuel : Nat) (hf : Nat.card (Pos I O) < fuel) :
    ∃ (rounds : List (CDump (T I O))) (v : Verdict) (dump : Dump (T I O)),
      checkRealizabilityC (semMgr I O) (gameCtx g) robotics fuel = some (v, pre (nuZ g)ᶜ, rounds.flatten) ∧
      (if robotics = true then checkRealizabilityRobotics .standard (semMgr I O) (gameCtx g) fuel
        else checkRealizability .standard (semMgr I O) (gameCtx g) fuel) = some (v, pre (nuZ g), dump) ∧
      (∀ m D, rounds[m]? = some D → RoundOK g (Zseq g m) D) ∧ ∃ n, rounds.length = n + 1 ∧ Zseq g n = nuZ g := by
  obtain ⟨rounds, h1, h2⟩ := computeWinningPositionsC_eq g fuel hf
  obtain ⟨dump, h3, _⟩ := computeWinningPositions_eq g fuel hf
  have hv : ∀ r r' : T I O, r' = (semMgr I O).not r → verdictOfC (semMgr I O) r' = verdictOf (semMgr I O) r := by
    rintro r _ rfl
    have e1 : (semMgr I O).not r = (semMgr I O).tt ↔ r = (semMgr I O).ff := by
      simp only [semMgr]
      constructor <;> intro h <;> funext s t
      · have := congrFun (congrFun h s) t
        simpa using this
      · rw [h]; simp
    have e2 : (semMgr I O).not r = (semMgr I O).ff ↔ r = (semMgr I O).tt := by
      simp only [semMgr]
      constructor <;> intro h <;> funext s t
      · have := congrFun (congrFun h s) t
        simpa using this
      · rw [h]; simp
    simp only [verdictOfC, verdictOf, e1, e2]
    by_cases a : r = (semMgr I O).ff
    · by_cases b : r = (semMgr I O).tt
      · obtain ⟨s⟩ : Nonempty (Pos I O) := inferInstance
        have := congrFun (congrFun (a.symm.trans b) s) s
        simp [semMgr] at this
      · rw [if_pos a, if_neg b, if_pos a]
    · rw [if_neg a]
      by_cases b : r = (semMgr I O).tt
      · rw [if_pos b, if_pos b]
      · rw [if_neg b, if_neg b, if_neg a]
  cases robotics
  · refine ⟨rounds, _, dump, by rw [checkRealizabilityC, h1], ?_, h2⟩
    rw [if_neg (by simp), checkRealizability, show solve .standard (semMgr I O) (gameCtx g) fuel = _ from h3]
    simp only [Bool.false_eq_true, if_false]
    congr 2
    refine (hv _ _ ?_).symm
    funext s t
    simp only [semMgr, Mgr.imp, gameCtx, pre, Set.mem_compl_iff, eq_iff_iff, not_forall, not_or, not_exists, not_and, not_not]
    refine exists_congr fun i => and_congr Iff.rfl (forall_congr' fun o => ?_)
    tauto
  · refine ⟨rounds, _, dump, by rw [checkRealizabilityC, h1], ?_, h2⟩
    rw [if_pos rfl, checkRealizabilityRobotics, show solve .standard (semMgr I O) (gameCtx g) fuel = _ from h3]
    simp only [if_true]
    congr 2
    refine (hv _ _ ?_).symm
    funext s t
    simp only [semMgr, Mgr.imp, gameCtx, pre, Set.mem_compl_iff, eq_iff_iff, not_forall, not_or, not_and, not_not]
    tauto

end Slugs.Model
