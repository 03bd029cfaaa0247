import Verif.Lemmas.Recycling

/-!
The bias for action keeps the winning positions and yields ranked lists of preferred transitions.
-/

namespace Slugs.Model

open Slugs.Spec

variable {I O : Type}

/-- The transitions of the additional loop. -/
def acts (g : Game I O) (G : T I O) (Z X : Set (Pos I O)) : T I O := fun s t => liveT G Z X s t ∧ g.safetySys s t

theorem acts_mono (g : Game I O) (G : T I O) (Z : Set (Pos I O)) {X X' : Set (Pos I O)} (h : X ⊆ X') (s t : Pos I O)
    (hst : acts g G Z X s t) : acts g G Z X' s t :=
  ⟨hst.1.imp id (fun ht => h ht), hst.2⟩

theorem mu1bStep_eq (g : Game I O) (G : T I O) (Z Y X : Set (Pos I O)) (j : Nat) (hYX : Y ⊆ X) (dump : Dump (T I O)) :
    mu1bStep (semMgr I O) (gameCtx g) j (liveT G Z Y) (pre X) dump =
      some (pre (cox g (acts g G Z X)), dump ++ [(j, acts g G Z X)]) := by
  have h : (semMgr I O).and ((semMgr I O).or (liveT G Z Y) ((semMgr I O).swap (pre X))) (gameCtx g).safetySys =
      acts g G Z X := by
    funext s t
    simp only [semMgr, liveT, pre, acts, gameCtx, or_assoc, eq_iff_iff]
    exact and_congr_left' (or_congr_right (or_iff_right_of_imp (fun h => hYX h)))
  simp only [mu1bStep, h, coxOp_eq]

theorem cox_acts_muY (g : Game I O) (G : T I O) (Z : Set (Pos I O)) (ha : g.assumptions ≠ []) :
    cox g (acts g G Z (muY g G Z)) ⊆ muY g G Z := by
  obtain ⟨A, hA⟩ := List.exists_mem_of_ne_nil _ ha
  refine (le_nuX g G A ?_).trans (nuX_sub_muY g G A Z hA)
  exact cox_mono g (fun s t h => ⟨h.1.imp id (fun h => .inl h), h.2⟩)

/-- The additional loop. -/
theorem mu1bLoop_eq [Finite I] [Finite O] (g : Game I O) (ha : g.assumptions ≠ []) (G : T I O) (Z Y : Set (Pos I O))
    (fuel j : Nat) (hf : Nat.card (Pos I O) < fuel) (dump : Dump (T I O)) (ds : List (T I O)) (hr : Ranked g G Z ds)
    (hc : Y ⊆ Covered g ds) (hY : Y ⊆ muY g G Z) (hY' : Y ⊆ cox g (acts g G Z Y))
    (htg : ∀ d ∈ ds, ∀ s t, d s t → t ∈ Z ∨ t ∈ muY g G Z) :
    ∃ X ds', fixLoop (mu1bStep (semMgr I O) (gameCtx g) j (liveT G Z Y)) fuel (pre Y) dump =
        some (pre X, dump ++ ds'.map (fun d => (j, d))) ∧ Y ⊆ X ∧ X ⊆ muY g G Z ∧ X ⊆ cox g (acts g G Z X) ∧
      Ranked g G Z (ds ++ ds') ∧ X ⊆ Covered g (ds ++ ds') ∧
      ∀ d ∈ ds ++ ds', ∀ s t, d s t → t ∈ Z ∨ t ∈ muY g G Z := by
  obtain ⟨A, hA⟩ := List.exists_mem_of_ne_nil _ ha
  have hround : ∀ (X : Set (Pos I O)) (l : List (T I O)), X ⊆ muY g G Z → Ranked g G Z l → X ⊆ Covered g l →
      (∀ d ∈ l, ∀ s t, d s t → t ∈ Z ∨ t ∈ muY g G Z) →
      Ranked g G Z (l ++ [acts g G Z X]) ∧ cox g (acts g G Z X) ⊆ Covered g (l ++ [acts g G Z X]) ∧
      ∀ d ∈ l ++ [acts g G Z X], ∀ s t, d s t → t ∈ Z ∨ t ∈ muY g G Z := by
    intro X l hX hr hc htg
    refine ⟨Ranked_snoc g G Z hr ⟨A, hA, ?_⟩, cox_mono g (fun s t h => ⟨_, by simp, h⟩), ?_⟩
    · rintro s t ⟨hst, hs⟩
      exact ⟨hs, hst.imp id (fun h => .inl (hc h))⟩
    · intro d hd s t hst
      rcases List.mem_append.mp hd with hd | hd
      · exact htg d hd s t hst
      · rw [List.mem_singleton] at hd
        subst hd
        exact hst.1.imp (fun h => h.2) (fun h => hX h)
  obtain ⟨y, t, t', h1, ⟨X, l, rfl, ht, hYX, hX, hX', hr', hc', htg'⟩, h3⟩ := fixLoop_rule
    (step := mu1bStep (semMgr I O) (gameCtx g) j (liveT G Z Y))
    (fun x st => ∃ X l, x = pre X ∧ st = dump ++ l.map (fun d => (j, d)) ∧ Y ⊆ X ∧ X ⊆ muY g G Z ∧
      X ⊆ cox g (acts g G Z X) ∧ Ranked g G Z (ds ++ l) ∧ X ⊆ Covered g (ds ++ l) ∧
      ∀ d ∈ ds ++ l, ∀ s t, d s t → t ∈ Z ∨ t ∈ muY g G Z) cocardOf
    (by
      rintro x s ⟨X, l, rfl, rfl, hYX, hX, hX', hr, hc, htg⟩
      refine ⟨_, _, mu1bStep_eq g G Z Y X j hYX _, ?_⟩
      intro hne
      have hne' : X ≠ cox g (acts g G Z X) := fun h => hne (by rw [← h])
      obtain ⟨e1, e2, e3⟩ := hround X _ hX hr hc htg
      rw [List.append_assoc] at e1 e2 e3
      refine ⟨⟨_, l ++ [acts g G Z X], rfl, by simp, hYX.trans hX', ?_, cox_mono g (acts_mono g G Z hX'), e1, e2, e3⟩,
        cocardOf_lt hX' hne'⟩
      exact (cox_mono g (acts_mono g G Z hX)).trans (cox_acts_muY g G Z ha))
    fuel (pre Y) dump ⟨Y, [], rfl, by simp, subset_rfl, hY, hY', by simpa using hr, by simpa using hc, by simpa using htg⟩
    (lt_of_le_of_lt (cocardOf_le _) hf)
  subst ht
  rw [mu1bStep_eq g G Z Y X j hYX] at h3
  simp only [Option.some.injEq, Prod.mk.injEq, pre_inj] at h3
  obtain ⟨e1, e2, e3⟩ := hround X _ hX hr' hc' htg'
  rw [List.append_assoc] at e1 e2 e3
  refine ⟨X, l ++ [acts g G Z X], ?_, hYX, hX, hX', e1, h3.1.superset.trans e2, e3⟩
  rw [h1, ← h3.2]
  simp

/-- One round of the middle loop. -/
theorem mu1StepBias_eq [Finite I] [Finite O] (g : Game I O) (ha : g.assumptions ≠ []) (G : T I O) (Z Yp Y : Set (Pos I O))
    (fuel j : Nat) (hf : Nat.card (Pos I O) < fuel) (hYp : Yp ⊆ Y) (dump : Dump (T I O)) (ds : List (T I O))
    (hr : Ranked g G Z ds) (hc : Y ⊆ Covered g ds) (hY : Y ⊆ muY g G Z) (hY' : Y ⊆ cox g (acts g G Z Y))
    (htg : ∀ d ∈ ds, ∀ s t, d s t → t ∈ Z ∨ t ∈ muY g G Z) :
    ∃ Y' ds', mu1StepBias (semMgr I O) (gameCtx g) fuel j (pre Y) (liveT G Z Yp, dump) =
        some (pre Y', (liveT G Z Y, dump ++ ds'.map (fun d => (j, d)))) ∧ FY g G Z Y ⊆ Y' ∧ Y' ⊆ muY g G Z ∧
      Y' ⊆ cox g (acts g G Z Y') ∧ Ranked g G Z (ds ++ ds') ∧ Y' ⊆ Covered g (ds ++ ds') ∧
      ∀ d ∈ ds ++ ds', ∀ s t, d s t → t ∈ Z ∨ t ∈ muY g G Z := by
  have h : (semMgr I O).or (liveT G Z Yp) ((semMgr I O).swap (pre Y)) = liveT G Z Y := by
    funext s t
    simp only [semMgr, liveT, pre, or_assoc, eq_iff_iff]
    exact or_congr_right (or_iff_right_of_imp (fun h => hYp h))
  obtain ⟨X, l, h1, hYX, hX, hX', hr1, hc1, htg1⟩ := mu1bLoop_eq g ha G Z Y fuel j hf dump ds hr hc hY hY' htg
  obtain ⟨hr2, hc2⟩ := Ranked_round g G Z Y g.assumptions (fun _ h => h) hr1 (hYX.trans hc1)
  refine ⟨X ∪ {s | ∃ A ∈ g.assumptions, s ∈ nuX g G A Z Y},
    l ++ g.assumptions.map (fun A => paths g G A Z Y (nuX g G A Z Y)), ?_, ?_, ?_, ?_, ?_, ?_, ?_⟩
  · rw [mu1StepBias]
    simp only [h, h1]
    rw [show (gameCtx g).livenessAssumptions = g.assumptions from rfl, assumptionLoop_eq g G Z Y fuel j hf]
    simp [Function.comp_def]
  · rintro s (hs | hs)
    · exact .inl (hYX hs)
    · exact .inr hs
  · rintro s (hs | ⟨A, hA, hs⟩)
    · exact hX hs
    · exact nuX_sub_muY g G A Z hA (nuX_mono g G A subset_rfl hY hs)
  · rintro s (hs | ⟨A, hA, hs⟩)
    · exact cox_mono g (acts_mono g G Z Set.subset_union_left) (hX' hs)
    · rw [← nuX_fix] at hs
      refine cox_mono g ?_ hs
      rintro s t ⟨hst, hsys⟩
      refine ⟨?_, hsys⟩
      rcases hst with h | h | h
      · exact .inl h
      · exact .inr (.inl (hYX h))
      · exact .inr (.inr ⟨A, hA, h.1⟩)
  · rw [← List.append_assoc]; exact hr2
  · rw [← List.append_assoc]
    rintro s (hs | ⟨A, hA, hs⟩)
    · exact Covered_mono g (fun d hd => List.mem_append_left _ hd) (hc1 hs)
    · exact hc2 A hA hs
  · rw [← List.append_assoc]
    intro d hd s t hst
    rcases List.mem_append.mp hd with hd | hd
    · exact htg1 d hd s t hst
    · obtain ⟨A, hA, rfl⟩ := List.mem_map.mp hd
      rcases hst.1 with h | h | h
      · exact .inl h.2
      · exact .inr (hY h)
      · exact .inr (nuX_sub_muY g G A Z hA (nuX_mono g G A subset_rfl hY h.1))

theorem mu1LoopBias_eq [Finite I] [Finite O] (g : Game I O) (ha : g.assumptions ≠ []) (G : T I O) (Z : Set (Pos I O))
    (fuel j : Nat) (hf : Nat.card (Pos I O) < fuel) (dump : Dump (T I O)) :
    ∃ live ds, mu1LoopBias (semMgr I O) (gameCtx g) fuel j (pre Z) G dump =
      some (pre (muY g G Z), (live, dump ++ ds.map (fun d => (j, d)))) ∧ GoalList g G Z (muY g G Z) ds := by
  obtain ⟨y, t, t', h1, ⟨Y, Yp, ds, rfl, hYp, ht, hr, hc, hY, hY', htg⟩, h3⟩ := fixLoop_rule
    (step := mu1StepBias (semMgr I O) (gameCtx g) fuel j)
    (fun x st => ∃ Y Yp ds, x = pre Y ∧ Yp ⊆ Y ∧ st = (liveT G Z Yp, dump ++ ds.map (fun d => (j, d))) ∧
      Ranked g G Z ds ∧ Y ⊆ Covered g ds ∧ Y ⊆ muY g G Z ∧ Y ⊆ cox g (acts g G Z Y) ∧
      (∀ d ∈ ds, ∀ s t, d s t → t ∈ Z ∨ t ∈ muY g G Z)) cocardOf
    (by
      rintro x s ⟨Y, Yp, ds, rfl, hYp, rfl, hr, hc, hY, hY', htg⟩
      obtain ⟨Y', l, e, hsub, e2, e3, e4, e5, e6⟩ := mu1StepBias_eq g ha G Z Yp Y fuel j hf hYp
        (dump ++ ds.map (fun d => (j, d))) ds hr hc hY hY' htg
      refine ⟨_, _, e, ?_⟩
      intro hne
      have hne' : Y ≠ Y' := fun h => hne (by rw [← h])
      have hsub' : Y ⊆ Y' := fun s hs => hsub (.inl hs)
      exact ⟨⟨Y', Y, ds ++ l, rfl, hsub', by simp, e4, e5, e2, e3, e6⟩, cocardOf_lt hsub' hne'⟩)
    fuel (semMgr I O).ff ((semMgr I O).and G ((semMgr I O).swap (pre Z)), dump)
    ⟨∅, ∅, [], by funext s t; simp [semMgr, pre], subset_rfl, by
      simp only [List.map_nil, List.append_nil, Prod.mk.injEq, and_true]
      funext s t; simp [semMgr, pre, liveT], Ranked_nil g G Z, Set.empty_subset _, Set.empty_subset _, Set.empty_subset _, by simp⟩
    (lt_of_le_of_lt (cocardOf_le _) hf)
  subst ht
  obtain ⟨Y', l, e, hsub, e2, e3, e4, e5, e6⟩ := mu1StepBias_eq g ha G Z Yp Y fuel j hf hYp
    (dump ++ ds.map (fun d => (j, d))) ds hr hc hY hY' htg
  rw [e] at h3
  simp only [Option.some.injEq, Prod.mk.injEq, pre_inj] at h3
  obtain ⟨rfl, h3⟩ := h3
  have hYeq : Y' = muY g G Z := Set.Subset.antisymm hY ((FY g G Z).lfp_le hsub)
  refine ⟨liveT G Z Y', ds ++ l, ?_, e4, ?_, e6⟩
  · rw [mu1LoopBias, h1, ← h3, hYeq]
    simp
  · rw [← hYeq]; exact e5

theorem goalLoopBias_eq [Finite I] [Finite O] (g : Game I O) (ha : g.assumptions ≠ []) (Z : Set (Pos I O)) (fuel : Nat)
    (hf : Nat.card (Pos I O) < fuel) (goals : List (T I O)) (j : Nat) (S : Set (Pos I O)) (dump : Dump (T I O)) :
    ∃ dump', goalLoopBias (semMgr I O) (gameCtx g) fuel (pre Z) j goals (pre S, dump) =
        some (pre (S ∩ {s | ∀ G ∈ goals, s ∈ muY g G Z}), dump ++ dump') ∧
      (∀ k G, goals[k]? = some G → GoalList g G Z (muY g G Z) (entries dump' (j + k))) ∧
      (∀ e ∈ dump', j ≤ e.1) := by
  induction goals generalizing j S dump with
  | nil => exact ⟨[], by simp [goalLoopBias], by simp, by simp⟩
  | cons G goals ih =>
    obtain ⟨live, ds, h1, h2⟩ := mu1LoopBias_eq g ha G Z fuel j hf dump
    have hand : (semMgr I O).and (pre S) (pre (muY g G Z)) = pre (S ∩ muY g G Z) := rfl
    obtain ⟨dump', h3, h4, h5⟩ := ih (j + 1) (S ∩ muY g G Z) (dump ++ ds.map (fun d => (j, d)))
    refine ⟨ds.map (fun d => (j, d)) ++ dump', ?_, ?_, ?_⟩
    · simp only [goalLoopBias, h1, hand, h3, List.append_assoc, Option.some.injEq, Prod.mk.injEq, and_true, pre_inj]
      ext s; simp [and_assoc]
    · intro k G' hk
      rw [entries_append]
      cases k with
      | zero =>
        simp at hk; subst hk
        have : entries dump' (j + 0) = [] := by
          simp only [entries, List.map_eq_nil_iff, List.filter_eq_nil_iff, beq_iff_eq]
          intro e he; have := h5 e he; omega
        rw [this, List.append_nil, Nat.add_zero, entries_same]
        exact h2
      | succ k =>
        rw [entries_other ds (by omega), List.nil_append, show j + (k + 1) = j + 1 + k by omega]
        exact h4 k G' (by simpa using hk)
    · intro e he
      rcases List.mem_append.mp he with he | he
      · obtain ⟨d, _, rfl⟩ := List.mem_map.mp he; exact le_refl _
      · have := h5 e he; omega

theorem computeWinningPositionsBias_eq [Finite I] [Finite O] (g : Game I O) (ha : g.assumptions ≠ []) (fuel : Nat)
    (hf : Nat.card (Pos I O) < fuel) :
    ∃ dump, computeWinningPositionsBias (semMgr I O) (gameCtx g) fuel = some (pre (nuZ g), dump) ∧
      Family g (nuZ g) (entries dump) := by
  have hstep : ∀ Z (st : Dump (T I O)), ∃ dump', nu2StepBias (semMgr I O) (gameCtx g) fuel (pre Z) st =
      some (pre (FZ g Z), dump') ∧
      ∀ k G, g.guarantees[k]? = some G → GoalList g G Z (muY g G Z) (entries dump' k) := by
    intro Z st
    obtain ⟨dump', h1, h2, _⟩ := goalLoopBias_eq g ha Z fuel hf g.guarantees 0 Set.univ []
    refine ⟨dump', ?_, by simpa using h2⟩
    have : (semMgr I O).tt = pre Set.univ := by funext s t; simp [semMgr, pre]
    rw [nu2StepBias, this, show (gameCtx g).livenessGuarantees = g.guarantees from rfl, h1]
    simp only [Set.univ_inter, List.nil_append]
    rfl
  obtain ⟨y, t, t', h1, ⟨Z, rfl, hZ1, hZ2⟩, h3⟩ := fixLoop_rule
    (step := nu2StepBias (semMgr I O) (gameCtx g) fuel)
    (fun x _ => ∃ Z, x = pre Z ∧ FZ g Z ⊆ Z ∧ nuZ g ⊆ Z) cardOf
    (by
      rintro x s ⟨Z, rfl, hz1, hz2⟩
      obtain ⟨dump', hs, _⟩ := hstep Z s
      refine ⟨_, _, hs, ?_⟩
      intro hne
      have hne' : FZ g Z ≠ Z := fun h => hne (by rw [h])
      refine ⟨⟨_, rfl, (FZ g).monotone hz1, ?_⟩, cardOf_lt hz1 hne'⟩
      calc nuZ g = FZ g (nuZ g) := (FZ g).map_gfp.symm
        _ ⊆ FZ g Z := (FZ g).monotone hz2)
    fuel (semMgr I O).tt []
    ⟨Set.univ, by funext s t; simp [semMgr, pre], Set.subset_univ _, Set.subset_univ _⟩
    (lt_of_le_of_lt (cardOf_le _) hf)
  obtain ⟨dump', hs, hg⟩ := hstep Z t
  rw [hs] at h3
  simp only [Option.some.injEq, Prod.mk.injEq, pre_inj] at h3
  have hZ : Z = nuZ g := Set.Subset.antisymm ((FZ g).le_gfp h3.1.superset) hZ2
  subst hZ
  refine ⟨dump', by rw [computeWinningPositionsBias, h1, ← h3.2], ?_⟩
  intro k G hk
  have := hg k G hk
  rw [muY_nuZ g (List.mem_of_getElem? hk)] at this
  exact this.good

/-- All versions of the algorithm compute the winning positions and preferred transitions towards the goals. -/
theorem solve_family [Finite I] [Finite O] (alg : Algorithm) (g : Game I O) (ha : g.assumptions ≠ []) (fuel : Nat)
    (hf : Nat.card (Pos I O) < fuel) :
    ∃ dump, solve alg (semMgr I O) (gameCtx g) fuel = some (pre (nuZ g), dump) ∧ Family g (nuZ g) (entries dump) := by
  cases alg with
  | standard => exact computeWinningPositions_family g fuel hf
  | recycling =>
    obtain ⟨dump, h1, h2⟩ := computeWinningPositions_family g fuel hf
    exact ⟨dump, by rw [solve, computeWinningPositionsRecycling_eq g fuel hf, h1], h2⟩
  | bias => exact computeWinningPositionsBias_eq g ha fuel hf

end Slugs.Model
