import Verif.Lemmas.CoopFix

/-! The loops of the computation of cooperative strategies on the semantic instance: they end, and compute the fixed points and lists of
preferred transitions with which the goals can be reached together. -/

namespace Slugs.Model

open Slugs.Spec

variable {I O : Type}

theorem nonDeadEnd_eq (g : Game I O) : nonDeadEnd (semMgr I O) (gameCtx g) = ndT g := by
  funext s t
  simp only [nonDeadEnd, semMgr, gameCtx, ndT, ND, Set.mem_ofPred_eq, eq_iff_iff, and_congr_right_iff]
  intro _
  exact ⟨fun ⟨t', h⟩ => ⟨t'.1, h⟩, fun ⟨i, h⟩ => ⟨(i, s.2), h⟩⟩

/-- The values of `foundPaths` during the loop for `muCoop`: each of them leads to `L` or to a position where an earlier one is possible. -/
structure Chain (g : Game I O) (L A : T I O) (X : Set (Pos I O)) (fs : List (T I O)) : Prop where
  sub : ∀ f ∈ fs, ∀ s t, f s t → cp g L A X s t
  step : ∀ k f, fs[k]? = some f → ∀ s t, f s t → L s t ∨ ∃ f' ∈ fs.take k, ∃ t', f' t t'

theorem Chain.snoc {g : Game I O} {L A : T I O} {X : Set (Pos I O)} {fs : List (T I O)} (h : Chain g L A X fs) {f : T I O}
    (hf : ∀ s t, f s t → cp g L A X s t ∧ (L s t ∨ ∃ f' ∈ fs, ∃ t', f' t t')) : Chain g L A X (fs ++ [f]) := by
  constructor
  · intro f' hf' s t hst
    rcases List.mem_append.mp hf' with hf' | hf'
    · exact h.sub f' hf' s t hst
    · rw [List.mem_singleton.mp hf'] at hst
      exact (hf s t hst).1
  · intro k f' hk s t hst
    by_cases hlt : k < fs.length
    · rw [List.getElem?_append_left hlt] at hk
      rw [List.take_append_of_le_length (by omega)]
      exact h.step k f' hk s t hst
    · have hk' : k = fs.length := by
        have := (List.getElem?_eq_some_iff.mp hk).1
        simp at this; omega
      subst hk'
      simp at hk
      subst hk
      rw [List.take_append_of_le_length (le_refl _), List.take_length]
      exact (hf s t hst).2

theorem muCoopStep_eq (g : Game I O) (L A : T I O) (X C : Set (Pos I O)) (st : T I O × List (T I O)) :
    muCoopStep (semMgr I O) (gameCtx g) L A (pre X) (pre C) st =
      some (pre (FC g L A X C), (cpaths g L A X C, st.2 ++ [cpaths g L A X C])) := by
  have h1 : (semMgr I O).and ((semMgr I O).or L ((semMgr I O).and ((semMgr I O).swap ((semMgr I O).and (pre X) (pre C)))
      ((semMgr I O).not A))) ((semMgr I O).and (nonDeadEnd (semMgr I O) (gameCtx g)) (gameCtx g).safetyEnv) = cpaths g L A X C := by
    rw [nonDeadEnd_eq]; rfl
  have h2 : (semMgr I O).exPost ((semMgr I O).and (gameCtx g).safetyEnv (cpaths g L A X C)) = pre (FC g L A X C) := by
    funext s t
    simp only [semMgr, gameCtx, pre, FC, eq_iff_iff]
    exact ⟨fun ⟨t', h⟩ => ⟨t', h.2⟩, fun ⟨t', h⟩ => ⟨t', h.2.2, h⟩⟩
  simp only [muCoopStep, h1, h2]

theorem muCoopLoop_eq [Finite I] [Finite O] (g : Game I O) (L A : T I O) (X : Set (Pos I O)) (fuel : Nat)
    (hf : Nat.card (Pos I O) < fuel) (f0 : T I O) :
    ∃ fs, fixLoop (muCoopStep (semMgr I O) (gameCtx g) L A (pre X)) fuel (semMgr I O).ff (f0, [L]) =
      some (pre (muC g L A X), (cp g L A X, L :: fs)) ∧ Chain g L A X fs ∧ cp g L A X ∈ fs := by
  have hsub : ∀ C, C ⊆ muC g L A X → ∀ s t, cpaths g L A X C s t → cp g L A X s t :=
    fun C hC => cpaths_mono g A (fun _ _ h => h) subset_rfl hC
  obtain ⟨y, t, t', h1, ⟨C, fs, rfl, ht, hC1, hC2, hch, hcov⟩, h3⟩ := fixLoop_rule
    (step := muCoopStep (semMgr I O) (gameCtx g) L A (pre X))
    (fun x st => ∃ C fs, x = pre C ∧ st.2 = L :: fs ∧ C ⊆ FC g L A X C ∧ C ⊆ muC g L A X ∧ Chain g L A X fs ∧
      ∀ t ∈ C, ∃ f ∈ fs, ∃ t', f t t') cocardOf
    (by
      rintro x st ⟨C, fs, rfl, hst, hC1, hC2, hch, hcov⟩
      refine ⟨_, _, muCoopStep_eq g L A X C st, fun hne => ?_⟩
      have hne' : C ≠ FC g L A X C := fun h => hne (by rw [← h])
      refine ⟨⟨_, fs ++ [cpaths g L A X C], rfl, by simp [hst], (FC g L A X).monotone hC1, ?_, ?_, ?_⟩, cocardOf_lt hC1 hne'⟩
      · calc FC g L A X C ⊆ FC g L A X (muC g L A X) := (FC g L A X).monotone hC2
          _ = muC g L A X := (FC g L A X).map_lfp
      · refine hch.snoc fun s t hst => ⟨hsub C hC2 s t hst, hst.1.imp id fun h => hcov t h.1.2⟩
      · rintro t ⟨t', ht'⟩
        exact ⟨_, by simp, t', ht'⟩)
    fuel (semMgr I O).ff (f0, [L])
    ⟨∅, [], by funext s t; simp [semMgr, pre], rfl, Set.empty_subset _, Set.empty_subset _, ⟨by simp, by simp⟩, by simp⟩
    (lt_of_le_of_lt (cocardOf_le _) hf)
  rw [muCoopStep_eq] at h3
  simp only [Option.some.injEq, Prod.mk.injEq, pre_inj] at h3
  have hC : C = muC g L A X := Set.Subset.antisymm hC2 ((FC g L A X).lfp_le h3.1.le)
  subst hC
  refine ⟨fs ++ [cp g L A X], ?_, ?_, by simp⟩
  · rw [h1, ← h3.2, ht]; rfl
  · exact hch.snoc fun s t hst => ⟨hst, hst.1.imp id fun h => hcov t h.1.2⟩

theorem nu0StepCoop_eq [Finite I] [Finite O] (g : Game I O) (L A : T I O) (X : Set (Pos I O)) (fuel : Nat)
    (hf : Nat.card (Pos I O) < fuel) (st : T I O × List (T I O)) :
    ∃ fs, nu0StepCoop (semMgr I O) (gameCtx g) fuel L A (pre X) st =
      some (pre (cox g (cp g L A X)), (cp g L A X, L :: fs)) ∧ Chain g L A X fs ∧ cp g L A X ∈ fs := by
  obtain ⟨fs, h1, h2⟩ := muCoopLoop_eq g L A X fuel hf st.1
  refine ⟨fs, ?_, h2⟩
  rw [nu0StepCoop, h1]
  simp only [coxOp_eq]

theorem nu0LoopCoop_eq [Finite I] [Finite O] (g : Game I O) (L A : T I O) (fuel : Nat)
    (hf : Nat.card (Pos I O) < fuel) :
    ∃ fs, fixLoop (nu0StepCoop (semMgr I O) (gameCtx g) fuel L A) fuel (semMgr I O).tt ((semMgr I O).tt, []) =
      some (pre (nuXc g L A), (cp g L A (nuXc g L A), L :: fs)) ∧ Chain g L A (nuXc g L A) fs ∧ cp g L A (nuXc g L A) ∈ fs := by
  obtain ⟨y, t, t', h1, ⟨X, rfl, hX1, hX2⟩, h3⟩ := fixLoop_rule
    (step := nu0StepCoop (semMgr I O) (gameCtx g) fuel L A)
    (fun x _ => ∃ X, x = pre X ∧ cox g (cp g L A X) ⊆ X ∧ nuXc g L A ⊆ X) cardOf
    (by
      rintro x st ⟨X, rfl, hX1, hX2⟩
      obtain ⟨fs, h1, _⟩ := nu0StepCoop_eq g L A X fuel hf st
      refine ⟨_, _, h1, fun hne => ?_⟩
      have hne' : cox g (cp g L A X) ≠ X := fun h => hne (by rw [h])
      refine ⟨⟨_, rfl, (FXc g L A).monotone hX1, ?_⟩, cardOf_lt hX1 hne'⟩
      rw [← nuXc_fix]
      exact (FXc g L A).monotone hX2)
    fuel (semMgr I O).tt ((semMgr I O).tt, [])
    ⟨Set.univ, by funext s t; simp [semMgr, pre], Set.subset_univ _, Set.subset_univ _⟩
    (lt_of_le_of_lt (cardOf_le _) hf)
  obtain ⟨fs, h4, h5⟩ := nu0StepCoop_eq g L A X fuel hf t
  rw [h4] at h3
  simp only [Option.some.injEq, Prod.mk.injEq, pre_inj] at h3
  have hX : X = nuXc g L A := Set.Subset.antisymm (le_nuXc g L A h3.1.superset) hX2
  subst hX
  exact ⟨fs, by rw [h1, ← h3.2], h5⟩

/-! ### Groups of preferred transitions -/

/-- A list is progressing for goal `G` if every transition of its entries that obeys the rules reaches the goal or a position in which the
environment can choose an input such that an earlier entry is possible. -/
def Prog (g : Game I O) (G : T I O) (Z : Set (Pos I O)) (ds : List (T I O)) : Prop :=
  ∀ m d, ds[m]? = some d → ∀ s t, d s t → (G s t ∧ t ∈ Z) ∨ ∃ d' ∈ ds.take m, ∃ t', g.safetyEnv t t'.1 ∧ d' t t'

theorem Prog_nil (g : Game I O) (G : T I O) (Z : Set (Pos I O)) : Prog g G Z [] := by
  intro m d h; simp at h

theorem Prog_append {g : Game I O} {G : T I O} {Z : Set (Pos I O)} {ds es : List (T I O)} (h : Prog g G Z ds)
    (he : ∀ m d, es[m]? = some d → ∀ s t, d s t → (G s t ∧ t ∈ Z) ∨ ∃ d' ∈ ds ++ es.take m, ∃ t', g.safetyEnv t t'.1 ∧ d' t t') :
    Prog g G Z (ds ++ es) := by
  intro m d hm s t hst
  by_cases hlt : m < ds.length
  · rw [List.getElem?_append_left hlt] at hm
    rw [List.take_append_of_le_length (by omega)]
    exact h m d hm s t hst
  · rw [List.getElem?_append_right (by omega)] at hm
    rw [List.take_append, List.take_of_length_le (by omega)]
    exact he _ d hm s t hst

/-- All transitions of a list. -/
def union (ds : List (T I O)) : T I O := fun s t => ∃ d ∈ ds, d s t

theorem flatten_get {α : Type} (gs : List (List α)) {m : Nat} {d : α} (h : gs.flatten[m]? = some d) :
    ∃ k grp, gs[k]? = some grp ∧ d ∈ grp ∧ ∀ e ∈ (gs.take k).flatten, e ∈ gs.flatten.take m := by
  induction gs generalizing m with
  | nil => simp at h
  | cons grp gs ih =>
    rw [List.flatten_cons] at h
    by_cases hlt : m < grp.length
    · rw [List.getElem?_append_left hlt] at h
      exact ⟨0, grp, rfl, List.mem_of_getElem? h, by simp⟩
    · rw [List.getElem?_append_right (by omega)] at h
      obtain ⟨k, grp', h1, h2, h3⟩ := ih h
      refine ⟨k + 1, grp', by simpa using h1, h2, ?_⟩
      intro e he
      rw [List.take_succ_cons, List.flatten_cons, List.mem_append] at he
      rw [List.flatten_cons, List.take_append, List.take_of_length_le (by omega), List.mem_append]
      exact he.imp id (h3 e)

theorem Covered_union (g : Game I O) (gs : List (List (T I O))) : Covered g gs.flatten = Covered g (gs.map union) := by
  refine Set.Subset.antisymm (cox_mono g ?_) (cox_mono g ?_)
  · rintro s t ⟨d, hd, hst⟩
    obtain ⟨grp, hgrp, hd⟩ := List.mem_flatten.mp hd
    exact ⟨_, List.mem_map.mpr ⟨grp, hgrp, rfl⟩, d, hd, hst⟩
  · rintro s t ⟨e, he, hst⟩
    obtain ⟨grp, hgrp, rfl⟩ := List.mem_map.mp he
    obtain ⟨d, hd, hst⟩ := hst
    exact ⟨d, List.mem_flatten.mpr ⟨grp, hgrp, hd⟩, hst⟩

theorem Used_union {g : Game I O} {gs : List (List (T I O))} {s t : Pos I O} (h : Used g gs.flatten s t) : Used g (gs.map union) s t := by
  obtain ⟨m, d, hm, hst, hnc⟩ := h
  obtain ⟨k, grp, h1, h2, h3⟩ := flatten_get gs hm
  refine ⟨k, union grp, by rw [List.getElem?_map, h1]; rfl, ⟨d, h2, hst⟩, fun hc => hnc ?_⟩
  rw [← List.map_take, ← Covered_union] at hc
  exact Covered_mono g h3 hc

/-- The entries for one assumption. -/
def groupOf (g : Game I O) (L A : T I O) (fs : List (T I O)) : List (T I O) :=
  (L :: fs).map fun it => (semMgr I O).and (cp g L A (nuXc g L A)) it

theorem union_groupOf {g : Game I O} {L A : T I O} {fs : List (T I O)} (h : cp g L A (nuXc g L A) ∈ fs) :
    union (groupOf g L A fs) = cp g L A (nuXc g L A) := by
  funext s t
  simp only [union, groupOf, eq_iff_iff]
  constructor
  · rintro ⟨d, hd, hst⟩
    obtain ⟨it, _, rfl⟩ := List.mem_map.mp hd
    exact hst.1
  · intro hst
    exact ⟨_, List.mem_map.mpr ⟨_, List.mem_cons_of_mem _ h, rfl⟩, hst, hst⟩

/-- What is known about the entries for goal `G`, in groups, where `Y` is the value of the middle fixed point. -/
structure Groups (g : Game I O) (G : T I O) (Z Y : Set (Pos I O)) (gs : List (List (T I O))) : Prop where
  ranked : Ranked g G Z (gs.map union)
  covers : Y ⊆ Covered g gs.flatten
  ok : ∀ d ∈ gs.flatten, ∀ s t, d s t → okT g s t
  prog : Prog g G Z gs.flatten

theorem Groups_nil (g : Game I O) (G : T I O) (Z : Set (Pos I O)) : Groups g G Z ∅ [] :=
  ⟨Ranked_nil g G Z, Set.empty_subset _, by simp, Prog_nil g G Z⟩

theorem Groups_snoc {g : Game I O} {G : T I O} {Z Y : Set (Pos I O)} {gs : List (List (T I O))} (h : Groups g G Z Y gs) {A : T I O}
    (hA : A ∈ g.assumptions) {fs : List (T I O)} (hc : Chain g (liveT G Z Y) A (nuXc g (liveT G Z Y) A) fs)
    (hm : cp g (liveT G Z Y) A (nuXc g (liveT G Z Y) A) ∈ fs) :
    Groups g G Z Y (gs ++ [groupOf g (liveT G Z Y) A fs]) ∧
    nuXc g (liveT G Z Y) A ⊆ Covered g (gs ++ [groupOf g (liveT G Z Y) A fs]).flatten := by
  have hfl : (gs ++ [groupOf g (liveT G Z Y) A fs]).flatten = gs.flatten ++ groupOf g (liveT G Z Y) A fs := by simp
  have hcov : nuXc g (liveT G Z Y) A ⊆ Covered g (gs ++ [groupOf g (liveT G Z Y) A fs]).flatten := by
    rw [Covered_union]
    conv_lhs => rw [← nuXc_fix]
    refine cox_mono g fun s t hst => ⟨union (groupOf g (liveT G Z Y) A fs), by simp, ?_⟩
    rw [union_groupOf hm]
    exact hst
  refine ⟨⟨?_, ?_, ?_, ?_⟩, hcov⟩
  · rw [List.map_append, List.map_singleton]
    refine Ranked_snoc g G Z h.ranked ⟨A, hA, ?_⟩
    rw [union_groupOf hm]
    rintro s t ⟨(h1 | h1) | h1, hok⟩
    · exact ⟨hok.1.1, .inl h1⟩
    · refine ⟨hok.1.1, .inr (.inl ?_)⟩
      rw [← Covered_union]
      exact h.covers h1
    · refine ⟨hok.1.1, .inr (.inr ⟨?_, h1.2⟩)⟩
      have := hcov h1.1.1
      rw [Covered_union, List.map_append, List.map_singleton, union_groupOf hm] at this
      exact this
  · rw [hfl]
    exact h.covers.trans (Covered_mono g (by simp +contextual))
  · rw [hfl]
    intro d hd s t hst
    rcases List.mem_append.mp hd with hd | hd
    · exact h.ok d hd s t hst
    · obtain ⟨it, _, rfl⟩ := List.mem_map.mp hd
      exact hst.1.2
  · rw [hfl]
    have hlive : ∀ s t, liveT G Z Y s t → okT g s t → (G s t ∧ t ∈ Z) ∨ ∃ d' ∈ gs.flatten, ∃ t', g.safetyEnv t t'.1 ∧ d' t t' := by
      rintro s t (hl | hl) hok
      · exact .inl hl
      · obtain ⟨i, hi⟩ := hok.1.2
        obtain ⟨o, d', hd', ho⟩ := h.covers hl i hi
        exact .inr ⟨d', hd', (i, o), hi, ho⟩
    refine Prog_append h.prog fun m d hmd s t hst => ?_
    cases m with
    | zero =>
      simp only [groupOf, List.map_cons, List.getElem?_cons_zero, Option.some.injEq] at hmd
      subst hmd
      exact (hlive s t hst.2 hst.1.2).imp id fun ⟨d', hd', h'⟩ => ⟨d', by simp [hd'], h'⟩
    | succ m =>
      simp only [groupOf, List.map_cons, List.getElem?_cons_succ, List.getElem?_map, Option.map_eq_some_iff] at hmd
      obtain ⟨f, hf, rfl⟩ := hmd
      rcases hc.step m f hf s t hst.2 with hl | ⟨f', hf', t', ht'⟩
      · exact (hlive s t hl hst.1.2).imp id fun ⟨d', hd', h'⟩ => ⟨d', by simp [hd'], h'⟩
      · have hcp := hc.sub f' (List.mem_of_mem_take hf') t t' ht'
        refine .inr ⟨(semMgr I O).and (cp g (liveT G Z Y) A (nuXc g (liveT G Z Y) A)) f', ?_, t', hcp.2.2, hcp, ht'⟩
        refine List.mem_append_right _ ?_
        rw [groupOf, ← List.map_take, List.take_succ_cons, List.map_cons]
        exact List.mem_cons_of_mem _ (List.mem_map.mpr ⟨f', hf', rfl⟩)

theorem assumptionLoopCoop_eq [Finite I] [Finite O] (g : Game I O) (G : T I O) (Z Y : Set (Pos I O)) (fuel j : Nat)
    (hf : Nat.card (Pos I O) < fuel) (as : List (T I O)) (has : ∀ A ∈ as, A ∈ g.assumptions) (S : Set (Pos I O)) (dump : Dump (T I O))
    {gs : List (List (T I O))} (hgs : Groups g G Z Y gs) :
    ∃ gs', assumptionLoopCoop (semMgr I O) (gameCtx g) fuel j (liveT G Z Y) as (pre S, dump ++ gs.flatten.map fun d => (j, d)) =
        some (pre (S ∪ {s | ∃ A ∈ as, s ∈ nuXc g (liveT G Z Y) A}), dump ++ gs'.flatten.map fun d => (j, d)) ∧
      Groups g G Z Y gs' ∧ Covered g gs.flatten ⊆ Covered g gs'.flatten ∧
      (∀ A ∈ as, nuXc g (liveT G Z Y) A ⊆ Covered g gs'.flatten) ∧
      (∀ d ∈ gs'.flatten, d ∈ gs.flatten ∨ ∀ s t, d s t → ∃ A ∈ as, cp g (liveT G Z Y) A (nuXc g (liveT G Z Y) A) s t) := by
  induction as generalizing S gs with
  | nil => exact ⟨gs, by simp [assumptionLoopCoop], hgs, subset_rfl, by simp, fun d hd => .inl hd⟩
  | cons A as ih =>
    obtain ⟨fs, h1, h2, h3⟩ := nu0LoopCoop_eq g (liveT G Z Y) A fuel hf
    obtain ⟨h4, h5⟩ := Groups_snoc hgs (has A (by simp)) h2 h3
    obtain ⟨gs', h6, h7, h8, h9, h10⟩ := ih (fun A' hA' => has A' (by simp [hA'])) (S ∪ nuXc g (liveT G Z Y) A) h4
    have hfl : (gs ++ [groupOf g (liveT G Z Y) A fs]).flatten = gs.flatten ++ groupOf g (liveT G Z Y) A fs := by simp
    refine ⟨gs', ?_, h7, ?_, ?_, ?_⟩
    · have hor : (semMgr I O).or (pre S) (pre (nuXc g (liveT G Z Y) A)) = pre (S ∪ nuXc g (liveT G Z Y) A) := rfl
      rw [assumptionLoopCoop, h1]
      simp only [hor]
      have e : dump ++ gs.flatten.map (fun d => (j, d)) ++
          (liveT G Z Y :: fs).map (fun it => (j, (semMgr I O).and (cp g (liveT G Z Y) A (nuXc g (liveT G Z Y) A)) it)) =
          dump ++ (gs ++ [groupOf g (liveT G Z Y) A fs]).flatten.map (fun d => (j, d)) := by
        rw [hfl, List.map_append, List.append_assoc, groupOf, List.map_map]
        rfl
      rw [e, h6]
      simp only [Option.some.injEq, Prod.mk.injEq, pre_inj, and_true]
      ext s
      simp only [Set.mem_union, Set.mem_ofPred_eq, List.mem_cons, exists_eq_or_imp, or_assoc]
    · refine Set.Subset.trans ?_ h8
      rw [hfl]
      exact Covered_mono g (by simp +contextual)
    · intro A' hA'
      rcases List.mem_cons.mp hA' with rfl | hA'
      · exact h5.trans h8
      · exact h9 A' hA'
    · intro d hd
      rcases h10 d hd with hd | hd
      · rw [hfl, List.mem_append] at hd
        refine hd.imp id fun hd s t hst => ?_
        obtain ⟨it, _, rfl⟩ := List.mem_map.mp hd
        exact ⟨A, by simp, hst.1⟩
      · exact .inr fun s t hst => (hd s t hst).imp fun A' h => ⟨by simp [h.1], h.2⟩

theorem mu1StepCoop_eq [Finite I] [Finite O] (g : Game I O) (G : T I O) (Z Yp Y : Set (Pos I O)) (fuel j : Nat)
    (hf : Nat.card (Pos I O) < fuel) (hYp : Yp ⊆ Y) (dump : Dump (T I O)) {gs : List (List (T I O))} (hgs : Groups g G Z Y gs) :
    ∃ gs', mu1StepCoop (semMgr I O) (gameCtx g) fuel j (pre Y) (liveT G Z Yp, dump ++ gs.flatten.map fun d => (j, d)) =
        some (pre (FYc g G Z Y), (liveT G Z Y, dump ++ gs'.flatten.map fun d => (j, d))) ∧
      Groups g G Z (FYc g G Z Y) gs' ∧
      (∀ d ∈ gs'.flatten, d ∈ gs.flatten ∨
        ∀ s t, d s t → ∃ A ∈ g.assumptions, cp g (liveT G Z Y) A (nuXc g (liveT G Z Y) A) s t) := by
  have h : (semMgr I O).or (liveT G Z Yp) ((semMgr I O).swap (pre Y)) = liveT G Z Y := by
    funext s t
    simp only [semMgr, liveT, pre, or_assoc, eq_iff_iff]
    exact or_congr_right (or_iff_right_of_imp (fun h => hYp h))
  obtain ⟨gs', h1, h2, h3, h4, h5⟩ := assumptionLoopCoop_eq g G Z Y fuel j hf g.assumptions (fun _ h => h) Y dump hgs
  refine ⟨gs', ?_, ⟨h2.ranked, ?_, h2.ok, h2.prog⟩, h5⟩
  · simp only [mu1StepCoop, h]
    rw [show (gameCtx g).livenessAssumptions = g.assumptions from rfl, h1]
    rfl
  · rintro s (hs | ⟨A, hA, hs⟩)
    · exact h2.covers hs
    · exact h4 A hA hs

/-- What is known about the entries for goal `G` after the middle loop. -/
structure CoopGoal (g : Game I O) (G : T I O) (Z : Set (Pos I O)) (ds : List (T I O)) : Prop where
  groups : ∃ gs, ds = gs.flatten ∧ Groups g G Z (muYc g G Z) gs
  target : ∀ d ∈ ds, ∀ s t, d s t → t ∈ Z ∨ t ∈ muYc g G Z

theorem mu1LoopCoop_eq [Finite I] [Finite O] (g : Game I O) (G : T I O) (Z : Set (Pos I O)) (fuel j : Nat)
    (hf : Nat.card (Pos I O) < fuel) (dump : Dump (T I O)) :
    ∃ live ds, mu1LoopCoop (semMgr I O) (gameCtx g) fuel j (pre Z) G dump =
      some (pre (muYc g G Z), (live, dump ++ ds.map (fun d => (j, d)))) ∧ CoopGoal g G Z ds := by
  have htarget : ∀ Y, Y ⊆ muYc g G Z → ∀ A ∈ g.assumptions, ∀ s t, cp g (liveT G Z Y) A (nuXc g (liveT G Z Y) A) s t →
      t ∈ Z ∨ t ∈ muYc g G Z := by
    rintro Y hY A hA s t ⟨(h | h) | h, _⟩
    · exact .inl h.2
    · exact .inr (hY h)
    · exact .inr (nuXc_sub_muYc g G A Z hA (nuXc_mono g A (liveT_mono G subset_rfl hY) h.1.1))
  obtain ⟨y, t, t', h1, ⟨Y, Yp, gs, rfl, hYp, ht, hY, hgs, htg⟩, h3⟩ := fixLoop_rule
    (step := mu1StepCoop (semMgr I O) (gameCtx g) fuel j)
    (fun x st => ∃ Y Yp gs, x = pre Y ∧ Yp ⊆ Y ∧ st = (liveT G Z Yp, dump ++ gs.flatten.map (fun d => (j, d))) ∧
      Y ⊆ muYc g G Z ∧ Groups g G Z Y gs ∧ (∀ d ∈ gs.flatten, ∀ s t, d s t → t ∈ Z ∨ t ∈ muYc g G Z)) cocardOf
    (by
      rintro x s ⟨Y, Yp, gs, rfl, hYp, rfl, hY, hgs, htg⟩
      obtain ⟨gs', h1, h2, h3⟩ := mu1StepCoop_eq g G Z Yp Y fuel j hf hYp dump hgs
      refine ⟨_, _, h1, ?_⟩
      intro hne
      have hne' : Y ≠ FYc g G Z Y := fun h => hne (by rw [← h])
      have hsub : Y ⊆ FYc g G Z Y := fun s hs => .inl hs
      refine ⟨⟨_, Y, gs', rfl, hsub, rfl, ?_, h2, ?_⟩, cocardOf_lt hsub hne'⟩
      · calc FYc g G Z Y ⊆ FYc g G Z (muYc g G Z) := (FYc g G Z).monotone hY
          _ = muYc g G Z := (FYc g G Z).map_lfp
      · intro d hd s t hst
        rcases h3 d hd with hd | hd
        · exact htg d hd s t hst
        · obtain ⟨A, hA, hcp⟩ := hd s t hst
          exact htarget Y hY A hA s t hcp)
    fuel (semMgr I O).ff ((semMgr I O).and G ((semMgr I O).swap (pre Z)), dump)
    ⟨∅, ∅, [], by funext s t; simp [semMgr, pre], subset_rfl, by
      simp only [List.flatten_nil, List.map_nil, List.append_nil, Prod.mk.injEq, and_true]
      funext s t; simp [semMgr, pre, liveT], Set.empty_subset _, Groups_nil g G Z, by simp⟩
    (lt_of_le_of_lt (cocardOf_le _) hf)
  subst ht
  obtain ⟨gs', h4, h5, h6⟩ := mu1StepCoop_eq g G Z Yp Y fuel j hf hYp dump hgs
  rw [h4] at h3
  simp only [Option.some.injEq, Prod.mk.injEq, pre_inj] at h3
  have hYeq : Y = muYc g G Z := Set.Subset.antisymm hY ((FYc g G Z).lfp_le h3.1.le)
  refine ⟨liveT G Z Y, gs'.flatten, ?_, ⟨gs', rfl, ?_⟩, ?_⟩
  · rw [mu1LoopCoop, h1, ← h3.2, hYeq]
  · rw [h3.1, hYeq] at h5
    exact h5
  · intro d hd s t hst
    rcases h6 d hd with hd | hd
    · exact htg d hd s t hst
    · obtain ⟨A, hA, hcp⟩ := hd s t hst
      exact htarget Y hY A hA s t hcp

theorem goalLoopCoop_eq [Finite I] [Finite O] (g : Game I O) (Z : Set (Pos I O)) (fuel : Nat)
    (hf : Nat.card (Pos I O) < fuel) (goals : List (T I O)) (j : Nat) (S : Set (Pos I O)) (dump : Dump (T I O)) :
    ∃ dump', goalLoopCoop (semMgr I O) (gameCtx g) fuel (pre Z) j goals (pre S, dump) =
        some (pre (S ∩ {s | ∀ G ∈ goals, s ∈ muYc g G Z}), dump ++ dump') ∧
      (∀ k G, goals[k]? = some G → CoopGoal g G Z (entries dump' (j + k))) ∧
      (∀ e ∈ dump', j ≤ e.1 ∧ e.1 < j + goals.length) := by
  induction goals generalizing j S dump with
  | nil => exact ⟨[], by simp [goalLoopCoop], by simp, by simp⟩
  | cons G goals ih =>
    obtain ⟨live, ds, h1, h2⟩ := mu1LoopCoop_eq g G Z fuel j hf dump
    have hand : (semMgr I O).and (pre S) (pre (muYc g G Z)) = pre (S ∩ muYc g G Z) := rfl
    obtain ⟨dump', h3, h4, h5⟩ := ih (j + 1) (S ∩ muYc g G Z) (dump ++ ds.map (fun d => (j, d)))
    refine ⟨ds.map (fun d => (j, d)) ++ dump', ?_, ?_, ?_⟩
    · simp only [goalLoopCoop, h1, hand, h3, List.append_assoc, Option.some.injEq, Prod.mk.injEq, and_true, pre_inj]
      ext s; simp [and_assoc]
    · intro k G' hk
      rw [entries_append]
      cases k with
      | zero =>
        simp at hk; subst hk
        have : entries dump' (j + 0) = [] := by
          simp only [entries, List.map_eq_nil_iff, List.filter_eq_nil_iff, beq_iff_eq]
          intro e he; have := h5 e he; omega
        rw [this, List.append_nil, Nat.add_zero, entries_same]
        exact h2
      | succ k =>
        rw [entries_other ds (by omega), List.nil_append, show j + (k + 1) = j + 1 + k by omega]
        exact h4 k G' (by simpa using hk)
    · intro e he
      rw [List.length_cons]
      rcases List.mem_append.mp he with he | he
      · obtain ⟨d, _, rfl⟩ := List.mem_map.mp he; exact ⟨le_refl _, by dsimp only; omega⟩
      · have := h5 e he; omega

/-! ### The loop towards an assumption -/

/-- What is known about the entries for an assumption, without the backup. -/
structure Towards (g : Game I O) (A : T I O) (N : Set (Pos I O)) (ds : List (T I O)) : Prop where
  sub : ∀ d ∈ ds, ∀ s t, d s t → gd g A N (muW g A N) s t
  step : ∀ k d, ds[k]? = some d → ∀ s t, d s t → (A s t ∧ t ∈ N) ∨ ∃ d' ∈ ds.take k, ∃ t', d' t t'

theorem Towards.snoc {g : Game I O} {A : T I O} {N : Set (Pos I O)} {ds : List (T I O)} (h : Towards g A N ds) {d : T I O}
    (hd : ∀ s t, d s t → gd g A N (muW g A N) s t ∧ ((A s t ∧ t ∈ N) ∨ ∃ d' ∈ ds, ∃ t', d' t t')) : Towards g A N (ds ++ [d]) := by
  constructor
  · intro d' hd' s t hst
    rcases List.mem_append.mp hd' with hd' | hd'
    · exact h.sub d' hd' s t hst
    · rw [List.mem_singleton.mp hd'] at hst
      exact (hd s t hst).1
  · intro k d' hk s t hst
    by_cases hlt : k < ds.length
    · rw [List.getElem?_append_left hlt] at hk
      rw [List.take_append_of_le_length (by omega)]
      exact h.step k d' hk s t hst
    · have hk' : k = ds.length := by
        have := (List.getElem?_eq_some_iff.mp hk).1
        simp at this; omega
      subst hk'
      simp at hk
      subst hk
      rw [List.take_append_of_le_length (le_refl _), List.take_length]
      exact (hd s t hst).2

theorem towardsStep_eq (g : Game I O) (A : T I O) (N W : Set (Pos I O)) (j : Nat) (hW : W ⊆ FW g A N W) (dump : Dump (T I O)) :
    towardsStep (semMgr I O) (gameCtx g) j (pre N) (pre W) (gd g A N W, dump) =
      some (pre (FW g A N W), (gd g A N (FW g A N W), dump ++ [(j, gd g A N W)])) := by
  have h1 : (semMgr I O).exPost (gd g A N W) = pre (FW g A N W) := rfl
  have h2 : (semMgr I O).or (pre (FW g A N W)) (pre W) = pre (FW g A N W) := by
    funext s t
    simp only [semMgr, pre, eq_iff_iff]
    exact or_iff_left_of_imp fun h => hW h
  have h3 : (semMgr I O).or (gd g A N W) ((semMgr I O).and ((semMgr I O).and ((semMgr I O).and
      ((semMgr I O).swap (pre (FW g A N W))) (gameCtx g).safetyEnv) (ndT g)) (pre N)) = gd g A N (FW g A N W) := by
    funext s t
    simp only [semMgr, pre, gameCtx, gd, okT, eq_iff_iff]
    constructor
    · rintro (h | h)
      · exact ⟨h.1, h.2.1, h.2.2.imp id fun h => hW h⟩
      · exact ⟨⟨h.1.2, h.1.1.2⟩, h.2, .inr h.1.1.1⟩
    · rintro ⟨h, hs, h' | h'⟩
      · exact .inl ⟨h, hs, .inl h'⟩
      · exact .inr ⟨⟨⟨h', h.2⟩, h.1⟩, hs⟩
  simp only [towardsStep, h1, h2, nonDeadEnd_eq, h3]

theorem towards_eq [Finite I] [Finite O] (g : Game I O) (A : T I O) (N : Set (Pos I O)) (j fuel : Nat)
    (hf : Nat.card (Pos I O) < fuel) (dump : Dump (T I O)) :
    ∃ ds, fixLoop (towardsStep (semMgr I O) (gameCtx g) j (pre N)) fuel (semMgr I O).ff (gd g A N ∅, dump) =
        some (pre (muW g A N), (gd g A N (muW g A N), dump ++ ds.map fun d => (j, d))) ∧ Towards g A N ds ∧
      ∀ t ∈ muW g A N, ∃ d ∈ ds, ∃ t', d t t' := by
  obtain ⟨y, t, t', h1, ⟨W, ds, rfl, rfl, hW1, hW2, htw, hcov⟩, h3⟩ := fixLoop_rule
    (step := towardsStep (semMgr I O) (gameCtx g) j (pre N))
    (fun x st => ∃ W ds, x = pre W ∧ st = (gd g A N W, dump ++ ds.map fun d => (j, d)) ∧ W ⊆ FW g A N W ∧ W ⊆ muW g A N ∧
      Towards g A N ds ∧ ∀ t ∈ W, ∃ d ∈ ds, ∃ t', d t t') cocardOf
    (by
      rintro x st ⟨W, ds, rfl, rfl, hW1, hW2, htw, hcov⟩
      refine ⟨_, _, towardsStep_eq g A N W j hW1 _, fun hne => ?_⟩
      have hne' : W ≠ FW g A N W := fun h => hne (by rw [← h])
      refine ⟨⟨_, ds ++ [gd g A N W], rfl, by simp, (FW g A N).monotone hW1, ?_, ?_, ?_⟩, cocardOf_lt hW1 hne'⟩
      · calc FW g A N W ⊆ FW g A N (muW g A N) := (FW g A N).monotone hW2
          _ = muW g A N := (FW g A N).map_lfp
      · refine htw.snoc fun s t hst => ⟨gd_mono g A subset_rfl hW2 s t hst, hst.2.2.imp id (hcov t)⟩
      · rintro t ⟨t', ht'⟩
        exact ⟨_, by simp, t', ht'⟩)
    fuel (semMgr I O).ff (gd g A N ∅, dump)
    ⟨∅, [], by funext s t; simp [semMgr, pre], by simp, Set.empty_subset _, Set.empty_subset _, ⟨by simp, by simp⟩, by simp⟩
    (lt_of_le_of_lt (cocardOf_le _) hf)
  rw [towardsStep_eq g A N W j hW1] at h3
  simp only [Option.some.injEq, Prod.mk.injEq, pre_inj] at h3
  have hW : W = muW g A N := Set.Subset.antisymm hW2 ((FW g A N).lfp_le h3.1.le)
  refine ⟨ds ++ [gd g A N W], ?_, ?_, ?_⟩
  · rw [h1, ← h3.2, h3.1, hW]
    simp
  · exact htw.snoc fun s t hst => ⟨gd_mono g A subset_rfl hW2 s t hst, hst.2.2.imp id (hcov t)⟩
  · intro t ht
    rw [← hW, ← h3.1] at ht
    obtain ⟨t', ht'⟩ := ht
    exact ⟨_, by simp, t', ht'⟩

/-- What is known about the entries for an assumption. -/
structure CoopAssumption (g : Game I O) (A : T I O) (Z N : Set (Pos I O)) (ds : List (T I O)) : Prop where
  shape : ∃ es, ds = es ++ [fun s t => ndT g s t ∧ t ∈ Z] ∧ Towards g A N es ∧ ∀ t ∈ muW g A N, ∃ d ∈ es, ∃ t', d t t'

theorem towardsLoop_eq [Finite I] [Finite O] (g : Game I O) (Z : Set (Pos I O)) (fuel : Nat) (hf : Nat.card (Pos I O) < fuel)
    (as : List (T I O)) (j : Nat) (N : Set (Pos I O)) (dump : Dump (T I O)) (ts : List (T I O)) :
    ∃ dump' ts', towardsLoop (semMgr I O) (gameCtx g) fuel (pre Z) j as (pre N, (dump, ts)) =
        some (pre (foldN g as N), (dump ++ dump', ts ++ ts')) ∧
      ts'.length = as.length ∧
      (∀ k A, as[k]? = some A → ts'[k]? = some (gd g A (foldN g (as.take k) N) (muW g A (foldN g (as.take k) N))) ∧
        CoopAssumption g A Z (foldN g (as.take k) N) (entries dump' (j + k))) ∧
      (∀ e ∈ dump', j ≤ e.1) := by
  induction as generalizing j N dump ts with
  | nil => exact ⟨[], [], by simp [towardsLoop, foldN], rfl, by simp, by simp⟩
  | cons A as ih =>
    obtain ⟨es, h1, h2, h2'⟩ := towards_eq g A N j fuel hf dump
    have e0 : (semMgr I O).and ((semMgr I O).and ((semMgr I O).and ((semMgr I O).and A (nonDeadEnd (semMgr I O) (gameCtx g))) (pre N))
        (gameCtx g).safetyEnv) ((semMgr I O).swap (pre N)) = gd g A N ∅ := by
      rw [nonDeadEnd_eq]
      funext s t
      simp only [semMgr, pre, gameCtx, gd, okT, Set.mem_empty_iff_false, or_false, eq_iff_iff]
      tauto
    have e1 : (semMgr I O).and (pre N) (pre (muW g A N)) = pre (N ∩ muW g A N) := rfl
    have e2 : (semMgr I O).and (nonDeadEnd (semMgr I O) (gameCtx g)) ((semMgr I O).swap (pre Z)) = fun s t => ndT g s t ∧ t ∈ Z := by
      rw [nonDeadEnd_eq]; rfl
    obtain ⟨dump', ts', h3, h4, h5, h6⟩ := ih (j + 1) (N ∩ muW g A N)
      (dump ++ (es ++ [fun s t => ndT g s t ∧ t ∈ Z]).map (fun d => (j, d))) (ts ++ [gd g A N (muW g A N)])
    refine ⟨(es ++ [fun s t => ndT g s t ∧ t ∈ Z]).map (fun d => (j, d)) ++ dump', gd g A N (muW g A N) :: ts', ?_, by simp [h4], ?_, ?_⟩
    · rw [towardsLoop]
      simp only [e0, h1, e1, e2]
      simp only [List.map_append, List.map_cons, List.map_nil, List.append_assoc, List.cons_append, List.nil_append] at h3 ⊢
      rw [h3]
      rfl
    · intro k A' hk
      cases k with
      | zero =>
        simp only [List.getElem?_cons_zero, Option.some.injEq] at hk
        subst hk
        refine ⟨rfl, ?_⟩
        have : entries dump' (j + 0) = [] := by
          simp only [entries, List.map_eq_nil_iff, List.filter_eq_nil_iff, beq_iff_eq]
          intro e he; have := h6 e he; omega
        rw [entries_append, this, List.append_nil, Nat.add_zero, entries_same]
        exact ⟨es, rfl, h2, h2'⟩
      | succ k =>
        rw [entries_append, entries_other _ (by omega), List.nil_append, show j + (k + 1) = j + 1 + k by omega]
        exact h5 k A' (by simpa using hk)
    · intro e he
      rcases List.mem_append.mp he with he | he
      · obtain ⟨d, _, rfl⟩ := List.mem_map.mp he; exact le_refl _
      · have := h6 e he; omega

/-- What is known after a round of the outermost loop. -/
structure CoopRound (g : Game I O) (Z : Set (Pos I O)) (dump : Dump (T I O)) (ts : List (T I O)) : Prop where
  goal : ∀ k G, g.guarantees[k]? = some G → CoopGoal g G Z (entries dump k)
  length : ts.length = g.assumptions.length
  assumption : ∀ k A, g.assumptions[k]? = some A →
    ts[k]? = some (gd g A (foldN g (g.assumptions.take k) (N0 g Z)) (muW g A (foldN g (g.assumptions.take k) (N0 g Z)))) ∧
    CoopAssumption g A Z (foldN g (g.assumptions.take k) (N0 g Z)) (entries dump (g.guarantees.length + k))

theorem nu2StepCoop_eq [Finite I] [Finite O] (g : Game I O) (Z : Set (Pos I O)) (fuel : Nat) (hf : Nat.card (Pos I O) < fuel)
    (st : Dump (T I O) × List (T I O)) :
    ∃ dump ts, nu2StepCoop (semMgr I O) (gameCtx g) fuel (pre Z) st = some (pre (FZc g Z), (dump, ts)) ∧ CoopRound g Z dump ts := by
  obtain ⟨d1, h1, h2, h3⟩ := goalLoopCoop_eq g Z fuel hf g.guarantees 0 Set.univ []
  obtain ⟨d2, ts, h4, h5, h6, h7⟩ := towardsLoop_eq g Z fuel hf g.assumptions g.guarantees.length
    (Set.univ ∩ {s | ∀ G ∈ g.guarantees, s ∈ muYc g G Z}) ([] ++ d1) []
  have hN : Set.univ ∩ {s | ∀ G ∈ g.guarantees, s ∈ muYc g G Z} = N0 g Z := by rw [Set.univ_inter]; rfl
  have htt : (semMgr I O).tt = pre Set.univ := by funext s t; simp [semMgr, pre]
  refine ⟨d1 ++ d2, ts, ?_, ?_, h5, ?_⟩
  · rw [nu2StepCoop, htt, show (gameCtx g).livenessGuarantees = g.guarantees from rfl, h1]
    simp only
    rw [show (gameCtx g).livenessAssumptions = g.assumptions from rfl, h4, hN]
    rfl
  · intro k G hk
    have : entries d2 k = [] := by
      simp only [entries, List.map_eq_nil_iff, List.filter_eq_nil_iff, beq_iff_eq]
      intro e he
      have := h7 e he
      have := (List.getElem?_eq_some_iff.mp hk).1
      omega
    rw [entries_append, this, List.append_nil]
    simpa using h2 k G hk
  · intro k A hk
    have : entries d1 (g.guarantees.length + k) = [] := by
      simp only [entries, List.map_eq_nil_iff, List.filter_eq_nil_iff, beq_iff_eq]
      intro e he
      have := h3 e he
      omega
    rw [entries_append, this, List.nil_append, ← hN]
    exact h6 k A hk

/-- The game whose guarantees are those that the program ends with. -/
def coopGame (g : Game I O) (ts : List (T I O)) : Game I O :=
  { g with guarantees := coopGuarantees (semMgr I O) (gameCtx g) ts }

theorem computeWinningPositionsCoop_eq [Finite I] [Finite O] (g : Game I O) (fuel : Nat) (hf : Nat.card (Pos I O) < fuel) :
    ∃ dump ts, computeWinningPositionsCoop (semMgr I O) (gameCtx g) fuel = some (pre (nuZc g), (dump, gameCtx (coopGame g ts))) ∧
      CoopRound g (nuZc g) dump ts := by
  obtain ⟨y, t, t', h1, ⟨Z, rfl, hZ1, hZ2⟩, h3⟩ := fixLoop_rule
    (step := nu2StepCoop (semMgr I O) (gameCtx g) fuel)
    (fun x _ => ∃ Z, x = pre Z ∧ FZc g Z ⊆ Z ∧ nuZc g ⊆ Z) cardOf
    (by
      rintro x s ⟨Z, rfl, hz1, hz2⟩
      obtain ⟨dump', ts, hs, _⟩ := nu2StepCoop_eq g Z fuel hf s
      refine ⟨_, _, hs, ?_⟩
      intro hne
      have hne' : FZc g Z ≠ Z := fun h => hne (by rw [h])
      refine ⟨⟨_, rfl, (FZc g).monotone hz1, ?_⟩, cardOf_lt hz1 hne'⟩
      calc nuZc g = FZc g (nuZc g) := (FZc g).map_gfp.symm
        _ ⊆ FZc g Z := (FZc g).monotone hz2)
    fuel (semMgr I O).tt ([], [])
    ⟨Set.univ, by funext s t; simp [semMgr, pre], Set.subset_univ _, Set.subset_univ _⟩
    (lt_of_le_of_lt (cardOf_le _) hf)
  obtain ⟨dump', ts, hs, hg⟩ := nu2StepCoop_eq g Z fuel hf t
  rw [hs] at h3
  simp only [Option.some.injEq, Prod.mk.injEq, pre_inj] at h3
  have hZ : Z = nuZc g := Set.Subset.antisymm ((FZc g).le_gfp h3.1.ge) hZ2
  subst hZ
  refine ⟨dump', ts, ?_, hg⟩
  rw [computeWinningPositionsCoop, h1, ← h3.2]
  rfl

end Slugs.Model
