import Verif.Lemmas.Sound

/-!
Recycling innermost fixed points does not change what is computed.
-/

namespace Slugs.Model

open Slugs.Spec

variable {I O : Type}

/-- Two loops with the same values and related states. -/
theorem fixLoop_sim {B σ τ : Type} [DecidableEq B] {step : B → σ → Option (B × σ)} {step' : B → τ → Option (B × τ)}
    (P Q : B → σ → τ → Prop)
    (hstep : ∀ x s t, P x s t → ∀ x' s', step x s = some (x', s') → ∃ t', step' x t = some (x', t') ∧
      (x = x' → Q x s' t') ∧ (x ≠ x' → P x' s' t')) :
    ∀ (n : Nat) (x : B) (s : σ) (t : τ) (y : B) (s' : σ), P x s t → fixLoop step n x s = some (y, s') →
      ∃ t', fixLoop step' n x t = some (y, t') ∧ Q y s' t' := by
  intro n
  induction n with
  | zero => intro x s t y s' _ h; simp [fixLoop] at h
  | succ n ih =>
    intro x s t y s' hP h
    rw [fixLoop] at h
    cases hs : step x s with
    | none => rw [hs] at h; cases h
    | some r =>
      obtain ⟨x', s1⟩ := r
      obtain ⟨t1, ht, hq, hp⟩ := hstep x s t hP x' s1 hs
      rw [hs] at h
      simp only at h
      by_cases hx : x = x'
      · rw [if_pos hx] at h
        cases h
        exact ⟨t1, by rw [fixLoop, ht]; simp [hx], hq hx⟩
      · rw [if_neg hx] at h
        obtain ⟨t', h1, h2⟩ := ih x' s1 t1 y s' (hp hx) h
        exact ⟨t', by rw [fixLoop, ht]; simp [hx, h1], h2⟩

/-- The innermost loop may start from any set above the fixed point that the loop body shrinks. -/
theorem nu0From_eq [Finite I] [Finite O] (g : Game I O) (G A : T I O) (Z Y X0 : Set (Pos I O)) (fuel : Nat)
    (hf : Nat.card (Pos I O) < fuel) (h1 : cox g (paths g G A Z Y X0) ⊆ X0) (h2 : nuX g G A Z Y ⊆ X0) (fp : T I O) :
    fixLoop (nu0Step (semMgr I O) (gameCtx g) (liveT G Z Y) A) fuel (pre X0) fp =
      some (pre (nuX g G A Z Y), paths g G A Z Y (nuX g G A Z Y)) := by
  obtain ⟨y, t, t', h1, ⟨X, rfl, hX1, hX2⟩, h3⟩ := fixLoop_rule
    (step := nu0Step (semMgr I O) (gameCtx g) (liveT G Z Y) A)
    (fun x _ => ∃ X, x = pre X ∧ cox g (paths g G A Z Y X) ⊆ X ∧ nuX g G A Z Y ⊆ X) cardOf
    (by
      rintro x s ⟨X, rfl, h1, h2⟩
      refine ⟨_, _, nu0Step_eq g G A Z Y X s, ?_⟩
      intro hne
      have hne' : cox g (paths g G A Z Y X) ≠ X := fun h => hne (by rw [h])
      refine ⟨⟨_, rfl, cox_mono g (paths_mono g G A subset_rfl subset_rfl h1), ?_⟩, cardOf_lt h1 hne'⟩
      rw [← nuX_fix]
      exact cox_mono g (paths_mono g G A subset_rfl subset_rfl h2))
    fuel (pre X0) fp ⟨X0, rfl, h1, h2⟩ (lt_of_le_of_lt (cardOf_le _) hf)
  rw [nu0Step_eq] at h3
  simp only [Option.some.injEq, Prod.mk.injEq, pre_inj] at h3
  have hX : X = nuX g G A Z Y := Set.Subset.antisymm (le_nuX g G A h3.1.superset) hX2
  rw [h1, ← h3.2, hX]

/-- The values of the outermost loop. -/
def Outer (g : Game I O) (Z : Set (Pos I O)) : Prop := Z = Set.univ ∨ ∃ Zp, Z = FZ g Zp ∧ Z ⊆ Zp

theorem cox_sub_muY (g : Game I O) {A : T I O} (hA : A ∈ g.assumptions) (G : T I O) (Z : Set (Pos I O)) :
    cox g (fun s t => t ∈ muY g G Z ∧ g.safetySys s t) ⊆ muY g G Z := by
  refine (le_nuX g G A ?_).trans (nuX_sub_muY g G A Z hA)
  exact cox_mono g (fun s t h => ⟨.inr (.inl h.1), h.2⟩)

theorem Outer.cox_sub {g : Game I O} {Z : Set (Pos I O)} (h : Outer g Z) {A : T I O} (hA : A ∈ g.assumptions)
    (G : T I O) {Y X : Set (Pos I O)} (hY : Y ⊆ Z) (hX : X ⊆ Z) : cox g (paths g G A Z Y X) ⊆ Z := by
  rcases h with rfl | ⟨Zp, rfl, _⟩
  · exact Set.subset_univ _
  · intro s hs G' hG'
    refine cox_sub_muY g hA G' Zp (cox_mono g ?_ hs)
    rintro s t ⟨hst, hsys⟩
    refine ⟨?_, hsys⟩
    rcases hst with h | h | h
    · exact h.2 G' hG'
    · exact hY h G' hG'
    · exact hX h.1 G' hG'

theorem Outer.nuX_sub {g : Game I O} {Z : Set (Pos I O)} (h : Outer g Z) {A : T I O} (hA : A ∈ g.assumptions)
    (G : T I O) {Y : Set (Pos I O)} (hY : Y ⊆ Z) : nuX g G A Z Y ⊆ Z := by
  rcases h with rfl | ⟨Zp, rfl, _⟩
  · exact Set.subset_univ _
  · intro s hs G' hG'
    refine nuX_sub_muY g G' A Zp hA (le_nuX g G' A (X := nuX g G A (FZ g Zp) Y) ?_ hs)
    conv_lhs => rw [← nuX_fix]
    refine cox_mono g ?_
    rintro s t ⟨hst, hsys⟩
    refine ⟨?_, hsys⟩
    rcases hst with h | h | h
    · exact .inr (.inl (h.2 G' hG'))
    · exact .inr (.inl (hY h G' hG'))
    · exact .inr (.inr h)

theorem Outer.muY_sub {g : Game I O} {Z : Set (Pos I O)} (h : Outer g Z) (G : T I O) : muY g G Z ⊆ Z := by
  refine (FY g G Z).lfp_le ?_
  rintro s (hs | ⟨A, hA, hs⟩)
  · exact hs
  · exact h.nuX_sub hA G subset_rfl hs

/-- The start value of the innermost loop is admissible. -/
def GoodStart (g : Game I O) (G A : T I O) (Z Y X0 : Set (Pos I O)) : Prop :=
  cox g (paths g G A Z Y X0) ⊆ X0 ∧ nuX g G A Z Y ⊆ X0

theorem goodStart_nu2 {g : Game I O} {Z : Set (Pos I O)} (h : Outer g Z) {A : T I O} (hA : A ∈ g.assumptions)
    (G : T I O) {Y : Set (Pos I O)} (hY : Y ⊆ Z) : GoodStart g G A Z Y Z :=
  ⟨h.cox_sub hA G hY subset_rfl, h.nuX_sub hA G hY⟩

theorem goodStart_recycled {g : Game I O} {Z Zp : Set (Pos I O)} (h : Outer g Z) (hZp : Z ⊆ Zp) {A : T I O}
    (hA : A ∈ g.assumptions) (G : T I O) (Yp : Set (Pos I O)) : GoodStart g G A Z ∅ (nuX g G A Zp Yp ∩ Z) := by
  constructor
  · intro s hs
    refine ⟨?_, h.cox_sub hA G (Set.empty_subset _) Set.inter_subset_right hs⟩
    rw [← nuX_fix]
    exact cox_mono g (paths_mono g G A hZp (Set.empty_subset _) Set.inter_subset_left) hs
  · intro s hs
    exact ⟨nuX_mono g G A hZp (Set.empty_subset _) hs, h.nuX_sub hA G (Set.empty_subset _) hs⟩

theorem Recycled.set_same {B : Type} (r : Recycled B) (j i : Nat) (b : B) : r.set j i b j i = some b := by
  simp [Recycled.set]

theorem Recycled.set_other {B : Type} (r : Recycled B) {j i j' i' : Nat} (b : B) (h : ¬ (j' = j ∧ i' = i)) :
    r.set j i b j' i' = r j' i' := by
  rw [Recycled.set, if_neg h]

/-- The loop over the assumptions from the `i`-th on. -/
theorem assumptionLoopRecycling_eq [Finite I] [Finite O] (g : Game I O) (G : T I O) (Z Y : Set (Pos I O)) (fuel j : Nat)
    (hf : Nat.card (Pos I O) < fuel) (recycle : Bool) (as : List (T I O)) (i : Nat) (S : Set (Pos I O))
    (dump : Dump (T I O)) (rec : Recycled (T I O))
    (hst : ∀ k A, as[k]? = some A → ∃ X0, recycledStart (semMgr I O) recycle (rec j (i + k)) (pre Z) = some (pre X0) ∧
      GoodStart g G A Z Y X0) :
    ∃ rec', assumptionLoopRecycling (semMgr I O) (gameCtx g) fuel j (pre Z) (liveT G Z Y) recycle i as (pre S, (dump, rec)) =
      some (pre (S ∪ {s | ∃ A ∈ as, s ∈ nuX g G A Z Y}),
        (dump ++ as.map (fun A => (j, paths g G A Z Y (nuX g G A Z Y))), rec')) ∧
      (∀ k A, as[k]? = some A → rec' j (i + k) = some (pre (nuX g G A Z Y))) ∧
      (∀ j' i', j' ≠ j ∨ i' < i → rec' j' i' = rec j' i') := by
  induction as generalizing i S dump rec with
  | nil => exact ⟨rec, by simp [assumptionLoopRecycling], by simp, by simp⟩
  | cons A as ih =>
    obtain ⟨X0, hs, hgs⟩ := hst 0 A rfl
    have hor : (semMgr I O).or (pre S) (pre (nuX g G A Z Y)) = pre (S ∪ nuX g G A Z Y) := rfl
    obtain ⟨rec', h1, h2, h3⟩ := ih (i + 1) (S ∪ nuX g G A Z Y) (dump ++ [(j, paths g G A Z Y (nuX g G A Z Y))])
      (rec.set j i (pre (nuX g G A Z Y))) (by
        intro k A' hk
        rw [Recycled.set_other _ _ (by omega), show i + 1 + k = i + (k + 1) by omega]
        exact hst (k + 1) A' (by simpa using hk))
    refine ⟨rec', ?_, ?_, ?_⟩
    · rw [Nat.add_zero] at hs
      rw [assumptionLoopRecycling, hs]
      simp only
      rw [nu0From_eq g G A Z Y X0 fuel hf hgs.1 hgs.2]
      simp only [hor, h1]
      simp only [Option.some.injEq, Prod.mk.injEq, pre_inj, List.append_assoc, List.map_cons, List.cons_append,
        List.nil_append, and_true]
      ext s
      simp only [Set.mem_union, Set.mem_ofPred_eq, List.mem_cons, exists_eq_or_imp, or_assoc]
    · intro k A' hk
      cases k with
      | zero =>
        simp at hk; subst hk
        rw [h3 _ _ (.inr (by omega)), Nat.add_zero, Recycled.set_same]
      | succ k =>
        rw [show i + (k + 1) = i + 1 + k by omega]
        exact h2 k A' (by simpa using hk)
    · intro j' i' h
      rw [h3 _ _ (by omega), Recycled.set_other _ _ (by omega)]

/-- What the table contains for goal `j` in the round after the outermost value `Zp`. -/
def RowOf (g : Game I O) (G : T I O) (Zp : Set (Pos I O)) (j : Nat) (rec : Recycled (T I O)) : Prop :=
  ∀ i A, g.assumptions[i]? = some A → rec j i = some (pre (nuX g G A Zp (muY g G Zp)))

theorem mu1LoopRecycling_eq [Finite I] [Finite O] (g : Game I O) (G : T I O) {Z : Set (Pos I O)} (hZ : Outer g Z)
    (fuel j : Nat) (hf : Nat.card (Pos I O) < fuel) (dump : Dump (T I O)) (first : Bool) (rec : Recycled (T I O))
    (hrec : first = false → ∃ Zp, Z ⊆ Zp ∧ RowOf g G Zp j rec) :
    ∃ live dump' rec' fm, mu1Loop (semMgr I O) (gameCtx g) fuel j (pre Z) G dump = some (pre (muY g G Z), (live, dump')) ∧
      mu1LoopRecycling (semMgr I O) (gameCtx g) fuel j (pre Z) first G dump rec =
        some (pre (muY g G Z), (live, (dump', (rec', fm)))) ∧
      RowOf g G Z j rec' ∧ ∀ j' i', j' ≠ j → rec' j' i' = rec j' i' := by
  obtain ⟨live, ds, h1, h2⟩ := mu1Loop_eq g G Z fuel j hf dump
  have hstart : (semMgr I O).and G ((semMgr I O).swap (pre Z)) = liveT G Z ∅ := by
    funext s t; simp [semMgr, pre, liveT]
  obtain ⟨⟨l', d', r', fm⟩, hsim, hl, hd, hrow, hoth⟩ := fixLoop_sim
    (step := mu1Step (semMgr I O) (gameCtx g) fuel j)
    (step' := mu1StepRecycling (semMgr I O) (gameCtx g) fuel j (pre Z) first)
    (fun x s t => ∃ Y Yp, x = pre Y ∧ Yp ⊆ Y ∧ Y ⊆ muY g G Z ∧ s.1 = liveT G Z Yp ∧ t.1 = s.1 ∧ t.2.1 = s.2 ∧
      (t.2.2.2 = true → Y = ∅ ∧ t.2.2.1 = rec) ∧ ∀ j' i', j' ≠ j → t.2.2.1 j' i' = rec j' i')
    (fun x s t => t.1 = s.1 ∧ t.2.1 = s.2 ∧
      (∀ Y, x = pre Y → ∀ (i : Nat) A, g.assumptions[i]? = some A → t.2.2.1 j i = some (pre (nuX g G A Z Y))) ∧
      ∀ j' i', j' ≠ j → t.2.2.1 j' i' = rec j' i')
    (by
      rintro x ⟨l, d⟩ ⟨l', d', r, fm⟩ ⟨Y, Yp, rfl, hYp, hY, hl, hl', hd', hfm, hoth⟩ x' s' hs
      simp only at hl hl' hd' hfm hoth
      subst hl; subst hl'; subst hd'
      rw [mu1Step_eq g G Z Yp Y fuel j hf hYp] at hs
      cases hs
      have h : (semMgr I O).or (liveT G Z Yp) ((semMgr I O).swap (pre Y)) = liveT G Z Y := by
        funext s t
        simp only [semMgr, liveT, pre, or_assoc, eq_iff_iff]
        exact or_congr_right (or_iff_right_of_imp (fun h => hYp h))
      obtain ⟨rec', e1, e2, e3⟩ := assumptionLoopRecycling_eq g G Z Y fuel j hf (fm && !first) g.assumptions 0 Y d' r (by
        intro k A hk
        have hA := List.mem_of_getElem? hk
        rw [Nat.zero_add]
        by_cases hr : (fm && !first) = true
        · rw [hr]
          simp only [Bool.and_eq_true, Bool.not_eq_true'] at hr
          obtain ⟨rfl, rfl⟩ := hfm hr.1
          obtain ⟨Zp, hZp, hrow⟩ := hrec hr.2
          refine ⟨_, ?_, goodStart_recycled hZ hZp hA G (muY g G Zp)⟩
          rw [recycledStart, if_pos rfl, hrow k A hk]
          rfl
        · rw [Bool.not_eq_true] at hr
          rw [hr]
          exact ⟨Z, rfl, goodStart_nu2 hZ hA G (hY.trans (hZ.muY_sub G))⟩)
      refine ⟨(liveT G Z Y, (d' ++ g.assumptions.map (fun A => (j, paths g G A Z Y (nuX g G A Z Y))), (rec', false))), ?_, ?_, ?_⟩
      · rw [mu1StepRecycling]
        simp only [h]
        rw [show (gameCtx g).livenessAssumptions = g.assumptions from rfl, e1]
        rfl
      · intro _
        refine ⟨rfl, rfl, ?_, ?_⟩
        · intro Y' hY' i A hi
          rw [pre_inj] at hY'
          subst hY'
          have := e2 i A hi
          rwa [Nat.zero_add] at this
        · intro j' i' hj
          exact (e3 _ _ (.inl hj)).trans (hoth j' i' hj)
      · intro _
        refine ⟨_, Y, rfl, fun s hs => .inl hs, ?_, rfl, rfl, rfl, by simp, ?_⟩
        · calc FY g G Z Y ⊆ FY g G Z (muY g G Z) := (FY g G Z).monotone hY
            _ = muY g G Z := (FY g G Z).map_lfp
        · intro j' i' hj
          exact (e3 _ _ (.inl hj)).trans (hoth j' i' hj))
    fuel (semMgr I O).ff (liveT G Z ∅, dump) (liveT G Z ∅, (dump, (rec, true))) _ _
    ⟨∅, ∅, by funext s t; simp [semMgr, pre], subset_rfl, Set.empty_subset _, rfl, rfl, rfl, fun _ => ⟨rfl, rfl⟩, fun _ _ _ => rfl⟩
    (by rw [mu1Loop, hstart] at h1; exact h1)
  simp only at hl hd
  subst hl; subst hd
  refine ⟨_, _, r', fm, h1, ?_, ?_, hoth⟩
  · rw [mu1LoopRecycling, hstart]; exact hsim
  · intro i A hi
    exact hrow _ rfl i A hi

theorem goalLoopRecycling_eq [Finite I] [Finite O] (g : Game I O) {Z : Set (Pos I O)} (hZ : Outer g Z)
    (fuel : Nat) (hf : Nat.card (Pos I O) < fuel) (first : Bool) (goals : List (T I O)) (j : Nat) (S : T I O)
    (dump : Dump (T I O)) (rec : Recycled (T I O))
    (hrec : first = false → ∃ Zp, Z ⊆ Zp ∧ ∀ k G, goals[k]? = some G → RowOf g G Zp (j + k) rec) :
    ∃ next dump' rec', goalLoop (semMgr I O) (gameCtx g) fuel (pre Z) j goals (S, dump) = some (next, dump') ∧
      goalLoopRecycling (semMgr I O) (gameCtx g) fuel (pre Z) first j goals (S, (dump, rec)) =
        some (next, (dump', rec')) ∧
      (∀ k G, goals[k]? = some G → RowOf g G Z (j + k) rec') ∧ ∀ j' i', j' < j → rec' j' i' = rec j' i' := by
  induction goals generalizing j S dump rec with
  | nil => exact ⟨S, dump, rec, rfl, rfl, by simp, fun _ _ _ => rfl⟩
  | cons G goals ih =>
    obtain ⟨live, dump', rec', fm, h1, h2, h3, h4⟩ := mu1LoopRecycling_eq g G hZ fuel j hf dump first rec (by
      intro h
      obtain ⟨Zp, hZp, hr⟩ := hrec h
      exact ⟨Zp, hZp, hr 0 G rfl⟩)
    obtain ⟨next, dump'', rec'', e1, e2, e3, e4⟩ := ih (j + 1) ((semMgr I O).and S (pre (muY g G Z))) dump' rec' (by
      intro h
      obtain ⟨Zp, hZp, hr⟩ := hrec h
      refine ⟨Zp, hZp, fun k G' hk i A hi => ?_⟩
      rw [h4 _ _ (by omega), show j + 1 + k = j + (k + 1) by omega]
      exact hr (k + 1) G' (by simpa using hk) i A hi)
    refine ⟨next, dump'', rec'', ?_, ?_, ?_, ?_⟩
    · rw [goalLoop, h1]; exact e1
    · rw [goalLoopRecycling, h2]; exact e2
    · intro k G' hk
      cases k with
      | zero =>
        simp at hk; subst hk
        intro i A hi
        rw [Nat.add_zero, e4 _ _ (by omega)]
        exact h3 i A hi
      | succ k =>
        rw [show j + (k + 1) = j + 1 + k by omega]
        exact e3 k G' (by simpa using hk)
    · intro j' i' hj
      rw [e4 _ _ (by omega), h4 _ _ (by omega)]

/-- Recycling computes the same positions and the same preferred transitions. -/
theorem computeWinningPositionsRecycling_eq [Finite I] [Finite O] (g : Game I O) (fuel : Nat)
    (hf : Nat.card (Pos I O) < fuel) :
    computeWinningPositionsRecycling (semMgr I O) (gameCtx g) fuel =
      computeWinningPositions (semMgr I O) (gameCtx g) fuel := by
  obtain ⟨dump, h, _⟩ := computeWinningPositions_eq g fuel hf
  obtain ⟨⟨d', r', f'⟩, hsim, hd⟩ := fixLoop_sim
    (step := nu2Step (semMgr I O) (gameCtx g) fuel)
    (step' := nu2StepRecycling (semMgr I O) (gameCtx g) fuel)
    (fun x _ t => ∃ Z, x = pre Z ∧ ((Z = Set.univ ∧ t.2.2 = true) ∨
      ∃ Zp, Z = FZ g Zp ∧ Z ⊆ Zp ∧ ∀ k G, g.guarantees[k]? = some G → RowOf g G Zp k t.2.1))
    (fun _ s t => t.1 = s)
    (by
      rintro x d ⟨d', r, f⟩ ⟨Z, rfl, hinv⟩ x' s' hs
      have hO : Outer g Z := by
        rcases hinv with h | ⟨Zp, h1, h2, _⟩
        · exact .inl h.1
        · exact .inr ⟨Zp, h1, h2⟩
      obtain ⟨next, dump', rec', e1, e2, e3, _⟩ := goalLoopRecycling_eq g hO fuel hf f g.guarantees 0 (semMgr I O).tt [] r (by
        intro hff
        rcases hinv with h | ⟨Zp, h1, h2, h3⟩
        · exact absurd (hff.symm.trans h.2) Bool.false_ne_true
        · exact ⟨Zp, h2, by simpa using h3⟩)
      rw [nu2Step, show (gameCtx g).livenessGuarantees = g.guarantees from rfl, e1, Option.some.injEq, Prod.mk.injEq] at hs
      obtain ⟨rfl, rfl⟩ := hs
      refine ⟨(dump', (rec', false)), ?_, fun _ => rfl, fun _ => ?_⟩
      · rw [nu2StepRecycling, show (gameCtx g).livenessGuarantees = g.guarantees from rfl, e2]
      · have hFZ : next = pre (FZ g Z) := by
          obtain ⟨dd, h1, _⟩ := goalLoop_eq g Z fuel hf g.guarantees 0 Set.univ []
          have : (semMgr I O).tt = pre Set.univ := by funext s t; simp [semMgr, pre]
          rw [this, h1] at e1
          cases e1
          rw [pre_inj]
          simp only [Set.univ_inter]
          rfl
        refine ⟨FZ g Z, hFZ, .inr ⟨Z, rfl, ?_, by simpa using e3⟩⟩
        rcases hinv with h | ⟨Zp, rfl, h2, _⟩
        · rw [h.1]; exact Set.subset_univ _
        · exact (FZ g).monotone h2)
    fuel (semMgr I O).tt [] ([], (fun _ _ => none, true)) _ _
    ⟨Set.univ, by funext s t; simp [semMgr, pre], .inl ⟨rfl, rfl⟩⟩ h
  simp only at hd
  subst hd
  rw [computeWinningPositionsRecycling, hsim, h]

end Slugs.Model
