import Verif.Model.Sem
import Verif.Lemmas.FixLoop

/-!
The loops of `computeWinningPositions` on the semantic instance compute the nested fixed point
`nu Z. /\_j mu Y. \/_i nu X. cox(...)`, and the preferred-transition list they produce is "ranked".
-/

namespace Slugs.Model

open Slugs.Spec

variable {I O : Type}

/-- Positions from which the system can force a transition in `R`, whatever allowed input comes next. -/
def cox (g : Game I O) (R : T I O) : Set (Pos I O) := {s | ∀ i, g.safetyEnv s i → ∃ o, R s (i, o)}

theorem cox_mono (g : Game I O) {R R' : T I O} (h : ∀ s t, R s t → R' s t) : cox g R ⊆ cox g R' :=
  fun _ hs i hi => let ⟨o, ho⟩ := hs i hi; ⟨o, h _ _ ho⟩

/-- `foundPaths`. -/
def paths (g : Game I O) (G A : T I O) (Z Y X : Set (Pos I O)) : T I O :=
  fun s t => ((G s t ∧ t ∈ Z) ∨ t ∈ Y ∨ (t ∈ X ∧ ¬ A s t)) ∧ g.safetySys s t

theorem paths_mono (g : Game I O) (G A : T I O) {Z Z' Y Y' X X' : Set (Pos I O)} (hZ : Z ⊆ Z') (hY : Y ⊆ Y')
    (hX : X ⊆ X') : ∀ s t, paths g G A Z Y X s t → paths g G A Z' Y' X' s t := by
  rintro s t ⟨h | h | h, hs⟩
  · exact ⟨.inl ⟨h.1, hZ h.2⟩, hs⟩
  · exact ⟨.inr (.inl (hY h)), hs⟩
  · exact ⟨.inr (.inr ⟨hX h.1, h.2⟩), hs⟩

def FX (g : Game I O) (G A : T I O) (Z Y : Set (Pos I O)) : Set (Pos I O) →o Set (Pos I O) where
  toFun X := cox g (paths g G A Z Y X)
  monotone' _ _ h := cox_mono g (paths_mono g G A subset_rfl subset_rfl h)

def nuX (g : Game I O) (G A : T I O) (Z Y : Set (Pos I O)) : Set (Pos I O) := (FX g G A Z Y).gfp

theorem nuX_fix (g : Game I O) (G A : T I O) (Z Y : Set (Pos I O)) :
    cox g (paths g G A Z Y (nuX g G A Z Y)) = nuX g G A Z Y := (FX g G A Z Y).map_gfp

theorem le_nuX (g : Game I O) (G A : T I O) {Z Y X : Set (Pos I O)} (h : X ⊆ cox g (paths g G A Z Y X)) :
    X ⊆ nuX g G A Z Y := (FX g G A Z Y).le_gfp h

theorem nuX_mono (g : Game I O) (G A : T I O) {Z Z' Y Y' : Set (Pos I O)} (hZ : Z ⊆ Z') (hY : Y ⊆ Y') :
    nuX g G A Z Y ⊆ nuX g G A Z' Y' := by
  apply le_nuX
  conv_lhs => rw [← nuX_fix]
  exact cox_mono g (paths_mono g G A hZ hY subset_rfl)

def FY (g : Game I O) (G : T I O) (Z : Set (Pos I O)) : Set (Pos I O) →o Set (Pos I O) where
  toFun Y := Y ∪ {s | ∃ A ∈ g.assumptions, s ∈ nuX g G A Z Y}
  monotone' _ _ h := Set.union_subset_union h
    (fun _ ⟨A, hA, hs⟩ => ⟨A, hA, nuX_mono g G A subset_rfl h hs⟩)

def muY (g : Game I O) (G : T I O) (Z : Set (Pos I O)) : Set (Pos I O) := (FY g G Z).lfp

theorem muY_fix (g : Game I O) (G : T I O) (Z : Set (Pos I O)) :
    muY g G Z ∪ {s | ∃ A ∈ g.assumptions, s ∈ nuX g G A Z (muY g G Z)} = muY g G Z := (FY g G Z).map_lfp

theorem nuX_sub_muY (g : Game I O) (G A : T I O) (Z : Set (Pos I O)) (hA : A ∈ g.assumptions) :
    nuX g G A Z (muY g G Z) ⊆ muY g G Z := by
  conv_rhs => rw [← muY_fix]
  exact fun s hs => .inr ⟨A, hA, hs⟩

theorem muY_le (g : Game I O) (G : T I O) {Z Y : Set (Pos I O)}
    (h : ∀ A ∈ g.assumptions, nuX g G A Z Y ⊆ Y) : muY g G Z ⊆ Y :=
  (FY g G Z).lfp_le (Set.union_subset subset_rfl (fun _ ⟨A, hA, hs⟩ => h A hA hs))

theorem muY_mono (g : Game I O) (G : T I O) {Z Z' : Set (Pos I O)} (h : Z ⊆ Z') : muY g G Z ⊆ muY g G Z' :=
  muY_le g G (fun A hA => (nuX_mono g G A h subset_rfl).trans (nuX_sub_muY g G A Z' hA))

def FZ (g : Game I O) : Set (Pos I O) →o Set (Pos I O) where
  toFun Z := {s | ∀ G ∈ g.guarantees, s ∈ muY g G Z}
  monotone' _ _ h := fun _ hs G hG => muY_mono g G h (hs G hG)

/-- The set that `computeWinningPositions` computes. -/
def nuZ (g : Game I O) : Set (Pos I O) := (FZ g).gfp

/-! ### The innermost loop -/

/-- A set of positions as a Boolean function over the current variables. -/
def pre (S : Set (Pos I O)) : T I O := fun s _ => s ∈ S

theorem pre_inj {S S' : Set (Pos I O)} : pre S = pre S' ↔ S = S' := by
  constructor
  · intro h
    ext s
    exact iff_of_eq (congrFun (congrFun h s) s)
  · rintro rfl; rfl

/-- Termination measure of decreasing loops. -/
noncomputable def cardOf (f : T I O) : Nat := {s | f s s}.ncard

/-- Termination measure of increasing loops. -/
noncomputable def cocardOf (f : T I O) : Nat := {s | ¬ f s s}.ncard

theorem cardOf_lt [Finite I] [Finite O] {S S' : Set (Pos I O)} (h : S ⊆ S') (hne : S ≠ S') :
    cardOf (pre S) < cardOf (pre S') :=
  Set.ncard_lt_ncard (lt_of_le_of_ne h hne) (Set.toFinite _)

theorem cocardOf_lt [Finite I] [Finite O] {S S' : Set (Pos I O)} (h : S' ⊆ S) (hne : S' ≠ S) :
    cocardOf (pre S) < cocardOf (pre S') := by
  have hss := lt_of_le_of_ne h hne
  refine Set.ncard_lt_ncard ?_ (Set.toFinite _)
  exact compl_lt_compl_iff_lt.mpr hss

theorem cardOf_le [Finite I] [Finite O] (f : T I O) : cardOf f ≤ Nat.card (Pos I O) := by
  rw [← Set.ncard_univ]; exact Set.ncard_le_ncard (Set.subset_univ _) (Set.toFinite _)

theorem cocardOf_le [Finite I] [Finite O] (f : T I O) : cocardOf f ≤ Nat.card (Pos I O) := by
  rw [← Set.ncard_univ]; exact Set.ncard_le_ncard (Set.subset_univ _) (Set.toFinite _)

/-- `livetransitions` for goal `G` in terms of `Z` and `Y`. -/
def liveT (G : T I O) (Z Y : Set (Pos I O)) : T I O := fun s t => (G s t ∧ t ∈ Z) ∨ t ∈ Y

theorem coxOp_eq (g : Game I O) (f : T I O) :
    (semMgr I O).allPostInput ((semMgr I O).exPostOutput ((semMgr I O).imp (gameCtx g).safetyEnv f)) =
      pre (cox g f) := by
  funext s t
  simp only [semMgr, Mgr.imp, gameCtx, pre, cox, Set.mem_ofPred_eq, eq_iff_iff]
  constructor
  · intro h i hi
    obtain ⟨o, ho⟩ := h i
    exact ⟨o, ho.resolve_left (not_not_intro hi)⟩
  · intro h i
    by_cases hi : g.safetyEnv s i
    · obtain ⟨o, ho⟩ := h i hi; exact ⟨o, .inr ho⟩
    · exact ⟨s.2, .inl hi⟩

theorem nu0Step_eq (g : Game I O) (G A : T I O) (Z Y X : Set (Pos I O)) (f : T I O) :
    nu0Step (semMgr I O) (gameCtx g) (liveT G Z Y) A (pre X) f =
      some (pre (cox g (paths g G A Z Y X)), paths g G A Z Y X) := by
  have h : (semMgr I O).and ((semMgr I O).or (liveT G Z Y) ((semMgr I O).and ((semMgr I O).swap (pre X))
      ((semMgr I O).not A))) (gameCtx g).safetySys = paths g G A Z Y X := by
    funext s t
    simp only [semMgr, liveT, pre, paths, gameCtx, or_assoc]
  simp only [nu0Step, h, coxOp_eq]

theorem nu0Loop_eq [Finite I] [Finite O] (g : Game I O) (G A : T I O) (Z Y : Set (Pos I O)) (fuel : Nat)
    (hf : Nat.card (Pos I O) < fuel) :
    nu0Loop (semMgr I O) (gameCtx g) fuel (liveT G Z Y) A =
      some (pre (nuX g G A Z Y), paths g G A Z Y (nuX g G A Z Y)) := by
  obtain ⟨y, t, t', h1, ⟨X, rfl, hX1, hX2⟩, h3⟩ := fixLoop_rule
    (step := nu0Step (semMgr I O) (gameCtx g) (liveT G Z Y) A)
    (fun x _ => ∃ X, x = pre X ∧ cox g (paths g G A Z Y X) ⊆ X ∧ nuX g G A Z Y ⊆ X) cardOf
    (by
      rintro x s ⟨X, rfl, h1, h2⟩
      refine ⟨_, _, nu0Step_eq g G A Z Y X s, ?_⟩
      intro hne
      have hne' : cox g (paths g G A Z Y X) ≠ X := fun h => hne (by rw [h])
      refine ⟨⟨_, rfl, cox_mono g (paths_mono g G A subset_rfl subset_rfl h1), ?_⟩, cardOf_lt h1 hne'⟩
      rw [← nuX_fix]
      exact cox_mono g (paths_mono g G A subset_rfl subset_rfl h2))
    fuel (semMgr I O).tt (semMgr I O).tt
    ⟨Set.univ, by funext s t; simp [semMgr, pre], Set.subset_univ _, Set.subset_univ _⟩
    (lt_of_le_of_lt (cardOf_le _) hf)
  rw [nu0Step_eq] at h3
  simp only [Option.some.injEq, Prod.mk.injEq, pre_inj] at h3
  have hX : X = nuX g G A Z Y := Set.Subset.antisymm (le_nuX g G A h3.1.superset) hX2
  rw [nu0Loop, h1, ← h3.2, hX]

theorem assumptionLoop_eq [Finite I] [Finite O] (g : Game I O) (G : T I O) (Z Y : Set (Pos I O)) (fuel j : Nat)
    (hf : Nat.card (Pos I O) < fuel) (as : List (T I O)) (S : Set (Pos I O)) (dump : Dump (T I O)) :
    assumptionLoop (semMgr I O) (gameCtx g) fuel j (liveT G Z Y) as (pre S, dump) =
      some (pre (S ∪ {s | ∃ A ∈ as, s ∈ nuX g G A Z Y}),
        dump ++ as.map (fun A => (j, paths g G A Z Y (nuX g G A Z Y)))) := by
  induction as generalizing S dump with
  | nil => simp [assumptionLoop]
  | cons A as ih =>
    have hor : (semMgr I O).or (pre S) (pre (nuX g G A Z Y)) = pre (S ∪ nuX g G A Z Y) := rfl
    rw [assumptionLoop, nu0Loop_eq g G A Z Y fuel hf]
    simp only [hor, ih]
    simp only [Option.some.injEq, Prod.mk.injEq, pre_inj, List.append_assoc, List.map_cons, List.cons_append,
      List.nil_append, and_true]
    ext s
    simp only [Set.mem_union, Set.mem_ofPred_eq, List.mem_cons, exists_eq_or_imp, or_assoc]

/-! ### The middle loop and ranked lists -/

/-- Positions in which for every allowed input some entry of the list offers a transition. -/
def Covered (g : Game I O) (ds : List (T I O)) : Set (Pos I O) := cox g (fun s t => ∃ d ∈ ds, d s t)

/-- A list of preferred transitions is ranked for goal `G` and target set `Z` if every transition of its `m`-th entry
obeys the safety guarantees and reaches the goal, or gets to a position covered by the entries before the `m`-th, or
gets to a position covered by the entries up to the `m`-th while violating an assumption that only depends on `m`. -/
def Ranked (g : Game I O) (G : T I O) (Z : Set (Pos I O)) (ds : List (T I O)) : Prop :=
  ∀ m d, ds[m]? = some d → ∃ A ∈ g.assumptions, ∀ s t, d s t → g.safetySys s t ∧
    ((G s t ∧ t ∈ Z) ∨ t ∈ Covered g (ds.take m) ∨ (t ∈ Covered g (ds.take (m + 1)) ∧ ¬ A s t))

theorem Covered_mono (g : Game I O) {ds ds' : List (T I O)} (h : ∀ d ∈ ds, d ∈ ds') : Covered g ds ⊆ Covered g ds' :=
  cox_mono g (fun _ _ ⟨d, hd, hst⟩ => ⟨d, h d hd, hst⟩)

theorem Ranked_nil (g : Game I O) (G : T I O) (Z : Set (Pos I O)) : Ranked g G Z [] := by
  intro m d h; simp at h

theorem Ranked_snoc (g : Game I O) (G : T I O) (Z : Set (Pos I O)) {ds : List (T I O)} {d : T I O}
    (h : Ranked g G Z ds)
    (hd : ∃ A ∈ g.assumptions, ∀ s t, d s t → g.safetySys s t ∧
      ((G s t ∧ t ∈ Z) ∨ t ∈ Covered g ds ∨ (t ∈ Covered g (ds ++ [d]) ∧ ¬ A s t))) :
    Ranked g G Z (ds ++ [d]) := by
  intro m d' hm
  by_cases hlt : m < ds.length
  · rw [List.getElem?_append_left hlt] at hm
    obtain ⟨A, hA, hr⟩ := h m d' hm
    refine ⟨A, hA, ?_⟩
    rw [List.take_append_of_le_length (by omega), List.take_append_of_le_length (by omega)]
    exact hr
  · have hml : m = ds.length := by
      have := (List.getElem?_eq_some_iff.mp hm).1
      simp at this; omega
    subst hml
    simp at hm
    subst hm
    rw [List.take_append_of_le_length (le_refl _), List.take_length, List.take_of_length_le (by simp)]
    exact hd

/-- Appending the entries of one round of the middle loop keeps the list ranked. -/
theorem Ranked_round (g : Game I O) (G : T I O) (Z Y : Set (Pos I O)) (as : List (T I O)) (has : ∀ A ∈ as, A ∈ g.assumptions)
    {ds : List (T I O)} (h : Ranked g G Z ds) (hY : Y ⊆ Covered g ds) :
    Ranked g G Z (ds ++ as.map (fun A => paths g G A Z Y (nuX g G A Z Y))) ∧
    ∀ A ∈ as, nuX g G A Z Y ⊆ Covered g (ds ++ as.map (fun A => paths g G A Z Y (nuX g G A Z Y))) := by
  induction as generalizing ds with
  | nil => simpa using h
  | cons A as ih =>
    have hcov : nuX g G A Z Y ⊆ Covered g (ds ++ [paths g G A Z Y (nuX g G A Z Y)]) := by
      conv_lhs => rw [← nuX_fix]
      exact cox_mono g (fun s t hst => ⟨_, by simp, hst⟩)
    have h' : Ranked g G Z (ds ++ [paths g G A Z Y (nuX g G A Z Y)]) := by
      refine Ranked_snoc g G Z h ⟨A, has A (by simp), ?_⟩
      rintro s t ⟨hst, hs⟩
      refine ⟨hs, ?_⟩
      rcases hst with hst | hst | hst
      · exact .inl hst
      · exact .inr (.inl (hY hst))
      · exact .inr (.inr ⟨hcov hst.1, hst.2⟩)
    obtain ⟨h1, h2⟩ := ih (fun A hA => has A (by simp [hA])) h'
      (hY.trans (Covered_mono g (by simp +contextual)))
    simp only [List.append_assoc, List.singleton_append] at h1 h2
    refine ⟨by simpa using h1, ?_⟩
    intro A' hA'
    rcases List.mem_cons.mp hA' with rfl | hA'
    · refine hcov.trans (Covered_mono g ?_)
      intro d hd
      simp only [List.mem_append, List.map_cons, List.mem_cons] at hd ⊢
      rcases hd with hd | hd | hd
      · exact .inl hd
      · exact .inr (.inl hd)
      · simp at hd
    · simpa using h2 A' hA'

/-- What is known about the list of goal `G` after the middle loop: ranked, covers the fixed point, and leads to it. -/
structure GoalList (g : Game I O) (G : T I O) (Z : Set (Pos I O)) (Y : Set (Pos I O)) (ds : List (T I O)) : Prop where
  ranked : Ranked g G Z ds
  covers : Y ⊆ Covered g ds
  target : ∀ d ∈ ds, ∀ s t, d s t → t ∈ Z ∨ t ∈ Y

theorem mu1Step_eq [Finite I] [Finite O] (g : Game I O) (G : T I O) (Z Yp Y : Set (Pos I O)) (fuel j : Nat)
    (hf : Nat.card (Pos I O) < fuel) (hYp : Yp ⊆ Y) (dump : Dump (T I O)) :
    mu1Step (semMgr I O) (gameCtx g) fuel j (pre Y) (liveT G Z Yp, dump) =
      some (pre (FY g G Z Y), (liveT G Z Y,
        dump ++ g.assumptions.map (fun A => (j, paths g G A Z Y (nuX g G A Z Y))))) := by
  have h : (semMgr I O).or (liveT G Z Yp) ((semMgr I O).swap (pre Y)) = liveT G Z Y := by
    funext s t
    simp only [semMgr, liveT, pre, or_assoc, eq_iff_iff]
    exact or_congr_right (or_iff_right_of_imp (fun h => hYp h))
  simp only [mu1Step, h]
  rw [show (gameCtx g).livenessAssumptions = g.assumptions from rfl, assumptionLoop_eq g G Z Y fuel j hf]
  rfl

theorem mu1Loop_eq [Finite I] [Finite O] (g : Game I O) (G : T I O) (Z : Set (Pos I O)) (fuel j : Nat)
    (hf : Nat.card (Pos I O) < fuel) (dump : Dump (T I O)) :
    ∃ live ds, mu1Loop (semMgr I O) (gameCtx g) fuel j (pre Z) G dump =
      some (pre (muY g G Z), (live, dump ++ ds.map (fun d => (j, d)))) ∧ GoalList g G Z (muY g G Z) ds := by
  obtain ⟨y, t, t', h1, ⟨Y, Yp, ds, rfl, hYp, ht, hY, hr, hc, htg⟩, h3⟩ := fixLoop_rule
    (step := mu1Step (semMgr I O) (gameCtx g) fuel j)
    (fun x st => ∃ Y Yp ds, x = pre Y ∧ Yp ⊆ Y ∧ st = (liveT G Z Yp, dump ++ ds.map (fun d => (j, d))) ∧
      Y ⊆ muY g G Z ∧ Ranked g G Z ds ∧ Y ⊆ Covered g ds ∧ (∀ d ∈ ds, ∀ s t, d s t → t ∈ Z ∨ t ∈ muY g G Z)) cocardOf
    (by
      rintro x s ⟨Y, Yp, ds, rfl, hYp, rfl, hY, hr, hc, htg⟩
      refine ⟨_, _, mu1Step_eq g G Z Yp Y fuel j hf hYp _, ?_⟩
      intro hne
      have hne' : Y ≠ FY g G Z Y := fun h => hne (by rw [← h])
      have hsub : Y ⊆ FY g G Z Y := fun s hs => .inl hs
      obtain ⟨hr', hc'⟩ := Ranked_round g G Z Y g.assumptions (fun _ h => h) hr hc
      refine ⟨⟨_, Y, ds ++ g.assumptions.map (fun A => paths g G A Z Y (nuX g G A Z Y)), rfl, hsub, ?_, ?_, hr', ?_, ?_⟩,
        cocardOf_lt hsub hne'⟩
      · simp [Function.comp_def]
      · calc FY g G Z Y ⊆ FY g G Z (muY g G Z) := (FY g G Z).monotone hY
          _ = muY g G Z := (FY g G Z).map_lfp
      · rintro s (hs | ⟨A, hA, hs⟩)
        · exact Covered_mono g (by simp +contextual) (hc hs)
        · exact hc' A hA hs
      · intro d hd s t hst
        rcases List.mem_append.mp hd with hd | hd
        · exact htg d hd s t hst
        · obtain ⟨A, hA, rfl⟩ := List.mem_map.mp hd
          rcases hst.1 with h | h | h
          · exact .inl h.2
          · exact .inr (hY h)
          · exact .inr (nuX_sub_muY g G A Z hA (nuX_mono g G A subset_rfl hY h.1)))
    fuel (semMgr I O).ff ((semMgr I O).and G ((semMgr I O).swap (pre Z)), dump)
    ⟨∅, ∅, [], by funext s t; simp [semMgr, pre], subset_rfl, by
      simp only [List.map_nil, List.append_nil, Prod.mk.injEq, and_true]
      funext s t; simp [semMgr, pre, liveT], Set.empty_subset _, Ranked_nil g G Z, Set.empty_subset _, by simp⟩
    (lt_of_le_of_lt (cocardOf_le _) hf)
  subst ht
  rw [mu1Step_eq g G Z Yp Y fuel j hf hYp] at h3
  simp only [Option.some.injEq, Prod.mk.injEq, pre_inj] at h3
  have hYeq : Y = muY g G Z := Set.Subset.antisymm hY ((FY g G Z).lfp_le h3.1.le)
  obtain ⟨hr', hc'⟩ := Ranked_round g G Z Y g.assumptions (fun _ h => h) hr hc
  refine ⟨liveT G Z Y, ds ++ g.assumptions.map (fun A => paths g G A Z Y (nuX g G A Z Y)), ?_, hr', ?_, ?_⟩
  · rw [mu1Loop, h1, ← h3.2, hYeq]
    simp [Function.comp_def]
  · rw [← hYeq]; exact hc.trans (Covered_mono g (by simp +contextual))
  · intro d hd s t hst
    rcases List.mem_append.mp hd with hd | hd
    · exact htg d hd s t hst
    · obtain ⟨A, hA, rfl⟩ := List.mem_map.mp hd
      rcases hst.1 with h | h | h
      · exact .inl h.2
      · exact .inr (hY h)
      · exact .inr (nuX_sub_muY g G A Z hA (nuX_mono g G A subset_rfl hY h.1))

/-! ### The loop over the goals and the outermost loop -/

/-- The entries of the dumping data for goal `j`. -/
def entries {B : Type} (dump : Dump B) (j : Nat) : List B := (dump.filter (fun e => e.1 == j)).map (·.2)

theorem entries_append {B : Type} (d d' : Dump B) (j : Nat) : entries (d ++ d') j = entries d j ++ entries d' j := by
  simp [entries]

theorem entries_same {B : Type} (ds : List B) (j : Nat) : entries (ds.map (fun d => (j, d))) j = ds := by
  simp [entries, List.filter_map, Function.comp_def]

theorem entries_other {B : Type} (ds : List B) {j j' : Nat} (h : j' ≠ j) : entries (ds.map (fun d => (j', d))) j = [] := by
  simp [entries, List.filter_map, Function.comp_def, h]

theorem goalLoop_eq [Finite I] [Finite O] (g : Game I O) (Z : Set (Pos I O)) (fuel : Nat)
    (hf : Nat.card (Pos I O) < fuel) (goals : List (T I O)) (j : Nat) (S : Set (Pos I O)) (dump : Dump (T I O)) :
    ∃ dump', goalLoop (semMgr I O) (gameCtx g) fuel (pre Z) j goals (pre S, dump) =
        some (pre (S ∩ {s | ∀ G ∈ goals, s ∈ muY g G Z}), dump ++ dump') ∧
      (∀ k G, goals[k]? = some G → GoalList g G Z (muY g G Z) (entries dump' (j + k))) ∧
      (∀ e ∈ dump', j ≤ e.1) := by
  induction goals generalizing j S dump with
  | nil => exact ⟨[], by simp [goalLoop], by simp, by simp⟩
  | cons G goals ih =>
    obtain ⟨live, ds, h1, h2⟩ := mu1Loop_eq g G Z fuel j hf dump
    have hand : (semMgr I O).and (pre S) (pre (muY g G Z)) = pre (S ∩ muY g G Z) := rfl
    obtain ⟨dump', h3, h4, h5⟩ := ih (j + 1) (S ∩ muY g G Z) (dump ++ ds.map (fun d => (j, d)))
    refine ⟨ds.map (fun d => (j, d)) ++ dump', ?_, ?_, ?_⟩
    · simp only [goalLoop, h1, hand, h3, List.append_assoc, Option.some.injEq, Prod.mk.injEq, and_true, pre_inj]
      ext s; simp [and_assoc]
    · intro k G' hk
      rw [entries_append]
      cases k with
      | zero =>
        simp at hk; subst hk
        have : entries dump' (j + 0) = [] := by
          simp only [entries, List.map_eq_nil_iff, List.filter_eq_nil_iff, beq_iff_eq]
          intro e he; have := h5 e he; omega
        rw [this, List.append_nil, Nat.add_zero, entries_same]
        exact h2
      | succ k =>
        rw [entries_other ds (by omega), List.nil_append, show j + (k + 1) = j + 1 + k by omega]
        exact h4 k G' (by simpa using hk)
    · intro e he
      rcases List.mem_append.mp he with he | he
      · obtain ⟨d, _, rfl⟩ := List.mem_map.mp he; exact le_refl _
      · have := h5 e he; omega

/-- The whole computation: it terminates, computes `nuZ` and returns ranked lists for all goals. -/
theorem computeWinningPositions_eq [Finite I] [Finite O] (g : Game I O) (fuel : Nat)
    (hf : Nat.card (Pos I O) < fuel) :
    ∃ dump, computeWinningPositions (semMgr I O) (gameCtx g) fuel = some (pre (nuZ g), dump) ∧
      ∀ k G, g.guarantees[k]? = some G → GoalList g G (nuZ g) (muY g G (nuZ g)) (entries dump k) := by
  have hstep : ∀ Z (st : Dump (T I O)), ∃ dump', nu2Step (semMgr I O) (gameCtx g) fuel (pre Z) st =
      some (pre (FZ g Z), dump') ∧
      ∀ k G, g.guarantees[k]? = some G → GoalList g G Z (muY g G Z) (entries dump' k) := by
    intro Z st
    obtain ⟨dump', h1, h2, _⟩ := goalLoop_eq g Z fuel hf g.guarantees 0 Set.univ []
    refine ⟨dump', ?_, by simpa using h2⟩
    have : (semMgr I O).tt = pre Set.univ := by funext s t; simp [semMgr, pre]
    rw [nu2Step, this, show (gameCtx g).livenessGuarantees = g.guarantees from rfl, h1]
    simp only [Set.univ_inter, List.nil_append]
    rfl
  obtain ⟨y, t, t', h1, ⟨Z, rfl, hZ1, hZ2⟩, h3⟩ := fixLoop_rule
    (step := nu2Step (semMgr I O) (gameCtx g) fuel)
    (fun x _ => ∃ Z, x = pre Z ∧ FZ g Z ⊆ Z ∧ nuZ g ⊆ Z) cardOf
    (by
      rintro x s ⟨Z, rfl, hz1, hz2⟩
      obtain ⟨dump', hs, _⟩ := hstep Z s
      refine ⟨_, _, hs, ?_⟩
      intro hne
      have hne' : FZ g Z ≠ Z := fun h => hne (by rw [h])
      refine ⟨⟨_, rfl, (FZ g).monotone hz1, ?_⟩, cardOf_lt hz1 hne'⟩
      calc nuZ g = FZ g (nuZ g) := (FZ g).map_gfp.symm
        _ ⊆ FZ g Z := (FZ g).monotone hz2)
    fuel (semMgr I O).tt []
    ⟨Set.univ, by funext s t; simp [semMgr, pre], Set.subset_univ _, Set.subset_univ _⟩
    (lt_of_le_of_lt (cardOf_le _) hf)
  obtain ⟨dump', hs, hg⟩ := hstep Z t
  rw [hs] at h3
  simp only [Option.some.injEq, Prod.mk.injEq, pre_inj] at h3
  have hZ : Z = nuZ g := Set.Subset.antisymm ((FZ g).le_gfp h3.1.ge) hZ2
  subst hZ
  exact ⟨dump', by rw [computeWinningPositions, h1, ← h3.2], hg⟩

end Slugs.Model
