import Verif.Lemmas.Sound
import Verif.Model.Cooperative

/-! The fixed points that the computation of cooperative strategies is about. -/

namespace Slugs.Model

open Slugs.Spec

variable {I O : Type}

/-- Positions in which the environment has an allowed input. -/
def ND (g : Game I O) : Set (Pos I O) := {s | ∃ i, g.safetyEnv s i}

/-- Steps of the system that do not lead to a dead end of the environment. -/
def ndT (g : Game I O) : T I O := fun s t => g.safetySys s t ∧ t ∈ ND g

/-- Such steps that answer an allowed input. -/
def okT (g : Game I O) : T I O := fun s t => ndT g s t ∧ g.safetyEnv s t.1

/-- `foundPaths`. -/
def cpaths (g : Game I O) (L A : T I O) (X C : Set (Pos I O)) : T I O :=
  fun s t => (L s t ∨ ((t ∈ X ∧ t ∈ C) ∧ ¬ A s t)) ∧ okT g s t

theorem cpaths_mono (g : Game I O) (A : T I O) {L L' : T I O} {X X' C C' : Set (Pos I O)} (hL : ∀ s t, L s t → L' s t) (hX : X ⊆ X')
    (hC : C ⊆ C') : ∀ s t, cpaths g L A X C s t → cpaths g L' A X' C' s t := by
  rintro s t ⟨h | h, hs⟩
  · exact ⟨.inl (hL _ _ h), hs⟩
  · exact ⟨.inr ⟨⟨hX h.1.1, hC h.1.2⟩, h.2⟩, hs⟩

def FC (g : Game I O) (L A : T I O) (X : Set (Pos I O)) : Set (Pos I O) →o Set (Pos I O) where
  toFun C := {s | ∃ t, cpaths g L A X C s t}
  monotone' _ _ h := fun _ ⟨t, ht⟩ => ⟨t, cpaths_mono g A (fun _ _ h => h) subset_rfl h _ _ ht⟩

/-- The positions from which the players together can reach a transition of `L` without leaving `X` or fulfilling `A`. -/
def muC (g : Game I O) (L A : T I O) (X : Set (Pos I O)) : Set (Pos I O) := (FC g L A X).lfp

theorem muC_fix (g : Game I O) (L A : T I O) (X : Set (Pos I O)) : {s | ∃ t, cpaths g L A X (muC g L A X) s t} = muC g L A X :=
  (FC g L A X).map_lfp

theorem muC_le (g : Game I O) (L A : T I O) {X C : Set (Pos I O)} (h : ∀ s t, cpaths g L A X C s t → s ∈ C) : muC g L A X ⊆ C :=
  (FC g L A X).lfp_le (fun _ ⟨t, ht⟩ => h _ t ht)

theorem mem_muC {g : Game I O} {L A : T I O} {X : Set (Pos I O)} {s t : Pos I O} (h : cpaths g L A X (muC g L A X) s t) :
    s ∈ muC g L A X := by
  rw [← muC_fix]; exact ⟨t, h⟩

theorem muC_mono (g : Game I O) (A : T I O) {L L' : T I O} {X X' : Set (Pos I O)} (hL : ∀ s t, L s t → L' s t) (hX : X ⊆ X') :
    muC g L A X ⊆ muC g L' A X' :=
  muC_le g L A fun _ _ h => mem_muC (cpaths_mono g A hL hX subset_rfl _ _ h)

/-- `foundPaths` at the end of the loop for `muCoop`. -/
def cp (g : Game I O) (L A : T I O) (X : Set (Pos I O)) : T I O := cpaths g L A X (muC g L A X)

theorem cp_mono (g : Game I O) (A : T I O) {L L' : T I O} {X X' : Set (Pos I O)} (hL : ∀ s t, L s t → L' s t) (hX : X ⊆ X') :
    ∀ s t, cp g L A X s t → cp g L' A X' s t := cpaths_mono g A hL hX (muC_mono g A hL hX)

def FXc (g : Game I O) (L A : T I O) : Set (Pos I O) →o Set (Pos I O) where
  toFun X := cox g (cp g L A X)
  monotone' _ _ h := cox_mono g (cp_mono g A (fun _ _ h => h) h)

def nuXc (g : Game I O) (L A : T I O) : Set (Pos I O) := (FXc g L A).gfp

theorem nuXc_fix (g : Game I O) (L A : T I O) : cox g (cp g L A (nuXc g L A)) = nuXc g L A := (FXc g L A).map_gfp

theorem le_nuXc (g : Game I O) (L A : T I O) {X : Set (Pos I O)} (h : X ⊆ cox g (cp g L A X)) : X ⊆ nuXc g L A := (FXc g L A).le_gfp h

theorem nuXc_mono (g : Game I O) (A : T I O) {L L' : T I O} (hL : ∀ s t, L s t → L' s t) : nuXc g L A ⊆ nuXc g L' A := by
  apply le_nuXc
  conv_lhs => rw [← nuXc_fix]
  exact cox_mono g (cp_mono g A hL subset_rfl)

theorem liveT_mono (G : T I O) {Z Z' Y Y' : Set (Pos I O)} (hZ : Z ⊆ Z') (hY : Y ⊆ Y') : ∀ s t, liveT G Z Y s t → liveT G Z' Y' s t := by
  rintro s t (h | h)
  · exact .inl ⟨h.1, hZ h.2⟩
  · exact .inr (hY h)

def FYc (g : Game I O) (G : T I O) (Z : Set (Pos I O)) : Set (Pos I O) →o Set (Pos I O) where
  toFun Y := Y ∪ {s | ∃ A ∈ g.assumptions, s ∈ nuXc g (liveT G Z Y) A}
  monotone' _ _ h := Set.union_subset_union h (fun _ ⟨A, hA, hs⟩ => ⟨A, hA, nuXc_mono g A (liveT_mono G subset_rfl h) hs⟩)

def muYc (g : Game I O) (G : T I O) (Z : Set (Pos I O)) : Set (Pos I O) := (FYc g G Z).lfp

theorem nuXc_sub_muYc (g : Game I O) (G A : T I O) (Z : Set (Pos I O)) (hA : A ∈ g.assumptions) :
    nuXc g (liveT G Z (muYc g G Z)) A ⊆ muYc g G Z := by
  conv_rhs => rw [muYc, ← (FYc g G Z).map_lfp]
  exact fun s hs => .inr ⟨A, hA, hs⟩

theorem muYc_le (g : Game I O) (G : T I O) {Z Y : Set (Pos I O)} (h : ∀ A ∈ g.assumptions, nuXc g (liveT G Z Y) A ⊆ Y) : muYc g G Z ⊆ Y :=
  (FYc g G Z).lfp_le (Set.union_subset subset_rfl (fun _ ⟨A, hA, hs⟩ => h A hA hs))

theorem muYc_mono (g : Game I O) (G : T I O) {Z Z' : Set (Pos I O)} (h : Z ⊆ Z') : muYc g G Z ⊆ muYc g G Z' :=
  muYc_le g G (fun A hA => (nuXc_mono g A (liveT_mono G h subset_rfl)).trans (nuXc_sub_muYc g G A Z' hA))

/-- `goodTransitions` for assumption `A`, where `N` is `nextContraintsForGoals`. -/
def gd (g : Game I O) (A : T I O) (N W : Set (Pos I O)) : T I O := fun s t => okT g s t ∧ s ∈ N ∧ ((A s t ∧ t ∈ N) ∨ t ∈ W)

theorem gd_mono (g : Game I O) (A : T I O) {N N' W W' : Set (Pos I O)} (hN : N ⊆ N') (hW : W ⊆ W') :
    ∀ s t, gd g A N W s t → gd g A N' W' s t := by
  rintro s t ⟨h, hs, h' | h'⟩
  · exact ⟨h, hN hs, .inl ⟨h'.1, hN h'.2⟩⟩
  · exact ⟨h, hN hs, .inr (hW h')⟩

def FW (g : Game I O) (A : T I O) (N : Set (Pos I O)) : Set (Pos I O) →o Set (Pos I O) where
  toFun W := {s | ∃ t, gd g A N W s t}
  monotone' _ _ h := fun _ ⟨t, ht⟩ => ⟨t, gd_mono g A subset_rfl h _ _ ht⟩

/-- The positions of `N` from which the players together can fulfil `A` without leaving `N`. -/
def muW (g : Game I O) (A : T I O) (N : Set (Pos I O)) : Set (Pos I O) := (FW g A N).lfp

theorem muW_fix (g : Game I O) (A : T I O) (N : Set (Pos I O)) : {s | ∃ t, gd g A N (muW g A N) s t} = muW g A N := (FW g A N).map_lfp

theorem mem_muW {g : Game I O} {A : T I O} {N : Set (Pos I O)} {s t : Pos I O} (h : gd g A N (muW g A N) s t) : s ∈ muW g A N := by
  rw [← muW_fix]; exact ⟨t, h⟩

theorem muW_le (g : Game I O) (A : T I O) {N W : Set (Pos I O)} (h : ∀ s t, gd g A N W s t → s ∈ W) : muW g A N ⊆ W :=
  (FW g A N).lfp_le (fun _ ⟨t, ht⟩ => h _ t ht)

theorem muW_mono (g : Game I O) (A : T I O) {N N' : Set (Pos I O)} (h : N ⊆ N') : muW g A N ⊆ muW g A N' :=
  muW_le g A fun _ _ hst => mem_muW (gd_mono g A h subset_rfl _ _ hst)

theorem muW_sub (g : Game I O) (A : T I O) (N : Set (Pos I O)) : muW g A N ⊆ N ∩ ND g :=
  muW_le g A fun _ t hst => ⟨hst.2.1, t.1, hst.1.2⟩

/-- What the loop over the assumptions does with `nextContraintsForGoals`. -/
def foldN (g : Game I O) (as : List (T I O)) (N : Set (Pos I O)) : Set (Pos I O) := as.foldl (fun N A => N ∩ muW g A N) N

theorem foldN_sub (g : Game I O) (as : List (T I O)) (N : Set (Pos I O)) : foldN g as N ⊆ N := by
  induction as generalizing N with
  | nil => exact subset_rfl
  | cons A as ih => exact (ih _).trans Set.inter_subset_left

theorem foldN_mono (g : Game I O) (as : List (T I O)) {N N' : Set (Pos I O)} (h : N ⊆ N') : foldN g as N ⊆ foldN g as N' := by
  induction as generalizing N N' with
  | nil => exact h
  | cons A as ih => exact ih (Set.inter_subset_inter h (muW_mono g A h))

theorem foldN_append (g : Game I O) (as bs : List (T I O)) (N : Set (Pos I O)) : foldN g (as ++ bs) N = foldN g bs (foldN g as N) := by
  simp [foldN]

theorem le_foldN (g : Game I O) (as : List (T I O)) {S N : Set (Pos I O)} (h : S ⊆ N)
    (hs : ∀ A ∈ as, ∀ N', S ⊆ N' → S ⊆ muW g A N') : S ⊆ foldN g as N := by
  induction as generalizing N with
  | nil => exact h
  | cons A as ih =>
    exact ih (Set.subset_inter h (hs A (by simp) N h)) fun A' hA' => hs A' (by simp [hA'])

/-- `nextContraintsForGoals` after the loop over the guarantees. -/
def N0 (g : Game I O) (Z : Set (Pos I O)) : Set (Pos I O) := {s | ∀ G ∈ g.guarantees, s ∈ muYc g G Z}

def FZc (g : Game I O) : Set (Pos I O) →o Set (Pos I O) where
  toFun Z := foldN g g.assumptions (N0 g Z)
  monotone' _ _ h := foldN_mono g _ fun _ hs G hG => muYc_mono g G h (hs G hG)

/-- The set that is computed. -/
def nuZc (g : Game I O) : Set (Pos I O) := (FZc g).gfp

theorem nuZc_fix (g : Game I O) : foldN g g.assumptions (N0 g (nuZc g)) = nuZc g := (FZc g).map_gfp

theorem nuZc_sub_N0 (g : Game I O) : nuZc g ⊆ N0 g (nuZc g) := by
  conv_lhs => rw [← nuZc_fix]
  exact foldN_sub g _ _

/-- At the outermost fixed point all the middle fixed points coincide. -/
theorem muYc_nuZc (g : Game I O) {G : T I O} (hG : G ∈ g.guarantees) : muYc g G (nuZc g) = N0 g (nuZc g) := by
  refine Set.Subset.antisymm ?_ fun s hs => hs G hG
  intro s hs G' hG'
  refine muYc_le g G (Y := muYc g G' (nuZc g)) ?_ hs
  intro A hA
  refine Set.Subset.trans (nuXc_mono g A ?_) (nuXc_sub_muYc g G' A (nuZc g) hA)
  rintro s t (h | h)
  · exact .inr (nuZc_sub_N0 g h.2 G' hG')
  · exact .inr h

/-- From every position of `N0` that is not a dead end the players together can reach the outermost fixed point within `N0`. -/
theorem N0_reach (g : Game I O) (hg : g.guarantees ≠ []) {W : Set (Pos I O)} (hZ : nuZc g ⊆ W)
    (hW : ∀ s ∈ N0 g (nuZc g), ∀ t ∈ W, okT g s t → s ∈ W) : N0 g (nuZc g) ∩ ND g ⊆ W := by
  obtain ⟨G, hG⟩ := List.exists_mem_of_ne_nil _ hg
  have key : muYc g G (nuZc g) ⊆ {s | s ∈ N0 g (nuZc g) ∧ (s ∈ ND g → s ∈ W)} := by
    apply muYc_le
    intro A hA
    set Y0 := {s | s ∈ N0 g (nuZc g) ∧ (s ∈ ND g → s ∈ W)} with hY0
    set L := liveT G (nuZc g) Y0 with hL
    have hX : nuXc g L A ⊆ N0 g (nuZc g) := by
      rw [← muYc_nuZc g hG]
      refine Set.Subset.trans (nuXc_mono g A (liveT_mono G subset_rfl ?_)) (nuXc_sub_muYc g G A _ hA)
      rw [muYc_nuZc g hG]
      exact fun s hs => hs.1
    have hstep : ∀ s t, s ∈ N0 g (nuZc g) → cpaths g L A (nuXc g L A) {s | s ∈ N0 g (nuZc g) → s ∈ W} s t → s ∈ W := by
      rintro s t hs ⟨(h | h) | h, hok⟩
      · exact hW s hs t (hZ h.2) hok
      · exact hW s hs t (h.2 hok.1.2) hok
      · exact hW s hs t (h.1.2 (hX h.1.1)) hok
    have hC : muC g L A (nuXc g L A) ⊆ {s | s ∈ N0 g (nuZc g) → s ∈ W} := muC_le g L A fun s t h hs => hstep s t hs h
    intro s hs
    refine ⟨hX hs, fun ⟨i, hi⟩ => ?_⟩
    have hs' := hs
    rw [← nuXc_fix] at hs'
    obtain ⟨o, ho⟩ := hs' i hi
    exact hstep s _ (hX hs) (cpaths_mono g A (fun _ _ h => h) subset_rfl hC _ _ ho)
  intro s hs
  rw [← muYc_nuZc g hG] at hs
  exact (key hs.1).2 hs.2

/-- The intermediate values of `nextContraintsForGoals` and the outermost fixed point only differ in dead ends. -/
theorem foldN_ND (g : Game I O) (hg : g.guarantees ≠ []) (as bs : List (T I O)) (h : g.assumptions = as ++ bs) :
    nuZc g ⊆ foldN g as (N0 g (nuZc g)) ∧ N0 g (nuZc g) ∩ ND g ⊆ foldN g as (N0 g (nuZc g)) := by
  have hsub : ∀ as bs, g.assumptions = as ++ bs → nuZc g ⊆ foldN g as (N0 g (nuZc g)) := by
    intro as bs h
    conv_lhs => rw [← nuZc_fix, h, foldN_append]
    exact foldN_sub g _ _
  refine ⟨hsub as bs h, ?_⟩
  induction as using List.reverseRecOn generalizing bs with
  | nil => exact Set.inter_subset_left
  | append_singleton as A ih =>
    have h' : g.assumptions = as ++ (A :: bs) := by rw [h]; simp
    have hi := ih _ h'
    have hz := hsub _ _ h
    rw [foldN_append] at hz ⊢
    refine Set.subset_inter hi ?_
    refine N0_reach g hg (hz.trans Set.inter_subset_right) ?_
    intro s hs t ht hok
    exact mem_muW ⟨hok, hi ⟨hs, t.1, hok.2⟩, .inr ht⟩

theorem nuZc_eq (g : Game I O) (hg : g.guarantees ≠ []) (ha : g.assumptions ≠ []) : nuZc g = N0 g (nuZc g) ∩ ND g := by
  refine Set.Subset.antisymm (Set.subset_inter (nuZc_sub_N0 g) ?_) ?_
  · obtain ⟨as, A, h⟩ : ∃ as A, g.assumptions = as ++ [A] := ⟨_, _, (List.dropLast_append_getLast ha).symm⟩
    conv_lhs => rw [← nuZc_fix, h, foldN_append]
    exact Set.inter_subset_right.trans ((muW_sub g A _).trans Set.inter_subset_right)
  · have := (foldN_ND g hg g.assumptions [] (by simp)).2
    rwa [nuZc_fix] at this

end Slugs.Model
