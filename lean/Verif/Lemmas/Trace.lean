import Verif.Model.Trace
import Verif.Lemmas.ExplicitSpec
import Mathlib.Algebra.BigOperators.Group.List.Basic

/-! Lemmas about the abstract traces: winning in finite time, the loops on sets of positions. -/

namespace Slugs.Model

open Slugs.Spec

variable {I O : Type}

/-! ### Winning in finite time -/

/-- Positions from which the player can force the next position to be in `X`, or that the other player violates a safety constraint. -/
def fpre (g : Game I O) (env : Bool) (X : Set (Pos I O)) : Set (Pos I O) :=
  if env then {s | ∃ i, g.safetyEnv s i ∧ ∀ o, g.safetySys s (i, o) → (i, o) ∈ X}
  else {s | ∀ i, g.safetyEnv s i → ∃ o, g.safetySys s (i, o) ∧ (i, o) ∈ X}

theorem fpre_mono (g : Game I O) (env : Bool) {X Y : Set (Pos I O)} (h : X ⊆ Y) : fpre g env X ⊆ fpre g env Y := by
  cases env
  · intro s hs i hi
    obtain ⟨o, h1, h2⟩ := hs i hi
    exact ⟨o, h1, h h2⟩
  · rintro s ⟨i, h1, h2⟩
    exact ⟨i, h1, fun o ho => h (h2 o ho)⟩

/-- Positions from which the player wins in at most so many rounds. -/
def stage (g : Game I O) (env : Bool) : Nat → Set (Pos I O)
  | 0 => ∅
  | n + 1 => fpre g env (stage g env n)

theorem stage_succ (g : Game I O) (env : Bool) : ∀ n, stage g env n ⊆ stage g env (n + 1)
  | 0 => Set.empty_subset _
  | n + 1 => fpre_mono g env (stage_succ g env n)

theorem stage_mono (g : Game I O) (env : Bool) {n m : Nat} (h : n ≤ m) : stage g env n ⊆ stage g env m := by
  induction h with
  | refl => exact subset_rfl
  | step _ ih => exact ih.trans (stage_succ g env _)

theorem stage_stable (g : Game I O) (env : Bool) {k : Nat} (h : stage g env (k + 1) = stage g env k) : ∀ m, k ≤ m →
    stage g env m = stage g env k := by
  intro m hm
  induction hm with
  | refl => rfl
  | @step m _ ih => rw [← h]; show fpre g env (stage g env m) = fpre g env (stage g env k); rw [ih]

theorem stage_env (g : Game I O) (n : Nat) (s : Pos I O) : s ∈ stage g true n ↔ g.EnvForces n s := by
  classical
  constructor
  · intro hs
    have hpick : ∀ (k : Nat) (p : Pos I O), ∃ i : I, p ∈ stage g true (k + 1) → g.safetyEnv p i ∧
        ∀ o, g.safetySys p (i, o) → (i, o) ∈ stage g true k := by
      intro k p
      by_cases hp : p ∈ stage g true (k + 1)
      · obtain ⟨i, h1, h2⟩ := hp
        exact ⟨i, fun _ => ⟨h1, h2⟩⟩
      · exact ⟨p.1, fun h => absurd h hp⟩
    choose pick hpick using hpick
    let τ : EnvStrategy I O := fun h => match h with
      | [] => s.1
      | cur :: h => pick (n - h.length - 1) cur
    have inv : ∀ h, g.EnvHist τ s h → ∃ cur h', h = cur :: h' ∧ cur ∈ stage g true (n - h'.length) := by
      intro h hh
      induction hh with
      | start => exact ⟨s, [], rfl, hs⟩
      | @step cur h o _ ho ih =>
        obtain ⟨cur', h', e, hc⟩ := ih
        cases e
        refine ⟨_, _, rfl, ?_⟩
        have hpos : n - h.length - 1 + 1 = n - h.length := by
          rcases Nat.eq_zero_or_pos (n - h.length) with h0 | h0
          · rw [h0] at hc; exact hc.elim
          · omega
        have := hpick (n - h.length - 1) cur (hpos ▸ hc)
        exact this.2 o ho
    have hpos : ∀ (cur : Pos I O) (h : History I O), cur ∈ stage g true (n - h.length) → n - h.length - 1 + 1 = n - h.length := by
      intro cur h hc
      rcases Nat.eq_zero_or_pos (n - h.length) with h0 | h0
      · rw [h0] at hc; exact hc.elim
      · omega
    refine ⟨τ, fun cur h hh => ?_, fun h hh => ?_⟩
    · obtain ⟨cur', h', e, hc⟩ := inv _ hh
      cases e
      exact (hpick (n - h.length - 1) cur (hpos cur h hc ▸ hc)).1
    · obtain ⟨cur, h', rfl, hc⟩ := inv _ hh
      have := hpos cur h' hc
      simp only [List.length_cons]
      omega
  · rintro ⟨τ, h1, h2⟩
    have key : ∀ (m : Nat) (cur : Pos I O) (h : History I O), g.EnvHist τ s (cur :: h) → n = h.length + m → cur ∈ stage g true m := by
      intro m
      induction m with
      | zero =>
        intro cur h hh hn
        have := h2 _ hh
        simp only [List.length_cons] at this
        omega
      | succ m ih =>
        intro cur h hh hn
        refine ⟨τ (cur :: h), h1 cur h hh, fun o ho => ih _ _ (.step hh ho) ?_⟩
        simp only [List.length_cons]; omega
    exact key n s [] .start (by simp)

theorem stage_sys [Nonempty O] (g : Game I O) (n : Nat) (s : Pos I O) : s ∈ stage g false n ↔ g.SysForces n s := by
  classical
  constructor
  · intro hs
    have hpick : ∀ (k : Nat) (p : Pos I O) (i : I), ∃ o : O, p ∈ stage g false (k + 1) → g.safetyEnv p i → g.safetySys p (i, o) ∧
        (i, o) ∈ stage g false k := by
      intro k p i
      by_cases hp : p ∈ stage g false (k + 1) ∧ g.safetyEnv p i
      · obtain ⟨o, h1⟩ := hp.1 i hp.2
        exact ⟨o, fun _ _ => h1⟩
      · exact ⟨Classical.arbitrary O, fun h h' => absurd ⟨h, h'⟩ hp⟩
    choose pick hpick using hpick
    let σ : SysStrategy I O := fun h i => match h with
      | [] => s.2
      | cur :: h => pick (n - h.length - 1) cur i
    have hpos : ∀ (cur : Pos I O) (h : History I O), cur ∈ stage g false (n - h.length) → n - h.length - 1 + 1 = n - h.length := by
      intro cur h hc
      rcases Nat.eq_zero_or_pos (n - h.length) with h0 | h0
      · rw [h0] at hc; exact hc.elim
      · omega
    have inv : ∀ h, g.SysHist σ s h → ∃ cur h', h = cur :: h' ∧ cur ∈ stage g false (n - h'.length) := by
      intro h hh
      induction hh with
      | start => exact ⟨s, [], rfl, hs⟩
      | @step cur h i _ hi ih =>
        obtain ⟨cur', h', e, hc⟩ := ih
        cases e
        exact ⟨_, _, rfl, (hpick (n - h.length - 1) cur i (hpos cur h hc ▸ hc) hi).2⟩
    refine ⟨σ, fun cur h i hh hi => ?_, fun h hh => ?_⟩
    · obtain ⟨cur', h', e, hc⟩ := inv _ hh
      cases e
      exact (hpick (n - h.length - 1) cur i (hpos cur h hc ▸ hc) hi).1
    · obtain ⟨cur, h', rfl, hc⟩ := inv _ hh
      have := hpos cur h' hc
      simp only [List.length_cons]
      omega
  · rintro ⟨σ, h1, h2⟩
    have key : ∀ (m : Nat) (cur : Pos I O) (h : History I O), g.SysHist σ s (cur :: h) → n = h.length + m → cur ∈ stage g false m := by
      intro m
      induction m with
      | zero =>
        intro cur h hh hn
        have := h2 _ hh
        simp only [List.length_cons] at this
        omega
      | succ m ih =>
        intro cur h hh hn i hi
        refine ⟨σ (cur :: h) i, h1 cur h i hh hi, ih _ _ (.step hh hi) ?_⟩
        simp only [List.length_cons]; omega
    exact key n s [] .start (by simp)

/-! ### The loops on sets of positions -/

theorem forcePre_sem (g : Game I O) (env : Bool) (X : Set (Pos I O)) :
    forcePre (semMgr I O) (gameCtx g) env (pre X) = pre (fpre g env X) := by
  funext s t
  cases env
  · simp only [forcePre, semMgr, Mgr.imp, gameCtx, pre, fpre, Bool.false_eq_true, if_false, Set.mem_ofPred_eq, eq_iff_iff]
    constructor
    · intro h i hi
      obtain ⟨o, ho⟩ := h i
      exact ⟨o, ho.resolve_left (not_not_intro hi)⟩
    · intro h i
      by_cases hi : g.safetyEnv s i
      · obtain ⟨o, ho⟩ := h i hi; exact ⟨o, .inr ho⟩
      · exact ⟨s.2, .inl hi⟩
  · simp only [forcePre, semMgr, gameCtx, pre, fpre, if_true, Set.mem_ofPred_eq, eq_iff_iff]
    refine exists_congr fun i => and_congr_right fun _ => forall_congr' fun o => ?_
    tauto

/-- What is tested for the initial positions. -/
def Starts (g : Game I O) (env : Bool) (W : Set (Pos I O)) : Prop :=
  if env then ∃ i, ∀ o, g.initSys (i, o) → g.initEnv i ∧ (i, o) ∈ W else ∀ i, g.initEnv i → ∃ o, g.initSys (i, o) ∧ (i, o) ∈ W

theorem startTest_sem [Nonempty I] [Nonempty O] (g : Game I O) (env : Bool) (W : Set (Pos I O)) :
    startTest (semMgr I O) (gameCtx g) env (pre W) = (semMgr I O).tt ↔ Starts g env W := by
  have hp : ∀ P : Prop, ((fun _ _ => P : T I O) = (semMgr I O).tt) ↔ P := by
    intro P
    constructor
    · intro h
      have := congrFun (congrFun h (Classical.arbitrary _)) (Classical.arbitrary _)
      exact (iff_of_eq this).mpr trivial
    · intro h
      funext s t
      exact propext ⟨fun _ => trivial, fun _ => h⟩
  rw [← hp (Starts g env W)]
  refine Eq.congr_left ?_
  funext s t
  cases env
  · simp only [startTest, semMgr, Mgr.imp, gameCtx, pre, Starts, Bool.false_eq_true, if_false, eq_iff_iff]
    refine forall_congr' fun i => ⟨fun ⟨o, ho⟩ hi => ⟨o, ho.resolve_left (not_not_intro hi)⟩, fun h => ?_⟩
    by_cases hi : g.initEnv i
    · obtain ⟨o, ho⟩ := h hi; exact ⟨o, .inr ho⟩
    · exact ⟨s.2, .inl hi⟩
  · simp only [startTest, semMgr, gameCtx, pre, Starts, if_true, eq_iff_iff]
    refine exists_congr fun i => forall_congr' fun o => ?_
    tauto

/-- `distances`, last element first. -/
def stages (g : Game I O) (env : Bool) : Nat → List (Set (Pos I O))
  | 0 => []
  | n + 1 => stage g env n :: stages g env n

theorem stages_length (g : Game I O) (env : Bool) (n : Nat) : (stages g env n).length = n := by
  induction n with
  | zero => rfl
  | succ n ih => simp [stages, ih]

theorem or_stage (g : Game I O) (env : Bool) (k : Nat) :
    (semMgr I O).or (pre (stage g env k)) (forcePre (semMgr I O) (gameCtx g) env (pre (stage g env k))) = pre (stage g env (k + 1)) := by
  rw [forcePre_sem]
  funext s t
  refine propext ⟨fun h => h.elim (fun h => stage_succ g env k h) fun h => h, fun h => .inr h⟩

/-- What the loop yields. -/
def Distances (g : Game I O) (env : Bool) (r : Option (T I O × List (T I O) × Bool)) : Prop :=
  (∃ n, 1 ≤ n ∧ Starts g env (stage g env n) ∧ (∀ m, 1 ≤ m → m < n → ¬ Starts g env (stage g env m)) ∧ n ≤ Nat.card (Pos I O) + 1 ∧
    r = some (pre (stage g env n), (stages g env n).map pre, true)) ∨
  ((∀ m, 1 ≤ m → ¬ Starts g env (stage g env m)) ∧ ∃ W ds, r = some (W, ds, false))

theorem distanceLoop_aux [Finite I] [Finite O] [Nonempty I] [Nonempty O] (g : Game I O) (env : Bool) : ∀ (fuel k : Nat),
    Nat.card (Pos I O) - (stage g env k).ncard < fuel → k ≤ (stage g env k).ncard →
    (∀ m, 1 ≤ m → m ≤ k + 1 → ¬ Starts g env (stage g env m)) →
    Distances g env (distanceLoop (semMgr I O) (gameCtx g) env fuel (pre (stage g env (k + 1))) (pre (stage g env k))
      ((stages g env (k + 1)).map pre)) := by
  intro fuel
  induction fuel with
  | zero => intro k h; omega
  | succ fuel ih =>
    intro k hf hk hno
    rw [distanceLoop]
    by_cases he : pre (stage g env (k + 1)) = pre (stage g env k)
    · rw [if_pos he]
      right
      have hst := stage_stable g env (pre_inj.mp he)
      refine ⟨fun m h1 hs => ?_, _, _, rfl⟩
      by_cases hm : m ≤ k + 1
      · exact hno m h1 hm hs
      · rw [hst m (by omega), ← hst (k + 1) (by omega)] at hs
        exact hno (k + 1) (by omega) (by omega) hs
    · rw [if_neg he]
      have hne : stage g env (k + 1) ≠ stage g env k := fun h => he (congrArg pre h)
      have hlt : (stage g env k).ncard < (stage g env (k + 1)).ncard :=
        Set.ncard_lt_ncard (lt_of_le_of_ne (stage_succ g env k) (Ne.symm hne)) (Set.toFinite _)
      have hle : (stage g env (k + 1)).ncard ≤ Nat.card (Pos I O) := by
        rw [← Set.ncard_univ]; exact Set.ncard_le_ncard (Set.subset_univ _) (Set.toFinite _)
      dsimp only
      rw [or_stage]
      by_cases ht : Starts g env (stage g env (k + 1 + 1))
      · rw [if_pos ((startTest_sem g env _).mpr ht)]
        refine .inl ⟨k + 1 + 1, by omega, ht, fun m h1 h2 => hno m h1 (by omega), by omega, rfl⟩
      · rw [if_neg fun h => ht ((startTest_sem g env _).mp h)]
        refine ih (k + 1) (by omega) (by omega) fun m h1 h2 => ?_
        by_cases hm : m ≤ k + 1
        · exact hno m h1 hm
        · rw [show m = k + 1 + 1 by omega]; exact ht

theorem distanceLoop_sem [Finite I] [Finite O] [Nonempty I] [Nonempty O] (g : Game I O) (env : Bool) (fuel : Nat)
    (hf : Nat.card (Pos I O) + 1 < fuel) :
    Distances g env (distanceLoop (semMgr I O) (gameCtx g) env fuel (semMgr I O).ff ((semMgr I O).not (semMgr I O).ff) []) := by
  obtain ⟨fuel, rfl⟩ : ∃ m, fuel = m + 1 := ⟨fuel - 1, by omega⟩
  have e0 : (semMgr I O).ff = pre (stage g env 0) := rfl
  rw [distanceLoop, if_neg]
  swap
  · intro h
    have := congrFun (congrFun h (Classical.arbitrary _)) (Classical.arbitrary _)
    exact (iff_of_eq this).mpr fun h => h
  dsimp only
  rw [e0, or_stage]
  by_cases ht : Starts g env (stage g env (0 + 1))
  · rw [if_pos ((startTest_sem g env _).mpr ht)]
    exact .inl ⟨1, by omega, ht, fun m h1 h2 => by omega, by omega, rfl⟩
  · rw [if_neg fun h => ht ((startTest_sem g env _).mp h)]
    refine distanceLoop_aux g env fuel 0 (by omega) (by omega) fun m h1 h2 => ?_
    rw [show m = 0 + 1 by omega]; exact ht

/-! ### Restricting the columns -/

theorem tryLiteral_sem (g : Game I O) (env : Bool) {Q S : Set (Pos I O)} (h : Q ⊆ fpre g env S) {lit : T I O}
    (hl : ∀ s t t', lit s t ↔ lit s t') (b : Bool) :
    ∃ S' b', tryLiteral (semMgr I O) (gameCtx g) env (pre Q) lit (pre S, b) = (pre S', b') ∧ S' ⊆ S ∧ Q ⊆ fpre g env S' ∧
      (b' = b ∧ S' = S ∨ b' = true ∧ S' ≠ S) := by
  have e : (semMgr I O).and (pre S) lit = pre {s | s ∈ S ∧ lit s s} := by
    funext s t
    exact propext (and_congr_right fun _ => hl s t s)
  rw [tryLiteral]
  dsimp only
  rw [e, forcePre_sem]
  split
  · rename_i hc
    refine ⟨_, _, rfl, fun s hs => hs.1, fun s hs => ?_, .inr ⟨rfl, fun h => hc.2 (congrArg pre h)⟩⟩
    have := (iff_of_eq (congrFun (congrFun hc.1 s) s)).mpr trivial
    exact this.resolve_right (not_not_intro hs)
  · exact ⟨S, b, rfl, subset_rfl, h, .inl ⟨rfl, rfl⟩⟩

theorem tryAll_sem (g : Game I O) (env : Bool) {Q : Set (Pos I O)} : ∀ (vs : List (T I O)), (∀ v ∈ vs, ∀ s t t', v s t ↔ v s t') →
    ∀ {S : Set (Pos I O)}, Q ⊆ fpre g env S → ∀ b,
    ∃ S' b', vs.foldl (tryVariable (semMgr I O) (gameCtx g) env (pre Q)) (pre S, b) = (pre S', b') ∧ S' ⊆ S ∧ Q ⊆ fpre g env S' ∧
      (b' = b ∧ S' = S ∨ b' = true ∧ S' ≠ S) := by
  intro vs
  induction vs with
  | nil => intro _ S h b; exact ⟨S, b, rfl, subset_rfl, h, .inl ⟨rfl, rfl⟩⟩
  | cons v vs ih =>
    intro hv S h b
    obtain ⟨S1, b1, e1, s1, h1, c1⟩ := tryLiteral_sem g env h (hv v (by simp)) b
    obtain ⟨S2, b2, e2, s2, h2, c2⟩ := tryLiteral_sem g env h1 (lit := (semMgr I O).not v)
      (fun s t t' => not_congr (hv v (by simp) s t t')) b1
    obtain ⟨S3, b3, e3, s3, h3, c3⟩ := ih (fun v' h' => hv v' (by simp [h'])) h2 b2
    refine ⟨S3, b3, ?_, s3.trans (s2.trans s1), h3, ?_⟩
    · rw [List.foldl_cons, tryVariable, e1, e2, e3]
    · have sub : ∀ {X Y Z : Set (Pos I O)}, X ⊆ Y → Y ⊆ Z → (Y ≠ Z ∨ X ≠ Y) → X ≠ Z := by
        rintro X Y Z h1 h2 h3 rfl
        have : X = Y := Set.Subset.antisymm h1 h2
        subst this
        exact h3.elim (fun h => h rfl) fun h => h rfl
      rcases c3 with ⟨rfl, rfl⟩ | ⟨rfl, n3⟩
      · rcases c2 with ⟨rfl, rfl⟩ | ⟨rfl, n2⟩
        · exact c1
        · exact .inr ⟨rfl, sub s2 s1 (.inr n2)⟩
      · exact .inr ⟨rfl, sub s3 (s2.trans s1) (.inr n3)⟩

/-- Each element can be forced from the one before it. -/
def ForceChain (g : Game I O) (env : Bool) : Set (Pos I O) → List (Set (Pos I O)) → Prop
  | _, [] => True
  | Q, S :: Ss => Q ⊆ fpre g env S ∧ ForceChain g env S Ss

theorem restrictPass_sem (g : Game I O) (env : Bool) (vs : List (T I O)) (hv : ∀ v ∈ vs, ∀ s t t', v s t ↔ v s t') :
    ∀ (Ss : List (Set (Pos I O))) (Q R : Set (Pos I O)), R ⊆ Q → ForceChain g env Q Ss →
    ∃ Ss' b, restrictPass (semMgr I O) (gameCtx g) env vs (pre R) (Ss.map pre) = (Ss'.map pre, b) ∧ ForceChain g env R Ss' ∧
      List.Forall₂ (· ⊆ ·) Ss' Ss ∧ (b = false ∧ Ss' = Ss ∨ b = true ∧ Ss' ≠ Ss) := by
  intro Ss
  induction Ss with
  | nil => intro Q R _ _; exact ⟨[], false, rfl, trivial, .nil, .inl ⟨rfl, rfl⟩⟩
  | cons S Ss ih =>
    intro Q R hR hc
    obtain ⟨S', b, e, hs, hq, cs⟩ := tryAll_sem g env vs hv (hR.trans hc.1) false
    obtain ⟨Ss', b', e', hc', hf, cs'⟩ := ih S S' hs hc.2
    refine ⟨S' :: Ss', b || b', ?_, ⟨hq, hc'⟩, .cons hs hf, ?_⟩
    · rw [List.map_cons, restrictPass, e]
      dsimp only
      rw [e', List.map_cons]
    · rcases cs with ⟨rfl, rfl⟩ | ⟨rfl, n⟩ <;> rcases cs' with ⟨rfl, rfl⟩ | ⟨rfl, n'⟩
      · exact .inl ⟨rfl, rfl⟩
      · exact .inr ⟨rfl, fun h => n' (List.cons.inj h).2⟩
      · exact .inr ⟨rfl, fun h => n (List.cons.inj h).1⟩
      · exact .inr ⟨rfl, fun h => n (List.cons.inj h).1⟩

/-- The sum of the sizes. -/
noncomputable def sizes (Ss : List (Set (Pos I O))) : Nat := (Ss.map Set.ncard).sum

theorem sizes_le [Finite I] [Finite O] {Ss Ss' : List (Set (Pos I O))} (h : List.Forall₂ (· ⊆ ·) Ss' Ss) :
    sizes Ss' ≤ sizes Ss ∧ (Ss' ≠ Ss → sizes Ss' < sizes Ss) := by
  induction h with
  | nil => exact ⟨Nat.le_refl _, fun h => absurd rfl h⟩
  | @cons S' S Ss' Ss hs _ ih =>
    have e : ∀ (X : Set (Pos I O)) (Xs : List (Set (Pos I O))), sizes (X :: Xs) = X.ncard + sizes Xs := fun _ _ => rfl
    rw [e, e]
    have hle := Set.ncard_le_ncard hs (Set.toFinite S)
    refine ⟨by omega, fun hne => ?_⟩
    by_cases h1 : S' = S
    · subst h1
      have := ih.2 fun h => hne (by rw [h])
      omega
    · have := Set.ncard_lt_ncard (lt_of_le_of_ne hs h1) (Set.toFinite S)
      omega

theorem forall₂_subset_trans {a b c : List (Set (Pos I O))} (h : List.Forall₂ (· ⊆ ·) a b) (h' : List.Forall₂ (· ⊆ ·) b c) :
    List.Forall₂ (· ⊆ ·) a c := by
  induction h generalizing c with
  | nil => cases h'; exact .nil
  | cons hs _ ih => cases h' with | cons hs' h' => exact .cons (hs.trans hs') (ih h')

theorem restrictLoop_sem [Finite I] [Finite O] (g : Game I O) (env : Bool) (vs : List (T I O)) (hv : ∀ v ∈ vs, ∀ s t t', v s t ↔ v s t')
    (Q : Set (Pos I O)) : ∀ (fuel : Nat) (Ss : List (Set (Pos I O))), sizes Ss < fuel → ForceChain g env Q Ss →
    ∃ Ss', restrictLoop (semMgr I O) (gameCtx g) env vs (pre Q) fuel (Ss.map pre) = some (Ss'.map pre) ∧ ForceChain g env Q Ss' ∧
      List.Forall₂ (· ⊆ ·) Ss' Ss := by
  intro fuel
  induction fuel with
  | zero => intro Ss h; omega
  | succ fuel ih =>
    intro Ss hf hc
    obtain ⟨Ss', b, e, hc', hs, cs⟩ := restrictPass_sem g env vs hv Ss Q Q subset_rfl hc
    rw [restrictLoop, e]
    rcases cs with ⟨rfl, rfl⟩ | ⟨rfl, hn⟩
    · exact ⟨Ss', by simp, hc', hs⟩
    · have := (sizes_le hs).2 hn
      obtain ⟨Ss'', e'', hc'', hs''⟩ := ih Ss' (by omega) hc'
      exact ⟨Ss'', by simpa using e'', hc'', forall₂_subset_trans hs'' hs⟩

theorem stages_chain (g : Game I O) (env : Bool) : ∀ (n : Nat) (Q : Set (Pos I O)), Q ⊆ stage g env n → ForceChain g env Q (stages g env n)
  | 0, _, _ => trivial
  | n + 1, _, h => ⟨h, stages_chain g env n _ subset_rfl⟩

theorem sizes_stages [Finite I] [Finite O] (g : Game I O) (env : Bool) (n : Nat) : sizes (stages g env n) ≤ n * Nat.card (Pos I O) := by
  induction n with
  | zero => simp [stages, sizes]
  | succ n ih =>
    have e : sizes (stages g env (n + 1)) = (stage g env n).ncard + sizes (stages g env n) := rfl
    have hle : (stage g env n).ncard ≤ Nat.card (Pos I O) := by
      rw [← Set.ncard_univ]; exact Set.ncard_le_ncard (Set.subset_univ _) (Set.toFinite _)
    rw [e, Nat.add_mul]
    omega

end Slugs.Model
