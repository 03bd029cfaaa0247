import Verif.Lemmas.CoopSound

/-! Every position from which there is a cooperative strategy is in the computed set. -/

namespace Slugs.Model

open Slugs.Spec

variable {I O : Type}

/-- A sequence with one more position in front. -/
def consSeq (t : Pos I O) (p : Nat → Pos I O) : Nat → Pos I O
  | 0 => t
  | n + 1 => p n

theorem infOften_cons {a : T I O} {t : Pos I O} {p : Nat → Pos I O} : InfOften a (consSeq t p) ↔ InfOften a p := by
  constructor
  · intro h n
    obtain ⟨m, hm, ha⟩ := h (n + 1)
    obtain ⟨m, rfl⟩ : ∃ m', m = m' + 1 := ⟨m - 1, by omega⟩
    exact ⟨m, by omega, ha⟩
  · intro h n
    obtain ⟨m, hm, ha⟩ := h n
    exact ⟨m + 1, by omega, ha⟩

theorem live_cons {g : Game I O} {t : Pos I O} {p : Nat → Pos I O} : g.Live (consSeq t p) ↔ g.Live p := by
  simp only [Game.Live, infOften_cons]

theorem afterHist_cons (h : History I O) (t : Pos I O) (p : Nat → Pos I O) (n : Nat) :
    afterHist h (consSeq t p) (n + 1) = afterHist (t :: h) p n := by
  induction n with
  | zero => rfl
  | succ n ih => rw [afterHist, ih]; rfl

theorem afterHist_tail (h : History I O) (p : Nat → Pos I O) (n : Nat) :
    afterHist (p 0 :: h) (fun n => p (n + 1)) n = afterHist h p (n + 1) := by
  induction n with
  | zero => rfl
  | succ n ih => rw [afterHist, ih]; rfl

/-- What happens after a history satisfies the liveness objective. -/
theorem live_after {g : Game I O} {σ : SysStrategy I O} {s : Pos I O} (hσ : g.SysWinning σ s) {h : History I O} (hh : g.SysHist σ s h)
    (p : Nat → Pos I O) (hp : ∀ n, g.SysHist σ s (afterHist h p n)) : g.Live p := by
  induction hh generalizing p with
  | start =>
    rw [← live_cons (t := s)]
    refine hσ.2 _ fun n => ?_
    have : prefixHist (consSeq s p) n = afterHist [s] p n := by
      induction n with
      | zero => rfl
      | succ n ih => rw [prefixHist, ih]; rfl
    rw [this]
    exact hp n
  | @step cur h i hh hi ih =>
    rw [← live_cons (t := (i, σ (cur :: h) i))]
    refine ih _ fun n => ?_
    cases n with
    | zero => exact hh
    | succ n => rw [afterHist_cons]; exact hp n

section
variable {g : Game I O} {σ : SysStrategy I O} {s0 : Pos I O}

/-- The positions that can be reached. -/
def Reach (g : Game I O) (σ : SysStrategy I O) (s0 : Pos I O) : Set (Pos I O) := {t | ∃ h, g.SysHist σ s0 (t :: h)}

theorem sysHist_step {cur t : Pos I O} {h : History I O} (hh : g.SysHist σ s0 (t :: cur :: h)) :
    g.SysHist σ s0 (cur :: h) ∧ g.safetyEnv cur t.1 ∧ t = (t.1, σ (cur :: h) t.1) := by
  cases hh with
  | step h1 h2 => exact ⟨h1, h2, rfl⟩

theorem okT_of_hist (hσ : g.CoopWinning σ s0) {cur t : Pos I O} {h : History I O} (hh : g.SysHist σ s0 (t :: cur :: h)) :
    okT g cur t := by
  obtain ⟨h1, h2, h3⟩ := sysHist_step hh
  obtain ⟨p, hp, _⟩ := hσ.2 _ hh
  refine ⟨⟨?_, (p 0).1, (sysHist_step (hp 1)).2.1⟩, h2⟩
  have := hσ.1.1 cur h t.1 h1 h2
  rwa [← h3] at this

/-- The environment can reach a step that fulfils `A` in `n + 1` steps, without a step of `G` and without visiting `Y`. -/
def Force (g : Game I O) (σ : SysStrategy I O) (s0 : Pos I O) (G : T I O) (Y : Set (Pos I O)) (A : T I O) : Nat → History I O → Prop
  | 0, cur :: h => ∃ t, (g.SysHist σ s0 (t :: cur :: h) ∧ ¬ G cur t ∧ t ∉ Y) ∧ A cur t
  | n + 1, cur :: h => ∃ t, (g.SysHist σ s0 (t :: cur :: h) ∧ ¬ G cur t ∧ t ∉ Y) ∧ Force g σ s0 G Y A n (t :: cur :: h)
  | _, [] => False

theorem exists_force (hσ : g.CoopWinning σ s0) {G : T I O} (hG : G ∈ g.guarantees) {A : T I O} (hA : A ∈ g.assumptions)
    {cur : Pos I O} {h : History I O} (hh : g.SysHist σ s0 (cur :: h)) (hcur : cur ∉ muYc g G (Reach g σ s0)) :
    ∃ n, Force g σ s0 G (muYc g G (Reach g σ s0)) A n (cur :: h) := by
  by_contra hnot
  push Not at hnot
  set S := Reach g σ s0 with hS
  set Y := muYc g G S with hY
  let Q : Set (Pos I O) := {t | ∃ h, g.SysHist σ s0 (t :: h) ∧ t ∉ Y ∧ ∀ n, ¬ Force g σ s0 G Y A n (t :: h)}
  -- what a step from such a position achieves
  have hcase : ∀ t u h, g.SysHist σ s0 (u :: t :: h) → (∀ n, ¬ Force g σ s0 G Y A n (t :: h)) →
      liveT G S Y t u ∨ (¬ A t u ∧ u ∉ Y ∧ ∀ n, ¬ Force g σ s0 G Y A n (u :: t :: h)) := by
    intro t u h hh hf
    by_cases h1 : G t u
    · exact .inl (.inl ⟨h1, _, hh⟩)
    by_cases h2 : u ∈ Y
    · exact .inl (.inr h2)
    exact .inr ⟨fun hAtu => hf 0 ⟨u, ⟨hh, h1, h2⟩, hAtu⟩, h2, fun n hn => hf (n + 1) ⟨u, ⟨hh, h1, h2⟩, hn⟩⟩
  have hmuC : ∀ m t h (p : Nat → Pos I O), g.SysHist σ s0 (t :: h) → (∀ n, ¬ Force g σ s0 G Y A n (t :: h)) →
      (∀ n, g.SysHist σ s0 (afterHist (t :: h) p n)) → G (consSeq t p m) (consSeq t p (m + 1)) → t ∈ muC g (liveT G S Y) A Q := by
    intro m
    induction m with
    | zero =>
      intro t h p hh hf hp hGm
      exact mem_muC (t := p 0) ⟨.inl (.inl ⟨hGm, _, hp 1⟩), okT_of_hist hσ (hp 1)⟩
    | succ m ih =>
      intro t h p hh hf hp hGm
      rcases hcase t (p 0) h (hp 1) hf with h1 | ⟨h1, h2, h3⟩
      · exact mem_muC (t := p 0) ⟨.inl h1, okT_of_hist hσ (hp 1)⟩
      · have hu : p 0 ∈ muC g (liveT G S Y) A Q := by
          refine ih (p 0) (t :: h) (fun n => p (n + 1)) (hp 1) h3 (fun n => ?_) ?_
          · rw [afterHist_tail]; exact hp (n + 1)
          · cases m with
            | zero => exact hGm
            | succ m => exact hGm
        exact mem_muC (t := p 0) ⟨.inr ⟨⟨⟨_, hp 1, h2, h3⟩, hu⟩, h1⟩, okT_of_hist hσ (hp 1)⟩
  have hQ : Q ⊆ cox g (cp g (liveT G S Y) A Q) := by
    rintro t ⟨h, hh, htY, hf⟩ i hi
    have hu : g.SysHist σ s0 ((i, σ (t :: h) i) :: t :: h) := .step hh hi
    refine ⟨σ (t :: h) i, ?_, okT_of_hist hσ hu⟩
    rcases hcase t _ h hu hf with h1 | ⟨h1, h2, h3⟩
    · exact .inl h1
    · refine .inr ⟨⟨⟨_, hu, h2, h3⟩, ?_⟩, h1⟩
      obtain ⟨p, hp, hfair⟩ := hσ.2 _ hu
      obtain ⟨m, _, hGm⟩ := (live_after hσ.1 hu p hp hfair G hG) 0
      exact hmuC (m + 1) _ _ p hu h3 hp hGm
  exact hcur (nuXc_sub_muYc g G A S hA (le_nuXc g _ A hQ ⟨h, hh, hcur, hnot⟩))

theorem reach_sub_N0 (ha : g.assumptions ≠ []) (hσ : g.CoopWinning σ s0) : Reach g σ s0 ⊆ N0 g (Reach g σ s0) := by
  classical
  rintro t0 ⟨h0, hh0⟩ G hG
  by_contra hnot
  have hpos := List.length_pos_iff.mpr ha
  set Y := muYc g G (Reach g σ s0) with hY
  -- states: histories and the number of the assumption to be fulfilled next
  let P : History I O × Nat → Prop := fun st => g.SysHist σ s0 st.1 ∧ (∀ cur h, st.1 = cur :: h → cur ∉ Y) ∧ st.2 < g.assumptions.length
  let F : History I O × Nat → Nat → Prop := fun st n => ∀ A, g.assumptions[st.2]? = some A → Force g σ s0 G Y A n st.1
  have hF : ∀ st, P st → ∃ n, F st n := by
    rintro ⟨h, j⟩ ⟨h1, h2, h3⟩
    obtain ⟨cur, h', rfl⟩ := sysHist_ne h1
    obtain ⟨n, hn⟩ := exists_force hσ hG (List.getElem_mem h3) h1 (h2 _ _ rfl)
    refine ⟨n, fun A hA => ?_⟩
    rw [List.getElem?_eq_getElem h3] at hA
    cases hA
    exact hn
  let b : History I O × Nat → Nat := fun st => if h : P st then Nat.find (hF st h) else 0
  have hb : ∀ st n, P st → F st n → b st ≤ n := by
    intro st n h hn
    simp only [b, h, dif_pos]
    exact Nat.find_min' _ hn
  -- the game whose goals are the assumptions
  let ga : Game I O := { g with guarantees := g.assumptions }
  have hnext : ∀ st, P st → ∃ st', P st' ∧ ∃ cur h t, st.1 = cur :: h ∧ st'.1 = t :: cur :: h ∧ ¬ G cur t ∧
      GoalStep ga cur t st.2 st'.2 ∧ (goalAt ga st.2 cur t ∨ b st' < b st) := by
    rintro ⟨h, j⟩ hP
    have hf : F (h, j) (b (h, j)) := by
      simp only [b, hP, dif_pos]
      exact Nat.find_spec (hF _ hP)
    obtain ⟨h1, h2, h3⟩ := hP
    obtain ⟨cur, h', rfl⟩ := sysHist_ne h1
    have hgs : ∀ t, GoalStep ga cur t j (if goalAt ga j cur t then (j + 1) % g.assumptions.length else j) := by
      intro t
      refine ⟨fun hn => by rw [if_neg hn], fun hy => ⟨1, le_refl _, hpos, by rw [if_pos hy], ?_⟩⟩
      intro l hl
      have : l = 0 := by omega
      subst this
      rw [Nat.add_zero, Nat.mod_eq_of_lt (show j < ga.guarantees.length from h3)]
      exact hy
    have hPn : ∀ t, g.SysHist σ s0 (t :: cur :: h') → t ∉ Y →
        P (t :: cur :: h', if goalAt ga j cur t then (j + 1) % g.assumptions.length else j) := by
      intro t ht htY
      refine ⟨ht, by rintro _ _ ⟨⟩; exact htY, ?_⟩
      dsimp only
      split
      · exact Nat.mod_lt _ hpos
      · exact h3
    have hget := List.getElem?_eq_getElem (show j < g.assumptions.length from h3)
    have hf' := hf _ hget
    generalize hbn : b (cur :: h', j) = n at hf'
    cases n with
    | zero =>
      obtain ⟨t, ⟨ht1, ht2, ht3⟩, hAt⟩ := hf'
      exact ⟨_, hPn t ht1 ht3, cur, h', t, rfl, rfl, ht2, hgs t, .inl ⟨_, hget, hAt⟩⟩
    | succ n =>
      obtain ⟨t, ⟨ht1, ht2, ht3⟩, hft⟩ := hf'
      refine ⟨_, hPn t ht1 ht3, cur, h', t, rfl, rfl, ht2, hgs t, ?_⟩
      by_cases hgoal : goalAt ga j cur t
      · exact .inl hgoal
      · refine .inr ?_
        have := hb _ n (hPn t ht1 ht3) (by
          intro A hA
          simp only [if_neg hgoal] at hA
          rw [hget] at hA
          cases hA
          exact hft)
        omega
  haveI : Nonempty (Pos I O) := ⟨t0⟩
  choose! next hn1 ncur nh nt hn2 hn3 hn4 hn5 hn6 using hnext
  let r : Nat → History I O × Nat := fun n => next^[n] (t0 :: h0, 0)
  have hr : ∀ n, r (n + 1) = next (r n) := fun n => Function.iterate_succ_apply' next n _
  have hP : ∀ n, P (r n) := by
    intro n
    induction n with
    | zero => exact ⟨hh0, by rintro _ _ ⟨⟩; exact hnot, hpos⟩
    | succ n ih => rw [hr]; exact hn1 _ ih
  let p : Nat → Pos I O := fun n => nt (r n)
  have hhist : ∀ n, (r (n + 1)).1 = p n :: (r n).1 := by
    intro n
    rw [hr, hn3 _ (hP n), hn2 _ (hP n)]
  have hcur : ∀ n, ncur (r (n + 1)) = p n := by
    intro n
    have h1 := hn2 _ (hP (n + 1))
    rw [hhist] at h1
    exact (List.cons.inj h1).1.symm
  have hafter : ∀ n, afterHist (t0 :: h0) p n = (r n).1 := by
    intro n
    induction n with
    | zero => rfl
    | succ n ih => rw [afterHist, ih, hhist]
  have hlive := live_after hσ.1 hh0 p fun n => by rw [hafter]; exact (hP n).1
  have hfair : ∀ a ∈ g.assumptions, InfOften a p := by
    refine goals_cycle ga p (fun n => (r (n + 1)).2) (fun n => (hP (n + 1)).2.2) ?_ ?_
    · intro n
      have := hn5 _ (hP (n + 1))
      rw [hcur, ← hr] at this
      exact this
    · intro n
      induction hbn : b (r (n + 1)) using Nat.strong_induction_on generalizing n with
      | _ v ih =>
        subst hbn
        rcases hn6 _ (hP (n + 1)) with h | h
        · rw [hcur] at h
          exact ⟨n, le_refl _, h⟩
        · rw [← hr] at h
          obtain ⟨m, hm, hgoal⟩ := ih _ h (n + 1) rfl
          exact ⟨m, by omega, hgoal⟩
  obtain ⟨m, _, hGm⟩ := hlive hfair G hG 0
  have := hn4 _ (hP (m + 1))
  rw [hcur] at this
  exact this hGm

theorem reach_sub_muW (hσ : g.CoopWinning σ s0) {A : T I O} (hA : A ∈ g.assumptions) {N : Set (Pos I O)} (hN : Reach g σ s0 ⊆ N) :
    Reach g σ s0 ⊆ muW g A N := by
  have key : ∀ m t h (p : Nat → Pos I O), g.SysHist σ s0 (t :: h) → (∀ n, g.SysHist σ s0 (afterHist (t :: h) p n)) →
      A (consSeq t p m) (consSeq t p (m + 1)) → t ∈ muW g A N := by
    intro m
    induction m with
    | zero =>
      intro t h p hh hp hAm
      exact mem_muW (t := p 0) ⟨okT_of_hist hσ (hp 1), hN ⟨_, hh⟩, .inl ⟨hAm, hN ⟨_, hp 1⟩⟩⟩
    | succ m ih =>
      intro t h p hh hp hAm
      refine mem_muW (t := p 0) ⟨okT_of_hist hσ (hp 1), hN ⟨_, hh⟩, .inr ?_⟩
      refine ih (p 0) (t :: h) (fun n => p (n + 1)) (hp 1) (fun n => by rw [afterHist_tail]; exact hp (n + 1)) ?_
      cases m with
      | zero => exact hAm
      | succ m => exact hAm
  rintro t ⟨h, hh⟩
  obtain ⟨p, hp, hfair⟩ := hσ.2 _ hh
  obtain ⟨m, _, hAm⟩ := hfair A hA 0
  exact key (m + 1) t h p hh hp hAm

end

/-- The computed set consists of the positions from which there is a cooperative strategy. -/
theorem nuZc_eq_coopWins [Finite I] [Finite O] (g : Game I O) (ha : g.assumptions ≠ []) (hg : g.guarantees ≠ []) (s : Pos I O) :
    s ∈ nuZc g ↔ g.CoopWins s := by
  constructor
  · intro hs
    obtain ⟨dump, ts, _, h⟩ := computeWinningPositionsCoop_eq g (Nat.card (Pos I O) + 1) (Nat.lt_succ_self _)
    refine coopFamily_wins (h.family hg ha) rfl rfl rfl (fun G hG => coopGuarantees_mem hG) ?_ hs
    exact fun he => hg (List.append_eq_nil_iff.mp he).1
  · rintro ⟨σ, hσ⟩
    have : Reach g σ s ⊆ nuZc g := by
      refine (FZc g).le_gfp ?_
      exact le_foldN g _ (reach_sub_N0 ha hσ) fun A hA N hN => reach_sub_muW hσ hA hN
    exact this ⟨[], .start⟩

end Slugs.Model
