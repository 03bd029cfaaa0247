import Verif.Lemmas.Sound

/-! Outside the computed set, the environment has a winning strategy. -/

namespace Slugs.Model

open Slugs.Spec

variable {I O : Type}

theorem iterate_anti {α : Type} (F : Set α →o Set α) (n : Nat) : F^[n + 1] Set.univ ⊆ F^[n] Set.univ := by
  induction n with
  | zero => exact Set.subset_univ _
  | succ n ih =>
    have h1 := Function.iterate_succ_apply' F (n + 1) Set.univ
    have h2 := Function.iterate_succ_apply' F n Set.univ
    rw [h1]
    conv_rhs => rw [h2]
    exact F.monotone ih

theorem iterate_anti_le {α : Type} (F : Set α →o Set α) {n m : Nat} (h : n ≤ m) :
    F^[m] Set.univ ⊆ F^[n] Set.univ := by
  induction m, h using Nat.le_induction with
  | base => exact subset_rfl
  | succ m _ ih => exact (iterate_anti F m).trans ih

/-- On finite sets, the greatest fixed point is reached by iteration. -/
theorem not_mem_gfp {α : Type} [Finite α] (F : Set α →o Set α) {s : α} (hs : s ∉ F.gfp) :
    ∃ n, s ∉ F^[n] Set.univ := by
  by_contra hall
  push Not at hall
  have hstab : ∃ n, F^[n + 1] Set.univ = F^[n] Set.univ := by
    by_contra hne
    push Not at hne
    have : ∀ n, (F^[n] Set.univ).ncard + n ≤ Nat.card α := by
      intro n
      induction n with
      | zero => simp [Set.ncard_univ]
      | succ n ih =>
        have := Set.ncard_lt_ncard (lt_of_le_of_ne (iterate_anti F n) (hne n)) (Set.toFinite _)
        omega
    have := this (Nat.card α + 1)
    omega
  obtain ⟨n, hn⟩ := hstab
  rw [Function.iterate_succ_apply'] at hn
  exact hs (F.le_gfp hn.ge (hall n))

/-- The iterates of the outermost loop. -/
def Zr (g : Game I O) (r : Nat) : Set (Pos I O) := (FZ g)^[r] Set.univ

/-- The iterates of an innermost loop for goal `G` in round `r`. -/
def Xn (g : Game I O) (r : Nat) (G A : T I O) (n : Nat) : Set (Pos I O) :=
  (FX g G A (Zr g r) (muY g G (Zr g r)))^[n] Set.univ

theorem exists_round [Finite I] [Finite O] (g : Game I O) {s : Pos I O} (hs : s ∉ nuZ g) : ∃ r, s ∉ Zr g (r + 1) := by
  obtain ⟨n, hn⟩ := not_mem_gfp (FZ g) hs
  exact ⟨n, fun h => hn (iterate_anti (FZ g) n h)⟩

open Classical in
/-- The round of the outermost loop that removes the position. -/
noncomputable def rnd (g : Game I O) (s : Pos I O) : Nat :=
  if h : ∃ r, s ∉ Zr g (r + 1) then Nat.find h else 0

/-- The goal with number `j` cannot be forced in the round that removes the position. -/
def BadGoal (g : Game I O) (r : Nat) (s : Pos I O) (j : Nat) : Prop :=
  ∃ G, g.guarantees[j]? = some G ∧ s ∉ muY g G (Zr g r)

theorem exists_badGoal {g : Game I O} {r : Nat} {s : Pos I O} (h : s ∉ Zr g (r + 1)) : ∃ j, BadGoal g r s j := by
  rw [Zr, Function.iterate_succ_apply'] at h
  have : ¬ ∀ G ∈ g.guarantees, s ∈ muY g G (Zr g r) := h
  push Not at this
  obtain ⟨G, hG, hs⟩ := this
  obtain ⟨j, hj, rfl⟩ := List.getElem_of_mem hG
  exact ⟨j, _, List.getElem?_eq_getElem hj, hs⟩

open Classical in
/-- The first goal that cannot be forced. -/
noncomputable def badGoal (g : Game I O) (s : Pos I O) : Nat :=
  if h : ∃ j, BadGoal g (rnd g s) s j then Nat.find h else 0

theorem rnd_spec [Finite I] [Finite O] (g : Game I O) {s : Pos I O} (hs : s ∉ nuZ g) : s ∉ Zr g (rnd g s + 1) := by
  classical
  have h := exists_round g hs
  simp only [rnd, h, dif_pos]
  exact Nat.find_spec h

theorem rnd_le (g : Game I O) {s : Pos I O} {r : Nat} (h : s ∉ Zr g (r + 1)) : rnd g s ≤ r := by
  classical
  have hex : ∃ r, s ∉ Zr g (r + 1) := ⟨r, h⟩
  simp only [rnd, hex, dif_pos]
  exact Nat.find_min' hex h

theorem badGoal_spec [Finite I] [Finite O] (g : Game I O) {s : Pos I O} (hs : s ∉ nuZ g) :
    BadGoal g (rnd g s) s (badGoal g s) := by
  classical
  have h := exists_badGoal (rnd_spec g hs)
  simp only [badGoal, h, dif_pos]
  exact Nat.find_spec h

theorem badGoal_le (g : Game I O) {s : Pos I O} {j : Nat} (h : BadGoal g (rnd g s) s j) : badGoal g s ≤ j := by
  classical
  have hex : ∃ j, BadGoal g (rnd g s) s j := ⟨j, h⟩
  simp only [badGoal, hex, dif_pos]
  exact Nat.find_min' hex h

theorem BadGoal.not_Zr {g : Game I O} {r : Nat} {s : Pos I O} {j : Nat} (h : BadGoal g r s j) : s ∉ Zr g (r + 1) := by
  obtain ⟨G, hG, hs⟩ := h
  rw [Zr, Function.iterate_succ_apply']
  exact fun hall => hs (hall G (List.mem_of_getElem? hG))

theorem not_Zr_not_nuZ (g : Game I O) {r : Nat} {s : Pos I O} (h : s ∉ Zr g r) : s ∉ nuZ g := by
  intro hs
  have : ∀ r, nuZ g ⊆ Zr g r := by
    intro r
    induction r with
    | zero => exact Set.subset_univ _
    | succ r ih =>
      rw [Zr, Function.iterate_succ_apply']
      calc nuZ g = FZ g (nuZ g) := (FZ g).map_gfp.symm
        _ ⊆ _ := (FZ g).monotone ih
  exact h (this r hs)

/-- The number of steps in which the environment can enforce assumption `A` (or make progress otherwise). -/
def dropAt (g : Game I O) (r : Nat) (G A : T I O) (s : Pos I O) (n : Nat) : Prop := s ∉ Xn g r G A (n + 1)

open Classical in
noncomputable def steps (g : Game I O) (r : Nat) (G A : T I O) (s : Pos I O) : Nat :=
  if h : ∃ n, dropAt g r G A s n then Nat.find h else 0

/-- What a good environment move achieves. -/
def GoodMove (g : Game I O) (A : T I O) (s : Pos I O) (i : I) : Prop :=
  g.safetyEnv s i ∧ ∀ o, g.safetySys s (i, o) →
    (i, o) ∉ nuZ g ∧
    rnd g (i, o) ≤ rnd g s ∧
    (rnd g (i, o) = rnd g s → badGoal g (i, o) ≤ badGoal g s ∧ ¬ goalAt g (badGoal g s) s (i, o) ∧
      (badGoal g (i, o) = badGoal g s → A s (i, o) ∨ ∀ G, g.guarantees[badGoal g s]? = some G →
        steps g (rnd g s) G A (i, o) < steps g (rnd g s) G A s))

theorem exists_goodMove [Finite I] [Finite O] (g : Game I O) {A : T I O} (hA : A ∈ g.assumptions) {s : Pos I O}
    (hs : s ∉ nuZ g) : ∃ i, GoodMove g A s i := by
  classical
  obtain ⟨G, hG, hsG⟩ := badGoal_spec g hs
  have hXnot : s ∉ nuX g G A (Zr g (rnd g s)) (muY g G (Zr g (rnd g s))) :=
    fun h => hsG (nuX_sub_muY g G A _ hA h)
  have hdrop : ∃ n, dropAt g (rnd g s) G A s n := by
    obtain ⟨n, hn⟩ := not_mem_gfp _ hXnot
    exact ⟨n, fun h => hn (iterate_anti _ n h)⟩
  have hspec := Nat.find_spec hdrop
  have hsteps : steps g (rnd g s) G A s = Nat.find hdrop := by simp only [steps, hdrop, dif_pos]
  rw [dropAt, Xn, Function.iterate_succ_apply'] at hspec
  have : ¬ ∀ i, g.safetyEnv s i → ∃ o, paths g G A (Zr g (rnd g s)) (muY g G (Zr g (rnd g s)))
      (Xn g (rnd g s) G A (Nat.find hdrop)) s (i, o) := hspec
  push Not at this
  obtain ⟨i, hi, ho⟩ := this
  refine ⟨i, hi, ?_⟩
  intro o hsys
  have hno : ¬ ((G s (i, o) ∧ (i, o) ∈ Zr g (rnd g s)) ∨ (i, o) ∈ muY g G (Zr g (rnd g s)) ∨
      ((i, o) ∈ Xn g (rnd g s) G A (Nat.find hdrop) ∧ ¬ A s (i, o))) := fun h => ho o ⟨h, hsys⟩
  push Not at hno
  obtain ⟨h1, h2, h3⟩ := hno
  have hbad : BadGoal g (rnd g s) (i, o) (badGoal g s) := ⟨G, hG, h2⟩
  have hle := rnd_le g hbad.not_Zr
  refine ⟨not_Zr_not_nuZ g hbad.not_Zr, hle, ?_⟩
  intro heq
  refine ⟨badGoal_le g (heq ▸ hbad), ?_, ?_⟩
  · rintro ⟨G', hG', hst⟩
    rw [hG] at hG'
    cases hG'
    have hz := h1 hst
    -- then the position was removed in an earlier round
    cases hr : rnd g s with
    | zero => rw [hr] at hz; exact hz (Set.mem_univ _)
    | succ r =>
      rw [hr] at hz
      have := rnd_le g hz
      omega
  · intro _
    by_cases hAst : A s (i, o)
    · exact .inl hAst
    · refine .inr ?_
      intro G' hG'
      rw [hG] at hG'
      cases hG'
      have hX : (i, o) ∉ Xn g (rnd g s) G A (Nat.find hdrop) := fun h => hAst (h3 h)
      have hpos : Nat.find hdrop ≠ 0 := by
        intro h0
        rw [h0] at hX
        exact hX (Set.mem_univ _)
      obtain ⟨n, hn⟩ := Nat.exists_eq_succ_of_ne_zero hpos
      have hdrop' : dropAt g (rnd g s) G A (i, o) n := by rw [dropAt]; rw [hn] at hX; exact hX
      have hex : ∃ n, dropAt g (rnd g s) G A (i, o) n := ⟨n, hdrop'⟩
      have hle' : steps g (rnd g s) G A (i, o) ≤ n := by
        simp only [steps, hex, dif_pos]
        exact Nat.find_min' hex hdrop'
      omega

/-! ### The environment strategy -/

/-- Assumption number `k` holds on a transition. -/
def assAt (g : Game I O) (k : Nat) : T I O := fun s t => ∃ A, g.assumptions[k]? = some A ∧ A s t

open Classical in
/-- The assumption that the environment currently tries to satisfy. -/
noncomputable def assIdx (g : Game I O) : History I O → Nat
  | t :: s :: h => if assAt g (assIdx g (s :: h)) s t then (assIdx g (s :: h) + 1) % g.assumptions.length
      else assIdx g (s :: h)
  | _ => 0

open Classical in
noncomputable def envStrat (g : Game I O) (dflt : I) : EnvStrategy I O
  | cur :: h => if hex : ∃ i, GoodMove g (assAt g (assIdx g (cur :: h))) cur i then hex.choose else dflt
  | [] => dflt

theorem assIdx_lt (g : Game I O) (hg : g.assumptions ≠ []) (h : History I O) : assIdx g h < g.assumptions.length := by
  have hpos := List.length_pos_iff.mpr hg
  fun_induction assIdx g h with
  | case1 => exact Nat.mod_lt _ hpos
  | case2 _ _ _ _ ih => exact ih
  | case3 => exact hpos

theorem assAt_eq (g : Game I O) {k : Nat} (hk : k < g.assumptions.length) : assAt g k = g.assumptions[k] := by
  funext s t
  simp [assAt, List.getElem?_eq_getElem hk]

/-- The same cyclic argument as for goals. -/
theorem ass_cycle (g : Game I O) (p : Nat → Pos I O) (k : Nat → Nat) (hk : ∀ n, k n < g.assumptions.length)
    (hno : ∀ n, ¬ assAt g (k n) (p n) (p (n + 1)) → k (n + 1) = k n)
    (hyes : ∀ n, assAt g (k n) (p n) (p (n + 1)) → k (n + 1) = (k n + 1) % g.assumptions.length)
    (hinf : ∀ n, ∃ m ≥ n, assAt g (k m) (p m) (p (m + 1))) :
    ∀ A ∈ g.assumptions, InfOften A p := by
  let g' : Game I O := { g with guarantees := g.assumptions }
  refine goals_cycle g' p k hk (fun n => ⟨hno n, fun hy => ⟨1, le_refl _, by have := hk n; show 1 ≤ g.assumptions.length; omega,
    hyes n hy, ?_⟩⟩) hinf
  intro l hl
  have : l = 0 := by omega
  subst this
  rw [Nat.add_zero, Nat.mod_eq_of_lt (hk n)]
  exact hy

theorem env_wins [Finite I] [Finite O] (g : Game I O) (hg : g.assumptions ≠ []) {s : Pos I O} (hs : s ∉ nuZ g) :
    g.EnvWinning (envStrat g s.1) s := by
  classical
  have hlt := assIdx_lt g hg
  have hmove : ∀ cur h, cur ∉ nuZ g → GoodMove g (assAt g (assIdx g (cur :: h))) cur (envStrat g s.1 (cur :: h)) := by
    intro cur h hcur
    have hex : ∃ i, GoodMove g (assAt g (assIdx g (cur :: h))) cur i := by
      rw [assAt_eq g (hlt _)]
      exact exists_goodMove g (List.getElem_mem _) hcur
    simp only [envStrat, hex, dif_pos]
    exact hex.choose_spec
  have hinv : ∀ h, g.EnvHist (envStrat g s.1) s h → ∀ cur h', h = cur :: h' → cur ∉ nuZ g := by
    intro h hh
    induction hh with
    | start => rintro cur h' ⟨⟩; exact hs
    | step hh hi ih =>
      rintro cur h' ⟨⟩
      exact ((hmove _ _ (ih _ _ rfl)).2 _ hi).1
  constructor
  · intro cur h hh
    exact (hmove cur h (hinv _ hh _ _ rfl)).1
  · intro p hp hlive
    have hpre : ∀ n, ∃ h, prefixHist p n = p n :: h := fun n => by cases n <;> exact ⟨_, rfl⟩
    have hZ : ∀ n, p n ∉ nuZ g := fun n => by
      obtain ⟨h, hh⟩ := hpre n
      exact hinv _ (hp n) _ _ hh
    let k : Nat → Nat := fun n => assIdx g (prefixHist p n)
    have hsucc : ∀ n, GoodMove g (assAt g (k n)) (p n) (p (n + 1)).1 ∧ g.safetySys (p n) (p (n + 1)) := by
      intro n
      obtain ⟨h, hh⟩ := hpre n
      have := hp (n + 1)
      rw [prefixHist, hh] at this
      have hm := hmove (p n) h (hZ n)
      rw [show k n = assIdx g (p n :: h) by simp only [k]; rw [hh]]
      generalize hq : p (n + 1) = q at this
      cases this with
      | step _ hi => exact ⟨hm, hi⟩
    have hgood : ∀ n, rnd g (p (n + 1)) ≤ rnd g (p n) ∧
        (rnd g (p (n + 1)) = rnd g (p n) → badGoal g (p (n + 1)) ≤ badGoal g (p n) ∧
          ¬ goalAt g (badGoal g (p n)) (p n) (p (n + 1)) ∧
          (badGoal g (p (n + 1)) = badGoal g (p n) → assAt g (k n) (p n) (p (n + 1)) ∨
            ∀ G, g.guarantees[badGoal g (p n)]? = some G →
              steps g (rnd g (p n)) G (assAt g (k n)) (p (n + 1)) <
                steps g (rnd g (p n)) G (assAt g (k n)) (p n))) :=
      fun n => ((hsucc n).1.2 (p (n + 1)).2 (hsucc n).2).2
    obtain ⟨N, _, hN⟩ := eventually_const (fun n => rnd g (p n)) 0 (fun n _ => (hgood n).1)
    obtain ⟨M, hM, hconst⟩ := eventually_const (fun n => badGoal g (p n)) N
      (fun n hn => ((hgood n).2 (by rw [hN n hn, hN (n + 1) (by omega)])).1)
    have hr : ∀ n ≥ M, rnd g (p n) = rnd g (p M) := fun n hn => by rw [hN n (by omega), hN M hM]
    obtain ⟨G, hG, _⟩ := badGoal_spec g (hZ M)
    have hfact : ∀ n ≥ M, ¬ G (p n) (p (n + 1)) ∧ (assAt g (k n) (p n) (p (n + 1)) ∨
        steps g (rnd g (p M)) G (assAt g (k n)) (p (n + 1)) < steps g (rnd g (p M)) G (assAt g (k n)) (p n)) := by
      intro n hn
      have h := (hgood n).2 (by rw [hr n hn, hr (n + 1) (by omega)])
      have h1 : badGoal g (p n) = badGoal g (p M) := hconst n hn
      have h2 : badGoal g (p (n + 1)) = badGoal g (p M) := hconst (n + 1) (by omega)
      refine ⟨fun hst => h.2.1 ⟨G, by rw [h1]; exact hG, hst⟩, ?_⟩
      rcases h.2.2 (by rw [h1, h2]) with h | h
      · exact .inl h
      · right
        have := h G (by rw [h1]; exact hG)
        rwa [hr n hn] at this
    have hknext : ∀ n, k (n + 1) = if assAt g (k n) (p n) (p (n + 1)) then (k n + 1) % g.assumptions.length else k n := by
      intro n
      obtain ⟨h, hh⟩ := hpre n
      simp only [k]
      rw [prefixHist, hh, assIdx]
    have hass : ∀ A ∈ g.assumptions, InfOften A p := by
      refine ass_cycle g p k (fun n => hlt _) (fun n hn => by rw [hknext, if_neg hn])
        (fun n hn => by rw [hknext, if_pos hn]) ?_
      by_contra hnot
      push Not at hnot
      obtain ⟨L, hL⟩ := hnot
      -- from then on, the assumption index is constant and the number of steps decreases forever
      have hkc : ∀ n ≥ max L M, k n = k (max L M) := by
        intro n hn
        induction n, hn using Nat.le_induction with
        | base => rfl
        | succ n hn ih => rw [hknext, if_neg (hL n (by omega)), ih]
      have hdec : ∀ n, steps g (rnd g (p M)) G (assAt g (k (max L M))) (p (max L M + n)) + n ≤
          steps g (rnd g (p M)) G (assAt g (k (max L M))) (p (max L M)) := by
        intro n
        induction n with
        | zero => exact le_refl _
        | succ n ih =>
          have h1 := (hfact (max L M + n) (by omega)).2.resolve_left (hL _ (by omega))
          rw [hkc (max L M + n) (by omega)] at h1
          rw [show max L M + (n + 1) = max L M + n + 1 by omega]
          omega
      have := hdec (steps g (rnd g (p M)) G (assAt g (k (max L M))) (p (max L M)) + 1)
      omega
    obtain ⟨n, hn, hGn⟩ := hlive hass G (List.mem_of_getElem? hG) M
    exact (hfact n hn).1 hGn

end Slugs.Model
