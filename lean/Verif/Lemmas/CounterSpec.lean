import Verif.Lemmas.CounterMain

/-! What the extraction of explicit counterstrategies yields, in terms of the game. -/

namespace Slugs.Model

open Slugs.Spec

variable {I O : Type}

theorem entriesC_flatten {B : Type} (rounds : List (CDump B)) (i j : Nat) :
    entriesC rounds.flatten i j = (rounds.map fun D => entriesC D i j).flatten := by
  induction rounds with
  | nil => rfl
  | cons D rounds ih => rw [List.flatten_cons, entriesC_append, ih, List.map_cons, List.flatten_cons]

/-- The rounds of the outermost loop. -/
structure Rounds (g : Game I O) (rounds : List (CDump (T I O))) : Prop where
  ok : ∀ m D, rounds[m]? = some D → RoundOK g (Zseq g m) D
  last : ∃ n, rounds.length = n + 1 ∧ Zseq g n = nuZ g

namespace Rounds

variable {g : Game I O} {rounds : List (CDump (T I O))}

theorem indep (h : Rounds g rounds) (i j : Nat) :
    ∀ d ∈ entriesC rounds.flatten i j, ∀ s x o o', d s (x, o) → d s (x, o') := by
  intro d hd
  simp only [entriesC, List.mem_map, List.mem_filter, List.mem_flatten, Bool.and_eq_true, beq_iff_eq] at hd
  obtain ⟨e, ⟨⟨D, hD, he⟩, hi, hj⟩, rfl⟩ := hd
  obtain ⟨m, hm, hmD⟩ := List.getElem_of_mem hD
  have hr := h.ok m D (by rw [List.getElem?_eq_getElem hm, hmD])
  have h1 := (hr.range e he).1
  have h2 := (hr.range e he).2
  refine (hr.lists e.1 _ e.2.1 _ (List.getElem?_eq_getElem h1) (List.getElem?_eq_getElem h2)).indep _ ?_
  simp only [entriesC, List.mem_map, List.mem_filter, Bool.and_eq_true, beq_iff_eq]
  exact ⟨e, ⟨he, rfl, rfl⟩, rfl⟩

/-- A position outside of the middle fixed point of a round is covered in this round, for every assumption. -/
theorem cover (h : Rounds g rounds) {m : Nat} {D : CDump (T I O)} (hm : rounds[m]? = some D) {i j : Nat} (hi : i < g.assumptions.length)
    {G : T I O} (hG : g.guarantees[j]? = some G) {s : Pos I O} (hs : s ∉ muY g G (Zseq g m)) : s ∈ CovE (entriesC D i j) := by
  refine ((h.ok m D hm).lists i _ j G (List.getElem?_eq_getElem hi) hG).covers fun hx => hs ?_
  exact nuX_sub_muY g G _ _ (List.getElem_mem hi) hx

theorem cover_flatten {m : Nat} {D : CDump (T I O)} (hm : rounds[m]? = some D) {i j : Nat} {s : Pos I O}
    (h : s ∈ CovE (entriesC D i j)) : s ∈ CovE (entriesC rounds.flatten i j) := by
  refine CovE_mono (fun d hd => ?_) h
  rw [entriesC_flatten, List.mem_flatten]
  exact ⟨_, List.mem_map.mpr ⟨D, List.mem_of_getElem? hm, rfl⟩, hd⟩

/-- What a move of the counterstrategy achieves. -/
theorem move (h : Rounds g rounds) {i j : Nat} {A G : T I O} (hA : g.assumptions[i]? = some A) (hG : g.guarantees[j]? = some G)
    {s t : Pos I O} (hst : stratE (entriesC rounds.flatten i j) s t) :
    ∃ (m : Nat) (D : CDump (T I O)), rounds[m]? = some D ∧ (∀ m' < m, ∀ D' : CDump (T I O), rounds[m']? = some D' → s ∉ CovE (entriesC D' i j)) ∧
      ∃ q : Nat, q < (entriesC D i j).length ∧ s ∉ CovE ((entriesC D i j).take q) ∧ s ∈ CovE ((entriesC D i j).take (q + 1)) ∧ g.safetyEnv s t.1 ∧
        (g.safetySys s t → ¬ (G s t ∧ t ∈ Zseq g m) ∧ t ∉ muY g G (Zseq g m) ∧ (A s t ∨ t ∈ CovE ((entriesC D i j).take q))) := by
  rw [entriesC_flatten] at hst
  obtain ⟨m, l, h1, ⟨q, d, hq, hd, hc⟩, h3⟩ := stratE_flatten hst
  rw [List.getElem?_map] at h1
  cases hm : rounds[m]? with
  | none => rw [hm] at h1; cases h1
  | some D =>
    rw [hm] at h1
    cases h1
    dsimp only at hq hc
    obtain ⟨h4, h5⟩ := ((h.ok m D hm).lists i A j G hA hG).step q d hq s t hd
    refine ⟨m, D, hm, fun m' hm' D' hD' => h3 m' hm' _ (by rw [List.getElem?_map, hD']; rfl), q, ?_, hc, ?_, h4, fun hs => ?_⟩
    · by_contra hlt
      rw [List.getElem?_eq_none (by omega)] at hq; cases hq
    · refine ⟨d, ?_, t, hd⟩
      rw [List.take_add_one, hq]
      simp
    obtain ⟨h6, h7⟩ := h5 t.2 hs
    exact ⟨fun hh => h6 (.inl hh), fun hh => h6 (.inr hh), h7⟩

end Rounds

theorem nuZ_sub_muY_round (g : Game I O) {G : T I O} (hG : G ∈ g.guarantees) (m : Nat) : nuZ g ⊆ muY g G (Zseq g m) := by
  intro s hs
  have h1 : nuZ g = FZ g (nuZ g) := (FZ g).map_gfp.symm
  rw [h1] at hs
  exact muY_mono g G (nuZ_sub_Zseq g m) (hs G hG)

/-- The pairs of positions and ranks that are explored. -/
structure CInv (g : Game I O) (rounds : List (CDump (T I O))) (k : Pos I O × Rk) : Prop where
  rankA : k.2.1 < g.assumptions.length
  rankG : k.2.2 < g.guarantees.length
  win : k.1 ∉ nuZ g
  cov : k.1 ∈ CovE (entriesC rounds.flatten k.2.1 k.2.2)

theorem CInv.step {g : Game I O} {rounds : List (CDump (T I O))} (hr : Rounds g rounds) {k : Pos I O × Rk} (hk : CInv g rounds k)
    {t : Pos I O} (ht : stratE (entriesC rounds.flatten k.2.1 k.2.2) k.1 t) (hs : g.safetySys k.1 t) {r : Rk}
    (hG : GoalStep g k.1 t k.2.2 r.2) (h1 : r.1 < g.assumptions.length) (h2 : r.2 < g.guarantees.length) : CInv g rounds (t, r) := by
  obtain ⟨m, D, hm, _, q, _, _, _, _, hq⟩ := hr.move (List.getElem?_eq_getElem hk.rankA) (List.getElem?_eq_getElem hk.rankG) ht
  obtain ⟨h4, h5, _⟩ := hq hs
  refine ⟨h1, h2, fun hz => h5 (nuZ_sub_muY_round g (List.getElem_mem hk.rankG) m hz), ?_⟩
  refine Rounds.cover_flatten hm (hr.cover hm h1 (List.getElem?_eq_getElem h2) ?_)
  by_cases hg : goalAt g k.2.2 k.1 t
  · obtain ⟨G, hG', hst⟩ := hg
    rw [List.getElem?_eq_getElem hk.rankG] at hG'
    cases hG'
    exact fun hx => h4 ⟨hst, (Zseq_outer g m).muY_sub _ hx⟩
  · have := hG.1 hg
    simp only [this]
    exact h5

/-- What is printed. -/
structure CExtracted (g : Game I O) (vs : CVars (T I O)) (rounds : List (CDump (T I O))) (ks : List (CKey I O)) (dn : List (Pos I O × Rk))
    (l : List (CKey I O × CState)) : Prop where
  nodup : ks.Nodup
  out : OutOK g vs (fun i j => stratE (entriesC rounds.flatten i j)) ks dn [] l
  inv : ∀ k ∈ dn, CInv g rounds k
  start : ∀ s, s ∉ nuZ g → g.initEnv s.1 → g.initSys s → ∃ j, (s, (0, j)) ∈ dn

theorem extractCounterstrategy_spec [Finite I] [Finite O] [Nontrivial O] (g : Game I O) (ha : g.assumptions ≠ []) (hg : g.guarantees ≠ [])
    {vs : CVars (T I O)} (hv : CVarsOK vs) {rounds : List (CDump (T I O))} (hr : Rounds g rounds)
    (fuel : Nat) (hfuel : Nat.card (Pos I O) * (g.assumptions.length * g.guarantees.length) < fuel) :
    ∃ ks dn l, extractCounterstrategy (semMgr I O) (gameCtx g) vs fuel (pre (nuZ g)ᶜ) rounds.flatten = some (l.map Prod.snd) ∧
      CExtracted g vs rounds ks dn l := by
  classical
  have hpa : 0 < g.assumptions.length := List.length_pos_iff.mpr ha
  have hpg : 0 < g.guarantees.length := List.length_pos_iff.mpr hg
  have hfuel' : Nat.card (Pos I O) < fuel := lt_of_le_of_lt (Nat.le_mul_of_pos_right _ (Nat.mul_pos hpa hpg)) hfuel
  have e1 : (semMgr I O).and ((semMgr I O).and (pre (nuZ g)ᶜ) (gameCtx g).initEnv) (gameCtx g).initSys =
      pre {s | s ∉ nuZ g ∧ g.initEnv s.1 ∧ g.initSys s} := by
    funext s t
    simp only [semMgr, pre, gameCtx, Set.mem_compl_iff, Set.mem_ofPred_eq, and_assoc]
  have e2 : positionalC (semMgr I O) rounds.flatten = fun i j => stratE (entriesC rounds.flatten i j) := by
    funext i j
    exact positionalC_eq _ i j (hr.indep i j)
  rw [extractCounterstrategy]
  simp only [e1, e2]
  obtain ⟨ks, w, h1, h2, h3⟩ := initLoopC_spec hv g.guarantees.length (fun j => stratE (entriesC rounds.flatten 0 j)) fuel
    {s | s ∉ nuZ g ∧ g.initEnv s.1 ∧ g.initSys s} [] _ (lt_of_le_of_lt (Set.ncard_le_card _) hfuel') CWorkInv.nil (by simp)
  rw [show (gameCtx g).livenessGuarantees.length = g.guarantees.length from rfl, h1]
  simp only [List.nil_append] at h2
  have hinit : ∀ k ∈ ks, CInv g rounds k := by
    intro k hk
    obtain ⟨⟨h4, _⟩, h5⟩ := (h3 k).mp hk
    obtain ⟨n, hn, hz⟩ := hr.last
    have hz' : FZ g (Zseq g n) = nuZ g := by rw [hz]; exact (FZ g).map_gfp
    have hex : ∃ j < g.guarantees.length, ∃ t, stratE (entriesC rounds.flatten 0 j) k.1 t := by
      rw [← hz'] at h4
      have : ∃ G ∈ g.guarantees, k.1 ∉ muY g G (Zseq g n) := by
        by_contra hno
        exact h4 fun G hG => by_contra fun hh => hno ⟨G, hG, hh⟩
      obtain ⟨G, hG, hno⟩ := this
      obtain ⟨j, hj, hjG⟩ := List.getElem_of_mem hG
      refine ⟨j, hj, stratE_exists.mpr ?_⟩
      have hlast : rounds[n]? = some rounds[n] := List.getElem?_eq_getElem (by omega)
      exact Rounds.cover_flatten hlast (hr.cover hlast hpa (by rw [List.getElem?_eq_getElem hj, hjG]) hno)
    have hfg := firstGoal_spec hex
    refine ⟨by rw [h5]; exact hpa, by rw [h5]; exact hfg.1, h4, ?_⟩
    rw [← stratE_exists, h5]
    exact hfg.2
  obtain ⟨ks', dn, l, h4, h5, h6, h7⟩ := extractLoopC_spec g hv (fun i j => stratE (entriesC rounds.flatten i j))
    (fun i j s x o o' h => stratE_indep (hr.indep i j) o' h) (CInv g rounds)
    (fun k hk => ⟨hk.rankA, hk.rankG⟩) (fun k hk => stratE_exists.mpr hk.cov)
    (fun k hk t ht => by
      obtain ⟨m, D, _, _, q, _, _, _, h, _⟩ := hr.move (List.getElem?_eq_getElem hk.rankA) (List.getElem?_eq_getElem hk.rankG) ht
      exact h)
    (fun k hk t ht hs r _ hG' h1' h2' => hk.step hr ht hs hG' h1' h2') fuel hfuel' fuel (ks.map nk) [] ks w []
    (by simpa using hfuel) h2
    { perm := by simp
      nodup := by simpa using List.Nodup.of_map nk h2.nodup
      pos := by
        intro k
        simp only [List.mem_map, List.nil_append]
        exact ⟨fun ⟨k', hk', e⟩ => nk_inj e ▸ hk', fun h => ⟨k, h, rfl⟩⟩
      ok := by simp } (by simpa using hinit)
  refine ⟨ks.map nk ++ ks', dn, l, h4, h5, h6, h7, fun s hs hi hsys => ?_⟩
  have hk : (s, (0, firstGoal (semMgr I O) g.guarantees.length (fun j => stratE (entriesC rounds.flatten 0 j)) (pre {s}))) ∈ ks :=
    (h3 _).mpr ⟨⟨hs, hi, hsys⟩, rfl⟩
  refine ⟨firstGoal (semMgr I O) g.guarantees.length (fun j => stratE (entriesC rounds.flatten 0 j)) (pre {s}), ?_⟩
  have := (h6.pos _).mp (List.mem_append_left ks' (List.mem_map.mpr ⟨_, hk, rfl⟩))
  simpa using this

/-! ### Runs, for a single guarantee -/

theorem counter_live {g : Game I O} {rounds : List (CDump (T I O))} (hr : Rounds g rounds) {G : T I O} (hG : g.guarantees = [G])
    (p : Nat → Pos I O) (i : Nat → Nat) (hi : ∀ n, i n < g.assumptions.length)
    (hst : ∀ n, stratE (entriesC rounds.flatten (i n) 0) (p n) (p (n + 1))) (hs : ∀ n, g.safetySys (p n) (p (n + 1)))
    (hstep : ∀ n, GoalStep (assGame g) (p n) (p (n + 1)) (i n) (i (n + 1))) : ¬ g.Live p := by
  classical
  have hGj : g.guarantees[0]? = some G := by rw [hG]; rfl
  have hmv := fun n => hr.move (List.getElem?_eq_getElem (hi n)) hGj (hst n)
  choose m D hD hmin q hql hqn hqy _ hstp using hmv
  -- the number of the round does not increase, and decreases when the guarantee is satisfied
  have hle : ∀ n m' D', rounds[m']? = some D' → p n ∈ CovE (entriesC D' (i n) 0) → m n ≤ m' := by
    intro n m' D' hD' hc
    by_contra hlt
    exact hmin n m' (by omega) D' hD' hc
  have hdec : ∀ n, m (n + 1) ≤ m n := fun n =>
    hle (n + 1) (m n) (D n) (hD n) (hr.cover (hD n) (hi _) hGj (hstp n (hs n)).2.1)
  have hlt : ∀ n, G (p n) (p (n + 1)) → m (n + 1) < m n := by
    intro n hg
    have hz : p (n + 1) ∉ Zseq g (m n) := fun h => (hstp n (hs n)).1 ⟨hg, h⟩
    cases hmn : m n with
    | zero => rw [hmn] at hz; exact absurd (Set.mem_univ _) hz
    | succ m' =>
      rw [hmn, Zseq_succ] at hz
      have hz' : p (n + 1) ∉ muY g G (Zseq g m') := fun h => hz (by
        intro G' hG'
        rw [hG] at hG'
        simp only [List.mem_singleton] at hG'
        subst hG'
        exact h)
      have hm' : m' < rounds.length := by
        by_contra hlt
        have := hD n
        rw [hmn, List.getElem?_eq_none (by omega)] at this
        cases this
      have := hle (n + 1) m' _ (List.getElem?_eq_getElem hm') (hr.cover (List.getElem?_eq_getElem hm') (hi _) hGj hz')
      omega
  obtain ⟨N, _, hN⟩ := eventually_const m 0 fun n _ => hdec n
  intro hlive
  -- the assumptions hold infinitely often
  have hass : ∀ A ∈ g.assumptions, InfOften A p := by
    refine goals_cycle (assGame g) p i hi hstep ?_
    by_contra hnot
    push Not at hnot
    obtain ⟨M, hM⟩ := hnot
    have hic : ∀ n ≥ M, i n = i M := by
      intro n hn
      induction n, hn using Nat.le_induction with
      | base => rfl
      | succ n hn ih => rw [(hstep n).1 (hM n hn), ih]
    have hDc : ∀ n ≥ max M N, D n = D (max M N) := by
      intro n hn
      have h1 := hD n
      have h2 := hD (max M N)
      rw [hN n (by omega)] at h1
      rw [hN (max M N) (by omega), h1] at h2
      exact Option.some.inj h2
    have hqd : ∀ n ≥ max M N, q (n + 1) < q n := by
      intro n hn
      rcases (hstp n (hs n)).2.2 with h | h
      · exact absurd ⟨_, List.getElem?_eq_getElem (hi n), h⟩ (hM n (by omega))
      · have h1 := hqn (n + 1)
        rw [hDc (n + 1) (by omega), hic (n + 1) (by omega)] at h1
        rw [hDc n hn, hic n (by omega)] at h
        by_contra hge
        refine h1 (CovE_mono (fun d hd => ?_) h)
        exact (List.take_subset_take_left _ (by omega)) hd
    obtain ⟨K, hK, hKc⟩ := eventually_const q (max M N) fun n hn => (hqd n hn).le
    have h1 := hqd K hK
    have h2 := hKc (K + 1) (by omega)
    omega
  have hg := hlive hass G (by rw [hG]; exact List.mem_singleton.mpr rfl)
  obtain ⟨n, hn, hgn⟩ := hg N
  have h1 := hlt n hgn
  have h2 := hN n hn
  have h3 := hN (n + 1) (by omega)
  omega

end Slugs.Model
