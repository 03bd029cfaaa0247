import Verif.Lemmas.InteractiveExec
import Verif.Lemmas.CounterSpec

/-! The environment's positional strategies in the interactive shell. -/

namespace Slugs.Model

open Slugs.Spec Slugs.Props

section
variable {I O : Type}

/-- The entries for assumption `i`. -/
def entriesI {B : Type} (dump : CDump B) (i : Nat) : List B := (dump.filter fun e => e.1 == i).map fun e => e.2.2

theorem entriesI_flatten {B : Type} (rounds : List (CDump B)) (i : Nat) :
    entriesI rounds.flatten i = (rounds.map fun D => entriesI D i).flatten := by
  induction rounds with
  | nil => rfl
  | cons D rounds ih => simp only [List.flatten_cons, List.map_cons, ← ih]; simp [entriesI]

/-- A list that is sorted by a number consists of the parts with the same number. -/
theorem sorted_parts {α : Type} (f : α → Nat) (l : List α) (hs : l.Pairwise fun a b => f a ≤ f b) (n : Nat) (hn : ∀ a ∈ l, f a < n) :
    l = ((List.range n).map fun j => l.filter fun a => f a == j).flatten := by
  induction n generalizing l with
  | zero => cases l with
    | nil => rfl
    | cons a l => exact absurd (hn a (by simp)) (by omega)
  | succ n ih =>
    have hsplit : ∀ l : List α, l.Pairwise (fun a b => f a ≤ f b) → (∀ a ∈ l, f a < n + 1) →
        l = l.filter (fun a => decide (f a < n)) ++ l.filter (fun a => f a == n) := by
      intro l hs hn
      induction l with
      | nil => rfl
      | cons a l ih =>
        rw [List.pairwise_cons] at hs
        by_cases ha : f a < n
        · rw [List.filter_cons, if_pos (by simpa using ha), List.filter_cons, if_neg (by simp; omega), List.cons_append,
            ← ih hs.2 fun b hb => hn b (by simp [hb])]
        · have ha' : f a = n := by have := hn a (by simp); omega
          have hall : ∀ b ∈ l, f b = n := fun b hb => by
            have := hs.1 b hb; have := hn b (by simp [hb]); omega
          rw [List.filter_cons, if_neg (by simpa using ha), List.filter_cons, if_pos (by simpa using ha'),
            List.filter_eq_nil_iff.mpr (fun b hb => by simp [hall b hb]), List.filter_eq_self.mpr (fun b hb => by simp [hall b hb])]
          rfl
    have h1 := ih (l.filter fun a => decide (f a < n)) (hs.filter _) (fun a ha => by simpa using (List.mem_filter.mp ha).2)
    rw [List.range_succ, List.map_append, List.flatten_append, List.map_singleton, List.flatten_singleton]
    conv_lhs => rw [hsplit l hs hn, h1]
    congr 2
    refine List.map_congr_left fun j hj => ?_
    rw [List.filter_filter]
    refine List.filter_congr fun a _ => ?_
    have := List.mem_range.mp hj
    by_cases he : f a = j
    · simp [he, this]
    · simp [he]

theorem entriesI_round {g : Game I O} {Z : Set (Pos I O)} {D : CDump (T I O)} (h : RoundOK g Z D) (i : Nat) :
    entriesI D i = ((List.range g.guarantees.length).map fun j => entriesC D i j).flatten := by
  have := sorted_parts (fun e : Nat × Nat × T I O => e.2.1) (D.filter fun e => e.1 == i) (h.sorted.filter _) g.guarantees.length
    (fun a ha => (h.range a (List.mem_filter.mp ha).1).2)
  rw [entriesI, this, List.map_flatten, List.map_map]
  congr 1
  refine List.map_congr_left fun j _ => ?_
  simp only [Function.comp, entriesC, List.filter_filter]
  congr 1
  refine List.filter_congr fun a _ => ?_
  rw [Bool.and_comm]

theorem envPositional_fold (ds : List (T I O)) (h : ∀ d ∈ ds, ∀ s i o o', d s (i, o) → d s (i, o')) :
    ds.foldl (envPositionalStep (semMgr I O)) ((semMgr I O).ff, (semMgr I O).ff) = (pre (CovE ds), stratE ds) := by
  induction ds using List.reverseRecOn with
  | nil =>
    refine Prod.ext ?_ ?_
    · funext s t
      rw [eq_iff_iff]
      exact iff_of_false (by simp [semMgr]) fun ⟨d, hd, _⟩ => by simp at hd
    · funext s t
      rw [eq_iff_iff]
      refine iff_of_false (by simp [semMgr]) ?_
      rintro ⟨m, d, hd, _⟩
      simp at hd
  | append_singleton ds d ih =>
    have hd : (semMgr I O).allPostOutput d = d := by
      funext s t
      rw [eq_iff_iff]
      exact ⟨fun hd => hd t.2, fun hd o => h d (by simp) s t.1 t.2 o hd⟩
    rw [List.foldl_append, ih fun d' hd' => h d' (List.mem_append_left _ hd')]
    simp only [List.foldl_cons, List.foldl_nil, envPositionalStep, hd]
    refine Prod.ext ?_ ?_
    · funext s t
      rw [eq_iff_iff]
      simp only [semMgr, pre, CovE, Set.mem_ofPred_eq, List.mem_append, List.mem_singleton]
      constructor
      · rintro (⟨d', h1, h2⟩ | ⟨h1, _⟩)
        · exact ⟨d', .inl h1, h2⟩
        · exact ⟨d, .inr rfl, h1⟩
      · rintro ⟨d', h1 | rfl, h2⟩
        · exact .inl ⟨d', h1, h2⟩
        · by_cases hc : ∃ d'' ∈ ds, ∃ t, d'' s t
          · exact .inl hc
          · exact .inr ⟨h2, hc⟩
    · funext s t
      dsimp only
      rw [stratE_append, stratE_single, eq_iff_iff]
      simp only [semMgr, pre]
      refine or_congr Iff.rfl ?_
      constructor
      · rintro ⟨⟨_, h2⟩, h3⟩; exact ⟨h3, h2⟩
      · rintro ⟨h3, h2⟩; exact ⟨⟨⟨t, h3⟩, h2⟩, h3⟩

theorem Rounds.indepI {g : Game I O} {rounds : List (CDump (T I O))} (h : Rounds g rounds) (i : Nat) :
    ∀ d ∈ entriesI rounds.flatten i, ∀ s x o o', d s (x, o) → d s (x, o') := by
  intro d hd
  simp only [entriesI, List.mem_map, List.mem_filter, beq_iff_eq] at hd
  obtain ⟨e, ⟨he, hi⟩, rfl⟩ := hd
  refine h.indep i e.2.1 _ ?_
  simp only [entriesC, List.mem_map, List.mem_filter, Bool.and_eq_true, beq_iff_eq]
  exact ⟨e, ⟨he, hi, rfl⟩, rfl⟩

theorem envPositional_eq {g : Game I O} {rounds : List (CDump (T I O))} (h : Rounds g rounds) (i : Nat) :
    envPositional (semMgr I O) rounds.flatten i = stratE (entriesI rounds.flatten i) :=
  congrArg Prod.snd (envPositional_fold _ (h.indepI i))

theorem Rounds.coverI {g : Game I O} {rounds : List (CDump (T I O))} (h : Rounds g rounds) {m : Nat} {D : CDump (T I O)} (hm : rounds[m]? = some D)
    {i j : Nat} (hj : j < g.guarantees.length) {s : Pos I O} (hs : s ∈ CovE (entriesC D i j)) : s ∈ CovE (entriesI D i) := by
  refine CovE_mono (fun d hd => ?_) hs
  rw [entriesI_round (h.ok m D hm), List.mem_flatten]
  exact ⟨_, List.mem_map.mpr ⟨j, List.mem_range.mpr hj, rfl⟩, hd⟩

/-- What a move of the environment achieves. -/
theorem Rounds.moveI {g : Game I O} {rounds : List (CDump (T I O))} (h : Rounds g rounds) {i : Nat} {A : T I O} (hA : g.assumptions[i]? = some A)
    {s t : Pos I O} (hst : stratE (entriesI rounds.flatten i) s t) :
    ∃ (m : Nat) (D : CDump (T I O)) (j : Nat) (G : T I O), rounds[m]? = some D ∧ g.guarantees[j]? = some G ∧
      (∀ m' j' (D' : CDump (T I O)), rounds[m']? = some D' → j' < g.guarantees.length → s ∈ CovE (entriesC D' i j') →
        m < m' ∨ (m = m' ∧ j ≤ j')) ∧
      ∃ q : Nat, s ∉ CovE ((entriesC D i j).take q) ∧ g.safetyEnv s t.1 ∧ ∀ o, g.safetySys s (t.1, o) →
        ¬ (G s (t.1, o) ∧ (t.1, o) ∈ Zseq g m) ∧ (t.1, o) ∉ muY g G (Zseq g m) ∧ (A s (t.1, o) ∨ (t.1, o) ∈ CovE ((entriesC D i j).take q)) := by
  rw [entriesI_flatten] at hst
  obtain ⟨m, l, h1, h2, h3⟩ := stratE_flatten hst
  rw [List.getElem?_map] at h1
  cases hm : rounds[m]? with
  | none => rw [hm] at h1; cases h1
  | some D =>
    rw [hm] at h1
    cases h1
    dsimp only at h2
    rw [entriesI_round (h.ok m D hm)] at h2
    obtain ⟨j, l, h4, ⟨q, d, hq, hd, hc⟩, h5⟩ := stratE_flatten h2
    rw [List.getElem?_map] at h4
    by_cases hj : j < g.guarantees.length
    · rw [List.getElem?_range hj] at h4
      cases h4
      dsimp only at hq hc
      have hG := List.getElem?_eq_getElem hj
      refine ⟨m, D, j, _, hm, hG, ?_, q, hc, ?_⟩
      · intro m' j' D' hD' hj' hcov
        by_contra hno
        rcases Nat.lt_trichotomy m m' with hlt | rfl | hgt
        · exact hno (.inl hlt)
        · rw [hm] at hD'
          cases hD'
          exact h5 j' (by by_contra hge; exact hno (.inr ⟨rfl, by omega⟩)) _ (by rw [List.getElem?_map, List.getElem?_range hj']; rfl) hcov
        · exact h3 m' hgt _ (by rw [List.getElem?_map, hD']; rfl) (h.coverI hD' hj' hcov)
      · obtain ⟨h6, h7⟩ := ((h.ok m D hm).lists i A j _ hA hG).step q d hq s t hd
        refine ⟨h6, fun o ho => ?_⟩
        obtain ⟨h8, h9⟩ := h7 o ho
        exact ⟨fun hh => h8 (.inl hh), fun hh => h8 (.inr hh), h9⟩
    · rw [List.getElem?_eq_none (by simpa using hj)] at h4
      cases h4

theorem Rounds.totalI {g : Game I O} {rounds : List (CDump (T I O))} (h : Rounds g rounds) {i : Nat} (hi : i < g.assumptions.length)
    {s : Pos I O} (hs : s ∉ nuZ g) : ∃ t, stratE (entriesI rounds.flatten i) s t := by
  obtain ⟨n, hn, hz⟩ := h.last
  have hz' : FZ g (Zseq g n) = nuZ g := by rw [hz]; exact (FZ g).map_gfp
  rw [← hz'] at hs
  have : ∃ G ∈ g.guarantees, s ∉ muY g G (Zseq g n) := by
    by_contra hno
    exact hs fun G hG => by_contra fun hh => hno ⟨G, hG, hh⟩
  obtain ⟨G, hG, hno⟩ := this
  obtain ⟨j, hj, hjG⟩ := List.getElem_of_mem hG
  rw [stratE_exists, entriesI_flatten]
  have hlast : rounds[n]? = some rounds[n] := List.getElem?_eq_getElem (by omega)
  refine CovE_mono (fun d hd => ?_) (h.coverI hlast hj (h.cover hlast hi (by rw [List.getElem?_eq_getElem hj, hjG]) hno))
  rw [List.mem_flatten]
  exact ⟨_, List.mem_map.mpr ⟨_, List.mem_of_getElem? hlast, rfl⟩, hd⟩

theorem lex_le {m m' j j' n : Nat} (hj : j < n) (h : m < m' ∨ (m = m' ∧ j ≤ j')) : m * n + j ≤ m' * n + j' := by
  rcases h with h | ⟨rfl, h⟩
  · have : (m + 1) * n ≤ m' * n := Nat.mul_le_mul_right _ h
    rw [Nat.add_mul] at this
    omega
  · omega

/-- The moves of the environment make the system violate the liveness objective, although the strategies do not depend on the number of
a guarantee. -/
theorem Rounds.liveI {g : Game I O} {rounds : List (CDump (T I O))} (hr : Rounds g rounds)
    (p : Nat → Pos I O) (i : Nat → Nat) (hi : ∀ n, i n < g.assumptions.length)
    (hst : ∀ n, stratE (entriesI rounds.flatten (i n)) (p n) (p (n + 1))) (hs : ∀ n, g.safetySys (p n) (p (n + 1)))
    (hstep : ∀ n, GoalStep (assGame g) (p n) (p (n + 1)) (i n) (i (n + 1))) : ¬ g.Live p := by
  classical
  have hmv := fun n => hr.moveI (List.getElem?_eq_getElem (hi n)) (hst n)
  choose m D j G hD hG hmin q hqn _ hstp using hmv
  have hj : ∀ n, j n < g.guarantees.length := fun n => (List.getElem?_eq_some_iff.mp (hG n)).1
  have hstp := fun n => hstp n (p (n + 1)).2 (hs n)
  -- the numbers of the round and of the guarantee do not increase, and decrease when the guarantee is satisfied
  have hle : ∀ n m' j' D', rounds[m']? = some D' → j' < g.guarantees.length → p n ∈ CovE (entriesC D' (i n) j') →
      m n * g.guarantees.length + j n ≤ m' * g.guarantees.length + j' := fun n m' j' D' h1 h2 h3 =>
    lex_le (hj n) (hmin n m' j' D' h1 h2 h3)
  have hdec : ∀ n, m (n + 1) * g.guarantees.length + j (n + 1) ≤ m n * g.guarantees.length + j n := fun n =>
    hle (n + 1) (m n) (j n) (D n) (hD n) (hj n) (hr.cover (hD n) (hi _) (hG n) (hstp n).2.1)
  have hlt : ∀ n, G n (p n) (p (n + 1)) → m (n + 1) * g.guarantees.length + j (n + 1) < m n * g.guarantees.length + j n := by
    intro n hg
    have hz : p (n + 1) ∉ Zseq g (m n) := fun h => (hstp n).1 ⟨hg, h⟩
    cases hmn : m n with
    | zero => rw [hmn] at hz; exact absurd (Set.mem_univ _) hz
    | succ m' =>
      rw [hmn, Zseq_succ] at hz
      have : ∃ G ∈ g.guarantees, p (n + 1) ∉ muY g G (Zseq g m') := by
        by_contra hno
        exact hz fun G hG => by_contra fun hh => hno ⟨G, hG, hh⟩
      obtain ⟨G', hG', hz'⟩ := this
      obtain ⟨j', hj', hjG⟩ := List.getElem_of_mem hG'
      have hm' : m' < rounds.length := by
        by_contra hlt
        have := hD n
        rw [hmn, List.getElem?_eq_none (by omega)] at this
        cases this
      have := hle (n + 1) m' j' _ (List.getElem?_eq_getElem hm') hj'
        (hr.cover (List.getElem?_eq_getElem hm') (hi _) (by rw [List.getElem?_eq_getElem hj', hjG]) hz')
      rw [Nat.add_mul]
      omega
  obtain ⟨N, _, hN⟩ := eventually_const (fun n => m n * g.guarantees.length + j n) 0 fun n _ => hdec n
  have hjN : ∀ n ≥ N, j n = j N := by
    intro n hn
    have h1 := hN n hn
    have h2 : (m n * g.guarantees.length + j n) % g.guarantees.length = j n := by
      rw [Nat.add_comm, Nat.add_mul_mod_self_right, Nat.mod_eq_of_lt (hj n)]
    have h3 : (m N * g.guarantees.length + j N) % g.guarantees.length = j N := by
      rw [Nat.add_comm, Nat.add_mul_mod_self_right, Nat.mod_eq_of_lt (hj N)]
    rw [← h2, h1, h3]
  have hmN : ∀ n ≥ N, m n = m N := by
    intro n hn
    have h1 := hN n hn
    rw [hjN n hn] at h1
    exact Nat.eq_of_mul_eq_mul_right (by have := hj N; omega) (by omega : m n * g.guarantees.length = m N * g.guarantees.length)
  intro hlive
  -- the assumptions hold infinitely often
  have hass : ∀ A ∈ g.assumptions, InfOften A p := by
    refine goals_cycle (assGame g) p i hi hstep ?_
    by_contra hnot
    push Not at hnot
    obtain ⟨M, hM⟩ := hnot
    have hic : ∀ n ≥ M, i n = i M := by
      intro n hn
      induction n, hn using Nat.le_induction with
      | base => rfl
      | succ n hn ih => rw [(hstep n).1 (hM n hn), ih]
    have hDc : ∀ n ≥ max M N, D n = D (max M N) := by
      intro n hn
      have h1 := hD n
      have h2 := hD (max M N)
      rw [hmN n (by omega)] at h1
      rw [hmN (max M N) (by omega), h1] at h2
      exact Option.some.inj h2
    have hqd : ∀ n ≥ max M N, q (n + 1) < q n := by
      intro n hn
      rcases (hstp n).2.2 with h | h
      · exact absurd ⟨_, List.getElem?_eq_getElem (hi n), h⟩ (hM n (by omega))
      · have h1 := hqn (n + 1)
        rw [hDc (n + 1) (by omega), hic (n + 1) (by omega), hjN (n + 1) (by omega)] at h1
        rw [hDc n hn, hic n (by omega), hjN n (by omega)] at h
        by_contra hge
        refine h1 (CovE_mono (fun d hd => ?_) h)
        exact (List.take_subset_take_left _ (by omega)) hd
    obtain ⟨K, hK, hKc⟩ := eventually_const q (max M N) fun n hn => (hqd n hn).le
    have h1 := hqd K hK
    have h2 := hKc (K + 1) (by omega)
    omega
  have hGN : ∀ n ≥ N, G n = G N := by
    intro n hn
    have h1 := hG n
    rw [hjN n hn, hG N] at h1
    exact (Option.some.inj h1).symm
  obtain ⟨n, hn, hgn⟩ := hlive hass (G N) (List.mem_of_getElem? (hG N)) N
  rw [← hGN n hn] at hgn
  have h1 := hlt n hgn
  have h2 := hN n hn
  have h3 := hN (n + 1) (by omega)
  omega

end

variable {sp : SpecFile}

theorem advanceEnv_of_step {s t : Pos sp.In sp.Out} {j j' : Nat} (hj : j < sp.hopes) :
    GoalStep (assGame (padGame sp.game)) s t j j' ↔ AdvanceEnv sp s t j j' := by
  have hpos : 0 < sp.hopes := by omega
  have hl : (assGame (padGame sp.game)).guarantees.length = sp.hopes := hopes_padGame sp
  have ha : ∀ j < sp.hopes, goalAt (assGame (padGame sp.game)) j s t ↔ sp.Fulfils j s t := fun j hj => hopeAt_padGame sp hj s t
  rw [GoalStep, AdvanceEnv, ha j hj, hl]
  refine and_congr Iff.rfl (imp_congr Iff.rfl (exists_congr fun k => and_congr Iff.rfl (and_congr Iff.rfl (and_congr Iff.rfl ?_))))
  exact forall_congr' fun l => imp_congr Iff.rfl (ha _ (Nat.mod_lt _ hpos))

/-- The strategies from the rounds of the computation. -/
theorem rounds_moves {rounds : List (CDump (T sp.In sp.Out))} (hr : Rounds (padGame sp.game) rounds)
    (hZ : ∀ s, s ∈ nuZ (padGame sp.game) ↔ sp.game.SysWins s) :
    EnvironmentMoves sp fun i => stratE (entriesI rounds.flatten i) where
  safe i hi s t h := by
    rw [← hopes_padGame] at hi
    obtain ⟨m, D, j, G, _, hG, _, q, _, h1, h2⟩ := hr.moveI (List.getElem?_eq_getElem hi) h
    refine ⟨h1, fun o ho hw => (h2 o ho).2.1 (nuZ_sub_muY_round _ (List.mem_of_getElem? hG) m ((hZ _).mpr hw))⟩
  blind i _ s x o o' h := stratE_indep (hr.indepI i) o' h
  total i hi s hs := by
    rw [← hopes_padGame] at hi
    exact hr.totalI hi fun h => hs ((hZ s).mp h)
  live p i hi h := by
    rw [← padGame_live]
    refine hr.liveI p i (fun n => by rw [hopes_padGame]; exact hi n) (fun n => (h n).1) (fun n => (h n).2.1) fun n => ?_
    exact (advanceEnv_of_step (hi n)).mpr (h n).2.2

end Slugs.Model
