import Verif.Lemmas.GR1

/-! Ranked lists for all goals give a winning strategy. -/

namespace Slugs.Model

open Slugs.Spec

variable {I O : Type}

theorem nuZ_fix (g : Game I O) : nuZ g = {s | ∀ G ∈ g.guarantees, s ∈ muY g G (nuZ g)} := (FZ g).map_gfp.symm

theorem nuZ_sub_muY (g : Game I O) {G : T I O} (hG : G ∈ g.guarantees) : nuZ g ⊆ muY g G (nuZ g) := by
  intro s hs
  rw [nuZ_fix] at hs
  exact hs G hG

/-- At the outermost fixed point all the middle fixed points coincide. -/
theorem muY_nuZ (g : Game I O) {G : T I O} (hG : G ∈ g.guarantees) : muY g G (nuZ g) = nuZ g := by
  refine Set.Subset.antisymm ?_ (nuZ_sub_muY g hG)
  intro s hs
  rw [nuZ_fix]
  intro G' hG'
  refine muY_le g G (Y := muY g G' (nuZ g)) ?_ hs
  intro A hA
  refine Set.Subset.trans ?_ (nuX_sub_muY g G' A (nuZ g) hA)
  apply le_nuX
  conv_lhs => rw [← nuX_fix]
  apply cox_mono
  rintro s t ⟨h | h | h, hs⟩
  · exact ⟨.inr (.inl (nuZ_sub_muY g hG' h.2)), hs⟩
  · exact ⟨.inr (.inl h), hs⟩
  · exact ⟨.inr (.inr h), hs⟩

/-- The transitions that the positional strategy built from a list of preferred transitions allows: the first
entry of the list that has a transition for the position and the next input is used. -/
def strat (ds : List (T I O)) : T I O := fun s t =>
  ∃ (m : Nat) (d : T I O), ds[m]? = some d ∧ d s t ∧ ∀ m' < m, ∀ d' : T I O, ds[m']? = some d' → ∀ o, ¬ d' s (t.1, o)


theorem strat_exists (g : Game I O) {ds : List (T I O)} {s : Pos I O} (hs : s ∈ Covered g ds) {i : I}
    (hi : g.safetyEnv s i) : ∃ o, strat ds s (i, o) := by
  classical
  obtain ⟨o, d, hd, hst⟩ := hs i hi
  obtain ⟨m, hm, hmd⟩ := List.getElem_of_mem hd
  have hex : ∃ (m : Nat) (d : T I O), ds[m]? = some d ∧ ∃ o, d s (i, o) := ⟨m, d, by rw [List.getElem?_eq_getElem hm, hmd], o, hst⟩
  obtain ⟨d', hd', o', ho'⟩ := Nat.find_spec hex
  refine ⟨o', _, d', hd', ho', ?_⟩
  intro m' hm' d'' hd'' o'' hst''
  exact Nat.find_min hex hm' ⟨d'', hd'', o'', hst''⟩

theorem strat_mem {ds : List (T I O)} {s t : Pos I O} (h : strat ds s t) : ∃ d ∈ ds, d s t := by
  obtain ⟨m, d, hd, hst, _⟩ := h
  exact ⟨d, List.mem_of_getElem? hd, hst⟩

theorem GoalList.stays {g : Game I O} {G : T I O} {Z : Set (Pos I O)} {ds : List (T I O)} (h : GoalList g G Z Z ds)
    {s t : Pos I O} (hst : ∃ d ∈ ds, d s t) : t ∈ Z := by
  obtain ⟨d, hd, hst⟩ := hst
  exact (h.target d hd s t hst).elim id id

theorem GoalList.safe {g : Game I O} {G : T I O} {Z Y : Set (Pos I O)} {ds : List (T I O)} (h : GoalList g G Z Y ds)
    {s t : Pos I O} (hst : ∃ d ∈ ds, d s t) : g.safetySys s t := by
  obtain ⟨d, hd, hst⟩ := hst
  obtain ⟨m, hm, hmd⟩ := List.getElem_of_mem hd
  obtain ⟨A, _, hr⟩ := h.ranked m d (by rw [List.getElem?_eq_getElem hm, hmd])
  exact (hr s t hst).1

/-- A transition of an entry of the list that is used in a position that the entries before do not cover. -/
def Used (g : Game I O) (ds : List (T I O)) : T I O := fun s t =>
  ∃ (m : Nat) (d : T I O), ds[m]? = some d ∧ d s t ∧ s ∉ Covered g (ds.take m)

theorem Used.mem {g : Game I O} {ds : List (T I O)} {s t : Pos I O} (h : Used g ds s t) : ∃ d ∈ ds, d s t := by
  obtain ⟨m, d, hd, hst, _⟩ := h
  exact ⟨d, List.mem_of_getElem? hd, hst⟩

theorem strat_used {g : Game I O} {ds : List (T I O)} {s t : Pos I O} (h : strat ds s t) (hi : g.safetyEnv s t.1) :
    Used g ds s t := by
  obtain ⟨m, d, hd, hst, hmin⟩ := h
  refine ⟨m, d, hd, hst, fun hc => ?_⟩
  obtain ⟨o, d', hd', ho⟩ := hc _ hi
  obtain ⟨m', hm', hmd⟩ := List.getElem_of_mem hd'
  rw [List.length_take] at hm'
  rw [List.getElem_take] at hmd
  exact hmin m' (by omega) d' (by rw [List.getElem?_eq_getElem (by omega), hmd]) o ho

/-- A non-increasing sequence of natural numbers is eventually constant. -/
theorem eventually_const (r : Nat → Nat) (N : Nat) (h : ∀ n ≥ N, r (n + 1) ≤ r n) : ∃ M ≥ N, ∀ n ≥ M, r n = r M := by
  classical
  have hex : ∃ v, ∃ n ≥ N, r n = v := ⟨_, N, le_refl _, rfl⟩
  obtain ⟨M, hM, hv⟩ := Nat.find_spec hex
  refine ⟨M, hM, ?_⟩
  intro n hn
  have hle : r n ≤ r M := by
    induction n, hn using Nat.le_induction with
    | base => exact le_refl _
    | succ n hn ih => exact (h n (le_trans hM hn)).trans ih
  have hge : Nat.find hex ≤ r n := Nat.find_min' hex ⟨n, le_trans hM hn, rfl⟩
  omega

/-- If the play follows the strategy for one goal from some time on, and the goal is never reached again,
then some assumption only holds finitely often. -/
theorem goal_reached (g : Game I O) {G : T I O} {Z : Set (Pos I O)} {ds : List (T I O)} (h : GoalList g G Z Z ds)
    (p : Nat → Pos I O) (N : Nat) (hN : p N ∈ Z)
    (hst : ∀ n ≥ N, Used g ds (p n) (p (n + 1)))
    (hG : ∀ n ≥ N, ¬ G (p n) (p (n + 1))) : ∃ A ∈ g.assumptions, ¬ InfOften A p := by
  classical
  have hZ : ∀ n ≥ N, p n ∈ Z := by
    intro n hn
    induction n, hn using Nat.le_induction with
    | base => exact hN
    | succ n hn _ => exact h.stays (hst n hn).mem
  have hcov : ∀ n, n ≥ N → ∃ k, p n ∈ Covered g (ds.take k) :=
    fun n hn => ⟨ds.length, by rw [List.take_length]; exact h.covers (hZ n hn)⟩
  let r : Nat → Nat := fun n => if hn : n ≥ N then Nat.find (hcov n hn) else 0
  have hr : ∀ n (hn : n ≥ N), p n ∈ Covered g (ds.take (r n)) := by
    intro n hn
    simp only [r, hn, dif_pos]
    exact Nat.find_spec (hcov n hn)
  have hr' : ∀ n, n ≥ N → ∀ k, p n ∈ Covered g (ds.take k) → r n ≤ k := by
    intro n hn k hk
    simp only [r, hn, dif_pos]
    exact Nat.find_min' (hcov n hn) hk
  have hidx : ∀ n ≥ N, ∃ m d, ds[m]? = some d ∧ d (p n) (p (n + 1)) ∧ m < r n := by
    intro n hn
    obtain ⟨m, d, hd, hdst, hnc⟩ := hst n hn
    refine ⟨m, d, hd, hdst, ?_⟩
    by_contra hge
    exact hnc (Covered_mono g (fun x hx => (List.take_sublist_take_left (Nat.le_of_not_lt hge)).subset hx) (hr n hn))
  have hmove : ∀ n ≥ N, ∃ m d A, ds[m]? = some d ∧ m < r n ∧ A ∈ g.assumptions ∧
      (∀ s t, d s t → g.safetySys s t ∧ ((G s t ∧ t ∈ Z) ∨ t ∈ Covered g (ds.take m) ∨
        (t ∈ Covered g (ds.take (m + 1)) ∧ ¬ A s t))) ∧ d (p n) (p (n + 1)) := by
    intro n hn
    obtain ⟨m, d, hd, hdst, hm⟩ := hidx n hn
    obtain ⟨A, hA, hAr⟩ := h.ranked m d hd
    exact ⟨m, d, A, hd, hm, hA, hAr, hdst⟩
  have hdec : ∀ n ≥ N, r (n + 1) ≤ r n := by
    intro n hn
    obtain ⟨m, d, A, hd, hm, hA, hAr, hdst⟩ := hmove n hn
    rcases (hAr _ _ hdst).2 with hc | hc | hc
    · exact absurd hc.1 (hG n hn)
    · have := hr' (n + 1) (by omega) m hc; omega
    · have := hr' (n + 1) (by omega) (m + 1) hc.1; omega
  obtain ⟨M, hM, hconst⟩ := eventually_const r N hdec
  obtain ⟨m0, d0, A0, hd0, hm0, hA0, hAr0, hdst0⟩ := hmove M hM
  refine ⟨A0, hA0, ?_⟩
  intro hinf
  obtain ⟨n, hn, hAn⟩ := hinf M
  have hm0r : m0 + 1 = r M := by
    rcases (hAr0 _ _ hdst0).2 with hc | hc | hc
    · exact absurd hc.1 (hG M hM)
    · have := hr' (M + 1) (by omega) m0 hc; have := hconst (M + 1) (by omega); omega
    · have := hr' (M + 1) (by omega) (m0 + 1) hc.1; have := hconst (M + 1) (by omega); omega
  obtain ⟨m, d, A, hd, hm, hA, hAr, hdst⟩ := hmove n (by omega)
  have hcn := hconst n hn
  have hcn1 := hconst (n + 1) (by omega)
  have hmr : m + 1 = r n := by
    rcases (hAr _ _ hdst).2 with hc | hc | hc
    · exact absurd hc.1 (hG n (by omega))
    · have := hr' (n + 1) (by omega) m hc; omega
    · have := hr' (n + 1) (by omega) (m + 1) hc.1; omega
  have hmm : m = m0 := by omega
  subst hmm
  rw [hd0] at hd
  cases hd
  rcases (hAr0 _ _ hdst).2 with hc | hc | hc
  · exact hG n (by omega) hc.1
  · have := hr' (n + 1) (by omega) m hc; omega
  · exact hc.2 hAn

/-- A list of preferred transitions for goal `G` that never leaves `Z`, obeys the safety guarantees, has an answer to every allowed input, and with
which the goal is reached again and again unless some assumption only holds finitely often. -/
structure GoodList (g : Game I O) (G : T I O) (Z : Set (Pos I O)) (ds : List (T I O)) : Prop where
  covers : Z ⊆ Covered g ds
  target : ∀ d ∈ ds, ∀ s t, d s t → t ∈ Z
  obeys : ∀ d ∈ ds, ∀ s t, d s t → g.safetySys s t
  reached : ∀ (p : Nat → Pos I O) (N : Nat), p N ∈ Z → (∀ n ≥ N, Used g ds (p n) (p (n + 1))) →
    (∀ n ≥ N, ¬ G (p n) (p (n + 1))) → ∃ A ∈ g.assumptions, ¬ InfOften A p

theorem GoalList.good {g : Game I O} {G : T I O} {Z : Set (Pos I O)} {ds : List (T I O)} (h : GoalList g G Z Z ds) :
    GoodList g G Z ds :=
  ⟨h.covers, fun d hd _ _ hst => h.stays ⟨d, hd, hst⟩, fun d hd _ _ hst => h.safe ⟨d, hd, hst⟩, goal_reached g h⟩

theorem GoodList.stays {g : Game I O} {G : T I O} {Z : Set (Pos I O)} {ds : List (T I O)} (h : GoodList g G Z ds)
    {s t : Pos I O} (hst : ∃ d ∈ ds, d s t) : t ∈ Z := let ⟨d, hd, hst⟩ := hst; h.target d hd s t hst

theorem GoodList.safe {g : Game I O} {G : T I O} {Z : Set (Pos I O)} {ds : List (T I O)} (h : GoodList g G Z ds)
    {s t : Pos I O} (hst : ∃ d ∈ ds, d s t) : g.safetySys s t := let ⟨d, hd, hst⟩ := hst; h.obeys d hd s t hst

/-- Lists for all goals that never leave `Z`. -/
def Family (g : Game I O) (Z : Set (Pos I O)) (lists : Nat → List (T I O)) : Prop :=
  ∀ k G, g.guarantees[k]? = some G → GoodList g G Z (lists k)

/-- The goal with number `j` is reached by a transition. -/
def goalAt (g : Game I O) (j : Nat) : T I O := fun s t => ∃ G, g.guarantees[j]? = some G ∧ G s t

/-- How the number of the current goal may evolve: it stays if the goal was not reached,
and otherwise moves on past a number of goals that were all reached by the same transition. -/
def GoalStep (g : Game I O) (s t : Pos I O) (j j' : Nat) : Prop :=
  (¬ goalAt g j s t → j' = j) ∧
  (goalAt g j s t → ∃ k, 1 ≤ k ∧ k ≤ g.guarantees.length ∧ j' = (j + k) % g.guarantees.length ∧
    ∀ l < k, goalAt g ((j + l) % g.guarantees.length) s t)

theorem dist_step {n b j k : Nat} (hj : j < n) (hb : b < n) (_hk : 1 ≤ k) (hkn : k ≤ n)
    (hl : ∀ l < k, (j + l) % n ≠ b) :
    (b + n - (j + k) % n) % n + k = (b + n - j) % n := by
  -- `d` is the cyclic distance from `j` to `b`
  have hd : ∃ d, d < n ∧ (j + d) % n = b ∧ (b + n - j) % n = d := by
    by_cases hjb : j ≤ b
    · refine ⟨b - j, by omega, ?_, ?_⟩
      · rw [show j + (b - j) = b by omega, Nat.mod_eq_of_lt hb]
      · rw [show b + n - j = (b - j) + n by omega, Nat.add_mod_right, Nat.mod_eq_of_lt (by omega)]
    · refine ⟨b + n - j, by omega, ?_, ?_⟩
      · rw [show j + (b + n - j) = b + n by omega, Nat.add_mod_right, Nat.mod_eq_of_lt hb]
      · rw [Nat.mod_eq_of_lt (by omega)]
  obtain ⟨d, hdn, hdb, hde⟩ := hd
  have hkd : k ≤ d := by
    by_contra h
    exact hl d (by omega) hdb
  rw [hde]
  by_cases hw : j + k < n
  · rw [Nat.mod_eq_of_lt hw]
    have : (b + n - (j + k)) % n = d - k := by
      by_cases hjd : j + d < n
      · rw [Nat.mod_eq_of_lt hjd] at hdb
        rw [show b + n - (j + k) = (d - k) + n by omega, Nat.add_mod_right, Nat.mod_eq_of_lt (by omega)]
      · rw [show j + d = (j + d - n) + n by omega, Nat.add_mod_right, Nat.mod_eq_of_lt (by omega)] at hdb
        rw [show b + n - (j + k) = d - k by omega, Nat.mod_eq_of_lt (by omega)]
    omega
  · rw [show j + k = (j + k - n) + n by omega, Nat.add_mod_right, Nat.mod_eq_of_lt (by omega : j + k - n < n)]
    have hjd : ¬ j + d < n := by omega
    rw [show j + d = (j + d - n) + n by omega, Nat.add_mod_right, Nat.mod_eq_of_lt (by omega)] at hdb
    rw [show b + n - (j + k - n) = (d - k) + n by omega, Nat.add_mod_right, Nat.mod_eq_of_lt (by omega)]
    omega

/-- If the current goal is reached infinitely often and the goal number moves on as described, all goals are
reached infinitely often. -/
theorem goals_cycle (g : Game I O) (p : Nat → Pos I O) (j : Nat → Nat)
    (hj : ∀ n, j n < g.guarantees.length)
    (hstep : ∀ n, GoalStep g (p n) (p (n + 1)) (j n) (j (n + 1)))
    (hinf : ∀ n, ∃ m ≥ n, goalAt g (j m) (p m) (p (m + 1))) :
    ∀ G ∈ g.guarantees, InfOften G p := by
  intro G hG
  obtain ⟨b, hb, hbG⟩ := List.getElem_of_mem hG
  by_contra hnot
  have hN : ∃ N, ∀ n ≥ N, ¬ G (p n) (p (n + 1)) := by
    unfold InfOften at hnot
    push Not at hnot
    exact hnot
  obtain ⟨N, hN⟩ := hN
  have hnb : ∀ n ≥ N, ¬ goalAt g b (p n) (p (n + 1)) := by
    rintro n hn ⟨G', hG', hst⟩
    rw [List.getElem?_eq_getElem hb, hbG] at hG'
    cases hG'
    exact hN n hn hst
  let d : Nat → Nat := fun n => (b + g.guarantees.length - j n) % g.guarantees.length
  have hd : ∀ n ≥ N, d (n + 1) ≤ d n ∧ (goalAt g (j n) (p n) (p (n + 1)) → d (n + 1) < d n) := by
    intro n hn
    by_cases hg : goalAt g (j n) (p n) (p (n + 1))
    · obtain ⟨k, hk1, hk2, hk3, hk4⟩ := (hstep n).2 hg
      have := dist_step (hj n) hb hk1 hk2 (fun l hl he => hnb n hn (he ▸ hk4 l hl))
      simp only [d, hk3]
      omega
    · have := (hstep n).1 hg
      simp only [d, this]
      exact ⟨le_refl _, fun h => absurd h hg⟩
  obtain ⟨M, hM, hconst⟩ := eventually_const d N (fun n hn => (hd n hn).1)
  obtain ⟨n, hn, hg⟩ := hinf M
  have h1 := (hd n (by omega)).2 hg
  have h2 := hconst n hn
  have h3 := hconst (n + 1) (by omega)
  omega

/-- Every infinite play in which the system follows the positional strategies, switching goals as described, satisfies
the liveness objective. -/
theorem family_live (g : Game I O) {Z : Set (Pos I O)} {lists : Nat → List (T I O)} (hf : Family g Z lists)
    (p : Nat → Pos I O) (j : Nat → Nat) (hj : ∀ n, j n < g.guarantees.length) (h0 : p 0 ∈ Z)
    (hst : ∀ n, Used g (lists (j n)) (p n) (p (n + 1)))
    (hstep : ∀ n, GoalStep g (p n) (p (n + 1)) (j n) (j (n + 1))) : g.Live p := by
  intro hass
  refine goals_cycle g p j hj hstep ?_
  by_contra hnot
  push Not at hnot
  obtain ⟨N, hN⟩ := hnot
  have hconst : ∀ n ≥ N, j n = j N := by
    intro n hn
    induction n, hn using Nat.le_induction with
    | base => rfl
    | succ n hn ih => rw [(hstep n).1 (hN n hn), ih]
  have hget := List.getElem?_eq_getElem (hj N)
  have hgl := hf (j N) _ hget
  have hZ : ∀ n, p n ∈ Z := by
    intro n
    cases n with
    | zero => exact h0
    | succ n => exact (hf (j n) _ (List.getElem?_eq_getElem (hj n))).stays (hst n).mem
  obtain ⟨A, hA, hAn⟩ := hgl.reached p N (hZ N)
    (fun n hn => hconst n hn ▸ hst n)
    (fun n hn hG => hN n hn ⟨_, by rw [hconst n hn]; exact hget, hG⟩)
  exact hAn (hass A hA)

/-! ### A winning strategy in the sense of the specification -/

open Classical in
/-- Current goal after a history: move on by one whenever the current goal is reached. -/
noncomputable def goalIdx (g : Game I O) : History I O → Nat
  | t :: s :: h => if goalAt g (goalIdx g (s :: h)) s t then (goalIdx g (s :: h) + 1) % g.guarantees.length
      else goalIdx g (s :: h)
  | _ => 0

open Classical in
noncomputable def famStrategy (g : Game I O) (lists : Nat → List (T I O)) (dflt : O) : SysStrategy I O
  | cur :: h, i => if hex : ∃ o, strat (lists (goalIdx g (cur :: h))) cur (i, o) then hex.choose else dflt
  | [], _ => dflt

theorem goalIdx_lt (g : Game I O) (hg : g.guarantees ≠ []) (h : History I O) : goalIdx g h < g.guarantees.length := by
  have hpos := List.length_pos_iff.mpr hg
  fun_induction goalIdx g h with
  | case1 => exact Nat.mod_lt _ hpos
  | case2 _ _ _ _ ih => exact ih
  | case3 => exact hpos

theorem family_wins (g : Game I O) (hg : g.guarantees ≠ []) {Z : Set (Pos I O)} {lists : Nat → List (T I O)}
    (hf : Family g Z lists) {s : Pos I O} (hs : s ∈ Z) : g.SysWinning (famStrategy g lists s.2) s := by
  have hlt := goalIdx_lt g hg
  have hgl : ∀ h : History I O, GoodList g (g.guarantees[goalIdx g h]'(hlt h)) Z (lists (goalIdx g h)) :=
    fun h => hf _ _ (List.getElem?_eq_getElem (hlt h))
  have hmove : ∀ cur h i, cur ∈ Z → g.safetyEnv cur i →
      strat (lists (goalIdx g (cur :: h))) cur (i, famStrategy g lists s.2 (cur :: h) i) := by
    intro cur h i hcur hi
    have hex := strat_exists g ((hgl (cur :: h)).covers hcur) hi
    simp only [famStrategy, hex, dif_pos]
    exact hex.choose_spec
  have hinv : ∀ h, g.SysHist (famStrategy g lists s.2) s h → ∀ cur h', h = cur :: h' → cur ∈ Z := by
    intro h hh
    induction hh with
    | start => rintro cur h' ⟨⟩; exact hs
    | step hh hi ih =>
      rintro cur h' ⟨⟩
      exact (hgl _).stays (strat_mem (hmove _ _ _ (ih _ _ rfl) hi))
  constructor
  · intro cur h i hh hi
    exact (hgl _).safe (strat_mem (hmove cur h i (hinv _ hh _ _ rfl) hi))
  · intro p hp
    have hpre : ∀ n, ∃ h, prefixHist p n = p n :: h := fun n => by cases n <;> exact ⟨_, rfl⟩
    have hZ : ∀ n, p n ∈ Z := fun n => by
      obtain ⟨h, hh⟩ := hpre n
      exact hinv _ (hp n) _ _ hh
    have hsucc : ∀ n, g.safetyEnv (p n) (p (n + 1)).1 ∧
        p (n + 1) = ((p (n + 1)).1, famStrategy g lists s.2 (prefixHist p n) (p (n + 1)).1) := by
      intro n
      obtain ⟨h, hh⟩ := hpre n
      have := hp (n + 1)
      rw [prefixHist, hh] at this
      generalize hq : p (n + 1) = q at this
      cases this with
      | step _ hi => rw [hh]; exact ⟨hi, rfl⟩
    refine family_live g hf p (fun n => goalIdx g (prefixHist p n)) (fun n => hlt _) (hZ 0) ?_ ?_
    · intro n
      obtain ⟨h, hh⟩ := hpre n
      refine strat_used ?_ (hsucc n).1
      rw [(hsucc n).2, hh]
      exact hmove _ _ _ (hZ n) (hsucc n).1
    · intro n
      obtain ⟨h, hh⟩ := hpre n
      show GoalStep g (p n) (p (n + 1)) (goalIdx g (prefixHist p n)) (goalIdx g (p (n + 1) :: prefixHist p n))
      rw [hh, goalIdx]
      refine ⟨fun hn => by rw [if_neg hn], fun hy => ⟨1, le_refl _, List.length_pos_iff.mpr hg, by rw [if_pos hy], ?_⟩⟩
      intro l hl
      have : l = 0 := by omega
      subst this
      rw [Nat.add_zero, Nat.mod_eq_of_lt (hlt _)]
      exact hy

/-- The lists computed by `computeWinningPositions` form a family for the computed set. -/
theorem computeWinningPositions_family [Finite I] [Finite O] (g : Game I O) (fuel : Nat)
    (hf : Nat.card (Pos I O) < fuel) :
    ∃ dump, computeWinningPositions (semMgr I O) (gameCtx g) fuel = some (pre (nuZ g), dump) ∧
      Family g (nuZ g) (entries dump) := by
  obtain ⟨dump, h1, h2⟩ := computeWinningPositions_eq g fuel hf
  refine ⟨dump, h1, ?_⟩
  intro k G hk
  have := h2 k G hk
  rw [muY_nuZ g (List.mem_of_getElem? hk)] at this
  exact this.good

end Slugs.Model
