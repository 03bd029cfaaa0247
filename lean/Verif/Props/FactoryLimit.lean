import Verif.Props.FactoryErrors

/-!
# C93: more errors than the assembly line can take

The belt first delivers objects with one task performed, then errors, and then objects with one task performed again, until the belt is full of them.
-/

namespace Slugs.Props

open Slugs.Spec Slugs.Spec.Structured Slugs.Model Slugs.Model.Structured Slugs.Model.Factory Slugs.Spec.Factory

variable {B : Type} [DecidableEq B] [L : BddLib B]

/-- Situations in which the arms can stay, as in `Manages`. -/
def Safe (n m k most : Nat) (W : State → Arms → Prop) : Prop :=
  ∀ s a, W s a → ∀ s', Step n m k most a s s' → (Moves k s → ∀ j < m, s.done (n - 1) j) ∧ ∃ a', Move n m a a' ∧ W s' a'

theorem todo_ge {m i i' x : Nat} {s s' : State} (h : ∀ j < m, s'.done i' j → s.done i j ∨ j = x) : todo m s i ≤ todo m s' i' + 1 := by
  classical
  have hs : ((Finset.range m).filter fun j => ¬ s.done i j) ⊆ insert x ((Finset.range m).filter fun j => ¬ s'.done i' j) := by
    intro j hj
    rw [Finset.mem_filter, Finset.mem_range] at hj
    rw [Finset.mem_insert, Finset.mem_filter, Finset.mem_range]
    by_cases hd : s'.done i' j
    · rcases h j hj.1 hd with h | h
      · exact absurd h hj.2
      · exact .inl h
    · exact .inr ⟨hj.1, hd⟩
  exact (Finset.card_le_card hs).trans (Finset.card_insert_le _ _)

theorem work_one {a : Arms} (h : a.pos1 < a.pos2) (p : Nat) : ∃ x, ∀ j, a.Work p j → j = x := by
  by_cases hp : a.pos1 = p
  · exact ⟨a.op1, fun j hj => by rcases hj with ⟨_, h⟩ | ⟨h', _⟩ <;> omega⟩
  · exact ⟨a.op2, fun j hj => by rcases hj with ⟨h', _⟩ | ⟨_, h⟩ <;> omega⟩

theorem next_stay_ge {m k i : Nat} {a : Arms} {s : State} (hap : a.pos1 < a.pos2) (hM : ¬ Moves k s) : todo m s i ≤ todo m (nextState k a s) i + 1 := by
  obtain ⟨x, hx⟩ := work_one hap i
  refine todo_ge (x := x) fun j _ hd => ?_
  simp only [nextState, if_neg hM] at hd
  exact hd.imp id (hx j)

theorem next_move_ge {m k i : Nat} {a : Arms} {s : State} (hap : a.pos1 < a.pos2) (hM : Moves k s) : todo m s i ≤ todo m (nextState k a s) (i + 1) + 1 := by
  obtain ⟨x, hx⟩ := work_one hap (i + 1)
  refine todo_ge (x := x) fun j _ hd => ?_
  simp only [nextState, if_pos hM] at hd
  exact hd.imp id (hx j)

theorem next_move_zero {m k : Nat} {a : Arms} {s : State} (hm : 1 ≤ m) (hM : Moves k s) : todo m (nextState k a s) 0 + 1 = m := by
  classical
  have hs : ((Finset.range m).filter fun j => ¬ (nextState k a s).done 0 j) = (Finset.range m).erase 0 := by
    ext j
    rw [Finset.mem_filter, Finset.mem_erase]
    simp only [nextState, if_pos hM]
    exact and_comm
  have : todo m (nextState k a s) 0 = ((Finset.range m).erase 0).card := by
    rw [← hs, todo]
  rw [this, Finset.card_erase_of_mem (Finset.mem_range.mpr hm), Finset.card_range]
  omega

/-- Only as many tasks can be missing as there are steps left for the object. -/
theorem todo_bound {n m k most : Nat} {W : State → Arms → Prop} (hm : 1 ≤ m) (hW : Safe n m k most W) : ∀ r (s : State) (a : Arms) (i : Nat), W s a → a.pos1 < a.pos2 →
    s.errors ≤ most → i < n → s.time < k → r = (n - 1 - i) * k + (k - 1 - s.time) → todo m s i ≤ r := by
  intro r
  induction r with
  | zero =>
    intro s a i hw _ he hi ht hr
    have h1 : (n - 1 - i) * k = 0 := by omega
    have h2 : n - 1 - i = 0 := by
      rcases Nat.mul_eq_zero.mp h1 with h | h
      · exact h
      · omega
    have hi' : i = n - 1 := by omega
    subst hi'
    have hd := (hW s a hw _ (nextState_step hm he)).1 (show s.time + 1 = k by omega)
    classical
    rw [todo, Nat.le_zero, Finset.card_eq_zero, Finset.filter_eq_empty_iff]
    intro j hj hn
    exact hn (hd j (Finset.mem_range.mp hj))
  | succ r ih =>
    intro s a i hw hap he hi ht hr
    obtain ⟨_, a', hmove, hw'⟩ := hW s a hw _ (nextState_step hm he)
    by_cases hmv : Moves k s
    · have hmv' : s.time + 1 = k := hmv
      have hi1 : i + 1 < n := by
        apply Classical.byContradiction
        intro hc
        have e : n - 1 - i = 0 := by omega
        have e2 : (n - 1 - i) * k = 0 := by rw [e, Nat.zero_mul]
        omega
      have e : (n - 1 - i) * k = (n - 1 - (i + 1)) * k + k := by
        rw [show n - 1 - i = (n - 1 - (i + 1)) + 1 by omega, Nat.add_mul, Nat.one_mul]
      have ht' : (nextState k a s).time = 0 := if_pos hmv
      have := ih (nextState k a s) a' (i + 1) hw' hmove.apart he hi1 (by omega) (by omega)
      have := next_move_ge (m := m) (i := i) hap hmv
      omega
    · have hmv' : s.time + 1 ≠ k := hmv
      have ht' : (nextState k a s).time = s.time + 1 := if_neg hmv
      have := ih (nextState k a s) a' i hw' hmove.apart he hi (by omega) (by omega)
      have := next_stay_ge (m := m) (i := i) hap hmv
      omega

theorem missing_sum (n m : Nat) (s : State) : (missing n m s).card = (Finset.range n).sum fun i => todo m s i := by
  classical
  simp only [missing, todo, Finset.card_filter, Finset.sum_product]

/-- The belt delivers objects with one task performed: two of them are on the belt. -/
theorem limit_start {n k most : Nat} {W : State → Arms → Prop} (hn : 3 ≤ n) (hk : 1 ≤ k) (h0 : ∀ s, Start n (2 * k + 1) s → W s startArms)
    (hW : Safe n (2 * k + 1) k most W) : ∃ s a, W s a ∧ a.pos1 < a.pos2 ∧ s.time = 0 ∧ s.errors = 0 ∧ 3 * k ≤ (missing n (2 * k + 1) s).card := by
  have one : ∀ t, t < k → ∃ s a, W s a ∧ a.pos1 < a.pos2 ∧ s.time = t ∧ s.errors = 0 := by
    intro t
    induction t with
    | zero => exact fun _ => ⟨⟨0, fun _ _ => True, 0⟩, startArms, h0 _ ⟨rfl, fun _ _ _ _ => trivial, rfl⟩, by decide, rfl, rfl⟩
    | succ t ih =>
      intro ht
      obtain ⟨s, a, hw, hap, h1, h2⟩ := ih (by omega)
      have hM : ¬ Moves k s := by rw [Moves]; omega
      obtain ⟨_, a', hmove, hw'⟩ := hW s a hw _ (nextState_step (by omega) (by omega))
      have ht' : (nextState k a s).time = s.time + 1 := if_neg hM
      exact ⟨_, a', hw', hmove.apart, by omega, h2⟩
  have two : ∀ t, t < k → ∃ s a, W s a ∧ a.pos1 < a.pos2 ∧ s.time = t ∧ s.errors = 0 ∧ 2 * k ≤ todo (2 * k + 1) s 0 + t := by
    intro t
    induction t with
    | zero =>
      intro _
      obtain ⟨s, a, hw, hap, h1, h2⟩ := one (k - 1) (by omega)
      have hM : Moves k s := by rw [Moves]; omega
      obtain ⟨_, a', hmove, hw'⟩ := hW s a hw _ (nextState_step (by omega) (by omega))
      have := next_move_zero (m := 2 * k + 1) (a := a) (by omega) hM
      exact ⟨_, a', hw', hmove.apart, if_pos hM, h2, by omega⟩
    | succ t ih =>
      intro ht
      obtain ⟨s, a, hw, hap, h1, h2, h3⟩ := ih (by omega)
      have hM : ¬ Moves k s := by rw [Moves]; omega
      obtain ⟨_, a', hmove, hw'⟩ := hW s a hw _ (nextState_step (by omega) (by omega))
      have ht' : (nextState k a s).time = s.time + 1 := if_neg hM
      have := next_stay_ge (m := 2 * k + 1) (i := 0) hap hM
      exact ⟨_, a', hw', hmove.apart, by omega, h2, by omega⟩
  obtain ⟨s, a, hw, hap, h1, h2, h3⟩ := two (k - 1) (by omega)
  have hM : Moves k s := by rw [Moves]; omega
  obtain ⟨_, a', hmove, hw'⟩ := hW s a hw _ (nextState_step (by omega) (by omega))
  have g0 := next_move_zero (m := 2 * k + 1) (a := a) (by omega) hM
  have g1 := next_move_ge (m := 2 * k + 1) (i := 0) hap hM
  refine ⟨_, a', hw', hmove.apart, if_pos hM, h2, ?_⟩
  rw [missing_sum]
  obtain ⟨n, rfl⟩ : ∃ n0, n = n0 + 2 := ⟨n - 2, by omega⟩
  rw [Finset.sum_range_succ', Finset.sum_range_succ']
  omega

/-- Then it delivers errors. -/
theorem limit_errors {n k most : Nat} {W : State → Arms → Prop} (hn : 3 ≤ n) (hk : 1 ≤ k) (h0 : ∀ s, Start n (2 * k + 1) s → W s startArms)
    (hW : Safe n (2 * k + 1) k most W) : ∀ e, e ≤ most →
      ∃ s a, W s a ∧ a.pos1 < a.pos2 ∧ s.time = 0 ∧ s.errors = e ∧ 3 * k + e ≤ (missing n (2 * k + 1) s).card := by
  intro e
  induction e with
  | zero => exact fun _ => limit_start hn hk h0 hW
  | succ e ih =>
    intro he
    have inner : ∀ r (s : State) (a : Arms), W s a → s.time + r + 1 = k → s.errors = e → 3 * k + e ≤ (missing n (2 * k + 1) s).card + 2 * s.time →
        ∃ s a, W s a ∧ a.pos1 < a.pos2 ∧ s.time = 0 ∧ s.errors = e + 1 ∧ 3 * k + (e + 1) ≤ (missing n (2 * k + 1) s).card := by
      intro r
      induction r with
      | zero =>
        intro s a hw ht hs hc
        have hM : Moves k s := ht
        obtain ⟨hg, a', hmove, hw'⟩ := hW s a hw _ (badState_step (by omega))
        have h1 := bad_move (a := a) (show 1 ≤ n by omega) (by omega) hM (hg hM)
        have h2 : (badState k a s).errors = s.errors + 1 := if_pos hM
        exact ⟨_, a', hw', hmove.apart, if_pos hM, by omega, by omega⟩
      | succ r ihr =>
        intro s a hw ht hs hc
        have hM : ¬ Moves k s := by rw [Moves]; omega
        obtain ⟨_, a', _, hw'⟩ := hW s a hw _ (badState_step (by omega))
        have h1 := bad_stay (n := n) (m := 2 * k + 1) (a := a) hM
        have h2 : (badState k a s).errors = s.errors := if_neg hM
        have h3 : (badState k a s).time = s.time + 1 := if_neg hM
        exact ihr _ a' hw' (by omega) (by omega) (by omega)
    obtain ⟨s, a, hw, _, h1, h2, h3⟩ := ih (by omega)
    exact inner (k - 1) s a hw (by omega) h2 (by omega)

/-- Then it delivers objects with one task performed again. -/
theorem limit_flush {n k most : Nat} {W : State → Arms → Prop} (hn : 3 ≤ n) (hk : 1 ≤ k) (h0 : ∀ s, Start n (2 * k + 1) s → W s startArms)
    (hW : Safe n (2 * k + 1) k most W) : ∀ f,
      ∃ s a, W s a ∧ a.pos1 < a.pos2 ∧ s.time = 0 ∧ s.errors = most ∧ 3 * k + most ≤ (missing n (2 * k + 1) s).card ∧ ∀ i < f, todo (2 * k + 1) s i ≤ 2 * k := by
  intro f
  induction f with
  | zero =>
    obtain ⟨s, a, h1, h2, h3, h4, h5⟩ := limit_errors hn hk h0 hW most (Nat.le_refl _)
    exact ⟨s, a, h1, h2, h3, h4, h5, fun i hi => absurd hi (by omega)⟩
  | succ f ih =>
    have inner : ∀ r (s : State) (a : Arms), W s a → s.time + r + 1 = k → s.errors = most → 3 * k + most ≤ (missing n (2 * k + 1) s).card + 2 * s.time →
        (∀ i < f, todo (2 * k + 1) s i ≤ 2 * k) → ∃ s a, W s a ∧ a.pos1 < a.pos2 ∧ s.time = 0 ∧ s.errors = most ∧ 3 * k + most ≤ (missing n (2 * k + 1) s).card ∧
          ∀ i < f + 1, todo (2 * k + 1) s i ≤ 2 * k := by
      intro r
      induction r with
      | zero =>
        intro s a hw ht hs hc hf
        have hM : Moves k s := ht
        obtain ⟨hg, a', hmove, hw'⟩ := hW s a hw _ (nextState_step (by omega) (by omega))
        have h1 := missing_move (a := a) (show 1 ≤ n by omega) hM (hg hM)
        refine ⟨_, a', hw', hmove.apart, if_pos hM, hs, by omega, fun i hi => ?_⟩
        cases i with
        | zero =>
          have := next_move_zero (m := 2 * k + 1) (a := a) (by omega) hM
          omega
        | succ i =>
          refine (todo_le (s := s) (i := i) fun j _ hd => ?_).trans (hf i (by omega))
          simp only [nextState, if_pos hM]
          exact .inl hd
      | succ r ihr =>
        intro s a hw ht hs hc hf
        have hM : ¬ Moves k s := by rw [Moves]; omega
        obtain ⟨_, a', _, hw'⟩ := hW s a hw _ (nextState_step (by omega) (by omega))
        have h1 := missing_stay (n := n) (m := 2 * k + 1) (a := a) hM
        have h3 : (nextState k a s).time = s.time + 1 := if_neg hM
        refine ihr _ a' hw' (by omega) hs (by omega) fun i hi => ?_
        refine (todo_le (s := s) (i := i) fun j _ hd => ?_).trans (hf i hi)
        simp only [nextState, if_neg hM]
        exact .inl hd
    obtain ⟨s, a, hw, _, h1, h2, h3, h4⟩ := ih
    exact inner (k - 1) s a hw (by omega) h2 (by omega) h4

/-- With `2 * k + 1` tasks, the arms manage exactly up to `2 * ((n - 2) * k - 1)` errors. -/
theorem manages_errors_iff {n k most : Nat} (hn : 3 ≤ n) (hk : 1 ≤ k) : Manages n (2 * k + 1) k most ↔ most + 2 ≤ 2 * ((n - 2) * k) := by
  refine ⟨?_, manages_errors hn hk⟩
  rintro ⟨W, h0, hW⟩
  obtain ⟨s, a, hw, hap, h1, h2, h3, h4⟩ := limit_flush hn hk h0 hW n
  have hb : ∀ i < n, todo (2 * k + 1) s i ≤ (n - 1 - i) * k + (k - 1 - s.time) := fun i hi =>
    todo_bound (by omega) hW _ s a i hw hap (by omega) hi (by omega) rfl
  rw [missing_sum] at h3
  obtain ⟨n, rfl⟩ : ∃ n0, n = n0 + 2 := ⟨n - 2, by omega⟩
  rw [Finset.sum_range_succ, Finset.sum_range_succ] at h3
  have b1 := hb (n + 1) (by omega)
  have b2 := hb n (by omega)
  rw [show n + 2 - 1 - (n + 1) = 0 by omega] at b1
  rw [show n + 2 - 1 - n = 1 by omega] at b2
  have b3 : ((Finset.range n).sum fun i => todo (2 * k + 1) s i) ≤ n * (2 * k) := by
    have := Finset.sum_le_card_nsmul (Finset.range n) (fun i => todo (2 * k + 1) s i) (2 * k) fun i hi => h4 i (by have := Finset.mem_range.mp hi; omega)
    rwa [Finset.card_range, smul_eq_mul] at this
  have e : n * (2 * k) = 2 * (n * k) := by rw [Nat.mul_left_comm]
  rw [show n + 2 - 2 = n by omega]
  omega

/-- **C93.** With `2 * k + 1` tasks, slugs calls the benchmark realizable exactly if there are at most `2 * ((n - 2) * k - 1)` errors. -/
theorem C93_errors (thorough : Bool) {n k : Nat} (most : Nat) (hn : 3 ≤ n) (hk : 1 ≤ k) :
    ∃ out, convert thorough (benchmark n (2 * k + 1) k most) = .ok out ∧
      ∀ (alg : Algorithm) (cap : Nat) (order : List Char → Bool), (∀ l ∈ splitLines out, l.length ≤ cap) → cap < 2 ^ 32 → ∃ rounds, ∀ fuel, rounds ≤ fuel →
        runSlugs B alg false cap order fuel out = .result (decide (most ≤ 2 * ((n - 2) * k - 1))) := by
  obtain ⟨out, h1, h2⟩ := C89_verdict (B := B) thorough most hn (show 1 ≤ 2 * k + 1 by omega) hk
  refine ⟨out, h1, fun alg cap order hl h32 => ?_⟩
  obtain ⟨rounds, h3⟩ := h2 alg cap order hl h32
  refine ⟨rounds, fun fuel hf => ?_⟩
  have hi := manages_errors_iff (most := most) hn hk
  have hnk : 1 ≤ (n - 2) * k := Nat.mul_pos (by omega) hk
  by_cases h : most ≤ 2 * ((n - 2) * k - 1)
  · rw [decide_eq_true h]; exact (h3 fuel hf).1 (hi.mpr (by omega))
  · rw [decide_eq_false h]; exact (h3 fuel hf).2 (mt hi.mp (by omega))

/-- All cases. -/
theorem manages_iff {n m k most : Nat} (hn : 3 ≤ n) (hm : 1 ≤ m) (hk : 1 ≤ k) : Manages n m k most ↔ m ≤ 2 * k ∨ (m = 2 * k + 1 ∧ most ≤ 2 * ((n - 2) * k - 1)) := by
  have hnk : 1 ≤ (n - 2) * k := Nat.mul_pos (by omega) hk
  rcases Nat.lt_trichotomy m (2 * k + 1) with h | rfl | h
  · exact iff_of_true (manages_few most hn hm hk (by omega)) (.inl (by omega))
  · rw [manages_errors_iff hn hk]
    omega
  · exact iff_of_false (loses_throughput (by omega) hk h) (by omega)

/-- **C93**, for all parameters of the script. -/
theorem C93_verdict (thorough : Bool) {n m k : Nat} (most : Nat) (hn : 3 ≤ n) (hm : 1 ≤ m) (hk : 1 ≤ k) :
    ∃ out, convert thorough (benchmark n m k most) = .ok out ∧
      ∀ (alg : Algorithm) (cap : Nat) (order : List Char → Bool), (∀ l ∈ splitLines out, l.length ≤ cap) → cap < 2 ^ 32 → ∃ rounds, ∀ fuel, rounds ≤ fuel →
        runSlugs B alg false cap order fuel out = .result (decide (m ≤ 2 * k ∨ (m = 2 * k + 1 ∧ most ≤ 2 * ((n - 2) * k - 1)))) := by
  obtain ⟨out, h1, h2⟩ := C89_verdict (B := B) thorough most hn hm hk
  refine ⟨out, h1, fun alg cap order hl h32 => ?_⟩
  obtain ⟨rounds, h3⟩ := h2 alg cap order hl h32
  refine ⟨rounds, fun fuel hf => ?_⟩
  have hi := manages_iff (most := most) hn hm hk
  by_cases h : m ≤ 2 * k ∨ (m = 2 * k + 1 ∧ most ≤ 2 * ((n - 2) * k - 1))
  · rw [decide_eq_true h]; exact (h3 fuel hf).1 (hi.mpr h)
  · rw [decide_eq_false h]; exact (h3 fuel hf).2 (mt hi.mp h)

/-- The published rows with errors that are unrealizable (`factory_assembly_line.tex:230,233,236`). -/
example : ¬ Manages 3 3 1 1 := mt (manages_errors_iff (k := 1) (by omega) (by omega)).mp (by omega)
example : ¬ Manages 5 3 1 5 := mt (manages_errors_iff (k := 1) (by omega) (by omega)).mp (by omega)
example : ¬ Manages 5 5 2 11 := mt (manages_errors_iff (k := 2) (by omega) (by omega)).mp (by omega)

end Slugs.Props
