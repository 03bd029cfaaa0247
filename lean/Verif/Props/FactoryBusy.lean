import Verif.Props.Factory
import Verif.Props.BenchmarkMonotone
import Mathlib.Data.Finset.Card
import Mathlib.Data.Finset.Prod

/-!
# C92: the throughput of the assembly line

`factory_assembly_line.tex` has a table of verdicts.  Without errors, its rows are cases of a general law: the arms manage exactly if a new object needs at most as many tasks
as they can perform until the next one comes, whatever the length of the belt is.
-/

namespace Slugs.Props

open Slugs.Spec Slugs.Spec.Structured Slugs.Model Slugs.Model.Structured Slugs.Model.Factory Slugs.Spec.Factory

variable {B : Type} [DecidableEq B] [L : BddLib B]

open Classical in
/-- The tasks that have yet to be performed on the objects on the belt. -/
noncomputable def missing (n m : Nat) (s : State) : Finset (Nat × Nat) :=
  (Finset.range n ×ˢ Finset.range m).filter fun p => ¬ s.done p.1 p.2

theorem mem_missing {n m : Nat} {s : State} {i j : Nat} : (i, j) ∈ missing n m s ↔ (i < n ∧ j < m) ∧ ¬ s.done i j := by
  simp [missing]

/-- Two tasks at most are performed in a step. -/
theorem missing_stay {n m k : Nat} {a : Arms} {s : State} (h : ¬ Moves k s) : (missing n m s).card ≤ (missing n m (nextState k a s)).card + 2 := by
  classical
  have hs : missing n m s ⊆ missing n m (nextState k a s) ∪ {(a.pos1, a.op1), (a.pos2, a.op2)} := by
    rintro ⟨i, j⟩ hp
    rw [mem_missing] at hp
    by_cases hw : a.Work i j
    · rw [Finset.mem_union]
      right
      rcases hw with ⟨rfl, rfl⟩ | ⟨rfl, rfl⟩ <;> simp
    · rw [Finset.mem_union, mem_missing]
      left
      refine ⟨hp.1, ?_⟩
      simp only [nextState, if_neg h]
      exact fun hd => hd.elim hp.2 hw
  calc (missing n m s).card ≤ _ := Finset.card_le_card hs
    _ ≤ _ := Finset.card_union_le _ _
    _ ≤ _ := Nat.add_le_add_left Finset.card_le_two _

/-- When the belt moves, all but one tasks of a new object are added. -/
theorem missing_move {n m k : Nat} {a : Arms} {s : State} (hn : 1 ≤ n) (h : Moves k s) (hlast : ∀ j < m, s.done (n - 1) j) :
    (missing n m s).card + (m - 1) ≤ (missing n m (nextState k a s)).card + 2 := by
  classical
  let A := (missing n m s).image fun p => (p.1 + 1, p.2)
  let N := (Finset.range (m - 1)).image fun j => ((0 : Nat), j + 1)
  have hA : A.card = (missing n m s).card := Finset.card_image_of_injective _ (by
    rintro ⟨i, j⟩ ⟨i', j'⟩ he
    simp only [Prod.mk.injEq] at he ⊢
    omega)
  have hN : N.card = m - 1 := by
    rw [Finset.card_image_of_injective _ (by
      intro j j' he
      simp only [Prod.mk.injEq] at he
      omega), Finset.card_range]
  have hd : Disjoint A N := by
    rw [Finset.disjoint_left]
    intro p hp hq
    obtain ⟨p', _, rfl⟩ := Finset.mem_image.mp hp
    obtain ⟨j, _, he⟩ := Finset.mem_image.mp hq
    simp only [Prod.mk.injEq] at he
    omega
  have hs : A ∪ N ⊆ missing n m (nextState k a s) ∪ {(a.pos1, a.op1), (a.pos2, a.op2)} := by
    intro p hp
    rcases Finset.mem_union.mp hp with hp | hp
    · obtain ⟨⟨i, j⟩, hp', rfl⟩ := Finset.mem_image.mp hp
      rw [mem_missing] at hp'
      have hi : i + 1 < n := by
        by_contra hi
        have : i = n - 1 := by omega
        exact hp'.2 (this ▸ hlast j hp'.1.2)
      by_cases hw : a.Work (i + 1) j
      · rw [Finset.mem_union]
        right
        rcases hw with ⟨h1, h2⟩ | ⟨h1, h2⟩ <;> simp [h1, h2]
      · rw [Finset.mem_union, mem_missing]
        left
        refine ⟨⟨hi, hp'.1.2⟩, ?_⟩
        simp only [nextState, if_pos h]
        exact fun hd => hd.elim hp'.2 hw
    · obtain ⟨j, hj, rfl⟩ := Finset.mem_image.mp hp
      rw [Finset.mem_range] at hj
      rw [Finset.mem_union, mem_missing]
      left
      refine ⟨⟨by omega, by omega⟩, ?_⟩
      simp only [nextState, if_pos h]
      omega
  calc (missing n m s).card + (m - 1) = (A ∪ N).card := by rw [Finset.card_union_of_disjoint hd, hA, hN]
    _ ≤ _ := Finset.card_le_card hs
    _ ≤ _ := Finset.card_union_le _ _
    _ ≤ _ := Nat.add_le_add_left Finset.card_le_two _

theorem missing_le (n m : Nat) (s : State) : (missing n m s).card ≤ n * m := by
  classical
  refine (Finset.card_filter_le _ _).trans ?_
  rw [Finset.card_product, Finset.card_range, Finset.card_range]

/-- The arms cannot manage if each new object needs more tasks than they can perform until the next one comes, however long the belt is. -/
theorem loses_throughput {n m k most : Nat} (hn : 1 ≤ n) (hk : 1 ≤ k) (h : 2 * k + 1 < m) : ¬ Manages n m k most := by
  rintro ⟨W, h0, hW⟩
  have key : ∀ N, ∃ s a, W s a ∧ s.errors ≤ most ∧ s.time < k ∧ N ≤ k * ((missing n m s).card + 2 * s.time) + s.time := by
    intro N
    induction N with
    | zero => exact ⟨⟨0, fun _ _ => True, 0⟩, startArms, h0 _ ⟨rfl, fun _ _ _ _ => trivial, rfl⟩, Nat.zero_le _, hk, Nat.zero_le _⟩
    | succ N ih =>
      obtain ⟨s, a, hw, he, ht, hN⟩ := ih
      obtain ⟨hg, a', _, hw'⟩ := hW s a hw _ (nextState_step (n := n) (m := m) (k := k) (a := a) (by omega) he)
      refine ⟨_, a', hw', he, ?_⟩
      by_cases hM : Moves k s
      · have h1 : (nextState k a s).time = 0 := if_pos hM
        have h2 := missing_move (a := a) hn hM (hg hM)
        have h3 : s.time + 1 = k := hM
        rw [h1]
        refine ⟨by omega, ?_⟩
        have h4 : (missing n m s).card + 2 * s.time + 1 ≤ (missing n m (nextState k a s)).card + 2 * 0 := by omega
        have h5 := Nat.mul_le_mul_left k h4
        rw [Nat.mul_add k _ 1] at h5
        omega
      · have h1 : (nextState k a s).time = s.time + 1 := if_neg hM
        have h2 := missing_stay (n := n) (m := m) (a := a) hM
        have h3 : s.time + 1 ≠ k := hM
        rw [h1]
        refine ⟨by omega, ?_⟩
        have h4 : (missing n m s).card + 2 * s.time ≤ (missing n m (nextState k a s)).card + 2 * (s.time + 1) := by omega
        have h5 := Nat.mul_le_mul_left k h4
        omega
  obtain ⟨s, a, _, _, ht, hN⟩ := key (k * (n * m + 2 * k) + k)
  have h1 := missing_le n m s
  have h2 : (missing n m s).card + 2 * s.time ≤ n * m + 2 * k := by omega
  have h3 := Nat.mul_le_mul_left k h2
  omega

open Classical in
/-- The number of tasks that have yet to be performed on the object at a place. -/
noncomputable def todo (m : Nat) (s : State) (i : Nat) : Nat := ((Finset.range m).filter fun j => ¬ s.done i j).card

theorem todo_zero {m i j : Nat} {s : State} (h : todo m s i = 0) (hj : j < m) : s.done i j := by
  classical
  by_contra hd
  have := Finset.card_eq_zero.mp h
  have h' : j ∈ (Finset.range m).filter fun j => ¬ s.done i j := by simp [hj, hd]
  rw [this] at h'
  simp at h'

theorem todo_le {m i i' : Nat} {s s' : State} (h : ∀ j < m, s.done i j → s'.done i' j) : todo m s' i' ≤ todo m s i := by
  classical
  refine Finset.card_le_card fun j hj => ?_
  rw [Finset.mem_filter, Finset.mem_range] at hj ⊢
  exact ⟨hj.1, fun hd => hj.2 (h j hj.1 hd)⟩

theorem todo_pred {m i i' : Nat} {s s' : State} (h : ∀ j < m, s.done i j → s'.done i' j) (hw : 0 < todo m s i → ∃ j < m, ¬ s.done i j ∧ s'.done i' j) :
    todo m s' i' ≤ todo m s i - 1 := by
  classical
  rcases Nat.eq_zero_or_pos (todo m s i) with h0 | h0
  · have := todo_le h
    omega
  · obtain ⟨j0, hj0, h1, h2⟩ := hw h0
    have hmem : j0 ∈ (Finset.range m).filter fun j => ¬ s.done i j := by simp [hj0, h1]
    rw [todo, todo, ← Finset.card_erase_of_mem hmem]
    refine Finset.card_le_card fun j hj => ?_
    rw [Finset.mem_filter, Finset.mem_range] at hj
    rw [Finset.mem_erase, Finset.mem_filter, Finset.mem_range]
    exact ⟨fun e => hj.2 (e ▸ h2), hj.1, fun hd => hj.2 (h j hj.1 hd)⟩

theorem todo_lt {m i j : Nat} {s : State} (hj : j < m) (hd : s.done i j) : todo m s i ≤ m - 1 := by
  classical
  have hmem : j ∈ Finset.range m := Finset.mem_range.mpr hj
  have : todo m s i ≤ ((Finset.range m).erase j).card := by
    refine Finset.card_le_card fun j' hj' => ?_
    rw [Finset.mem_filter] at hj'
    rw [Finset.mem_erase]
    exact ⟨fun e => hj'.2 (e ▸ hd), hj'.1⟩
  rwa [Finset.card_erase_of_mem hmem, Finset.card_range] at this

theorem todo_choice {m : Nat} (hm : 1 ≤ m) (s : State) (i : Nat) : ∃ op < m, 0 < todo m s i → ¬ s.done i op := by
  classical
  rcases Nat.eq_zero_or_pos (todo m s i) with h0 | h0
  · exact ⟨0, hm, fun h => by omega⟩
  · obtain ⟨j, hj⟩ := Finset.card_pos.mp h0
    rw [Finset.mem_filter, Finset.mem_range] at hj
    exact ⟨j, hj.1, fun _ => hj.2⟩

/-- An arm at place `p` performs a missing task, if there is one, of the object at place `i`. -/
def Serves (m : Nat) (s : State) (a : Arms) (i p : Nat) : Prop := 0 < todo m s i → ∃ j < m, ¬ s.done i j ∧ a.Work p j

theorem todo_le_all (m : Nat) (s : State) (i : Nat) : todo m s i ≤ m := by
  classical
  exact (Finset.card_filter_le _ _).trans (by rw [Finset.card_range])

/-- The situations of arms that stay at places 1 and 2. -/
structure Steady (m k : Nat) (s : State) (a : Arms) : Prop where
  early : s.time < k
  first : todo m s 0 ≤ 2 * k
  second : todo m s 1 + (s.time + 1) ≤ 2 * k
  third : todo m s 2 + (s.time + 1) ≤ k
  waits : ¬ Moves k s → Serves m s a 1 1 ∧ Serves m s a 2 2
  moves : Moves k s → Serves m s a 0 1 ∧ Serves m s a 1 2
  arms : a = startArms ∨ (a.pos1 = 1 ∧ a.pos2 = 2)

/-- Arms at places 1 and 2 manage `2 * k` tasks, and one more if every new object comes with a task performed. -/
theorem manages_steady {m k most : Nat} (hm1 : 1 ≤ m) (hk : 1 ≤ k) (hmk : m ≤ 2 * k ∨ (m ≤ 2 * k + 1 ∧ most = 0)) : Manages 3 m k most := by
  refine ⟨Steady m k, fun s hs => ?_, fun s a hW s' hst => ⟨fun hM j hj => ?_, ?_⟩⟩
  · have h0 : ∀ i < 3, todo m s i = 0 := by
      intro i hi
      classical
      rw [todo, Finset.card_eq_zero, Finset.filter_eq_empty_iff]
      intro j hj hd
      exact hd (hs.done i hi j (Finset.mem_range.mp hj))
    have ht := hs.time
    have h1 := h0 0 (by omega)
    have h2 := h0 1 (by omega)
    have h3 := h0 2 (by omega)
    exact ⟨by omega, by omega, by omega, by omega, fun _ => ⟨fun h => absurd h (by omega), fun h => absurd h (by omega)⟩,
      fun _ => ⟨fun h => absurd h (by omega), fun h => absurd h (by omega)⟩, .inl rfl⟩
  · have h1 := hW.third
    have h2 : s.time + 1 = k := hM
    exact todo_zero (show todo m s 2 = 0 by omega) hj
  · -- the numbers of tasks in the next state
    have hb : s'.time < k ∧ todo m s' 0 ≤ 2 * k ∧ todo m s' 1 + (s'.time + 1) ≤ 2 * k ∧ todo m s' 2 + (s'.time + 1) ≤ k := by
      have h1 := hW.first
      have h2 := hW.second
      have h3 := hW.third
      have h4 := hW.early
      by_cases hM : Moves k s
      · have ht := hst.moved hM
        have hm : s.time + 1 = k := hM
        obtain ⟨g1, g2⟩ := hW.moves hM
        have e0 : todo m s' 0 ≤ 2 * k := by
          rcases hmk with hmk | ⟨hmk, h0⟩
          · exact (todo_le_all m s' 0).trans hmk
          · by_cases hnew : ∃ j < m, s'.done 0 j
            · obtain ⟨j, hj, hd⟩ := hnew
              have := todo_lt hj hd
              omega
            · have := hst.bad hM fun j hj hd => hnew ⟨j, hj, hd⟩
              have := hst.most
              omega
        have e1 : todo m s' (0 + 1) ≤ todo m s 0 - 1 := todo_pred (fun j hj hd => (hst.pass hM 0 (by omega) j hj).mpr (.inl hd)) fun h => by
          obtain ⟨j, hj, h1, h2⟩ := g1 h
          exact ⟨j, hj, h1, (hst.pass hM 0 (by omega) j hj).mpr (.inr h2)⟩
        have e2 : todo m s' (1 + 1) ≤ todo m s 1 - 1 := todo_pred (fun j hj hd => (hst.pass hM 1 (by omega) j hj).mpr (.inl hd)) fun h => by
          obtain ⟨j, hj, h1, h2⟩ := g2 h
          exact ⟨j, hj, h1, (hst.pass hM 1 (by omega) j hj).mpr (.inr h2)⟩
        rw [ht]
        refine ⟨by omega, by omega, ?_, ?_⟩
        · show todo m s' (0 + 1) + _ ≤ _
          omega
        · show todo m s' (1 + 1) + _ ≤ _
          omega
      · have ht := hst.waits hM
        have hm : s.time + 1 ≠ k := hM
        obtain ⟨g1, g2⟩ := hW.waits hM
        have e0 : todo m s' 0 ≤ todo m s 0 := todo_le fun j hj hd => (hst.stay hM 0 (by omega) j hj).mpr (.inl hd)
        have e1 : todo m s' 1 ≤ todo m s 1 - 1 := todo_pred (fun j hj hd => (hst.stay hM 1 (by omega) j hj).mpr (.inl hd)) fun h => by
          obtain ⟨j, hj, h1, h2⟩ := g1 h
          exact ⟨j, hj, h1, (hst.stay hM 1 (by omega) j hj).mpr (.inr h2)⟩
        have e2 : todo m s' 2 ≤ todo m s 2 - 1 := todo_pred (fun j hj hd => (hst.stay hM 2 (by omega) j hj).mpr (.inl hd)) fun h => by
          obtain ⟨j, hj, h1, h2⟩ := g2 h
          exact ⟨j, hj, h1, (hst.stay hM 2 (by omega) j hj).mpr (.inr h2)⟩
        rw [ht]
        refine ⟨by omega, by omega, by omega, by omega⟩
    obtain ⟨b0, b1, b2, b3⟩ := hb
    have hmv : ∀ op1 op2, op1 < m → op2 < m → Move 3 m a ⟨1, 2, op1, op2⟩ := by
      intro op1 op2 h1 h2
      rcases hW.arms with rfl | ⟨h3, h4⟩
      · exact ⟨by simp, by simp, h1, h2, by simp [startArms], by simp [startArms]⟩
      · exact ⟨by simp, by simp, h1, h2, by simp [h3], by simp [h4]⟩
    obtain ⟨c0, hc0, d0⟩ := todo_choice hm1 s' 0
    obtain ⟨c1, hc1, d1⟩ := todo_choice hm1 s' 1
    obtain ⟨c2, hc2, d2⟩ := todo_choice hm1 s' 2
    by_cases hM : Moves k s'
    · exact ⟨⟨1, 2, c0, c1⟩, hmv _ _ hc0 hc1, b0, b1, b2, b3, fun h => absurd hM h,
        fun _ => ⟨fun h => ⟨c0, hc0, d0 h, .inl ⟨rfl, rfl⟩⟩, fun h => ⟨c1, hc1, d1 h, .inr ⟨rfl, rfl⟩⟩⟩, .inr ⟨rfl, rfl⟩⟩
    · exact ⟨⟨1, 2, c1, c2⟩, hmv _ _ hc1 hc2, b0, b1, b2, b3,
        fun _ => ⟨fun h => ⟨c1, hc1, d1 h, .inl ⟨rfl, rfl⟩⟩, fun h => ⟨c2, hc2, d2 h, .inr ⟨rfl, rfl⟩⟩⟩, fun h => absurd h hM, .inr ⟨rfl, rfl⟩⟩

/-- Up to `2 * k` tasks, the arms manage with any number of errors. -/
theorem manages_few {n m k : Nat} (most : Nat) (hn : 3 ≤ n) (hm : 1 ≤ m) (hk : 1 ≤ k) (h : m ≤ 2 * k) : Manages n m k most :=
  manages_mono (Nat.le_refl 3) hm hk hn (Nat.le_refl m) (Nat.le_refl k) (Nat.le_refl most) (manages_steady hm hk (.inl h))

/-- Without errors, the arms manage exactly up to `2 * k + 1` tasks, for all lengths of the belt. -/
theorem manages_zero_iff {n m k : Nat} (hn : 3 ≤ n) (hm : 1 ≤ m) (hk : 1 ≤ k) : Manages n m k 0 ↔ m ≤ 2 * k + 1 := by
  refine ⟨fun h => ?_, fun h => manages_mono (Nat.le_refl 3) hm hk hn (Nat.le_refl m) (Nat.le_refl k) (Nat.le_refl 0) (manages_steady hm hk (.inr ⟨h, rfl⟩))⟩
  by_contra hlt
  exact loses_throughput (by omega) hk (by omega) h

open Classical in
/-- What the belt does if every new object comes without a task performed. -/
noncomputable def badState (k : Nat) (a : Arms) (s : State) : State where
  time := if Moves k s then 0 else s.time + 1
  done i j := if Moves k s then (match i with | 0 => False | i + 1 => s.done i j ∨ a.Work (i + 1) j) else s.done i j ∨ a.Work i j
  errors := if Moves k s then s.errors + 1 else s.errors

theorem badState_step {n m k most : Nat} {a : Arms} {s : State} (he : s.errors < most) : Step n m k most a s (badState k a s) where
  moved h := if_pos h
  waits h := if_neg h
  stay h i _ j _ := by simp only [badState, if_neg h]
  pass h i _ j _ := by simp only [badState, if_pos h]
  good h := by
    by_cases hM : Moves k s
    · rcases h with h | ⟨j, _, hd⟩
      · exact absurd hM h
      · simp only [badState, if_pos hM] at hd
    · simp only [badState, if_neg hM]
  bad h1 _ := by simp only [badState, if_pos h1]
  most := by
    simp only [badState]
    split <;> omega

theorem bad_stay {n m k : Nat} {a : Arms} {s : State} (h : ¬ Moves k s) : (missing n m s).card ≤ (missing n m (badState k a s)).card + 2 := by
  have : badState k a s = nextState k a s := by simp only [badState, nextState, if_neg h]
  rw [this]
  exact missing_stay h

theorem bad_move {n m k : Nat} {a : Arms} {s : State} (hn : 1 ≤ n) (hm : 1 ≤ m) (h : Moves k s) (hlast : ∀ j < m, s.done (n - 1) j) :
    (missing n m s).card + m ≤ (missing n m (badState k a s)).card + 2 := by
  classical
  have h1 := missing_move (a := a) hn h hlast
  have hsub : insert (0, 0) (missing n m (nextState k a s)) ⊆ missing n m (badState k a s) := by
    rintro ⟨i, j⟩ hp
    rcases Finset.mem_insert.mp hp with he | hp
    · obtain ⟨rfl, rfl⟩ := Prod.mk.inj he
      rw [mem_missing]
      exact ⟨⟨hn, hm⟩, by simp only [badState, if_pos h, not_false_eq_true]⟩
    · rw [mem_missing] at hp ⊢
      refine ⟨hp.1, fun hd => hp.2 ?_⟩
      cases i with
      | zero => simp only [badState, if_pos h] at hd
      | succ i => simpa only [badState, nextState, if_pos h] using hd
  have hnot : ((0, 0) : Nat × Nat) ∉ missing n m (nextState k a s) := by
    rw [mem_missing]
    simp only [nextState, if_pos h, not_true_eq_false, and_false, not_false_eq_true]
  have h2 := Finset.card_le_card hsub
  rw [Finset.card_insert_of_notMem hnot] at h2
  omega

/-- With `2 * k + 1` tasks, no belt can take any number of errors: the arms never catch up. -/
theorem loses_errors {n m k most : Nat} (hn : 1 ≤ n) (hk : 1 ≤ k) (h : 2 * k + 1 ≤ m) (hmost : n * m + 2 * k < most) : ¬ Manages n m k most := by
  rintro ⟨W, h0, hW⟩
  have key : ∀ N, ∃ s a, W s a ∧ s.time < k ∧ s.errors ≤ (missing n m s).card + 2 * s.time ∧ N ≤ k * s.errors + s.time := by
    intro N
    induction N with
    | zero => exact ⟨⟨0, fun _ _ => True, 0⟩, startArms, h0 _ ⟨rfl, fun _ _ _ _ => trivial, rfl⟩, hk, Nat.zero_le _, Nat.zero_le _⟩
    | succ N ih =>
      obtain ⟨s, a, hw, ht, he, hN⟩ := ih
      have hle := missing_le n m s
      obtain ⟨hg, a', _, hw'⟩ := hW s a hw _ (badState_step (n := n) (m := m) (k := k) (a := a) (show s.errors < most by omega))
      refine ⟨_, a', hw', ?_⟩
      by_cases hM : Moves k s
      · have h1 : (badState k a s).time = 0 := if_pos hM
        have h2 : (badState k a s).errors = s.errors + 1 := if_pos hM
        have h3 : s.time + 1 = k := hM
        have h4 := bad_move (a := a) hn (by omega) hM (hg hM)
        rw [h1, h2]
        refine ⟨by omega, by omega, ?_⟩
        rw [Nat.mul_add k _ 1]
        omega
      · have h1 : (badState k a s).time = s.time + 1 := if_neg hM
        have h2 : (badState k a s).errors = s.errors := if_neg hM
        have h3 : s.time + 1 ≠ k := hM
        have h4 := bad_stay (n := n) (m := m) (a := a) hM
        rw [h1, h2]
        refine ⟨by omega, by omega, by omega⟩
  obtain ⟨s, a, _, ht, he, hN⟩ := key (k * (n * m + 2 * k) + k)
  have h1 := missing_le n m s
  have h2 : s.errors ≤ n * m + 2 * k := by omega
  have h3 := Nat.mul_le_mul_left k h2
  omega

/-- A belt can be too short for an object without a task performed: only one arm can be at its place, and it is on the belt for `n * k - 1` steps. -/
theorem loses_short {n m k most : Nat} (hn : 1 ≤ n) (hk : 1 ≤ k) (hmost : 1 ≤ most) (h : n * k ≤ m) : ¬ Manages n m k most := by
  rintro ⟨W, h0, hW⟩
  have hnk : 1 ≤ n * k := Nat.mul_pos hn hk
  have hm : 1 ≤ m := by omega
  have one : ∀ (a : Arms) (p : Nat), a.pos1 < a.pos2 → ∃ x, ∀ j, a.Work p j → j = x := by
    intro a p hap
    by_cases hp : a.pos1 = p
    · exact ⟨a.op1, fun j hj => by rcases hj with ⟨_, h⟩ | ⟨h', _⟩ <;> omega⟩
    · exact ⟨a.op2, fun j hj => by rcases hj with ⟨h', _⟩ | ⟨_, h⟩ <;> omega⟩
  -- an object on which at most the tasks in a list have been performed
  have key : ∀ r, ∀ (s : State) (a : Arms) (L : List Nat) (i : Nat), W s a → a.pos1 < a.pos2 → s.errors ≤ most → i < n → s.time < k → (∀ j < m, s.done i j → j ∈ L) →
      r = (n - 1 - i) * k + (k - 1 - s.time) → L.length + r < m → False := by
    intro r
    induction r with
    | zero =>
      intro s a L i hw _ he hi ht hL hr hlen
      have h1 : (n - 1 - i) * k = 0 := by omega
      have h2 : n - 1 - i = 0 := by
        rcases Nat.mul_eq_zero.mp h1 with h | h
        · exact h
        · omega
      have hi' : i = n - 1 := by omega
      subst hi'
      have hd := (hW s a hw _ (nextState_step hm he)).1 (show s.time + 1 = k by omega)
      have hsub : List.range m ⊆ L := fun j hj => hL j (List.mem_range.mp hj) (hd j (List.mem_range.mp hj))
      have := (List.nodup_range.subperm hsub).length_le
      rw [List.length_range] at this
      omega
    | succ r ih =>
      intro s a L i hw hap he hi ht hL hr hlen
      obtain ⟨_, a', hmove, hw'⟩ := hW s a hw _ (nextState_step hm he)
      by_cases hmv : Moves k s
      · have hi1 : i + 1 < n := by
          apply Classical.byContradiction
          intro hc
          have e : n - 1 - i = 0 := by omega
          have e2 : (n - 1 - i) * k = 0 := by rw [e, Nat.zero_mul]
          rw [Moves] at hmv
          omega
        obtain ⟨x, hx⟩ := one a (i + 1) hap
        refine ih (nextState k a s) a' (x :: L) (i + 1) hw' hmove.apart he hi1 ?_ ?_ ?_ (by simp only [List.length_cons]; omega)
        · simp only [nextState, if_pos hmv]; omega
        · intro j hj hd
          simp only [nextState, if_pos hmv] at hd
          rcases hd with hd | hd
          · exact List.mem_cons_of_mem _ (hL j hj hd)
          · rw [hx j hd]; exact List.mem_cons_self
        · simp only [nextState, if_pos hmv]
          have e : (n - 1 - i) * k = (n - 1 - (i + 1)) * k + k := by
            rw [show n - 1 - i = (n - 1 - (i + 1)) + 1 by omega, Nat.add_mul, Nat.one_mul]
          rw [Moves] at hmv
          omega
      · have ht1 : s.time + 1 < k := by rw [Moves] at hmv; omega
        obtain ⟨x, hx⟩ := one a i hap
        refine ih (nextState k a s) a' (x :: L) i hw' hmove.apart he hi ?_ ?_ ?_ (by simp only [List.length_cons]; omega)
        · simp only [nextState, if_neg hmv]; omega
        · intro j hj hd
          simp only [nextState, if_neg hmv] at hd
          rcases hd with hd | hd
          · exact List.mem_cons_of_mem _ (hL j hj hd)
          · rw [hx j hd]; exact List.mem_cons_self
        · simp only [nextState, if_neg hmv]; omega
  -- the first new object
  have first : ∀ r, ∀ (s : State) (a : Arms), W s a → s.errors = 0 → s.time + r + 1 = k → False := by
    intro r
    induction r with
    | zero =>
      intro s a hw he ht
      obtain ⟨_, a', hmove, hw'⟩ := hW s a hw _ (badState_step (n := n) (m := m) (k := k) (a := a) (show s.errors < most by omega))
      have hmv : Moves k s := ht
      refine key _ (badState k a s) a' [] 0 hw' hmove.apart ?_ (by omega) ?_ ?_ rfl ?_
      · simp only [badState, if_pos hmv]; omega
      · simp only [badState, if_pos hmv]; omega
      · intro j _ hd
        simp only [badState, if_pos hmv] at hd
      · simp only [badState, if_pos hmv, List.length_nil]
        have e : n * k = (n - 1 - 0) * k + k := by
          conv => lhs; rw [show n = (n - 1 - 0) + 1 by omega, Nat.add_mul, Nat.one_mul]
        omega
    | succ r ih =>
      intro s a hw he ht
      obtain ⟨_, a', _, hw'⟩ := hW s a hw _ (nextState_step hm (by omega))
      have hmv : ¬ Moves k s := by rw [Moves]; omega
      refine ih (nextState k a s) a' hw' he ?_
      simp only [nextState, if_neg hmv]; omega
  exact first (k - 1) ⟨0, fun _ _ => True, 0⟩ startArms (h0 _ ⟨rfl, fun _ _ _ _ => trivial, rfl⟩) rfl (by simp only; omega)

/-- Which benchmarks are realizable for all numbers of errors. -/
theorem manages_all_iff {n m k : Nat} (hn : 3 ≤ n) (hm : 1 ≤ m) (hk : 1 ≤ k) : (∀ most, Manages n m k most) ↔ m ≤ 2 * k := by
  refine ⟨fun h => ?_, fun h most => manages_few most hn hm hk h⟩
  by_contra hlt
  exact loses_errors (by omega) hk (by omega) (Nat.lt_succ_self _) (h (n * m + 2 * k + 1))

/-- **C92.** For all lengths of the belt and all numbers of errors, slugs calls the benchmark unrealizable if there are more than `2 * k + 1` tasks: a new object comes every
`k` steps with one task performed, and two arms perform at most `2 * k` tasks meanwhile. -/
theorem C92_throughput (thorough : Bool) {n m k : Nat} (most : Nat) (hn : 3 ≤ n) (hk : 1 ≤ k) (h : 2 * k + 1 < m) :
    ∃ out, convert thorough (benchmark n m k most) = .ok out ∧
      ∀ (alg : Algorithm) (cap : Nat) (order : List Char → Bool), (∀ l ∈ splitLines out, l.length ≤ cap) → cap < 2 ^ 32 → ∃ rounds, ∀ fuel, rounds ≤ fuel →
        runSlugs B alg false cap order fuel out = .result false := by
  obtain ⟨out, h1, h2⟩ := C89_verdict (B := B) thorough most hn (show 1 ≤ m by omega) hk
  refine ⟨out, h1, fun alg cap order hl h32 => ?_⟩
  obtain ⟨rounds, h3⟩ := h2 alg cap order hl h32
  exact ⟨rounds, fun fuel hf => (h3 fuel hf).2 (loses_throughput (by omega) hk h)⟩

/-- **C92**, without errors: the verdict is known for all parameters, and does not depend on the length of the belt. -/
theorem C92_no_errors (thorough : Bool) {n m k : Nat} (hn : 3 ≤ n) (hm : 1 ≤ m) (hk : 1 ≤ k) :
    ∃ out, convert thorough (benchmark n m k 0) = .ok out ∧
      ∀ (alg : Algorithm) (cap : Nat) (order : List Char → Bool), (∀ l ∈ splitLines out, l.length ≤ cap) → cap < 2 ^ 32 → ∃ rounds, ∀ fuel, rounds ≤ fuel →
        runSlugs B alg false cap order fuel out = .result (decide (m ≤ 2 * k + 1)) := by
  obtain ⟨out, h1, h2⟩ := C89_verdict (B := B) thorough 0 hn hm hk
  refine ⟨out, h1, fun alg cap order hl h32 => ?_⟩
  obtain ⟨rounds, h3⟩ := h2 alg cap order hl h32
  refine ⟨rounds, fun fuel hf => ?_⟩
  have hi := manages_zero_iff hn hm hk
  by_cases h : m ≤ 2 * k + 1
  · rw [decide_eq_true h]; exact (h3 fuel hf).1 (hi.mpr h)
  · rw [decide_eq_false h]; exact (h3 fuel hf).2 (mt hi.mp h)

/-- **C92**, with any number of errors: up to `2 * k` tasks, slugs calls all benchmarks realizable; with more tasks, those with too many errors are unrealizable; and
so are those whose belt is too short for a single error. -/
theorem C92_errors (thorough : Bool) {n m k : Nat} (most : Nat) (hn : 3 ≤ n) (hm : 1 ≤ m) (hk : 1 ≤ k) :
    ∃ out, convert thorough (benchmark n m k most) = .ok out ∧
      ∀ (alg : Algorithm) (cap : Nat) (order : List Char → Bool), (∀ l ∈ splitLines out, l.length ≤ cap) → cap < 2 ^ 32 → ∃ rounds, ∀ fuel, rounds ≤ fuel →
        (m ≤ 2 * k → runSlugs B alg false cap order fuel out = .result true) ∧
        (2 * k < m → n * m + 2 * k < most → runSlugs B alg false cap order fuel out = .result false) ∧
        (1 ≤ most → n * k ≤ m → runSlugs B alg false cap order fuel out = .result false) := by
  obtain ⟨out, h1, h2⟩ := C89_verdict (B := B) thorough most hn hm hk
  refine ⟨out, h1, fun alg cap order hl h32 => ?_⟩
  obtain ⟨rounds, h3⟩ := h2 alg cap order hl h32
  exact ⟨rounds, fun fuel hf => ⟨fun h => (h3 fuel hf).1 (manages_few most hn hm hk h), fun h h' => (h3 fuel hf).2 (loses_errors (by omega) hk h h'),
    fun h h' => (h3 fuel hf).2 (loses_short (by omega) hk h h')⟩⟩

/-- The published rows without errors (`factory_assembly_line.tex:223-228`). -/
example : Manages 5 3 1 0 ∧ ¬ Manages 5 4 1 0 ∧ Manages 5 5 2 0 ∧ ¬ Manages 5 6 2 0 ∧ Manages 7 3 1 0 ∧ Manages 7 5 2 0 := by
  simp only [manages_zero_iff (show 3 ≤ 5 by omega) (show 1 ≤ 3 by omega) (show 1 ≤ 1 by omega), manages_zero_iff (show 3 ≤ 5 by omega) (show 1 ≤ 4 by omega) (show 1 ≤ 1 by omega),
    manages_zero_iff (show 3 ≤ 5 by omega) (show 1 ≤ 5 by omega) (show 1 ≤ 2 by omega), manages_zero_iff (show 3 ≤ 5 by omega) (show 1 ≤ 6 by omega) (show 1 ≤ 2 by omega),
    manages_zero_iff (show 3 ≤ 7 by omega) (show 1 ≤ 3 by omega) (show 1 ≤ 1 by omega), manages_zero_iff (show 3 ≤ 7 by omega) (show 1 ≤ 5 by omega) (show 1 ≤ 2 by omega)]
  omega
/-- The published row `3 3 1 1` (`factory_assembly_line.tex:230`). -/
example : ¬ Manages 3 3 1 1 := loses_short (by omega) (by omega) (by omega) (by omega)
/-- Five places and two steps between moves: four tasks can be managed with any number of errors, five cannot. -/
example : Manages 5 4 2 1000 ∧ ¬ Manages 5 5 2 30 := ⟨manages_few _ (by omega) (by omega) (by omega) (by omega), loses_errors (by omega) (by omega) (by omega) (by omega)⟩

end Slugs.Props
