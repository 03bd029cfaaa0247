import Verif.Props.FactoryBusy
import Mathlib.Algebra.BigOperators.Fin
import Mathlib.Algebra.Order.BigOperators.Group.Finset

/-!
# C93: how many errors the assembly line can take

With `2 * k + 1` tasks, the arms fall behind by one task with every error.  They can make up for this by working later on the objects.
-/

namespace Slugs.Props

open Slugs.Spec Slugs.Spec.Structured Slugs.Model Slugs.Model.Structured Slugs.Model.Factory Slugs.Spec.Factory

variable {B : Type} [DecidableEq B] [L : BddLib B]

/-- The tasks that an arm will perform on an object of the given age, if it works on objects in `k` steps from age `z` on. -/
def rem (z k age : Nat) : Nat := min k (z + k - 1 - age)

/-- A plan: arm 1 works on objects from age `x` on, and arm 2 from age `y` on; `p` and `q` are the additional tasks that the arms will perform on objects that came with an error. -/
structure Plan (n k dx dy : Nat) (s : State) (x y : Nat) (p q : Nat → Nat) : Prop where
  early : s.time < k
  hx : 1 ≤ x
  hxy : x + k ≤ y
  hP : x + (Finset.range n).sum p ≤ (n - 2) * k
  hQ : y + (Finset.range n).sum q ≤ (n - 2) * k + k
  hC : x + (Finset.range n).sum p + (y + (Finset.range n).sum q) ≤ s.errors + k + 2
  hA : 1 < x + (Finset.range n).sum p → y + (Finset.range n).sum q = (n - 2) * k + k
  hB : ∀ i < n, ∀ j < n, 0 < p i → 0 < q j → i < j
  hp1 : ∀ i < n, p i ≤ 1
  hq1 : ∀ i < n, q i ≤ 1
  hp : ∀ i < n, 0 < p i → i * k + s.time + 1 < x + k + dx
  hq : ∀ i < n, 0 < q i → i * k + s.time + 1 < y + k + dy
  hT : ∀ i < n, todo (2 * k + 1) s i ≤ rem x k (i * k + s.time) + rem y k (i * k + s.time) + p i + q i

theorem sum_update {n i : Nat} {q : Nat → Nat} (hi : i < n) (h1 : q i = 1) :
    (Finset.range n).sum (Function.update q i 0) + 1 = (Finset.range n).sum q := by
  have hm : i ∈ Finset.range n := Finset.mem_range.mpr hi
  rw [Finset.sum_update_of_mem hm, ← Finset.add_sum_erase _ _ hm, h1, Finset.sdiff_singleton_eq_erase]
  omega

theorem plan_shift2 {n k dx : Nat} {s : State} {x y : Nat} {p q : Nat → Nat} (h : Plan n k dx 1 s x y p q) :
    ∃ y' q', y ≤ y' ∧ y' ≤ y + 1 ∧ Plan n k dx 0 s x y' p q' := by
  by_cases hc : ∃ i, i < n ∧ 0 < q i ∧ i * k + s.time + 1 = y + k
  · obtain ⟨i, hi, hqi, hage⟩ := hc
    have hq1 : q i = 1 := by have := h.hq1 i hi; omega
    have hsum := sum_update hi hq1
    have hle : ∀ j, Function.update q i 0 j ≤ q j := by
      intro j
      by_cases e : j = i
      · subst e; simp
      · simp [Function.update_of_ne e]
    have hxy := h.hxy; have hQ := h.hQ; have hC := h.hC; have hA := h.hA; have he := h.early
    refine ⟨y + 1, Function.update q i 0, by omega, by omega, h.early, h.hx, by omega, h.hP, by omega, by omega, fun h1 => by have := hA h1; omega, ?_, h.hp1, ?_, h.hp, ?_, ?_⟩
    · intro a ha b hb h1 h2
      exact h.hB a ha b hb h1 (Nat.lt_of_lt_of_le h2 (hle b))
    · intro j hj; exact (hle j).trans (h.hq1 j hj)
    · intro j hj h1
      have := h.hq j hj (Nat.lt_of_lt_of_le h1 (hle j))
      omega
    · intro j hj
      have hT := h.hT j hj
      by_cases e : j = i
      · subst e
        rw [Function.update_self]
        simp only [rem] at hT ⊢
        omega
      · rw [Function.update_of_ne e]
        simp only [rem] at hT ⊢
        omega
  · refine ⟨y, q, Nat.le_refl _, Nat.le_succ _, { h with hq := fun i hi h1 => ?_ }⟩
    have h2 := h.hq i hi h1
    have h3 : i * k + s.time + 1 ≠ y + k := fun e => hc ⟨i, hi, h1, e⟩
    omega

theorem plan_shift1 {n k : Nat} {s : State} {x y : Nat} {p q : Nat → Nat} (h : Plan n k 1 0 s x y p q) :
    ∃ x' p', x ≤ x' ∧ x' ≤ x + 1 ∧ Plan n k 0 0 s x' y p' q := by
  by_cases hc : ∃ i, i < n ∧ 0 < p i ∧ i * k + s.time + 1 = x + k
  · obtain ⟨i, hi, hpi, hage⟩ := hc
    have hp1 : p i = 1 := by have := h.hp1 i hi; omega
    have hsum := sum_update hi hp1
    have hle : ∀ j, Function.update p i 0 j ≤ p j := by
      intro j
      by_cases e : j = i
      · subst e; simp
      · simp [Function.update_of_ne e]
    have hx := h.hx; have hxy := h.hxy; have hP := h.hP; have hC := h.hC; have hA := h.hA; have he := h.early
    have hne : x + k ≠ y := by
      intro e
      have hz : (Finset.range n).sum q = 0 := by
        refine Finset.sum_eq_zero fun j hj => ?_
        rw [Finset.mem_range] at hj
        by_contra h0
        have h1 := h.hB i hi j hj hpi (by omega)
        have h2 := h.hq j hj (by omega)
        have h3 : (i + 1) * k ≤ j * k := Nat.mul_le_mul_right k h1
        rw [Nat.add_mul, Nat.one_mul] at h3
        omega
      have := hA (by omega)
      omega
    refine ⟨x + 1, Function.update p i 0, by omega, by omega, h.early, by omega, by omega, by omega, h.hQ, by omega, fun h1 => hA (by omega), ?_, ?_, h.hq1, ?_, h.hq, ?_⟩
    · intro a ha b hb h1 h2
      exact h.hB a ha b hb (Nat.lt_of_lt_of_le h1 (hle a)) h2
    · intro j hj; exact (hle j).trans (h.hp1 j hj)
    · intro j hj h1
      have := h.hp j hj (Nat.lt_of_lt_of_le h1 (hle j))
      omega
    · intro j hj
      have hT := h.hT j hj
      by_cases e : j = i
      · subst e
        rw [Function.update_self]
        simp only [rem] at hT ⊢
        omega
      · rw [Function.update_of_ne e]
        simp only [rem] at hT ⊢
        omega
  · refine ⟨x, p, Nat.le_refl _, Nat.le_succ _, { h with hp := fun i hi h1 => ?_ }⟩
    have h2 := h.hp i hi h1
    have h3 : i * k + s.time + 1 ≠ x + k := fun e => hc ⟨i, hi, h1, e⟩
    omega

/-- The arms work on the objects as planned. -/
def Follows (n k : Nat) (s : State) (a : Arms) (x y : Nat) : Prop :=
  ∀ i < n, 0 < todo (2 * k + 1) s i → (x ≤ i * k + s.time + 1 ∧ i * k + s.time + 1 < x + k) ∨ (y ≤ i * k + s.time + 1 ∧ i * k + s.time + 1 < y + k) →
    ∃ j < 2 * k + 1, ¬ s.done i j ∧ (¬ Moves k s → a.Work i j) ∧ (Moves k s → a.Work (i + 1) j)

/-- The labels of the objects after the belt has moved. -/
def pushed (e : Nat) (p : Nat → Nat) : Nat → Nat
  | 0 => e
  | i + 1 => p i

theorem pushed_sum {n e : Nat} {p : Nat → Nat} (hn : 1 ≤ n) (hl : p (n - 1) = 0) : (Finset.range n).sum (pushed e p) = (Finset.range n).sum p + e := by
  obtain ⟨n, rfl⟩ : ∃ n0, n = n0 + 1 := ⟨n - 1, by omega⟩
  rw [Finset.sum_range_succ', Finset.sum_range_succ]
  simp only [Nat.add_sub_cancel] at hl
  rw [hl]
  rfl

theorem plan_last {n k dx : Nat} (hn : 3 ≤ n) {s : State} {x y : Nat} {p q : Nat → Nat} (h : Plan n k dx 0 s x y p q) (hd : dx = 0) (hM : Moves k s) :
    p (n - 1) = 0 ∧ q (n - 1) = 0 ∧ todo (2 * k + 1) s (n - 1) = 0 := by
  subst hd
  have hxy := h.hxy; have hQ := h.hQ
  have hm : s.time + 1 = k := hM
  have e : (n - 1) * k = (n - 2) * k + k := by
    rw [show n - 1 = n - 2 + 1 by omega, Nat.add_mul, Nat.one_mul]
  have h1 : p (n - 1) = 0 := by
    by_contra h0
    have := h.hp (n - 1) (by omega) (by omega)
    omega
  have h2 : q (n - 1) = 0 := by
    by_contra h0
    have := h.hq (n - 1) (by omega) (by omega)
    omega
  refine ⟨h1, h2, ?_⟩
  have := h.hT (n - 1) (by omega)
  rw [h1, h2] at this
  simp only [rem] at this
  omega

theorem plan_step {n k most : Nat} (hn : 3 ≤ n) (hk : 1 ≤ k) (hmost : most + 2 ≤ 2 * ((n - 2) * k)) {s s' : State} {a : Arms} {x y : Nat} {p q : Nat → Nat}
    (h : Plan n k 0 0 s x y p q) (hf : Follows n k s a x y) (hst : Step n (2 * k + 1) k most a s s') :
    ∃ p' q', Plan n k 1 1 s' x y p' q' ∧ ((∀ i < n, p i = 0 ∧ q i = 0) →
      ∀ i < n, (0 < p' i → i * k + s'.time + 1 < x + k) ∧ (0 < q' i → i * k + s'.time + 1 < y + k)) := by
  have hx := h.hx; have hxy := h.hxy; have hP := h.hP; have hQ := h.hQ; have hC := h.hC; have hA := h.hA; have he := h.early
  by_cases hM : Moves k s
  · have ht := hst.moved hM
    have hm : s.time + 1 = k := hM
    obtain ⟨l1, l2, _⟩ := plan_last hn h rfl hM
    have hstep : ∀ i, i + 1 < n → todo (2 * k + 1) s' (i + 1) ≤ rem x k ((i + 1) * k + 0) + rem y k ((i + 1) * k + 0) + p i + q i := by
      intro i hi
      have hT := h.hT i (by omega)
      have e : (i + 1) * k = i * k + k := by rw [Nat.add_mul, Nat.one_mul]
      have hle : todo (2 * k + 1) s' (i + 1) ≤ todo (2 * k + 1) s i := todo_le fun j hj hd => (hst.pass hM i hi j hj).mpr (.inl hd)
      by_cases hw : (x ≤ i * k + s.time + 1 ∧ i * k + s.time + 1 < x + k) ∨ (y ≤ i * k + s.time + 1 ∧ i * k + s.time + 1 < y + k)
      · have hlt : todo (2 * k + 1) s' (i + 1) ≤ todo (2 * k + 1) s i - 1 := todo_pred (fun j hj hd => (hst.pass hM i hi j hj).mpr (.inl hd)) fun h0 => by
          obtain ⟨j, hj, h1, _, h3⟩ := hf i (by omega) h0 hw
          exact ⟨j, hj, h1, (hst.pass hM i hi j hj).mpr (.inr (h3 hM))⟩
        simp only [rem] at hT ⊢
        omega
      · simp only [rem] at hT ⊢
        omega
    have build : ∀ e1 e2, e1 ≤ 1 → e2 ≤ 1 → todo (2 * k + 1) s' 0 ≤ 2 * k + e1 + e2 →
        x + (Finset.range n).sum p + e1 ≤ (n - 2) * k → y + (Finset.range n).sum q + e2 ≤ (n - 2) * k + k →
        x + (Finset.range n).sum p + e1 + (y + (Finset.range n).sum q + e2) ≤ s'.errors + k + 2 →
        (1 < x + (Finset.range n).sum p + e1 → y + (Finset.range n).sum q + e2 = (n - 2) * k + k) → (0 < e1 → e2 = 0) → (0 < e2 → ∀ i < n, p i = 0) →
        Plan n k 1 1 s' x y (pushed e1 p) (pushed e2 q) := by
      intro e1 e2 b1 b2 b3 b4 b5 b6 b7 b8 b9
      have s1 := pushed_sum (e := e1) (show 1 ≤ n by omega) l1
      have s2 := pushed_sum (e := e2) (show 1 ≤ n by omega) l2
      refine ⟨by omega, hx, hxy, by omega, by omega, by omega, fun h1 => by have := b7 (by omega); omega, ?_, ?_, ?_, ?_, ?_, ?_⟩
      · intro i hi j hj h1 h2
        cases i with
        | zero =>
          cases j with
          | zero =>
            have h1 : 0 < e1 := h1
            have h2 : 0 < e2 := h2
            have := b8 h1
            omega
          | succ j => omega
        | succ i =>
          have h1 : 0 < p i := h1
          cases j with
          | zero =>
            have := b9 h2 i (by omega)
            omega
          | succ j => exact Nat.succ_lt_succ (h.hB i (by omega) j (by omega) h1 h2)
      · intro i hi
        cases i with
        | zero => exact b1
        | succ i => exact h.hp1 i (by omega)
      · intro i hi
        cases i with
        | zero => exact b2
        | succ i => exact h.hq1 i (by omega)
      · intro i hi h1
        rw [ht]
        cases i with
        | zero => rw [Nat.zero_mul]; omega
        | succ i =>
          have := h.hp i (by omega) h1
          rw [Nat.add_mul, Nat.one_mul]
          omega
      · intro i hi h1
        rw [ht]
        cases i with
        | zero => rw [Nat.zero_mul]; omega
        | succ i =>
          have := h.hq i (by omega) h1
          rw [Nat.add_mul, Nat.one_mul]
          omega
      · intro i hi
        rw [ht]
        cases i with
        | zero =>
          show todo (2 * k + 1) s' 0 ≤ _ + _ + e1 + e2
          rw [Nat.zero_mul]
          simp only [rem]
          omega
        | succ i => exact hstep i hi
    have fresh : ∀ e1 e2, (∀ i < n, p i = 0 ∧ q i = 0) →
        ∀ i < n, (0 < pushed e1 p i → i * k + s'.time + 1 < x + k) ∧ (0 < pushed e2 q i → i * k + s'.time + 1 < y + k) := by
      intro e1 e2 h0 i hi
      cases i with
      | zero => rw [ht, Nat.zero_mul]; omega
      | succ i =>
        obtain ⟨z1, z2⟩ := h0 i (by omega)
        refine ⟨fun h1 => ?_, fun h1 => ?_⟩
        · have h1 : 0 < p i := h1
          omega
        · have h1 : 0 < q i := h1
          omega
    by_cases hnew : ∃ j < 2 * k + 1, s'.done 0 j
    · have herr := hst.good (.inr hnew)
      obtain ⟨j, hj, hd⟩ := hnew
      have := todo_lt hj hd
      exact ⟨_, _, build 0 0 (by omega) (by omega) (by omega) (by omega) (by omega) (by omega) (fun h1 => by have := hA (by omega); omega) (fun _ => rfl)
        (fun h => absurd h (by omega)), fresh 0 0⟩
    · have herr := hst.bad hM fun j hj hd => hnew ⟨j, hj, hd⟩
      have hmo := hst.most
      have hall := todo_le_all (2 * k + 1) s' 0
      by_cases hfull : y + (Finset.range n).sum q = (n - 2) * k + k
      · exact ⟨_, _, build 1 0 (by omega) (by omega) (by omega) (by omega) (by omega) (by omega) (fun _ => by omega) (fun _ => rfl) (fun h => absurd h (by omega)),
          fresh 1 0⟩
      · have hz : (Finset.range n).sum p = 0 := by
          by_contra h0
          exact hfull (hA (by omega))
        have hx1 : ¬ 1 < x + (Finset.range n).sum p := fun h1 => hfull (hA h1)
        exact ⟨_, _, build 0 1 (by omega) (by omega) (by omega) (by omega) (by omega) (by omega) (fun h1 => absurd h1 (by omega)) (fun h => absurd h (by omega))
          (fun _ i hi => by
            have := Finset.sum_eq_zero_iff.mp hz i (Finset.mem_range.mpr hi)
            exact this), fresh 0 1⟩
  · have ht := hst.waits hM
    have hm : s.time + 1 ≠ k := hM
    have herr := hst.good (.inl hM)
    refine ⟨p, q, ⟨by omega, hx, hxy, hP, hQ, by omega, hA, h.hB, h.hp1, h.hq1, ?_, ?_, ?_⟩, fun h0 i hi => ?_⟩
    · intro i hi h1
      have := h.hp i hi h1
      omega
    · intro i hi h1
      have := h.hq i hi h1
      omega
    · intro i hi
      rw [ht]
      have hT := h.hT i hi
      have hle : todo (2 * k + 1) s' i ≤ todo (2 * k + 1) s i := todo_le fun j hj hd => (hst.stay hM i hi j hj).mpr (.inl hd)
      by_cases hw : (x ≤ i * k + s.time + 1 ∧ i * k + s.time + 1 < x + k) ∨ (y ≤ i * k + s.time + 1 ∧ i * k + s.time + 1 < y + k)
      · have hlt : todo (2 * k + 1) s' i ≤ todo (2 * k + 1) s i - 1 := todo_pred (fun j hj hd => (hst.stay hM i hi j hj).mpr (.inl hd)) fun h0 => by
          obtain ⟨j, hj, h1, h2, _⟩ := hf i hi h0 hw
          exact ⟨j, hj, h1, (hst.stay hM i hi j hj).mpr (.inr (h2 hM))⟩
        simp only [rem] at hT ⊢
        omega
      · simp only [rem] at hT ⊢
        omega
    · obtain ⟨z1, z2⟩ := h0 i hi
      omega

/-- The place of an arm that works on objects from age `z` on, when the time is `t`. -/
def armPlace (z k t : Nat) : Nat := (z + k - 1 - t) / k

open Classical in
/-- The time after the next step. -/
noncomputable def nextTime (k : Nat) (s : State) : Nat := if Moves k s then 0 else s.time + 1

theorem armPlace_eq {z k t p : Nat} (h1 : z ≤ p * k + t) (h2 : p * k + t < z + k) : armPlace z k t = p := by
  refine Nat.div_eq_of_lt_le ?_ ?_
  · omega
  · rw [Nat.add_mul, Nat.one_mul]; omega

theorem div_near {k A A' : Nat} (hk : 1 ≤ k) (h : A ≤ A' + k) : A / k ≤ A' / k + 1 := by
  rw [← Nat.add_div_right A' (by omega)]
  exact Nat.div_le_div_right h

theorem arms_choice {n k : Nat} (hn : 3 ≤ n) (hk : 1 ≤ k) {s : State} {x y : Nat} {p q : Nat → Nat} (h : Plan n k 0 0 s x y p q) :
    ∃ a : Arms, a.pos1 = armPlace x k (nextTime k s) ∧ a.pos2 = armPlace y k (nextTime k s) ∧ a.pos1 < a.pos2 ∧ a.pos2 < n ∧ a.op1 < 2 * k + 1 ∧ a.op2 < 2 * k + 1 ∧
      Follows n k s a x y := by
  have he := h.early; have hx := h.hx; have hxy := h.hxy; have hQ := h.hQ
  have htau : nextTime k s < k := by
    by_cases hM : Moves k s
    · simp only [nextTime, if_pos hM]; omega
    · have hm : s.time + 1 ≠ k := hM
      simp only [nextTime, if_neg hM]; omega
  have src : ∀ z, ∃ i0, ∀ i, z ≤ i * k + s.time + 1 → i * k + s.time + 1 < z + k → i = i0 ∧ (¬ Moves k s → armPlace z k (nextTime k s) = i) ∧
      (Moves k s → armPlace z k (nextTime k s) = i + 1) := by
    intro z
    by_cases hM : Moves k s
    · have hm : s.time + 1 = k := hM
      refine ⟨armPlace z k (nextTime k s) - 1, fun i h1 h2 => ?_⟩
      have : armPlace z k (nextTime k s) = i + 1 := by
        simp only [nextTime, if_pos hM]
        refine armPlace_eq ?_ ?_ <;> rw [Nat.add_mul, Nat.one_mul] <;> omega
      exact ⟨by omega, fun h => absurd hM h, fun _ => this⟩
    · refine ⟨armPlace z k (nextTime k s), fun i h1 h2 => ?_⟩
      have : armPlace z k (nextTime k s) = i := by
        simp only [nextTime, if_neg hM]
        exact armPlace_eq (by omega) (by omega)
      exact ⟨this.symm, fun _ => this, fun h => absurd h hM⟩
  obtain ⟨i1, hi1⟩ := src x
  obtain ⟨i2, hi2⟩ := src y
  obtain ⟨c1, hc1, d1⟩ := todo_choice (show 1 ≤ 2 * k + 1 by omega) s i1
  obtain ⟨c2, hc2, d2⟩ := todo_choice (show 1 ≤ 2 * k + 1 by omega) s i2
  refine ⟨⟨armPlace x k (nextTime k s), armPlace y k (nextTime k s), c1, c2⟩, rfl, rfl, ?_, ?_, hc1, hc2, ?_⟩
  · show (x + k - 1 - _) / k < (y + k - 1 - _) / k
    have : (x + k - 1 - nextTime k s) / k + 1 ≤ (y + k - 1 - nextTime k s) / k := by
      rw [← Nat.add_div_right _ (by omega)]
      exact Nat.div_le_div_right (by omega)
    omega
  · show (y + k - 1 - _) / k < n
    rw [Nat.div_lt_iff_lt_mul (by omega)]
    have e : n * k = (n - 2) * k + 2 * k := by rw [← Nat.add_mul, show n - 2 + 2 = n by omega]
    omega
  · intro i hi h0 hw
    rcases hw with ⟨h1, h2⟩ | ⟨h1, h2⟩
    · obtain ⟨rfl, g1, g2⟩ := hi1 i h1 h2
      exact ⟨c1, hc1, d1 h0, fun hM => .inl ⟨g1 hM, rfl⟩, fun hM => .inl ⟨g2 hM, rfl⟩⟩
    · obtain ⟨rfl, g1, g2⟩ := hi2 i h1 h2
      exact ⟨c2, hc2, d2 h0, fun hM => .inr ⟨g1 hM, rfl⟩, fun hM => .inr ⟨g2 hM, rfl⟩⟩

/-- The arms manage `2 * k + 1` tasks with up to `2 * ((n - 2) * k - 1)` errors. -/
theorem manages_errors {n k most : Nat} (hn : 3 ≤ n) (hk : 1 ≤ k) (hmost : most + 2 ≤ 2 * ((n - 2) * k)) : Manages n (2 * k + 1) k most := by
  refine ⟨fun s a => ∃ x y p q, Plan n k 0 0 s x y p q ∧ Follows n k s a x y ∧ ((a.pos1 = armPlace x k (nextTime k s) ∧ a.pos2 = armPlace y k (nextTime k s)) ∨
    (a = startArms ∧ x = 1 ∧ y = k + 1 ∧ ∀ i < n, p i = 0 ∧ q i = 0)), fun s hs => ?_, ?_⟩
  · have h0 : ∀ i < n, todo (2 * k + 1) s i = 0 := by
      intro i hi
      classical
      rw [todo, Finset.card_eq_zero, Finset.filter_eq_empty_iff]
      intro j hj hd
      exact hd (hs.done i hi j (Finset.mem_range.mp hj))
    have hnk : 1 ≤ (n - 2) * k := Nat.mul_pos (by omega) hk
    have ht := hs.time
    have hz : (Finset.range n).sum (fun _ : Nat => 0) = 0 := Finset.sum_const_zero
    refine ⟨1, k + 1, fun _ => 0, fun _ => 0, ⟨by omega, by omega, by omega, by rw [hz]; omega, by rw [hz]; omega, by rw [hz]; omega, by rw [hz]; omega,
      fun _ _ _ _ h => absurd h (by omega), fun _ _ => by omega, fun _ _ => by omega, fun _ _ h => absurd h (by omega), fun _ _ h => absurd h (by omega),
      fun i hi => by rw [h0 i hi]; exact Nat.zero_le _⟩, fun i hi h => absurd h (by rw [h0 i hi]; omega), .inr ⟨rfl, rfl, rfl, fun _ _ => ⟨rfl, rfl⟩⟩⟩
  · rintro s a ⟨x, y, p, q, hp, hf, ha⟩ s' hst
    refine ⟨fun hM j hj => todo_zero (plan_last hn hp rfl hM).2.2 hj, ?_⟩
    obtain ⟨p', q', hp', hfresh⟩ := plan_step hn hk hmost hp hf hst
    have ht' : s'.time = nextTime k s := by
      by_cases hM : Moves k s
      · rw [hst.moved hM]; simp only [nextTime, if_pos hM]
      · rw [hst.waits hM]; simp only [nextTime, if_neg hM]
    have he' := hp'.early
    have hnext : (nextTime k s' = 0 ∧ s'.time + 1 = k) ∨ (nextTime k s' = s'.time + 1 ∧ s'.time + 1 < k) := by
      by_cases hM : Moves k s'
      · exact .inl ⟨by simp only [nextTime, if_pos hM], hM⟩
      · have hm : s'.time + 1 ≠ k := hM
        exact .inr ⟨by simp only [nextTime, if_neg hM], by omega⟩
    rcases ha with ⟨a1, a2⟩ | ⟨rfl, rfl, rfl, hz⟩
    · obtain ⟨y', q'', hy1, hy2, hp2⟩ := plan_shift2 hp'
      obtain ⟨x', p'', hx1, hx2, hp3⟩ := plan_shift1 hp2
      obtain ⟨a', b1, b2, b3, b4, b5, b6, b7⟩ := arms_choice hn hk hp3
      refine ⟨a', ⟨b3, b4, b5, b6, ?_, ?_⟩, x', y', p'', q'', hp3, b7, .inl ⟨b1, b2⟩⟩
      · rw [a1, b1, ← ht']
        simp only [armPlace]
        exact ⟨div_near hk (by omega), div_near hk (by omega)⟩
      · rw [a2, b2, ← ht']
        simp only [armPlace]
        exact ⟨div_near hk (by omega), div_near hk (by omega)⟩
    · have hp3 : Plan n k 0 0 s' 1 (k + 1) p' q' :=
        { hp' with hp := fun i hi h1 => (hfresh hz i hi).1 h1, hq := fun i hi h1 => (hfresh hz i hi).2 h1 }
      obtain ⟨a', b1, b2, b3, b4, b5, b6, b7⟩ := arms_choice hn hk hp3
      refine ⟨a', ⟨b3, b4, b5, b6, ?_, ?_⟩, 1, k + 1, p', q', hp3, b7, .inl ⟨b1, b2⟩⟩
      · have : armPlace 1 k (nextTime k s') < 2 := by
          rw [armPlace, Nat.div_lt_iff_lt_mul (by omega)]
          omega
        simp only [startArms]
        omega
      · have h1 : armPlace (k + 1) k (nextTime k s') < 3 := by
          rw [armPlace, Nat.div_lt_iff_lt_mul (by omega)]
          omega
        have h2 : 1 ≤ armPlace (k + 1) k (nextTime k s') := by
          rw [armPlace, Nat.le_div_iff_mul_le (by omega)]
          omega
        simp only [startArms]
        omega

/-- **C93.** With `2 * k + 1` tasks, slugs calls all benchmarks with up to `2 * ((n - 2) * k - 1)` errors realizable. -/
theorem C93_realizable (thorough : Bool) {n k most : Nat} (hn : 3 ≤ n) (hk : 1 ≤ k) (hmost : most + 2 ≤ 2 * ((n - 2) * k)) :
    ∃ out, convert thorough (benchmark n (2 * k + 1) k most) = .ok out ∧
      ∀ (alg : Algorithm) (cap : Nat) (order : List Char → Bool), (∀ l ∈ splitLines out, l.length ≤ cap) → cap < 2 ^ 32 → ∃ rounds, ∀ fuel, rounds ≤ fuel →
        runSlugs B alg false cap order fuel out = .result true := by
  obtain ⟨out, h1, h2⟩ := C89_verdict (B := B) thorough most hn (show 1 ≤ 2 * k + 1 by omega) hk
  refine ⟨out, h1, fun alg cap order hl h32 => ?_⟩
  obtain ⟨rounds, h3⟩ := h2 alg cap order hl h32
  exact ⟨rounds, fun fuel hf => (h3 fuel hf).1 (manages_errors hn hk hmost)⟩

/-- The published rows with errors that are realizable (`factory_assembly_line.tex:231-237`). -/
example : Manages 4 3 1 1 := manages_errors (k := 1) (by omega) (by omega) (by omega)
example : Manages 5 3 1 4 := manages_errors (k := 1) (by omega) (by omega) (by omega)
example : Manages 5 5 2 1 := manages_errors (k := 2) (by omega) (by omega) (by omega)
example : Manages 5 5 2 10 := manages_errors (k := 2) (by omega) (by omega) (by omega)
example : Manages 7 5 2 10 := manages_errors (k := 2) (by omega) (by omega) (by omega)
/-- The row with the verdict "unknown" (`factory_assembly_line.tex:238`): this benchmark is realizable. -/
example : Manages 7 5 2 11 := manages_errors (k := 2) (by omega) (by omega) (by omega)

end Slugs.Props
