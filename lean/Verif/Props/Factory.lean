import Verif.Lemmas.FactoryGame
import Verif.Props.StructuredFiles

/-!
# C89: the benchmarks about an assembly line

`Spec/Factory.lean` defines the assembly line; `benchmark` is the model of the script that writes the specification files.
-/

namespace Slugs.Props

open Slugs.Spec Slugs.Spec.Structured Slugs.Model Slugs.Model.Structured Slugs.Model.Factory Slugs.Spec.Factory

variable {B : Type} [DecidableEq B] [L : BddLib B]

/-- **C89.** The file for a belt with `n` places, `m` tasks, `k` steps between moves of the belt and a number of errors is a proper structured specification; and it is
realizable exactly if the arms can perform all tasks on all objects in time. -/
theorem C89_game {n m k : Nat} (most : Nat) (hn : 3 ≤ n) (hm : 1 ≤ m) (hk : 1 ≤ k) :
    ∃ S, SDenotes (benchmark n m k most) S ∧ (S.game.Realizable ↔ Manages n m k most) :=
  ⟨_, benchmark_denotes hn hm hk, realizable_iff hn hm hk⟩

/-- **C89**, the verdict.  The structured slugs compiler translates the file, and slugs says for the result whether the arms can perform all tasks in time: with all algorithms,
and with and without `--thorough`.  The lines of the translated file must not be longer than slugs can handle. -/
theorem C89_verdict (thorough : Bool) {n m k : Nat} (most : Nat) (hn : 3 ≤ n) (hm : 1 ≤ m) (hk : 1 ≤ k) :
    ∃ out, convert thorough (benchmark n m k most) = .ok out ∧
      ∀ (alg : Algorithm) (cap : Nat) (order : List Char → Bool), (∀ l ∈ splitLines out, l.length ≤ cap) → cap < 2 ^ 32 → ∃ rounds, ∀ fuel, rounds ≤ fuel →
        (Manages n m k most → runSlugs B alg false cap order fuel out = .result true) ∧
        (¬ Manages n m k most → runSlugs B alg false cap order fuel out = .result false) := by
  obtain ⟨out, h1, h2⟩ := C59_structured_verdict (B := B) thorough (benchmark_denotes (most := most) hn hm hk)
  refine ⟨out, h1, fun alg cap order hl h32 => ?_⟩
  obtain ⟨rounds, h3⟩ := h2 alg cap order hl h32
  have hr := realizable_iff (most := most) hn hm hk
  exact ⟨rounds, fun fuel hf => ⟨fun h => (h3 fuel hf).1 (hr.mpr h), fun h => (h3 fuel hf).2.1 (mt hr.mp h)⟩⟩

/-- Two tasks are no problem, however many errors there are: one arm performs each. -/
theorem manages_two {n k most : Nat} (hn : 3 ≤ n) : Manages n 2 k most := by
  refine ⟨fun s a => (a = startArms ∧ ∀ i < n, ∀ j < 2, s.done i j) ∨
    (a = ⟨1, 2, 0, 1⟩ ∧ (∀ i < n, 1 ≤ i → s.done i 0) ∧ ∀ i < n, 2 ≤ i → s.done i 1), fun s hs => .inl ⟨rfl, hs.done⟩, ?_⟩
  rintro s a hW s' hs
  have hlast : ∀ j < 2, s.done (n - 1) j := by
    intro j hj
    rcases hW with ⟨_, h⟩ | ⟨_, h1, h2⟩
    · exact h _ (by omega) j hj
    · rcases Nat.lt_or_ge j 1 with h | h
      · have : j = 0 := by omega
        subst this
        exact h1 _ (by omega) (by omega)
      · have : j = 1 := by omega
        subst this
        exact h2 _ (by omega) (by omega)
  refine ⟨fun _ => hlast, ⟨1, 2, 0, 1⟩, ?_, .inr ⟨rfl, ?_, ?_⟩⟩
  · rcases hW with ⟨rfl, _⟩ | ⟨rfl, _⟩ <;> constructor <;> simp [startArms] <;> omega
  · intro i hi h1
    by_cases hmv : Moves k s
    · obtain ⟨i, rfl⟩ : ∃ i', i = i' + 1 := ⟨i - 1, by omega⟩
      rw [hs.pass hmv i hi 0 (by decide)]
      rcases hW with ⟨_, h⟩ | ⟨rfl, h, _⟩
      · exact .inl (h i (by omega) 0 (by decide))
      · cases i with
        | zero => exact .inr (.inl ⟨rfl, rfl⟩)
        | succ i => exact .inl (h _ (by omega) (by omega))
    · rw [hs.stay hmv i hi 0 (by decide)]
      rcases hW with ⟨_, h⟩ | ⟨_, h, _⟩
      · exact .inl (h i hi 0 (by decide))
      · exact .inl (h i hi h1)
  · intro i hi h1
    by_cases hmv : Moves k s
    · obtain ⟨i, rfl⟩ : ∃ i', i = i' + 1 := ⟨i - 1, by omega⟩
      rw [hs.pass hmv i hi 1 (by decide)]
      rcases hW with ⟨_, h⟩ | ⟨rfl, _, h⟩
      · exact .inl (h i (by omega) 1 (by decide))
      · rcases Nat.lt_or_ge i 2 with h2 | h2
        · have : i = 1 := by omega
          subst this
          exact .inr (.inr ⟨rfl, rfl⟩)
        · exact .inl (h _ (by omega) h2)
    · rw [hs.stay hmv i hi 1 (by decide)]
      rcases hW with ⟨_, h⟩ | ⟨_, _, h⟩
      · exact .inl (h i hi 1 (by decide))
      · exact .inl (h i hi h1)

open Classical in
/-- What the belt does if every new object comes with task 0 performed. -/
noncomputable def nextState (k : Nat) (a : Arms) (s : State) : State where
  time := if Moves k s then 0 else s.time + 1
  done i j := if Moves k s then (match i with | 0 => j = 0 | i + 1 => s.done i j ∨ a.Work (i + 1) j) else s.done i j ∨ a.Work i j
  errors := s.errors

theorem nextState_step {n m k most : Nat} {a : Arms} {s : State} (hm : 1 ≤ m) (he : s.errors ≤ most) : Step n m k most a s (nextState k a s) where
  moved h := if_pos h
  waits h := if_neg h
  stay h i _ j _ := by simp only [nextState, if_neg h]
  pass h i _ j _ := by simp only [nextState, if_pos h]
  good _ := rfl
  bad h1 h2 := absurd (by simp only [nextState, if_pos h1]) (h2 0 hm)
  most := he

/-- Too many tasks cannot be performed: the arms perform two tasks in a step, and an object is on the belt for `n * k` steps. -/
theorem loses_busy {n m k most : Nat} (hn : 1 ≤ n) (hm : 1 ≤ m) (hk : 1 ≤ k) (h : 2 * (n * k) ≤ m) : ¬ Manages n m k most := by
  rintro ⟨W, h0, hW⟩
  -- an object on which at most the tasks in a list have been performed
  have key : ∀ r, ∀ (s : State) (a : Arms) (L : List Nat) (i : Nat), W s a → s.errors ≤ most → i < n → s.time < k → (∀ j < m, s.done i j → j ∈ L) →
      r = (n - 1 - i) * k + (k - 1 - s.time) → L.length + 2 * r < m → False := by
    intro r
    induction r with
    | zero =>
      intro s a L i hw he hi ht hL hr hlen
      have h1 : (n - 1 - i) * k = 0 := by omega
      have h2 : n - 1 - i = 0 := by
        rcases Nat.mul_eq_zero.mp h1 with h | h
        · exact h
        · omega
      have hi' : i = n - 1 := by omega
      subst hi'
      have hd := (hW s a hw _ (nextState_step hm he)).1 (show s.time + 1 = k by omega)
      have hsub : List.range m ⊆ L := fun j hj => hL j (List.mem_range.mp hj) (hd j (List.mem_range.mp hj))
      have := (List.nodup_range.subperm hsub).length_le
      rw [List.length_range] at this
      omega
    | succ r ih =>
      intro s a L i hw he hi ht hL hr hlen
      obtain ⟨_, a', _, hw'⟩ := hW s a hw _ (nextState_step hm he)
      have hwork : ∀ i j, a.Work i j → j ∈ a.op1 :: a.op2 :: L := by
        rintro i j (⟨_, rfl⟩ | ⟨_, rfl⟩) <;> simp
      by_cases hmv : Moves k s
      · have hi1 : i + 1 < n := by
          apply Classical.byContradiction
          intro hc
          have e : n - 1 - i = 0 := by omega
          have e2 : (n - 1 - i) * k = 0 := by rw [e, Nat.zero_mul]
          rw [Moves] at hmv
          omega
        refine ih (nextState k a s) a' (a.op1 :: a.op2 :: L) (i + 1) hw' he hi1 ?_ ?_ ?_ (by simp only [List.length_cons]; omega)
        · simp only [nextState, if_pos hmv]; omega
        · intro j hj hd
          simp only [nextState, if_pos hmv] at hd
          rcases hd with hd | hd
          · simp [hL j hj hd]
          · exact hwork _ _ hd
        · simp only [nextState, if_pos hmv]
          have e : (n - 1 - i) * k = (n - 1 - (i + 1)) * k + k := by
            rw [show n - 1 - i = (n - 1 - (i + 1)) + 1 by omega, Nat.add_mul, Nat.one_mul]
          rw [Moves] at hmv
          omega
      · have ht1 : s.time + 1 < k := by rw [Moves] at hmv; omega
        refine ih (nextState k a s) a' (a.op1 :: a.op2 :: L) i hw' he hi ?_ ?_ ?_ (by simp only [List.length_cons]; omega)
        · simp only [nextState, if_neg hmv]; omega
        · intro j hj hd
          simp only [nextState, if_neg hmv] at hd
          rcases hd with hd | hd
          · simp [hL j hj hd]
          · exact hwork _ _ hd
        · simp only [nextState, if_neg hmv]; omega
  -- the first new object
  have first : ∀ r, ∀ (s : State) (a : Arms), W s a → s.errors ≤ most → s.time + r + 1 = k → False := by
    intro r
    induction r with
    | zero =>
      intro s a hw he ht
      obtain ⟨_, a', _, hw'⟩ := hW s a hw _ (nextState_step hm he)
      have hmv : Moves k s := ht
      refine key _ (nextState k a s) a' [0] 0 hw' he (by omega) ?_ ?_ rfl ?_
      · simp only [nextState, if_pos hmv]; omega
      · intro j _ hd
        simp only [nextState, if_pos hmv] at hd
        simp [hd]
      · simp only [nextState, if_pos hmv, List.length_singleton]
        have e : n * k = (n - 1 - 0) * k + k := by
          conv => lhs; rw [show n = (n - 1 - 0) + 1 by omega, Nat.add_mul, Nat.one_mul]
        omega
    | succ r ih =>
      intro s a hw he ht
      obtain ⟨_, a', _, hw'⟩ := hW s a hw _ (nextState_step hm he)
      have hmv : ¬ Moves k s := by rw [Moves]; omega
      refine ih (nextState k a s) a' hw' he ?_
      simp only [nextState, if_neg hmv]; omega
  exact first (k - 1) ⟨0, fun _ _ => True, 0⟩ startArms (h0 _ ⟨rfl, fun _ _ _ _ => trivial, rfl⟩) (Nat.zero_le _) (by simp only; omega)

/-! ### Examples -/

/-- The file for a belt with 3 places, 2 tasks, 2 steps between moves and one error. -/
example : benchmark 3 2 2 1 = txt!"[INPUT]\nmovingcounter:0...1\np0_0\np0_1\np1_0\np1_1\np2_0\np2_1\nerrorCount:0...1\n\n[OUTPUT]\narm1:0...2\narm2:0...2\narm1op:0...1\narm2op:0...1\n\n[ENV_TRANS]\nmovingcounter'=0 -> ((p0_0' | p0_1') | errorCount' > errorCount)\nerrorCount' >= errorCount\n\n\nmovingcounter'!=0 -> (p0_0' <-> p0_0 & (movingcounter'!=0) | arm1=0 & arm1op=0 | arm2=0 & arm2op=0)\nmovingcounter'!=0 -> (p0_1' <-> p0_1 & (movingcounter'!=0) | arm1=0 & arm1op=1 | arm2=0 & arm2op=1)\n\np1_0' <-> (p1_0 & (movingcounter'!=0) | arm1=1 & arm1op=0 | arm2=1 & arm2op=0 | (p0_0 & movingcounter'=0))\np1_1' <-> (p1_1 & (movingcounter'!=0) | arm1=1 & arm1op=1 | arm2=1 & arm2op=1 | (p0_1 & movingcounter'=0))\np2_0' <-> (p2_0 & (movingcounter'!=0) | arm1=2 & arm1op=0 | arm2=2 & arm2op=0 | (p1_0 & movingcounter'=0))\np2_1' <-> (p2_1 & (movingcounter'!=0) | arm1=2 & arm1op=1 | arm2=2 & arm2op=1 | (p1_1 & movingcounter'=0))\n\n# The moving counter counts module\n(movingcounter<1) -> (movingcounter' = movingcounter+1)\n(movingcounter=1) -> (movingcounter' = 0)\n\n[SYS_TRANS]\narm1' < arm2'\narm1' <= arm1+1\narm1 <= arm1'+1\narm2' <= arm2+1\narm2 <= arm2'+1\n\n# Everything must be done one step *before* the items are moved away.\n!(!p2_0 & movingcounter'=0)\n!(!p2_1 & movingcounter'=0)\n\n[ENV_INIT]\nmovingcounter = 0\np0_0\np0_1\np1_0\np1_1\np2_0\np2_1\n\n[SYS_INIT]\narm1 = 0\narm2 = 2\narm1op = 0\narm2op = 0\n" := by
  decide +kernel

/-- A realizable and an unrealizable benchmark. -/
example : (∃ S, SDenotes (benchmark 5 2 1 4) S ∧ S.game.Realizable) ∧ ∃ S, SDenotes (benchmark 5 20 2 0) S ∧ ¬ S.game.Realizable := by
  obtain ⟨S, h1, h2⟩ := C89_game (n := 5) (m := 2) (k := 1) 4 (by decide) (by decide) (by decide)
  obtain ⟨S', h3, h4⟩ := C89_game (n := 5) (m := 20) (k := 2) 0 (by decide) (by decide) (by decide)
  exact ⟨⟨S, h1, h2.mpr (manages_two (by decide))⟩, S', h3, fun h => loses_busy (by decide) (by decide) (by decide) (by decide) (h4.mp h)⟩

end Slugs.Props
