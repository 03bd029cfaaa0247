import Verif.Props.Cinderella
import Verif.Props.Evasion
import Verif.Props.Factory

/-!
# C91: benchmarks do not become realizable when they become harder

The scripts write families of benchmarks.  Users compare the verdicts of neighbouring parameters, and rely on them being monotone.
-/

namespace Slugs.Props

open Slugs.Spec Slugs.Spec.Structured Slugs.Model Slugs.Model.Structured

variable {B : Type} [DecidableEq B] [L : BddLib B]

/-- Two structured files can be compiled, and whenever slugs says (with enough rounds for its fixpoints) that the first one is realizable, then it says so for the second one,
for all algorithms, and all orders and sizes of lines that slugs can handle. -/
def RealizableToo (B : Type) [DecidableEq B] [BddLib B] (thorough : Bool) (harder easier : List Char) : Prop :=
  ∃ out out', convert thorough harder = .ok out ∧ convert thorough easier = .ok out' ∧
    ∀ (alg alg' : Algorithm) (cap : Nat) (order order' : List Char → Bool), (∀ l ∈ splitLines out, l.length ≤ cap) → (∀ l ∈ splitLines out', l.length ≤ cap) → cap < 2 ^ 32 →
      ∃ rounds, ∀ fuel fuel', rounds ≤ fuel → rounds ≤ fuel' →
        runSlugs B alg false cap order fuel out = .result true → runSlugs B alg' false cap order' fuel' out' = .result true

/-- A verdict, as in C86, C87 and C89. -/
theorem realizableToo_of {thorough : Bool} {harder easier : List Char} {P Q : Prop} (hPQ : P → Q)
    (h : ∃ out, convert thorough harder = .ok out ∧
      ∀ (alg : Algorithm) (cap : Nat) (order : List Char → Bool), (∀ l ∈ splitLines out, l.length ≤ cap) → cap < 2 ^ 32 → ∃ rounds, ∀ fuel, rounds ≤ fuel →
        (P → runSlugs B alg false cap order fuel out = .result true) ∧ (¬ P → runSlugs B alg false cap order fuel out = .result false))
    (h' : ∃ out, convert thorough easier = .ok out ∧
      ∀ (alg : Algorithm) (cap : Nat) (order : List Char → Bool), (∀ l ∈ splitLines out, l.length ≤ cap) → cap < 2 ^ 32 → ∃ rounds, ∀ fuel, rounds ≤ fuel →
        (Q → runSlugs B alg false cap order fuel out = .result true) ∧ (¬ Q → runSlugs B alg false cap order fuel out = .result false)) :
    RealizableToo B thorough harder easier := by
  obtain ⟨out, h1, h2⟩ := h
  obtain ⟨out', h1', h2'⟩ := h'
  refine ⟨out, out', h1, h1', fun alg alg' cap order order' hl hl' h32 => ?_⟩
  obtain ⟨r, h3⟩ := h2 alg cap order hl h32
  obtain ⟨r', h3'⟩ := h2' alg' cap order' hl' h32
  refine ⟨max r r', fun fuel fuel' hf hf' ht => (h3' fuel' (by omega)).1 (hPQ ?_)⟩
  by_contra hP
  have := (h3 fuel (by omega)).2 hP
  rw [ht] at this
  simp at this

section Cinderella

open Slugs.Spec.Cinderella

theorem cinderellaWins_mono {n power capacity units power' capacity' units' : Nat} (hp : power ≤ power') (hc : capacity ≤ capacity') (hu : units' ≤ units)
    (h : CinderellaWins n power capacity units) : CinderellaWins n power' capacity' units' := by
  classical
  obtain ⟨W, h0, hW⟩ := h
  refine ⟨fun b => ∃ b0, W b0 ∧ ∀ i, i < n → b i ≤ b0 i, fun b hb => ⟨b, h0 b hb, fun _ _ => Nat.le_refl _⟩, ?_⟩
  rintro b ⟨b0, hb0, hle⟩
  obtain ⟨e, he, hs⟩ := hW b0 hb0
  refine ⟨e, he, fun x b' hx hr => ?_⟩
  let b1 : Nat → Nat := fun i => if Emptied n power e i then x i else b0 i + x i
  have hr1 : Round n power e b0 x b1 := fun i _ => ⟨fun h => if_pos h, fun h => if_neg h⟩
  obtain ⟨h1, h2⟩ := hs x b1 (Nat.le_trans hx hu) hr1
  have hle' : ∀ i, i < n → b' i ≤ b1 i := by
    intro i hi
    by_cases hE : Emptied n power e i
    · obtain ⟨k, hk, hik⟩ := hE
      rw [(hr i hi).1 ⟨k, by omega, hik⟩, (hr1 i hi).1 ⟨k, hk, hik⟩]
    · rw [(hr1 i hi).2 hE]
      by_cases hE' : Emptied n power' e i
      · rw [(hr i hi).1 hE']; omega
      · rw [(hr i hi).2 hE']
        have := hle i hi
        omega
  exact ⟨fun i hi => Nat.le_trans (hle' i hi) (Nat.le_trans (h1 i hi) hc), b1, h2, hle'⟩

/-- **C91**, buckets: if Cinderella wins, then also with more power, with larger buckets, and with less water. -/
theorem C91_cinderella (thorough : Bool) {n power capacity units power' capacity' units' : Nat} (hn : 1 ≤ n) (hp1 : 1 ≤ power) (hp : power ≤ power')
    (hc : capacity ≤ capacity') (hu : units' ≤ units) :
    RealizableToo B thorough (Model.Cinderella.benchmark n power capacity units) (Model.Cinderella.benchmark n power' capacity' units') :=
  realizableToo_of (cinderellaWins_mono hp hc hu) (C86_verdict thorough capacity units hn hp1) (C86_verdict thorough capacity' units' hn (by omega))

end Cinderella

section Evasion

open Slugs.Spec.Evasion

theorem evades_mono {w h most most' : Nat} (hm : most' ≤ most) (he : Evades w h most) : Evades w h most' := by
  obtain ⟨W, h0, hW⟩ := he
  refine ⟨W, h0, fun s hs => ?_⟩
  obtain ⟨h1, dx, dy, h2, h3, h4⟩ := hW s hs
  exact ⟨h1, dx, dy, h2, h3, fun s' hst => h4 s' { hst with most := Nat.le_trans hst.most hm }⟩

/-- **C91**, moving obstacle: if the robot can evade the obstacle, then also with fewer glitches. -/
theorem C91_evasion (thorough : Bool) {w h most most' : Nat} (hw : 2 ≤ w) (hh : 2 ≤ h) (hm : most' ≤ most) :
    RealizableToo B thorough (Model.Evasion.benchmark w h most) (Model.Evasion.benchmark w h most') :=
  realizableToo_of (evades_mono hm) (C87_verdict thorough most hw hh) (C87_verdict thorough most' hw hh)

end Evasion

section Factory

open Slugs.Spec.Factory

/-- Arms that perform task 0 instead of tasks that do not exist. -/
def clip (m : Nat) (a : Arms) : Arms := ⟨a.pos1, a.pos2, if a.op1 < m then a.op1 else 0, if a.op2 < m then a.op2 else 0⟩

theorem clip_work {m i j : Nat} {a : Arms} (hj : j < m) (h : a.Work i j) : (clip m a).Work i j := by
  rcases h with ⟨h1, h2⟩ | ⟨h1, h2⟩
  · exact .inl ⟨h1, by simp only [clip]; rw [if_pos (by omega)]; exact h2⟩
  · exact .inr ⟨h1, by simp only [clip]; rw [if_pos (by omega)]; exact h2⟩

theorem clip_move {n n' m m' : Nat} {a a' : Arms} (hn : n ≤ n') (hm : 1 ≤ m') (h : Move n m a a') : Move n' m' (clip m' a) (clip m' a') where
  apart := h.apart
  inside := Nat.lt_of_lt_of_le h.inside hn
  task1 := by simp only [clip]; split <;> omega
  task2 := by simp only [clip]; split <;> omega
  near1 := h.near1
  near2 := h.near2

theorem clip_stay {n' m' : Nat} {a : Arms} (h1 : a.pos1 < a.pos2) (h2 : a.pos2 < n') (hm : 1 ≤ m') : Move n' m' (clip m' a) (clip m' a) where
  apart := h1
  inside := h2
  task1 := by simp only [clip]; split <;> omega
  task2 := by simp only [clip]; split <;> omega
  near1 := ⟨Nat.le_succ _, Nat.le_succ _⟩
  near2 := ⟨Nat.le_succ _, Nat.le_succ _⟩

/-- The arms treat the first `n` places as they would treat the shorter belt, and pause when the belt is slower: then more tasks have been performed. -/
structure Simulates (n m' k n' k' : Nat) (s t : State) : Prop where
  errors : s.errors = t.errors
  early : s.time < k'
  time : t.time = min s.time (k - 1)
  more : ∀ i < n, ∀ j < m', t.done i j → s.done i j
  rest : ∀ i, n ≤ i → i < n' → ∀ j < m', s.done i j

theorem manages_mono {n m k most n' m' k' most' : Nat} (hn3 : 3 ≤ n) (hm1 : 1 ≤ m') (hk1 : 1 ≤ k) (hn : n ≤ n') (hm : m' ≤ m) (hk : k ≤ k') (hmost : most' ≤ most)
    (h : Manages n m k most) : Manages n' m' k' most' := by
  obtain ⟨W, h0, hW⟩ := h
  refine ⟨fun s b => ∃ t a, W t a ∧ b = clip m' a ∧ a.pos1 < a.pos2 ∧ a.pos2 < n ∧ Simulates n m' k n' k' s t, ?_, ?_⟩
  · intro s hs
    refine ⟨⟨0, fun _ _ => True, 0⟩, startArms, h0 _ ⟨rfl, fun _ _ _ _ => trivial, rfl⟩, ?_, by decide, by simp only [startArms]; omega, ?_⟩
    · show startArms = ⟨0, 2, if 0 < m' then 0 else 0, if 0 < m' then 0 else 0⟩
      rw [ite_self]
      rfl
    · exact ⟨hs.errors, by rw [hs.time]; omega, by rw [hs.time]; simp, fun i hi j hj _ => hs.done i (by omega) j hj, fun i _ hi j hj => hs.done i hi j hj⟩
  · rintro s b ⟨t, a, hWt, rfl, hap, hin, hR⟩ s' hst
    by_cases hM : Moves k' s
    · -- the belt moves
      have hMt : Moves k t := by
        have := hR.time
        simp only [Moves] at hM ⊢
        omega
      let t' : State := ⟨0, fun i j => match i with | 0 => j < m' ∧ s'.done 0 j | i + 1 => t.done i j ∨ a.Work (i + 1) j, s'.errors⟩
      have hstep : Step n m k most a t t' := by
        refine ⟨fun _ => rfl, fun h => absurd hMt h, fun h => absurd hMt h, fun _ i _ j _ => Iff.rfl, ?_, ?_, Nat.le_trans hst.most hmost⟩
        · rintro (h | ⟨j, _, hj, hd⟩)
          · exact absurd hMt h
          · exact (hst.good (.inr ⟨j, hj, hd⟩)).trans hR.errors
        · intro _ h
          have := hst.bad hM fun j hj hd => h j (by omega) ⟨hj, hd⟩
          show s'.errors = t.errors + 1
          rw [this, hR.errors]
      obtain ⟨hg, a', hmv, hWt'⟩ := hW t a hWt t' hstep
      have hlast : ∀ j < m', s.done (n - 1) j := fun j hj => hR.more _ (by omega) j hj (hg hMt j (by omega))
      refine ⟨fun _ j hj => ?_, clip m' a', clip_move hn hm1 hmv, t', a', hWt', rfl, hmv.apart, hmv.inside, ?_⟩
      · by_cases he : n' = n
        · rw [he]; exact hlast j hj
        · exact hR.rest _ (by omega) (by omega) j hj
      · refine ⟨rfl, by rw [hst.moved hM]; omega, by rw [hst.moved hM]; simp [t'], ?_, ?_⟩
        · intro i hi j hj hd
          cases i with
          | zero => exact hd.2
          | succ i =>
            refine (hst.pass hM i (by omega) j hj).mpr ?_
            rcases hd with hd | hd
            · exact .inl (hR.more i (by omega) j hj hd)
            · exact .inr (clip_work hj hd)
        · intro i hi hi' j hj
          obtain ⟨i, rfl⟩ : ∃ i0, i = i0 + 1 := ⟨i - 1, by omega⟩
          refine (hst.pass hM i hi' j hj).mpr (.inl ?_)
          by_cases he : i = n - 1
          · rw [he]; exact hlast j hj
          · exact hR.rest i (by omega) (by omega) j hj
    · have hearly := hR.early
      have htime := hR.time
      have hw := hst.waits hM
      have herr := hst.good (.inl hM)
      have hrest : ∀ i, n ≤ i → i < n' → ∀ j < m', s'.done i j := fun i h1 h2 j hj => (hst.stay hM i h2 j hj).mpr (.inl (hR.rest i h1 h2 j hj))
      have hM' : s.time + 1 ≠ k' := hM
      refine ⟨fun h => absurd h hM, ?_⟩
      by_cases hE : s.time + 1 < k
      · -- a step of the shorter belt
        have hMt : ¬ Moves k t := by simp only [Moves]; omega
        let t' : State := ⟨t.time + 1, fun i j => t.done i j ∨ a.Work i j, s'.errors⟩
        have hstep : Step n m k most a t t' :=
          ⟨fun h => absurd h hMt, fun _ => rfl, fun _ i _ j _ => Iff.rfl, fun h => absurd h hMt, fun _ => herr.trans hR.errors, fun h => absurd h hMt,
            Nat.le_trans hst.most hmost⟩
        obtain ⟨_, a', hmv, hWt'⟩ := hW t a hWt t' hstep
        refine ⟨clip m' a', clip_move hn hm1 hmv, t', a', hWt', rfl, hmv.apart, hmv.inside, rfl, by omega, ?_, ?_, hrest⟩
        · show t.time + 1 = _
          omega
        · rintro i hi j hj (hd | hd)
          · exact (hst.stay hM i (by omega) j hj).mpr (.inl (hR.more i hi j hj hd))
          · exact (hst.stay hM i (by omega) j hj).mpr (.inr (clip_work hj hd))
      · -- a pause
        refine ⟨clip m' a, clip_stay hap (by omega) hm1, t, a, hWt, rfl, hap, hin, herr.trans hR.errors, by omega, by omega, ?_, hrest⟩
        intro i hi j hj hd
        exact (hst.stay hM i (by omega) j hj).mpr (.inl (hR.more i hi j hj hd))

/-- **C91**, assembly line: if the arms manage, then also with a longer belt, with fewer tasks, with more steps between moves of the belt, and with fewer errors. -/
theorem C91_factory (thorough : Bool) {n m k most n' m' k' most' : Nat} (hn3 : 3 ≤ n) (hm1 : 1 ≤ m') (hk1 : 1 ≤ k) (hn : n ≤ n') (hm : m' ≤ m) (hk : k ≤ k')
    (hmost : most' ≤ most) :
    RealizableToo B thorough (Model.Factory.benchmark n m k most) (Model.Factory.benchmark n' m' k' most') :=
  realizableToo_of (manages_mono hn3 hm1 hk1 hn hm hk hmost) (C89_verdict thorough most hn3 (by omega) hk1) (C89_verdict thorough most' (by omega) hm1 (by omega))

end Factory

/-- Configurations that the scripts write. -/
example : RealizableToo B false (Model.Cinderella.benchmark 5 2 14 10) (Model.Cinderella.benchmark 5 2 15 10) :=
  C91_cinderella false (by omega) (by omega) (by omega) (by omega) (by omega)
example : RealizableToo B false (Model.Evasion.benchmark 8 8 1) (Model.Evasion.benchmark 8 8 0) := C91_evasion false (by omega) (by omega) (by omega)
example : RealizableToo B false (Model.Factory.benchmark 3 2 1 5) (Model.Factory.benchmark 4 2 2 0) :=
  C91_factory false (by omega) (by omega) (by omega) (by omega) (by omega) (by omega) (by omega)
/-- The first of these verdicts is positive. -/
example : Spec.Factory.Manages 3 2 1 5 := manages_two (by omega)

end Slugs.Props
