import Verif.Lemmas.CinderellaGame
import Verif.Props.StructuredFiles

/-!
# C86: the benchmarks about Cinderella and her stepmother

`Spec/Cinderella.lean` defines the game; `benchmark` is the model of the script that writes the specification files.
-/

namespace Slugs.Props

open Slugs.Spec Slugs.Spec.Structured Slugs.Model Slugs.Model.Structured Slugs.Model.Cinderella Slugs.Spec.Cinderella

variable {B : Type} [DecidableEq B] [L : BddLib B]

/-- **C86.** The file for `n` buckets with the given capacity, of which Cinderella can empty `power` neighbouring ones per round, and `units` units of water per round is
a proper structured specification; and it is realizable exactly if Cinderella can prevent forever that a bucket overflows. -/
theorem C86_game {n power : Nat} (capacity units : Nat) (hn : 1 ≤ n) (hp : 1 ≤ power) :
    ∃ S, SDenotes (benchmark n power capacity units) S ∧ (S.game.Realizable ↔ CinderellaWins n power capacity units) :=
  ⟨_, benchmark_denotes n power capacity units hn hp, realizable_iff hn hp⟩

/-- **C86**, the verdict.  The structured slugs compiler translates the file, and slugs says for the result whether Cinderella wins: with all algorithms, and with and
without `--thorough`.  The lines of the translated file must not be longer than slugs can handle. -/
theorem C86_verdict (thorough : Bool) {n power : Nat} (capacity units : Nat) (hn : 1 ≤ n) (hp : 1 ≤ power) :
    ∃ out, convert thorough (benchmark n power capacity units) = .ok out ∧
      ∀ (alg : Algorithm) (cap : Nat) (order : List Char → Bool), (∀ l ∈ splitLines out, l.length ≤ cap) → cap < 2 ^ 32 → ∃ rounds, ∀ fuel, rounds ≤ fuel →
        (CinderellaWins n power capacity units → runSlugs B alg false cap order fuel out = .result true) ∧
        (¬ CinderellaWins n power capacity units → runSlugs B alg false cap order fuel out = .result false) := by
  obtain ⟨out, h1, h2⟩ := C59_structured_verdict (B := B) thorough (benchmark_denotes n power capacity units hn hp)
  refine ⟨out, h1, fun alg cap order hl h32 => ?_⟩
  obtain ⟨rounds, h3⟩ := h2 alg cap order hl h32
  have hr := realizable_iff (capacity := capacity) (units := units) hn hp
  exact ⟨rounds, fun fuel hf => ⟨fun h => (h3 fuel hf).1 (hr.mpr h), fun h => (h3 fuel hf).2.1 (mt hr.mp h)⟩⟩

/-- Cinderella wins when they can empty all buckets in each round, and one round does not fill a bucket. -/
theorem wins_all {n power capacity units : Nat} (hn : 1 ≤ n) (hp : n ≤ power) (h : units ≤ capacity) : CinderellaWins n power capacity units := by
  refine ⟨fun _ => True, fun _ _ => trivial, fun b _ => ⟨0, hn, fun x b' hx hr => ⟨fun i hi => ?_, trivial⟩⟩⟩
  rw [(hr i hi).1 ⟨i, by omega, by rw [Nat.zero_add, Nat.mod_eq_of_lt hi]⟩]
  exact Nat.le_trans (canAdd_le hx hi) h

/-- Cinderella loses when one round overfills a bucket. -/
theorem loses_round {n power capacity units : Nat} (hn : 1 ≤ n) (h : capacity < units) : ¬ CinderellaWins n power capacity units := by
  classical
  rintro ⟨W, hz, hW⟩
  obtain ⟨e, _, hx⟩ := hW (fun _ => 0) (hz _ fun _ _ => rfl)
  let x : Nat → Nat := fun i => if i = 0 then units else 0
  have hs : ∀ m, ((List.range (m + 1)).map x).sum = units := by
    intro m
    rw [List.range_succ_eq_map]
    simp [x, Function.comp_def]
  obtain ⟨m, rfl⟩ := Nat.exists_eq_add_of_le' hn
  have := (hx x x (by rw [CanAdd, hs]) fun i _ => ⟨fun _ => rfl, fun _ => by simp⟩).1 0 (by omega)
  simp only [x, if_true] at this
  omega

theorem emptied_one {n e i : Nat} (he : e < n) (hi : i < n) : Emptied n 1 e i ↔ e = i := by
  rw [emptied_iff (by decide) he hi]
  omega

/-- Cinderella wins when emptying one of two buckets with a capacity of one unit, against a stepmother with one unit. -/
theorem wins_two : CinderellaWins 2 1 1 1 := by
  refine ⟨fun b => b 0 + b 1 ≤ 1, fun b hb => by simp [hb], fun b hb => ?_⟩
  refine ⟨if b 0 = 0 then 1 else 0, by split <;> decide, fun x b' hx hr => ?_⟩
  have h0 := hr 0 (by decide)
  have h1 := hr 1 (by decide)
  have hx : x 0 + x 1 ≤ 1 := by simpa [CanAdd, List.range_succ] using hx
  rw [emptied_one (by split <;> decide) (by decide)] at h0 h1
  have key : b' 0 + b' 1 ≤ 1 := by
    split at h0 <;> rename_i hz
    · rw [if_pos hz] at h1
      have := h0.2 (by decide)
      have := h1.1 rfl
      omega
    · rw [if_neg hz] at h1
      have := h0.1 rfl
      have := h1.2 (by decide)
      omega
  refine ⟨fun i hi => ?_, key⟩
  have : i = 0 ∨ i = 1 := by omega
  rcases this with rfl | rfl <;> omega

/-- But Cinderella loses if there are twice as many units and the buckets are twice as large: the stepmother first pours one unit into each bucket, and then two units into
the one that has not been emptied. -/
theorem loses_two : ¬ CinderellaWins 2 1 2 2 := by
  rintro ⟨W, hz, hW⟩
  obtain ⟨e, _, hx⟩ := hW (fun _ => 0) (hz _ fun _ _ => rfl)
  have hw := (hx (fun _ => 1) (fun _ => 1) (by simp [CanAdd, List.range_succ]) fun i _ => ⟨fun _ => rfl, fun _ => rfl⟩).2
  obtain ⟨f, hf, hx⟩ := hW _ hw
  have hf : f = 0 ∨ f = 1 := by omega
  rcases hf with rfl | rfl
  · have := (hx (fun i => if i = 1 then 2 else 0) (fun i => if i = 1 then 3 else 0) (by simp [CanAdd, List.range_succ]) (by
      intro i hi
      rw [emptied_one (by decide) hi]
      have : i = 0 ∨ i = 1 := by omega
      rcases this with rfl | rfl <;> simp)).1 1 (by decide)
    simp at this
  · have := (hx (fun i => if i = 0 then 2 else 0) (fun i => if i = 0 then 3 else 0) (by simp [CanAdd, List.range_succ]) (by
      intro i hi
      rw [emptied_one (by decide) hi]
      have : i = 0 ∨ i = 1 := by omega
      rcases this with rfl | rfl <;> simp)).1 0 (by decide)
    simp at this

/-! ### Examples -/

/-- The file for two buckets. -/
example : benchmark 2 1 3 2 = txt!"[INPUT]\nx0:0...2\nx1:0...2\n\n[OUTPUT]\ny0:0...3\ny1:0...3\ne:0...1\n\n[ENV_TRANS]\nx0'+x1' <= 2\n\n[ENV_INIT]\nx0 = 0\nx1 = 0\n\n[SYS_INIT]\ny0 = 0\ny1 = 0\n\n[SYS_TRANS]\n!((e<=0 & e+1 > 0) | (e+0 >= 2)) -> y0' = y0 + x0'\n!((e<=1 & e+1 > 1) | (e+0 >= 3)) -> y1' = y1 + x1'\n((e<=0 & e+1 > 0) | (e+0 >= 2)) -> y0' = x0'\n((e<=1 & e+1 > 1) | (e+0 >= 3)) -> y1' = x1'\n\n" := by
  decide +kernel

/-- A realizable and an unrealizable benchmark. -/
example : (∃ S, SDenotes (benchmark 2 1 1 1) S ∧ S.game.Realizable) ∧ ∃ S, SDenotes (benchmark 2 1 2 2) S ∧ ¬ S.game.Realizable := by
  obtain ⟨S, h1, h2⟩ := C86_game (n := 2) (power := 1) 1 1 (by decide) (by decide)
  obtain ⟨S', h3, h4⟩ := C86_game (n := 2) (power := 1) 2 2 (by decide) (by decide)
  exact ⟨⟨S, h1, h2.mpr wins_two⟩, S', h3, fun h => loses_two (h4.mp h)⟩

end Slugs.Props
