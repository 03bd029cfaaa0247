import Verif.Lemmas.EvasionGame
import Verif.Props.StructuredFiles

/-!
# C87: the benchmarks about evading a moving obstacle

`Spec/Evasion.lean` defines the game; `benchmark` is the model of the script that writes the specification files.
-/

namespace Slugs.Props

open Slugs.Spec Slugs.Spec.Structured Slugs.Model Slugs.Model.Structured Slugs.Model.Evasion Slugs.Spec.Evasion

variable {B : Type} [DecidableEq B] [L : BddLib B]

/-- **C87.** The file for a grid of the given size and a number of glitches is a proper structured specification; and it is realizable exactly if the robot can evade the
obstacle forever. -/
theorem C87_game {w h : Nat} (most : Nat) (hw : 2 ≤ w) (hh : 2 ≤ h) :
    ∃ S, SDenotes (benchmark w h most) S ∧ (S.game.Realizable ↔ Evades w h most) :=
  ⟨_, benchmark_denotes w h most hw hh, realizable_iff hw hh⟩

/-- **C87**, the verdict.  The structured slugs compiler translates the file, and slugs says for the result whether the robot can evade the obstacle: with all algorithms,
and with and without `--thorough`.  The lines of the translated file must not be longer than slugs can handle. -/
theorem C87_verdict (thorough : Bool) {w h : Nat} (most : Nat) (hw : 2 ≤ w) (hh : 2 ≤ h) :
    ∃ out, convert thorough (benchmark w h most) = .ok out ∧
      ∀ (alg : Algorithm) (cap : Nat) (order : List Char → Bool), (∀ l ∈ splitLines out, l.length ≤ cap) → cap < 2 ^ 32 → ∃ rounds, ∀ fuel, rounds ≤ fuel →
        (Evades w h most → runSlugs B alg false cap order fuel out = .result true) ∧
        (¬ Evades w h most → runSlugs B alg false cap order fuel out = .result false) := by
  obtain ⟨out, h1, h2⟩ := C59_structured_verdict (B := B) thorough (benchmark_denotes w h most hw hh)
  refine ⟨out, h1, fun alg cap order hl h32 => ?_⟩
  obtain ⟨rounds, h3⟩ := h2 alg cap order hl h32
  have hr := realizable_iff (most := most) hw hh
  exact ⟨rounds, fun fuel hf => ⟨fun h => (h3 fuel hf).1 (hr.mpr h), fun h => (h3 fuel hf).2.1 (mt hr.mp h)⟩⟩

/-- The robot cannot evade the obstacle in a corridor of its height, however long. -/
theorem loses_corridor {w most : Nat} (hw : 2 ≤ w) : ¬ Evades w 2 most := by
  rintro ⟨W, h0, hW⟩
  have key : ∀ n, ∀ s : State, s.obsx = n → s.obsx + 1 < w → s.robx < s.obsx ∧ s.roby ≤ 1 ∧ s.obsy = 0 ∧ s.glitches ≤ most → ¬ W s := by
    intro n
    induction n with
    | zero => rintro s h0 _ ⟨h1, _⟩; omega
    | succ n ih =>
      rintro s hn hsw ⟨h1, h2, h3, h4⟩ hs
      obtain ⟨_, dx, dy, hdx, hdy, hx⟩ := hW s hs
      have m1 : ∀ d, moved 2 s.roby d ≤ 1 := fun _ => Nat.min_le_right _ _
      have m2 : ∀ x, moved w x dx ≤ x + 1 := fun x => by
        have := Nat.min_le_left (x + dx - 1) (w - 1)
        rw [moved]; omega
      -- the obstacle rests
      have w1 := hx ⟨moved w s.robx dx, moved 2 s.roby dy, s.obsx, s.obsy, s.glitches, true⟩
        ⟨rfl, rfl, ⟨by simp, by simp⟩, ⟨by simp, by simp⟩, hsw, by simp [h3], by simp [Stays], fun _ => rfl, fun hc => absurd (.inl ⟨rfl, rfl⟩) hc, h4⟩
      obtain ⟨hn1, ex, ey, hex, hey, hy⟩ := hW _ w1
      simp only [State.Hit, h3] at hn1
      have a1 := m2 s.robx
      have a2 := m1 dy
      -- and moves
      have w2 := hy ⟨moved w (moved w s.robx dx) ex, moved 2 (moved 2 s.roby dy) ey, n, s.obsy, s.glitches, false⟩
        ⟨rfl, rfl, ⟨by simp only; omega, by simp only; omega⟩, ⟨by simp, by simp⟩, by simp only; omega, by simp [h3], by simp only [Stays]; simp; omega, fun _ => rfl,
          fun hc => absurd (.inr rfl) hc, h4⟩
      have hn2 := (hW _ w2).1
      simp only [State.Hit, h3] at hn2
      have a3 : moved w (moved w s.robx dx) ex ≤ moved w s.robx dx + 1 := by
        have := Nat.min_le_left (moved w s.robx dx + ex - 1) (w - 1)
        rw [moved]; omega
      have a4 : moved 2 (moved 2 s.roby dy) ey ≤ 1 := Nat.min_le_right _ _
      exact ih ⟨moved w (moved w s.robx dx) ex, moved 2 (moved 2 s.roby dy) ey, n, s.obsy, s.glitches, false⟩ rfl (by simp only; omega) ⟨by simp only; omega, a4, h3, h4⟩ w2
  refine key (w - 2) (start w 2) rfl (by simp only [start]; omega) ⟨?_, by simp [start], by simp [start], by simp [start]⟩ h0
  have := (hW _ h0).1
  simp only [State.Hit, start] at this ⊢
  omega

/-! ### A grid of 5 times 5 cells -/

/-- A strategy of the robot: the positions of the robot and of the obstacle, whether the obstacle has rested, and the move. -/
def strategy55 : List (Nat × Nat × Nat × Nat × Bool × Nat × Nat) :=
  [(0, 0, 3, 3, false, 0, 1), (0, 0, 3, 3, true, 2, 0), (0, 1, 2, 2, true, 1, 2), (0, 2, 1, 0, false, 1, 1), (0, 2, 1, 0, true, 2, 2), (0, 2, 1, 1,
  false, 2, 2), (0, 2, 1, 2, false, 2, 0), (0, 2, 1, 3, false, 2, 0), (0, 2, 2, 0, false, 2, 2), (0, 2, 2, 1, false, 1, 1), (0, 2, 2, 1, true, 1, 1),
  (0, 2, 2, 2, false, 1, 1), (0, 2, 2, 2, true, 0, 1), (0, 2, 2, 3, false, 0, 1), (0, 2, 2, 3, true, 0, 1), (0, 2, 3, 0, false, 1, 2), (0, 2, 3, 0,
  true, 0, 1), (0, 2, 3, 1, false, 2, 0), (0, 2, 3, 1, true, 1, 1), (0, 2, 3, 2, false, 1, 1), (0, 2, 3, 2, true, 0, 1), (0, 2, 3, 3, false, 0, 1), (0,
  2, 3, 3, true, 0, 1), (0, 3, 3, 0, true, 1, 0), (1, 0, 2, 2, false, 0, 2), (1, 0, 2, 3, false, 2, 0), (1, 0, 3, 2, false, 2, 2), (1, 0, 3, 3, true, 1,
  1), (1, 1, 1, 2, true, 2, 0), (1, 1, 1, 3, true, 2, 0), (1, 1, 2, 1, true, 0, 2), (1, 1, 3, 1, true, 0, 2), (1, 3, 0, 0, false, 2, 2), (1, 3, 0, 0,
  true, 2, 2), (1, 3, 0, 1, false, 1, 2), (1, 3, 1, 0, false, 1, 1), (1, 3, 1, 0, true, 1, 1), (1, 3, 1, 1, false, 2, 1), (1, 3, 1, 1, true, 2, 2), (1,
  3, 2, 0, false, 2, 2), (1, 3, 2, 0, true, 1, 1), (1, 3, 2, 1, false, 0, 0), (1, 3, 2, 2, true, 0, 0), (1, 3, 3, 0, false, 0, 0), (1, 3, 3, 1, false,
  0, 0), (1, 3, 3, 2, true, 0, 0), (1, 4, 0, 1, true, 2, 2), (2, 0, 0, 1, false, 1, 0), (2, 0, 0, 1, true, 2, 1), (2, 0, 0, 2, false, 2, 1), (2, 0, 0,
  2, true, 1, 0), (2, 0, 0, 3, false, 1, 0), (2, 0, 0, 3, true, 1, 1), (2, 0, 1, 1, false, 2, 2), (2, 0, 1, 2, false, 1, 1), (2, 0, 1, 2, true, 1, 1),
  (2, 0, 1, 3, false, 1, 0), (2, 0, 1, 3, true, 1, 1), (2, 0, 2, 1, false, 0, 2), (2, 0, 2, 2, false, 1, 1), (2, 0, 2, 2, true, 1, 1), (2, 0, 2, 3,
  false, 1, 0), (2, 0, 2, 3, true, 1, 1), (2, 0, 3, 1, false, 0, 2), (2, 0, 3, 2, false, 1, 0), (2, 0, 3, 2, true, 1, 1), (2, 0, 3, 3, false, 0, 1), (2,
  1, 0, 0, true, 2, 0), (2, 1, 3, 2, true, 1, 0), (2, 3, 1, 1, true, 1, 2), (2, 3, 3, 1, true, 1, 2), (2, 4, 0, 0, false, 2, 1), (2, 4, 0, 0, true, 0,
  0), (2, 4, 0, 1, false, 0, 1), (2, 4, 0, 1, true, 1, 1), (2, 4, 0, 2, false, 2, 0), (2, 4, 1, 0, false, 0, 0), (2, 4, 1, 1, false, 1, 0), (2, 4, 1, 1,
  true, 1, 1), (2, 4, 1, 2, false, 2, 0), (2, 4, 2, 0, false, 0, 0), (2, 4, 2, 0, true, 0, 0), (2, 4, 2, 1, false, 1, 1), (2, 4, 2, 1, true, 1, 2), (2,
  4, 2, 2, false, 0, 0), (2, 4, 3, 0, false, 2, 1), (2, 4, 3, 0, true, 1, 2), (2, 4, 3, 1, false, 1, 0), (2, 4, 3, 1, true, 1, 1), (2, 4, 3, 2, false,
  0, 0), (3, 0, 0, 0, false, 0, 2), (3, 0, 0, 0, true, 1, 1), (3, 0, 0, 1, false, 0, 1), (3, 0, 0, 1, true, 1, 0), (3, 0, 0, 2, false, 0, 1), (3, 0, 0,
  2, true, 0, 0), (3, 0, 1, 0, false, 1, 2), (3, 0, 1, 1, false, 1, 2), (3, 0, 1, 2, false, 0, 0), (3, 1, 1, 0, true, 2, 2), (3, 1, 1, 1, true, 2, 2),
  (3, 1, 2, 2, true, 0, 0), (3, 1, 2, 3, true, 0, 0), (3, 2, 0, 1, true, 2, 1), (3, 2, 0, 3, true, 2, 1), (3, 3, 0, 2, true, 2, 0), (3, 3, 1, 2, true,
  2, 0), (3, 3, 2, 0, true, 0, 2), (3, 3, 2, 1, true, 0, 2), (3, 4, 0, 0, true, 0, 1), (3, 4, 3, 0, true, 0, 2), (4, 2, 0, 0, false, 2, 1), (4, 2, 0, 0,
  true, 2, 1), (4, 2, 0, 1, false, 0, 1), (4, 2, 0, 1, true, 2, 1), (4, 2, 0, 2, false, 0, 2), (4, 2, 0, 2, true, 1, 1), (4, 2, 0, 3, false, 0, 1), (4,
  2, 0, 3, true, 1, 1), (4, 2, 1, 0, false, 2, 1), (4, 2, 1, 0, true, 1, 1), (4, 2, 1, 1, false, 2, 1), (4, 2, 1, 1, true, 2, 1), (4, 2, 1, 2, false, 1,
  1), (4, 2, 1, 2, true, 1, 1), (4, 2, 1, 3, false, 2, 1), (4, 2, 1, 3, true, 2, 1), (4, 2, 2, 0, false, 0, 2), (4, 2, 2, 1, false, 0, 2), (4, 2, 2, 2,
  false, 0, 0), (4, 2, 2, 3, false, 0, 0)]

def has55 (rx ry ox oy : Nat) (r : Bool) : Bool := strategy55.any fun e => e.1 == rx && e.2.1 == ry && e.2.2.1 == ox && e.2.2.2.1 == oy && e.2.2.2.2.1 == r

def good55 (e : Nat × Nat × Nat × Nat × Bool × Nat × Nat) : Bool :=
  !(decide (e.2.2.1 ≤ e.1) && decide (e.1 ≤ e.2.2.1 + 1) && decide (e.2.2.2.1 ≤ e.2.1) && decide (e.2.1 ≤ e.2.2.2.1 + 1)) &&
  decide (e.2.2.2.2.2.1 ≤ 2) && decide (e.2.2.2.2.2.2 ≤ 2) &&
  (List.range 4).all fun ox => (List.range 4).all fun oy =>
    !(decide (e.2.2.1 ≤ ox + 1) && decide (ox ≤ e.2.2.1 + 1) && decide (e.2.2.2.1 ≤ oy + 1) && decide (oy ≤ e.2.2.2.1 + 1) &&
      (e.2.2.2.2.1 || (ox == e.2.2.1 && oy == e.2.2.2.1))) ||
    has55 (moved 5 e.1 e.2.2.2.2.2.1) (moved 5 e.2.1 e.2.2.2.2.2.2) ox oy (ox == e.2.2.1 && oy == e.2.2.2.1)

theorem all55 : strategy55.all good55 = true := by decide +kernel

/-- The robot can evade the obstacle on a grid of 5 times 5 cells if there are no glitches. -/
theorem evades_five : Evades 5 5 0 := by
  refine ⟨fun s => has55 s.robx s.roby s.obsx s.obsy s.rested = true ∧ s.glitches = 0, ⟨by decide +kernel, rfl⟩, ?_⟩
  rintro s ⟨hs, hg⟩
  rw [has55, List.any_eq_true] at hs
  obtain ⟨⟨rx, ry, ox, oy, r, dx, dy⟩, he, hm⟩ := hs
  simp only [Bool.and_eq_true, beq_iff_eq] at hm
  obtain ⟨⟨⟨⟨rfl, rfl⟩, rfl⟩, rfl⟩, rfl⟩ := hm
  have hgood := List.all_eq_true.mp all55 _ he
  simp only [good55, Bool.and_eq_true, Bool.not_eq_true', Bool.and_eq_false_iff, decide_eq_true_eq, decide_eq_false_iff_not, List.all_eq_true, List.mem_range,
    Bool.or_eq_true] at hgood
  obtain ⟨⟨⟨h1, h2⟩, h3⟩, h4⟩ := hgood
  refine ⟨by rw [State.Hit]; omega, dx, dy, h2, h3, fun s' hs' => ?_⟩
  have hb : (s'.obsx == s.obsx && s'.obsy == s.obsy) = s'.rested := by
    rw [Bool.eq_iff_iff, hs'.rested, Stays]
    simp
  have hmost := hs'.most
  have hc : Stays s s' ∨ s.rested = true := by
    apply Classical.byContradiction
    intro hc
    have := hs'.glitch hc
    omega
  have hi1 := hs'.insidex
  have hi2 := hs'.insidey
  refine ⟨?_, by omega⟩
  rcases h4 s'.obsx (by omega) s'.obsy (by omega) with h5 | h5
  · exfalso
    have n1 := hs'.nearx
    have n2 := hs'.neary
    simp only [Near] at n1 n2
    rcases h5 with (((h5 | h5) | h5) | h5) | h5
    · omega
    · omega
    · omega
    · omega
    · rw [hb] at h5
      rw [Bool.or_eq_false_iff] at h5
      rcases hc with hc | hc
      · rw [← hs'.rested, h5.2] at hc; cases hc
      · rw [h5.1] at hc; cases hc
  · rw [hb] at h5
    rw [hs'.robx, hs'.roby]
    exact h5

/-! ### Examples -/

/-- The file for a grid of 5 times 4 cells and one glitch. -/
example : benchmark 5 4 1 = txt!"[INPUT]\nobsx: 0...3\nobsy: 0...2\nrobx: 0...4\nroby: 0...3\nglitches: 0...1\n\n[OUTPUT]\nmovx: 0...2\nmovy: 0...2\nobsmove\n\n[SYS_INIT]\n! obsmove\n\n\n[SYS_TRANS]\n(robx < obsx) | (robx >= obsx+2) | (roby < obsy) | (roby >= obsy+2)\n(obsmove' -> ( (obsx=obsx') & (obsy=obsy') ) ) \n((! obsmove') -> ! ( (obsx=obsx') & (obsy=obsy') ) )\n\n\n[ENV_INIT]\nrobx = 0\nroby = 0\nobsx = 3\nobsy = 2\nglitches = 0\n\n[ENV_TRANS]\n(obsx' <= obsx+1) & (obsy' <= obsy+1) & (obsx <= obsx'+1) & (obsy <= obsy'+1) & (robx' <= robx+1) & (roby' <= roby+1) & (robx <= robx'+1) & (roby <= roby'+1) \n\n(robx=0 & robx'=0 & movx<=1 | robx'+1 <= robx+movx) & (robx=4 & robx'=4 & movx >= 1 | robx'+1 >= robx+movx) & (roby=0 & roby'=0 & movy <= 1 | roby'+1 <= roby+movy) & (roby=3 & roby'=3 & movy>=1 | roby'+1 >= roby+movy) \n\nglitches' >= glitches\n(obsmove | (obsx=obsx')) & (obsmove | (obsy=obsy')) | (glitches' >= glitches+1)\n\n" := by
  decide +kernel

/-- A realizable and an unrealizable benchmark. -/
example : (∃ S, SDenotes (benchmark 5 5 0) S ∧ S.game.Realizable) ∧ ∃ S, SDenotes (benchmark 20 2 3) S ∧ ¬ S.game.Realizable := by
  obtain ⟨S, h1, h2⟩ := C87_game (w := 5) (h := 5) 0 (by decide) (by decide)
  obtain ⟨S', h3, h4⟩ := C87_game (w := 20) (h := 2) 3 (by decide) (by decide)
  exact ⟨⟨S, h1, h2.mpr evades_five⟩, S', h3, fun h => loses_corridor (by decide) (h4.mp h)⟩

end Slugs.Props
