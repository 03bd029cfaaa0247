import Verif.Model.Mgr
import Mathlib.Order.FixedPoints
import Mathlib.Data.Set.Finite.Basic
import Mathlib.Data.Set.Card

namespace Slugs.Model

/-- Hoare rule with a termination measure for fixed-point loops. -/
theorem fixLoop_rule {B σ : Type} [DecidableEq B] {step : B → σ → Option (B × σ)}
    (Inv : B → σ → Prop) (μ : B → Nat)
    (hstep : ∀ x s, Inv x s → ∃ x' s', step x s = some (x', s') ∧ (x ≠ x' → Inv x' s' ∧ μ x' < μ x)) :
    ∀ (fuel : Nat) (x : B) (s : σ), Inv x s → μ x < fuel →
      ∃ y t t', fixLoop step fuel x s = some (y, t') ∧ Inv y t ∧ step y t = some (y, t') := by
  intro fuel
  induction fuel with
  | zero => intro x s _ h; exact absurd h (Nat.not_lt_zero _)
  | succ n ih =>
    intro x s hI hμ
    obtain ⟨x', s', hs, hne⟩ := hstep x s hI
    by_cases hx : x = x'
    · subst hx
      exact ⟨x, s, s', by simp [fixLoop, hs], hI, hs⟩
    · obtain ⟨hI', hμ'⟩ := hne hx
      obtain ⟨y, t, t', h1, h2, h3⟩ := ih x' s' hI' (by omega)
      exact ⟨y, t, t', by simp [fixLoop, hs, hx, h1], h2, h3⟩

end Slugs.Model
