import Verif.Spec.Game

/-! No position is won by both players. -/

namespace Slugs.Spec

variable {I O : Type}

/-- The history after `n` moves when both players follow their strategies. -/
def playHist (σ : SysStrategy I O) (τ : EnvStrategy I O) (s : Pos I O) : Nat → History I O
  | 0 => [s]
  | n + 1 => (τ (playHist σ τ s n), σ (playHist σ τ s n) (τ (playHist σ τ s n))) :: playHist σ τ s n

theorem playHist_ne_nil (σ : SysStrategy I O) (τ : EnvStrategy I O) (s : Pos I O) (n : Nat) :
    ∃ cur h, playHist σ τ s n = cur :: h := by
  cases n with
  | zero => exact ⟨s, [], rfl⟩
  | succ n => exact ⟨_, _, rfl⟩

theorem not_both_win (g : Game I O) (s : Pos I O) : ¬ (g.SysWins s ∧ g.EnvWins s) := by
  rintro ⟨⟨σ, hσ1, hσ2⟩, ⟨τ, hτ1, hτ2⟩⟩
  have hboth : ∀ n, g.SysHist σ s (playHist σ τ s n) ∧ g.EnvHist τ s (playHist σ τ s n) := by
    intro n
    induction n with
    | zero => exact ⟨.start, .start⟩
    | succ n ih =>
      obtain ⟨cur, h, hh⟩ := playHist_ne_nil σ τ s n
      rw [hh] at ih
      have he := hτ1 cur h ih.2
      have hs := hσ1 cur h _ ih.1 he
      rw [playHist, hh]
      exact ⟨.step ih.1 he, .step ih.2 hs⟩
  let p : Nat → Pos I O := fun n => (playHist σ τ s n).headD s
  have hp : ∀ n, prefixHist p n = playHist σ τ s n := by
    intro n
    induction n with
    | zero => rfl
    | succ n ih => rw [prefixHist, ih]; rfl
  refine hτ2 p (fun n => ?_) (hσ2 p (fun n => ?_))
  · rw [hp]; exact (hboth n).2
  · rw [hp]; exact (hboth n).1

end Slugs.Spec
