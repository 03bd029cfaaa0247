import Verif.Model.ROBDD

/-! Consequences of the BDD contract. -/

namespace Slugs.Model

variable {B : Type} [DecidableEq B] [L : BddLib B]

/-- `f` depends only on the variables below `n`. -/
def DependsBelow (n : Nat) (f : Asg → Bool) : Prop := ∀ a a', (∀ k, k < n → a k = a' k) → f a = f a'

/-- Every Boolean function of finitely many variables is represented (Shannon expansion). -/
theorem exists_bdd : ∀ (n : Nat) (f : Asg → Bool), DependsBelow n f → ∃ b : B, ∀ a, L.eval b a = f a := by
  intro n
  induction n with
  | zero =>
    intro f hf
    by_cases h : f (fun _ => false) = true
    · exact ⟨L.tt, fun a => by rw [L.eval_tt, hf a (fun _ => false) (by simp), h]⟩
    · exact ⟨L.ff, fun a => by rw [L.eval_ff, hf a (fun _ => false) (by simp)]; simpa using h⟩
  | succ n ih =>
    intro f hf
    have hset : ∀ x, DependsBelow n (fun a => f (BDT.setv a n x)) := by
      intro x a a' h
      refine hf _ _ fun k hk => ?_
      by_cases hkn : k = n
      · simp [BDT.setv, hkn]
      · simp [BDT.setv, hkn, h k (by omega)]
    obtain ⟨b1, h1⟩ := ih _ (hset true)
    obtain ⟨b0, h0⟩ := ih _ (hset false)
    refine ⟨L.or (L.and (L.var n) b1) (L.and (L.not (L.var n)) b0), fun a => ?_⟩
    rw [L.eval_or, L.eval_and, L.eval_and, L.eval_not, L.eval_var, h1, h0]
    have hs : BDT.setv a n (a n) = a := by
      funext i; simp only [BDT.setv]; split
      · subst_vars; rfl
      · rfl
    cases ha : a n <;> rw [ha] at hs <;> simp [hs]

/-- In reduced ordered decision diagrams every function has finite support. -/
theorem BDT.finite_support : ∀ t : BDT, ∃ n, DependsBelow n t.eval
  | leaf b => ⟨0, fun _ _ _ => rfl⟩
  | node v h l => by
    obtain ⟨n, hn⟩ := finite_support h
    obtain ⟨m, hm⟩ := finite_support l
    refine ⟨max (v + 1) (max n m), fun a a' ha => ?_⟩
    rw [eval, eval, ha v (by omega), hn a a' (fun k hk => ha k (by omega)), hm a a' (fun k hk => ha k (by omega))]

end Slugs.Model
