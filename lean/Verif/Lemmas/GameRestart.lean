import Verif.Spec.Game
import Mathlib.Data.List.Basic
import Mathlib.Order.Basic
import Mathlib.Data.Nat.Find
import Mathlib.Tactic.Push

/-!
Strategies that are put together from others: after the first move, and whenever something has happened.
-/

namespace Slugs.Spec

variable {I O O' : Type}

/-! ### The rest of a play -/

/-- A play with one more position in front. -/
def behind (x : Pos I O) (p : Nat → Pos I O) : Nat → Pos I O
  | 0 => x
  | n + 1 => p n

theorem prefixHist_after (x : Pos I O) (p : Nat → Pos I O) (n : Nat) : prefixHist (behind x p) (n + 1) = prefixHist p n ++ [x] := by
  induction n with
  | zero => rfl
  | succ n ih => rw [prefixHist, ih]; rfl

theorem infOften_after {a : Pos I O → Pos I O → Prop} {x : Pos I O} {p : Nat → Pos I O} : InfOften a (behind x p) ↔ InfOften a p := by
  constructor
  · intro h n
    obtain ⟨m, h1, h2⟩ := h (n + 1)
    cases m with
    | zero => omega
    | succ m => exact ⟨m, by omega, h2⟩
  · intro h n
    obtain ⟨m, h1, h2⟩ := h n
    exact ⟨m + 1, by omega, h2⟩

theorem live_after {g : Game I O} {x : Pos I O} {p : Nat → Pos I O} : g.Live (behind x p) ↔ g.Live p := by
  simp only [Game.Live, infOften_after]

/-- The history as the beginning of a play. -/
def prep : History I O → (Nat → Pos I O) → Nat → Pos I O
  | [], p => p
  | x :: h, p => prep h (behind x p)

theorem live_prep {g : Game I O} : ∀ {h : History I O} {p : Nat → Pos I O}, g.Live (prep h p) ↔ g.Live p
  | [], _ => Iff.rfl
  | x :: h, p => (live_prep (h := h) (p := behind x p)).trans live_after

theorem prefixHist_prep : ∀ (h : History I O) (p : Nat → Pos I O) (n : Nat), prefixHist (prep h p) (h.length + n) = prefixHist p n ++ h
  | [], p, n => by simp [prep]
  | x :: h, p, n => by
    have := prefixHist_prep h (behind x p) (n + 1)
    rw [prefixHist_after] at this
    rw [prep, List.length_cons, show h.length + 1 + n = h.length + (n + 1) by omega, this]
    simp

theorem SysHist.shorter {g : Game I O} {σ : SysStrategy I O} {s x y : Pos I O} {h : History I O} (hh : g.SysHist σ s (x :: y :: h)) : g.SysHist σ s (y :: h) := by
  cases hh with
  | step h _ => exact h

theorem prefixHist_cons (p : Nat → Pos I O) (n : Nat) : ∃ t, prefixHist p n = p n :: t := by
  cases n <;> exact ⟨_, rfl⟩

theorem sysHist_of_later {g : Game I O} {σ : SysStrategy I O} {s : Pos I O} {p : Nat → Pos I O} {N : Nat} (h : ∀ n, g.SysHist σ s (prefixHist p (N + n))) (n : Nat) :
    g.SysHist σ s (prefixHist p n) := by
  have down : ∀ k m, g.SysHist σ s (prefixHist p (m + k)) → g.SysHist σ s (prefixHist p m) := by
    intro k
    induction k with
    | zero => exact fun _ h => h
    | succ k ih =>
      intro m hm
      refine ih m ?_
      rw [show m + (k + 1) = m + k + 1 by omega, prefixHist] at hm
      obtain ⟨t, ht⟩ := prefixHist_cons p (m + k)
      rw [ht] at hm ⊢
      exact SysHist.shorter hm
  exact down N n (by rw [Nat.add_comm]; exact h n)

/-- What is left of a winning strategy is winning. -/
theorem wins_after {g : Game I O} {σ : SysStrategy I O} {s cur : Pos I O} {h : History I O} (hw : g.SysWinning σ s) (hh : g.SysHist σ s (cur :: h)) : g.SysWins cur := by
  have lift : ∀ l, g.SysHist (fun l i => σ (l ++ h) i) cur l → g.SysHist σ s (l ++ h) := by
    intro l hl
    induction hl with
    | start => exact hh
    | step _ hi ih => exact .step ih hi
  refine ⟨fun l i => σ (l ++ h) i, fun x l i hl hi => hw.1 x (l ++ h) i (lift _ hl) hi, fun p hp => ?_⟩
  rw [← live_prep (h := h)]
  refine hw.2 _ (sysHist_of_later (N := h.length) fun n => ?_)
  rw [prefixHist_prep]
  exact lift _ (hp n)

theorem SysHist.last {g : Game I O} {σ : SysStrategy I O} {s : Pos I O} {h : History I O} (hh : g.SysHist σ s h) : h.getLast? = some s := by
  induction hh with
  | start => rfl
  | step _ _ ih => rw [List.getLast?_cons_cons]; exact ih

/-- A position is winning if the system can move to winning positions. -/
theorem wins_of_next {g : Game I O} {s : Pos I O} (h : ∀ i, g.safetyEnv s i → ∃ o, g.safetySys s (i, o) ∧ g.SysWins (i, o)) (d : O) : g.SysWins s := by
  classical
  let out : I → O := fun i => if hi : g.safetyEnv s i then (h i hi).choose else d
  have hout : ∀ i, g.safetyEnv s i → g.safetySys s (i, out i) ∧ g.SysWins (i, out i) := by
    intro i hi
    simp only [out, dif_pos hi]
    exact (h i hi).choose_spec
  let str : Pos I O → SysStrategy I O := fun x => if hx : g.SysWins x then hx.choose else fun _ _ => d
  have hstr : ∀ x, g.SysWins x → g.SysWinning (str x) x := by
    intro x hx
    simp only [str, dif_pos hx]
    exact hx.choose_spec
  let σ : SysStrategy I O := fun l i => match l.dropLast.getLast? with
    | none => out i
    | some x => str x l.dropLast i
  have key : ∀ l, g.SysHist σ s l → l = [s] ∨ ∃ l' x, l = l' ++ [s] ∧ l'.getLast? = some x ∧ g.SysWins x ∧ g.SysHist (str x) x l' := by
    intro l hl
    induction hl with
    | start => exact .inl rfl
    | @step cur t i _ hi ih =>
      right
      rcases ih with e | ⟨l', x, e, h1, h2, h3⟩
      · obtain ⟨rfl, rfl⟩ := List.cons.inj e
        have e : σ [cur] i = out i := rfl
        rw [e]
        exact ⟨[(i, out i)], (i, out i), rfl, rfl, (hout i hi).2, .start⟩
      · cases l' with
        | nil => cases h1
        | cons a l' =>
          obtain ⟨rfl, rfl⟩ := List.cons.inj e
          have e : σ (cur :: (l' ++ [s])) i = str x (cur :: l') i := by
            have : (cur :: (l' ++ [s])).dropLast = cur :: l' := by
              rw [← List.cons_append, List.dropLast_concat]
            simp only [σ, this, h1]
          have ht : List.append l' [s] = l' ++ [s] := rfl
          rw [ht, e]
          refine ⟨(i, str x (cur :: l') i) :: cur :: l', x, rfl, by rw [List.getLast?_cons_cons]; exact h1, h2, .step h3 hi⟩
  refine ⟨σ, fun cur l i hl hi => ?_, fun p hp => ?_⟩
  · rcases key _ hl with e | ⟨l', x, e, h1, h2, h3⟩
    · obtain ⟨rfl, rfl⟩ := List.cons.inj e
      exact (hout i hi).1
    · cases l' with
      | nil => cases h1
      | cons a l' =>
        obtain ⟨rfl, rfl⟩ := List.cons.inj e
        have ht : List.append l' [s] = l' ++ [s] := rfl
        have e : σ (cur :: (l' ++ [s])) i = str x (cur :: l') i := by
          have : (cur :: (l' ++ [s])).dropLast = cur :: l' := by
            rw [← List.cons_append, List.dropLast_concat]
          simp only [σ, this, h1]
        rw [ht, e]
        exact (hstr x h2).1 _ _ _ h3 hi
  · -- the play behind the first position
    have hp0 : p = behind s fun n => p (n + 1) := by
      funext n
      cases n with
      | zero =>
        have := SysHist.last (hp 0)
        simpa [prefixHist, behind] using this
      | succ n => rfl
    rw [hp0, live_after]
    have each : ∀ n, g.SysWins (p 1) ∧ g.SysHist (str (p 1)) (p 1) (prefixHist (fun n => p (n + 1)) n) := by
      intro n
      have h1 := hp (n + 1)
      rw [hp0, prefixHist_after] at h1
      rcases key _ h1 with e | ⟨l', x, e, h2, h3, h4⟩
      · obtain ⟨t, ht⟩ := prefixHist_cons (fun n => p (n + 1)) n
        rw [ht] at e
        simp at e
      · have e' := List.append_cancel_right e
        rw [← e'] at h2 h4
        have : x = p 1 := by
          have hl : ∀ n, (prefixHist (fun n => p (n + 1)) n).getLast? = some (p 1) := by
            intro n
            induction n with
            | zero => rfl
            | succ n ih =>
              rw [prefixHist]
              obtain ⟨t, ht⟩ := prefixHist_cons (fun n => p (n + 1)) n
              rw [ht] at ih ⊢
              rw [List.getLast?_cons_cons]
              exact ih
          rw [hl] at h2
          exact (Option.some.inj h2).symm
        subst this
        exact ⟨h3, h4⟩
    exact (hstr _ (each 0).1).2 _ fun n => (each n).2

/-! ### Restarts -/

section restart

/-- The position of the smaller game. -/
def proj (f : O' → O) (x : Pos I O') : Pos I O := (x.1, f x.2)

/-- In the game `r` there are more outputs than in `g`.  The system can play `g` by following winning strategies of `r`, and starting anew (with the outputs `e`)
whenever `viol` happens. -/
theorem restart_wins {g : Game I O} {r : Game I O'} {f : O' → O} {e : O → O'} {Inv : Pos I O' → Prop} {K : Pos I O → Prop} {viol : Pos I O → I → Prop}
    (fe : ∀ o, f (e o) = o) (hK : ∀ p, K p → r.SysWins (p.1, e p.2)) (hI : ∀ p : Pos I O, Inv (p.1, e p.2))
    (env : ∀ x i, Inv x → g.safetyEnv (proj f x) i → r.safetyEnv x i)
    (sys : ∀ x y, r.safetySys x y → g.safetySys (proj f x) (proj f y))
    (keep : ∀ x y, Inv x → ¬ viol (proj f x) y.1 → r.safetySys x y → Inv y)
    (reset : ∀ x y, Inv x → viol (proj f x) y.1 → r.safetySys x y → r.SysWins y → K (proj f y))
    (live : ∀ q : Nat → Pos I O', (∀ n, ¬ viol (proj f (q n)) (q (n + 1)).1) → r.Live q → g.Live fun n => proj f (q n))
    (often : ∀ p : Nat → Pos I O, (∀ n, ∃ m, n ≤ m ∧ viol (p m) (p (m + 1)).1) → g.Live p) {p : Pos I O} (hp : K p) : g.SysWins p := by
  classical
  let up : Pos I O → Pos I O' := fun p => (p.1, e p.2)
  have up_proj : ∀ p, proj f (up p) = p := fun p => Prod.ext rfl (fe p.2)
  let str : Pos I O → SysStrategy I O' := fun x => if hx : r.SysWins (up x) then hx.choose else fun _ _ => e p.2
  have hstr : ∀ x, K x → r.SysWinning (str x) (up x) := by
    intro x hx
    have h1 : r.SysWins (up x) := hK x hx
    simp only [str, dif_pos h1]
    exact h1.choose_spec
  -- the history since the last restart, and the position at which it took place
  let virt : List (Pos I O) → Pos I O × List (Pos I O') := List.rec (p, []) fun q l v =>
    match l with
    | [] => (q, [up q])
    | cur :: _ => if viol cur q.1 then (q, [up q]) else (v.1, (q.1, str v.1 v.2 q.1) :: v.2)
  have virt_one : ∀ q, virt [q] = (q, [up q]) := fun q => rfl
  have virt_step : ∀ q cur l, virt (q :: cur :: l) =
      if viol cur q.1 then (q, [up q]) else ((virt (cur :: l)).1, (q.1, str (virt (cur :: l)).1 (virt (cur :: l)).2 q.1) :: (virt (cur :: l)).2) := fun q cur l => rfl
  let σ : SysStrategy I O := fun l i => f (str (virt l).1 (virt l).2 i)
  have inv : ∀ l, g.SysHist σ p l → K (virt l).1 ∧ r.SysHist (str (virt l).1) (up (virt l).1) (virt l).2 ∧
      ∃ cur l' x t, l = cur :: l' ∧ (virt l).2 = x :: t ∧ proj f x = cur ∧ Inv x := by
    intro l hl
    induction hl with
    | start =>
      rw [virt_one]
      exact ⟨hp, .start, p, [], up p, [], rfl, rfl, up_proj p, hI p⟩
    | @step cur l i _ hi ih =>
      obtain ⟨h1, h2, c', l', x, t, h3, h4, h5, h6⟩ := ih
      obtain ⟨rfl, rfl⟩ := List.cons.inj h3
      rw [h4] at h2
      have he := env x i h6 (by rw [h5]; exact hi)
      have hs := (hstr _ h1).1 x t i h2 he
      have hh := Game.SysHist.step h2 he
      have hw := wins_after (hstr _ h1) hh
      have eσ : σ (cur :: l) i = f (str (virt (cur :: l)).1 (x :: t) i) := by simp only [σ, h4]
      rw [virt_step, eσ]
      by_cases hv : viol cur i
      · rw [if_pos hv]
        refine ⟨reset x _ h6 (by rw [h5]; exact hv) hs hw, .start, _, _, _, _, rfl, rfl, up_proj _, hI _⟩
      · rw [if_neg hv, h4]
        exact ⟨h1, hh, _, _, _, _, rfl, rfl, rfl, keep x _ h6 (by rw [h5]; exact hv) hs⟩
  refine ⟨σ, fun cur l i hl hi => ?_, fun q hq => ?_⟩
  · obtain ⟨h1, h2, c', l', x, t, h3, h4, h5, h6⟩ := inv _ hl
    obtain ⟨rfl, rfl⟩ := List.cons.inj h3
    rw [h4] at h2
    have he := env x i h6 (by rw [h5]; exact hi)
    have hs := sys _ _ ((hstr _ h1).1 x t i h2 he)
    have eσ : σ (cur :: l) i = f (str (virt (cur :: l)).1 (x :: t) i) := by simp only [σ, h4]
    rw [eσ]
    rw [h5] at hs
    exact hs
  · by_cases hinf : ∀ n, ∃ m, n ≤ m ∧ viol (q m) (q (m + 1)).1
    · exact often q hinf
    · push Not at hinf
      -- the last restart
      let n0 := Nat.find hinf
      have hn0 : ∀ m, n0 ≤ m → ¬ viol (q m) (q (m + 1)).1 := Nat.find_spec hinf
      have hv0 : virt (prefixHist q n0) = (q n0, [up (q n0)]) := by
        rcases Nat.eq_zero_or_pos n0 with h0 | h0
        · rw [h0]
          exact virt_one _
        · obtain ⟨m, hm⟩ : ∃ m, n0 = m + 1 := ⟨n0 - 1, by omega⟩
          have hmin := Nat.find_min hinf (m := m) (by show m < n0; omega)
          push Not at hmin
          obtain ⟨m', h1, h2⟩ := hmin
          have : m' = m := by
            by_contra hne
            exact hn0 m' (by omega) h2
          subst this
          rw [hm, prefixHist]
          obtain ⟨t, ht⟩ := prefixHist_cons q m'
          rw [ht, virt_step, if_pos h2]
      -- the play of the larger game
      have hd : ∀ n, ∃ x t, (virt (prefixHist q (n0 + n))).2 = x :: t ∧ proj f x = q (n0 + n) := by
        intro n
        obtain ⟨_, _, c', l', x, t, h3, h4, h5, _⟩ := inv _ (hq (n0 + n))
        obtain ⟨t', ht'⟩ := prefixHist_cons q (n0 + n)
        rw [ht'] at h3
        exact ⟨x, t, h4, by rw [h5]; exact (List.cons.inj h3).1.symm⟩
      choose x t hx hpx using hd
      have hvs : ∀ n, virt (prefixHist q (n0 + n)) = (q n0, prefixHist x n) := by
        intro n
        induction n with
        | zero =>
          have h1 := hx 0
          rw [Nat.add_zero, hv0] at h1
          rw [Nat.add_zero, hv0, prefixHist]
          have := (List.cons.inj h1).1
          rw [this]
        | succ n ih =>
          have h1 := hx (n + 1)
          rw [show n0 + (n + 1) = n0 + n + 1 by omega, prefixHist] at h1 ⊢
          obtain ⟨t', ht'⟩ := prefixHist_cons q (n0 + n)
          rw [ht'] at h1 ih ⊢
          rw [virt_step, if_neg (hn0 _ (by omega)), ih] at h1 ⊢
          rw [prefixHist, (List.cons.inj h1).1]
      have hr : r.Live x := by
        obtain ⟨h1, _⟩ := inv _ (hq n0)
        rw [hv0] at h1
        refine (hstr _ h1).2 x fun n => ?_
        have := (inv _ (hq (n0 + n))).2.1
        rw [hvs n] at this
        exact this
      have hl := live x (fun n => by
        rw [hpx n]
        have := hn0 (n0 + n) (by omega)
        have e : (x (n + 1)).1 = (q (n0 + n + 1)).1 := congrArg Prod.fst (hpx (n + 1))
        rwa [e]) hr
      have e : (fun n => proj f (x n)) = fun n => q (n0 + n) := funext hpx
      rw [e] at hl
      intro ha b hb n
      obtain ⟨m, h1, h2⟩ := hl (fun a ha' k => by
        obtain ⟨m, h1, h2⟩ := ha a ha' (n0 + k)
        exact ⟨m - n0, by omega, by
          have e : n0 + (m - n0) = m := by omega
          have e' : n0 + (m - n0 + 1) = m + 1 := by omega
          show a (q (n0 + (m - n0))) (q (n0 + (m - n0 + 1)))
          rwa [e, e']⟩) b hb n
      exact ⟨n0 + m, by omega, h2⟩

end restart

end Slugs.Spec
