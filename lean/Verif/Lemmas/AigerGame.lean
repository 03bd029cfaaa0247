import Verif.Spec.Aiger
import Mathlib.Tactic.Common

/-!
Games without liveness guarantees, and functions from the inputs seen so far to the next output.
-/

namespace Slugs.Model.Aiger

open Slugs.Spec Slugs.Spec.Aag

variable {I O : Type}

/-- The play for the inputs `i`. -/
def play (m : List I → O) (i : Nat → I) (t : Nat) : Pos I O := (i t, m (seen i t))

theorem seen_congr {i j : Nat → I} : ∀ {t : Nat}, (∀ k ≤ t, i k = j k) → seen i t = seen j t
  | 0, h => by simp [seen, h 0 (Nat.le_refl _)]
  | t + 1, h => by rw [seen, seen, h _ (Nat.le_refl _), seen_congr fun k hk => h k (by omega)]

theorem prefixHist_congr {p q : Nat → Pos I O} : ∀ {t : Nat}, (∀ k ≤ t, p k = q k) → prefixHist p t = prefixHist q t
  | 0, h => by simp [prefixHist, h 0 (Nat.le_refl _)]
  | t + 1, h => by rw [prefixHist, prefixHist, h _ (Nat.le_refl _), prefixHist_congr fun k hk => h k (by omega)]

theorem prefixHist_inputs (m : List I → O) (i : Nat → I) : ∀ t, (prefixHist (play m i) t).map Prod.fst = seen i t
  | 0 => rfl
  | t + 1 => by rw [prefixHist, List.map_cons, prefixHist_inputs m i t]; rfl

theorem prefixHist_head (p : Nat → Pos I O) (t : Nat) : ∃ h, prefixHist p t = p t :: h := by cases t <;> exact ⟨_, rfl⟩

/-- The history for the inputs seen so far. -/
def histOf (o : I → O) (σ : I → SysStrategy I O) : List I → History I O
  | [] => []
  | [i] => [(i, o i)]
  | i :: j :: l => (i, σ ((j :: l).getLast (by simp)) (histOf o σ (j :: l)) i) :: histOf o σ (j :: l)

theorem seen_cons (i : Nat → I) (t : Nat) : ∃ l, seen i t = i t :: l := by cases t <;> exact ⟨_, rfl⟩

theorem seen_last (i : Nat → I) : ∀ t (h : seen i t ≠ []), (seen i t).getLast h = i 0
  | 0, _ => rfl
  | t + 1, h => by
    obtain ⟨l, hl⟩ := seen_cons i t
    have := seen_last i t (by simp [hl])
    simp only [seen]
    rw [List.getLast_cons (by simp [hl]), this]

theorem histOf_step (o : I → O) (σ : I → SysStrategy I O) (i : Nat → I) (t : Nat) :
    histOf o σ (seen i (t + 1)) = (i (t + 1), σ (i 0) (histOf o σ (seen i t)) (i (t + 1))) :: histOf o σ (seen i t) := by
  obtain ⟨l, hl⟩ := seen_cons i t
  have h1 := seen_last i t (by simp [hl])
  rw [seen]
  generalize hs : seen i t = s at *
  subst hl
  rw [histOf, h1]

/-- Realizability without liveness guarantees. -/
theorem realizable_iff_mealy [Inhabited I] [Inhabited O] (g : Game I O) (hg : g.guarantees = []) :
    g.Realizable ↔ ∃ m : List I → O, ∀ i t, g.AssumedUpTo (play m i) t → g.Kept (play m i) t := by
  classical
  constructor
  · intro h
    have h' : ∀ i, ∃ o, ∃ σ : SysStrategy I O, g.initEnv i → g.initSys (i, o) ∧ g.SysWinning σ (i, o) := by
      intro i
      by_cases hi : g.initEnv i
      · obtain ⟨o, h1, σ, h2⟩ := h i hi
        exact ⟨o, σ, fun _ => ⟨h1, h2⟩⟩
      · exact ⟨default, fun _ _ => default, fun h => absurd h hi⟩
    choose o σ hw using h'
    refine ⟨fun l => ((histOf o σ l).head?.map Prod.snd).getD default, fun i t ha => ?_⟩
    generalize hm : (fun l => ((histOf o σ l).head?.map Prod.snd).getD default) = m at *
    have e0 : play m i 0 = (i 0, o (i 0)) := by rw [← hm]; rfl
    have hist : ∀ t, histOf o σ (seen i t) = prefixHist (play m i) t := by
      intro t
      induction t with
      | zero => rw [prefixHist, e0]; rfl
      | succ t ih =>
        rw [prefixHist, ← ih, histOf_step]
        congr 1
        rw [← hm, play, histOf_step]
        rfl
    have hstep : ∀ t, play m i (t + 1) = (i (t + 1), σ (i 0) (prefixHist (play m i) t) (i (t + 1))) := by
      intro t
      have := hist (t + 1)
      rw [histOf_step, hist t, prefixHist] at this
      exact (List.cons.inj this).1.symm
    obtain ⟨w1, w2⟩ := hw (i 0) ha.1
    have reach : ∀ k ≤ t, g.SysHist (σ (i 0)) (i 0, o (i 0)) (prefixHist (play m i) k) := by
      intro k
      induction k with
      | zero => intro _; rw [prefixHist, e0]; exact .start
      | succ k ih =>
        intro hk
        have hr := ih (by omega)
        obtain ⟨l, hl⟩ := prefixHist_head (play m i) k
        rw [prefixHist, hstep, hl]
        rw [hl] at hr
        exact .step hr (ha.2 k (by omega))
    cases t with
    | zero => rw [Game.Kept, e0]; exact w1
    | succ t =>
      rw [Game.Kept, hstep]
      have hr := reach t (by omega)
      obtain ⟨l, hl⟩ := prefixHist_head (play m i) t
      rw [hl] at hr ⊢
      exact w2.1 _ _ _ hr (ha.2 t (by omega))
  · rintro ⟨m, hm⟩ i0 hi0
    have h0 := hm (fun _ => i0) 0 ⟨hi0, fun k hk => absurd hk (by omega)⟩
    refine ⟨m [i0], h0, fun h i => m (i :: h.map Prod.fst), ?_, fun p _ => ?_⟩
    · have reach : ∀ h, g.SysHist (fun h i => m (i :: h.map Prod.fst)) (i0, m [i0]) h → ∃ i t, h = prefixHist (play m i) t ∧ g.AssumedUpTo (play m i) t := by
        intro h hh
        induction hh with
        | start => exact ⟨fun _ => i0, 0, rfl, hi0, fun k hk => absurd hk (by omega)⟩
        | @step cur h i _ he ih =>
          obtain ⟨j, t, e, ha⟩ := ih
          have e1 : ∀ k ≤ t, play m (fun k => if k ≤ t then j k else i) k = play m j k := by
            intro k hk
            rw [play, play, seen_congr (j := j) fun k' hk' => by simp [show k' ≤ t by omega]]
            simp [hk]
          obtain ⟨l, hl⟩ := prefixHist_head (play m j) t
          have hcur : cur = play m j t := by rw [hl] at e; exact (List.cons.inj e).1
          have e2 : play m (fun k => if k ≤ t then j k else i) (t + 1) = (i, m (i :: (cur :: h).map Prod.fst)) := by
            rw [e, prefixHist_inputs, play, seen, seen_congr (j := j) fun k' hk' => by simp [hk']]
            simp [show ¬ t + 1 ≤ t by omega]
          refine ⟨fun k => if k ≤ t then j k else i, t + 1, ?_, ?_, fun k hk => ?_⟩
          · rw [prefixHist, e2, prefixHist_congr e1, ← e]
          · rw [e1 0 (by omega)]; exact ha.1
          · by_cases hkt : k < t
            · rw [e1 k (by omega), e1 (k + 1) (by omega)]
              exact ha.2 k hkt
            · have : k = t := by omega
              subst this
              rw [e1 k (by omega), e2, ← hcur]
              exact he
      intro cur h i hh he
      obtain ⟨j, t, e, ha⟩ := reach _ (.step hh he)
      cases t with
      | zero => simp [prefixHist] at e
      | succ t =>
        have hk := hm j (t + 1) ha
        rw [Game.Kept] at hk
        rw [prefixHist] at e
        obtain ⟨l, hl⟩ := prefixHist_head (play m j) t
        rw [hl] at e
        obtain ⟨e1, e2⟩ := List.cons.inj e
        obtain ⟨e3, _⟩ := List.cons.inj e2
        rw [e1, e3]
        exact hk
    · intro _ b hb
      rw [hg] at hb
      exact absurd hb (List.not_mem_nil)

end Slugs.Model.Aiger
