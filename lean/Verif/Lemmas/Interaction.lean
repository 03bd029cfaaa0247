import Verif.Spec.Interaction
import Verif.Model.Interaction
import Verif.Lemmas.TraceText
import Verif.Props.Core

/-! Lemmas about the analysis of the interaction of safety and liveness: the extra bit, the loops on sets of positions, more rounds, transfer. -/

namespace Slugs.Model

open Slugs.Spec Slugs.Props

/-! ### Plays -/

section
variable {I O : Type}

theorem prefixHist_cons (p : Nat → Pos I O) (n : Nat) : ∃ h, prefixHist p n = p n :: h := by
  cases n with
  | zero => exact ⟨_, rfl⟩
  | succ n => exact ⟨_, rfl⟩

theorem sysPlay_iff (g : Game I O) (σ : SysStrategy I O) (s : Pos I O) (p : Nat → Pos I O) :
    g.SysPlay σ s p ↔ ∀ n, g.SysHist σ s (prefixHist p n) := by
  constructor
  · rintro ⟨h0, h1, h2⟩ n
    induction n with
    | zero => rw [prefixHist, h0]; exact .start
    | succ n ih =>
      obtain ⟨h, e⟩ := prefixHist_cons p n
      have e' : p (n + 1) = ((p (n + 1)).1, σ (p n :: h) (p (n + 1)).1) := by rw [← e, ← h1 n]
      rw [prefixHist, e', e]
      rw [e] at ih
      exact .step ih (h2 n)
  · intro h
    have h0 : p 0 = s := by
      have := h 0
      rw [prefixHist] at this
      generalize hl : [p 0] = l at this
      cases this with
      | start => exact (List.cons.inj hl).1
      | step _ _ => exact absurd hl (by simp)
    have hstep : ∀ n, (p (n + 1)).2 = σ (prefixHist p n) (p (n + 1)).1 ∧ g.safetyEnv (p n) (p (n + 1)).1 := by
      intro n
      have := h (n + 1)
      obtain ⟨t, e⟩ := prefixHist_cons p n
      rw [prefixHist, e] at this
      rw [e]
      generalize hl : p (n + 1) :: p n :: t = l at this
      cases this with
      | start => cases hl
      | step _ hi =>
        obtain ⟨h1, h2⟩ := List.cons.inj hl
        obtain ⟨h2, h3⟩ := List.cons.inj h2
        rw [h1, h2, h3]
        exact ⟨rfl, hi⟩
    exact ⟨h0, fun n => (hstep n).1, fun n => (hstep n).2⟩

end

/-! ### The extra bit -/

section
variable {I Y : Type}

/-- Without the extra bit. -/
def dropBit (s : Pos I (Option Y → Bool)) : Pos I (Y → Bool) := (s.1, fun y => s.2 (some y))

/-- The extra bit. -/
def bitOf (s : Pos I (Option Y → Bool)) : Bool := s.2 none

/-- Outputs with the extra bit. -/
def addBit (o : Y → Bool) (b : Bool) : Option Y → Bool := fun y => y.elim b o

/-- A position with the extra bit. -/
def withBit (s : Pos I (Y → Bool)) (b : Bool) : Pos I (Option Y → Bool) := (s.1, addBit s.2 b)

theorem dropBit_withBit (s : Pos I (Y → Bool)) (b : Bool) : dropBit (withBit s b) = s := rfl
theorem bitOf_withBit (s : Pos I (Y → Bool)) (b : Bool) : bitOf (withBit s b) = b := rfl

theorem withBit_dropBit (s : Pos I (Option Y → Bool)) : withBit (dropBit s) (bitOf s) = s := by
  refine Prod.ext rfl (funext fun y => ?_)
  cases y <;> rfl

/-- A predicate that does not refer to the extra bit. -/
def liftT (f : T I (Y → Bool)) : T I (Option Y → Bool) := fun s t => f (dropBit s) (dropBit t)

theorem liftT_hom : MgrHom (semMgr I (Y → Bool)) (semMgr I (Option Y → Bool)) liftT where
  inj f g h := by
    funext s t
    exact congrFun (congrFun h (withBit s false)) (withBit t false)
  tt := rfl
  ff := rfl
  and _ _ := rfl
  or _ _ := rfl
  not _ := rfl
  swap _ := rfl
  exPostOutput f := by
    funext s t
    exact propext ⟨fun ⟨o, h⟩ => ⟨fun y => o (some y), h⟩, fun ⟨o, h⟩ => ⟨addBit o false, h⟩⟩
  exPostInput f := rfl
  exPost f := by
    funext s t
    exact propext ⟨fun ⟨o, h⟩ => ⟨dropBit o, h⟩, fun ⟨o, h⟩ => ⟨withBit o false, h⟩⟩
  exPre f := by
    funext s t
    exact propext ⟨fun ⟨o, h⟩ => ⟨dropBit o, h⟩, fun ⟨o, h⟩ => ⟨withBit o false, h⟩⟩
  exPreOutput f := by
    funext s t
    exact propext ⟨fun ⟨o, h⟩ => ⟨fun y => o (some y), h⟩, fun ⟨o, h⟩ => ⟨addBit o false, h⟩⟩
  exPreInput f := rfl
  allPostInput f := rfl
  allPostOutput f := by
    funext s t
    exact propext ⟨fun h o => h (addBit o false), fun h o => h (fun y => o (some y))⟩
  allPreInput f := rfl
  allPreOutput f := by
    funext s t
    exact propext ⟨fun h o => h (addBit o false), fun h o => h (fun y => o (some y))⟩

/-- The game with the extra bit. -/
def failGame (g : Game I (Y → Bool)) : Game I (Option Y → Bool) where
  initEnv := g.initEnv
  initSys s := g.initSys (dropBit s)
  safetyEnv s i := g.safetyEnv (dropBit s) i
  safetySys s t := bitOf t = true ↔ ¬ g.safetySys (dropBit s) (dropBit t) ∨ bitOf s = true
  assumptions := g.assumptions.map liftT
  guarantees := g.guarantees.map liftT ++ [fun _ t => bitOf t = false]

/-- The bit after each position of a history; the first bit is `b`. -/
noncomputable def bitsOf (g : Game I (Y → Bool)) (b : Bool) : History I (Y → Bool) → Bool
  | [] => b
  | [_] => b
  | t :: s :: h => open Classical in decide (¬ g.safetySys s t ∨ bitsOf g b (s :: h) = true)

/-- The history with the bits. -/
noncomputable def withBits (g : Game I (Y → Bool)) (b : Bool) : History I (Y → Bool) → History I (Option Y → Bool)
  | [] => []
  | s :: h => withBit s (bitsOf g b (s :: h)) :: withBits g b h

theorem infOften_lift (f : T I (Y → Bool)) (p : Nat → Pos I (Option Y → Bool)) : InfOften (liftT f) p ↔ InfOften f (fun n => dropBit (p n)) := Iff.rfl

theorem prefixHist_dropBit (p : Nat → Pos I (Option Y → Bool)) (n : Nat) : (prefixHist p n).map dropBit = prefixHist (fun n => dropBit (p n)) n := by
  induction n with
  | zero => rfl
  | succ n ih => simp only [prefixHist, List.map_cons, ih]

theorem withBits_prefix (g : Game I (Y → Bool)) (b : Bool) (p : Nat → Pos I (Y → Bool)) (n : Nat) :
    withBits g b (prefixHist p n) = prefixHist (fun n => withBit (p n) (bitsOf g b (prefixHist p n))) n := by
  induction n with
  | zero => rfl
  | succ n ih => simp only [prefixHist, withBits, ih]

theorem bitsOf_succ (g : Game I (Y → Bool)) (b : Bool) (p : Nat → Pos I (Y → Bool)) (n : Nat) :
    bitsOf g b (prefixHist p (n + 1)) = true ↔ ¬ g.safetySys (p n) (p (n + 1)) ∨ bitsOf g b (prefixHist p n) = true := by
  obtain ⟨h, e⟩ := prefixHist_cons p n
  rw [prefixHist, e, bitsOf]
  simp

/-- Winning the game with the extra bit, in terms of plays of the original game. -/
theorem failGame_wins (g : Game I (Y → Bool)) (s : Pos I (Y → Bool)) (b : Bool) : (failGame g).SysWins (withBit s b) ↔
    ∃ σ, ∀ p, g.SysPlay σ s p → g.Assumed p → b = false ∧ g.Guaranteed p := by
  classical
  constructor
  · rintro ⟨σ', h1, h2⟩
    refine ⟨fun h i y => σ' (withBits g b h) i (some y), fun p hp ha => ?_⟩
    obtain ⟨hp0, hp1, hp2⟩ := hp
    set q : Nat → Pos I (Option Y → Bool) := fun n => withBit (p n) (bitsOf g b (prefixHist p n)) with hq
    have hist : ∀ n, (failGame g).SysHist σ' (withBit s b) (prefixHist q n) := by
      intro n
      induction n with
      | zero =>
        have : q 0 = withBit s b := by rw [hq]; simp only [prefixHist, bitsOf, hp0]
        rw [prefixHist, this]; exact .start
      | succ n ih =>
        obtain ⟨h, e⟩ := prefixHist_cons q n
        rw [e] at ih
        have hsafe := h1 _ _ _ ih (hp2 n)
        have key : q (n + 1) = ((p (n + 1)).1, σ' (q n :: h) (p (n + 1)).1) := by
          have hd : dropBit ((p (n + 1)).1, σ' (q n :: h) (p (n + 1)).1) = p (n + 1) := by
            refine Prod.ext rfl ?_
            rw [hp1 n, withBits_prefix, ← hq, e]
            rfl
          rw [← withBit_dropBit ((p (n + 1)).1, σ' (q n :: h) (p (n + 1)).1), hd]
          have hb : bitsOf g b (prefixHist p (n + 1)) = bitOf ((p (n + 1)).1, σ' (q n :: h) (p (n + 1)).1) := by
            rw [Bool.eq_iff_iff, bitsOf_succ]
            have := hsafe
            simp only [failGame] at this
            rw [hd] at this
            exact this.symm
          simp only [hq, hb]
        rw [prefixHist, e, key]
        exact .step ih (hp2 n)
    have hl := h2 q hist (by
      intro a ha'
      obtain ⟨a, ha0, rfl⟩ := List.mem_map.mp ha'
      exact ha a ha0)
    have hbit : ∀ n, bitsOf g b (prefixHist p n) = false := by
      intro n
      by_contra hc
      have hall : ∀ m, n ≤ m → bitsOf g b (prefixHist p m) = true := by
        intro m hm
        induction hm with
        | refl => simpa using hc
        | step _ ih => exact (bitsOf_succ g b p _).mpr (.inr ih)
      obtain ⟨m, hm, hf⟩ := hl (fun _ t => bitOf t = false) (by simp [failGame]) n
      have := hall (m + 1) (by omega)
      have hf' : bitsOf g b (prefixHist p (m + 1)) = false := hf
      rw [hf'] at this
      cases this
    refine ⟨hbit 0, fun n => ?_, fun f hf => ?_⟩
    · by_contra hc
      have := (bitsOf_succ g b p n).mpr (.inl hc)
      rw [hbit] at this
      cases this
    · exact hl (liftT f) (by simp only [failGame, List.mem_append, List.mem_map]; exact .inl ⟨f, hf, rfl⟩)
  · rintro ⟨σ, h⟩
    let σ' : SysStrategy I (Option Y → Bool) := fun l i => match l with
      | [] => fun _ => false
      | cur :: l' => addBit (σ ((cur :: l').map dropBit) i) (decide (¬ g.safetySys (dropBit cur) (i, σ ((cur :: l').map dropBit) i) ∨ bitOf cur = true))
    refine ⟨σ', fun cur l i _ _ => ?_, fun q hq ha => ?_⟩
    · show (decide _ = true ↔ _)
      rw [decide_eq_true_eq]
      rfl
    · obtain ⟨hq0, hq1, hq2⟩ := (sysPlay_iff _ _ _ _).mpr hq
      set p : Nat → Pos I (Y → Bool) := fun n => dropBit (q n) with hp
      have hplay : g.SysPlay σ s p := by
        refine ⟨by simp only [hp, hq0, dropBit_withBit], fun n => ?_, fun n => hq2 n⟩
        obtain ⟨l, e⟩ := prefixHist_cons q n
        have := hq1 n
        rw [e] at this
        have h2 : (p (n + 1)).2 = fun y => (q (n + 1)).2 (some y) := rfl
        rw [h2, this, ← prefixHist_dropBit, e]
        rfl
      have hass : g.Assumed p := fun a ha0 => ha (liftT a) (List.mem_map.mpr ⟨a, ha0, rfl⟩)
      obtain ⟨hb, hs, hg⟩ := h p hplay hass
      have hbit : ∀ n, bitOf (q n) = false := by
        intro n
        induction n with
        | zero => rw [hq0, bitOf_withBit, hb]
        | succ n ih =>
          obtain ⟨l, e⟩ := prefixHist_cons q n
          have h1 := hq1 n
          rw [e] at h1
          have h2 : bitOf (q (n + 1)) = decide (¬ g.safetySys (dropBit (q n)) ((q (n + 1)).1, σ ((q n :: l).map dropBit) (q (n + 1)).1) ∨
              bitOf (q n) = true) := by
            rw [bitOf, h1]
            rfl
          have h3 : ((q (n + 1)).1, σ ((q n :: l).map dropBit) (q (n + 1)).1) = p (n + 1) := by
            refine Prod.ext rfl ?_
            rw [hplay.follows n, ← prefixHist_dropBit, e]
            rfl
          rw [h2, h3, ih]
          simpa using hs n
      intro f hf
      simp only [failGame, List.mem_append, List.mem_map, List.mem_singleton] at hf
      rcases hf with ⟨f, hf, rfl⟩ | rfl
      · exact hg f hf
      · exact fun n => ⟨n, le_refl n, hbit (n + 1)⟩

theorem failGame_realizable (g : Game I (Y → Bool)) : (failGame g).Realizable ↔ g.NonStrictRealizable := by
  refine forall_congr' fun i => imp_congr_right fun _ => ?_
  constructor
  · rintro ⟨o, ho, hw⟩
    refine ⟨fun y => o (some y), ho, ?_⟩
    rw [← withBit_dropBit (i, o), failGame_wins] at hw
    obtain ⟨σ, h⟩ := hw
    exact ⟨σ, fun p h1 h2 => (h p h1 h2).2⟩
  · rintro ⟨o, ho, σ, h⟩
    exact ⟨addBit o false, ho, (failGame_wins g (i, o) false).mpr ⟨σ, fun p h1 h2 => ⟨rfl, h p h1 h2⟩⟩⟩

theorem failGame_robotics (g : Game I (Y → Bool)) :
    (failGame g).RoboticsRealizable ↔ ∀ i o, g.initEnv i → g.initSys (i, o) → g.ForcesViolation (i, o) := by
  have htrue : ∀ s, (failGame g).SysWins (withBit s true) ↔ g.ForcesViolation s := by
    intro s
    rw [failGame_wins]
    exact exists_congr fun σ => forall_congr' fun p => imp_congr_right fun _ => by simp
  constructor
  · intro h i o h1 h2
    exact (htrue (i, o)).mp (h i (addBit o true) h1 h2)
  · intro h i o h1 h2
    rw [← withBit_dropBit (i, o), failGame_wins]
    obtain ⟨σ, hσ⟩ := h i (fun y => o (some y)) h1 h2
    exact ⟨σ, fun p h1 h2 => absurd h2 (hσ p h1)⟩

end

end Slugs.Model
