import Verif.Spec.Game
import Mathlib.Logic.Function.Basic
import Mathlib.Data.List.Forall2

/-!
A game whose positions are encoded in a larger game: the constraints of the larger game force the players to stay within the encodings.
-/

namespace Slugs.Spec

variable {I O I' O' : Type}

/-- The encoding of positions. -/
def embPos (eI : I → I') (eO : O → O') (p : Pos I O) : Pos I' O' := (eI p.1, eO p.2)

structure Embeds (g : Game I O) (g' : Game I' O') (eI : I → I') (eO : O → O') : Prop where
  injI : Function.Injective eI
  injO : Function.Injective eO
  initEnv : ∀ i', g'.initEnv i' ↔ ∃ i, i' = eI i ∧ g.initEnv i
  initSys : ∀ i o', g'.initSys (eI i, o') ↔ ∃ o, o' = eO o ∧ g.initSys (i, o)
  safetyEnv : ∀ p i', g'.safetyEnv (embPos eI eO p) i' ↔ ∃ i, i' = eI i ∧ g.safetyEnv p i
  safetySys : ∀ p i o', g'.safetySys (embPos eI eO p) (eI i, o') ↔ ∃ o, o' = eO o ∧ g.safetySys p (i, o)
  assumptions : List.Forall₂ (fun a a' => ∀ p q, a' (embPos eI eO p) (embPos eI eO q) ↔ a p q) g.assumptions g'.assumptions
  guarantees : List.Forall₂ (fun a a' => ∀ p q, a' (embPos eI eO p) (embPos eI eO q) ↔ a p q) g.guarantees g'.guarantees

/-- Like `Embeds`, but nothing is said about the safety guarantees after inputs that are not allowed. -/
structure EmbedsPlay (g : Game I O) (g' : Game I' O') (eI : I → I') (eO : O → O') : Prop where
  injI : Function.Injective eI
  injO : Function.Injective eO
  initEnv : ∀ i', g'.initEnv i' ↔ ∃ i, i' = eI i ∧ g.initEnv i
  initSys : ∀ i o', g'.initSys (eI i, o') ↔ ∃ o, o' = eO o ∧ g.initSys (i, o)
  safetyEnv : ∀ p i', g'.safetyEnv (embPos eI eO p) i' ↔ ∃ i, i' = eI i ∧ g.safetyEnv p i
  safetySys : ∀ p i o', g.safetyEnv p i → (g'.safetySys (embPos eI eO p) (eI i, o') ↔ ∃ o, o' = eO o ∧ g.safetySys p (i, o))
  assumptions : List.Forall₂ (fun a a' => ∀ p q, a' (embPos eI eO p) (embPos eI eO q) ↔ a p q) g.assumptions g'.assumptions
  guarantees : List.Forall₂ (fun a a' => ∀ p q, a' (embPos eI eO p) (embPos eI eO q) ↔ a p q) g.guarantees g'.guarantees

theorem Embeds.play {g : Game I O} {g' : Game I' O'} {eI : I → I'} {eO : O → O'} (h : Embeds g g' eI eO) : EmbedsPlay g g' eI eO :=
  ⟨h.injI, h.injO, h.initEnv, h.initSys, h.safetyEnv, fun p i o' _ => h.safetySys p i o', h.assumptions, h.guarantees⟩

theorem forall2_infOften {as : List (Pos I O → Pos I O → Prop)} {as' : List (Pos I' O' → Pos I' O' → Prop)} {eI : I → I'} {eO : O → O'}
    (h : List.Forall₂ (fun a a' => ∀ p q, a' (embPos eI eO p) (embPos eI eO q) ↔ a p q) as as') (p : Nat → Pos I O) :
    (∀ a ∈ as, InfOften a p) ↔ ∀ a' ∈ as', InfOften a' (fun n => embPos eI eO (p n)) := by
  induction h with
  | nil => simp
  | cons h1 h2 ih =>
    rw [List.forall_mem_cons, List.forall_mem_cons, ih]
    simp only [InfOften, h1]

theorem EmbedsPlay.live {g : Game I O} {g' : Game I' O'} {eI : I → I'} {eO : O → O'} (h : EmbedsPlay g g' eI eO) (p : Nat → Pos I O) :
    g'.Live (fun n => embPos eI eO (p n)) ↔ g.Live p := by
  rw [Game.Live, Game.Live, forall2_infOften h.assumptions, forall2_infOften h.guarantees]

theorem prefixHist_map {A : Type} {B : Type} {A' B' : Type} (e : Pos A B → Pos A' B') (p : Nat → Pos A B) (n : Nat) :
    prefixHist (fun n => e (p n)) n = (prefixHist p n).map e := by
  induction n with
  | zero => rfl
  | succ n ih => rw [prefixHist, prefixHist, ih]; rfl

theorem embPos_inj {eI : I → I'} {eO : O → O'} (h1 : Function.Injective eI) (h2 : Function.Injective eO) : Function.Injective (embPos eI eO) := by
  intro p q h
  exact Prod.ext (h1 (congrArg Prod.fst h)) (h2 (congrArg Prod.snd h))

theorem Embeds.live {g : Game I O} {g' : Game I' O'} {eI : I → I'} {eO : O → O'} (h : Embeds g g' eI eO) (p : Nat → Pos I O) :
    g'.Live (fun n => embPos eI eO (p n)) ↔ g.Live p := h.play.live p

/-- The system wins from a position if and only if it wins from its encoding. -/
theorem EmbedsPlay.sysWins {g : Game I O} {g' : Game I' O'} {eI : I → I'} {eO : O → O'} (h : EmbedsPlay g g' eI eO) (s : Pos I O) :
    g'.SysWins (embPos eI eO s) ↔ g.SysWins s := by
  classical
  haveI : Nonempty I := ⟨s.1⟩
  haveI : Nonempty O := ⟨s.2⟩
  have dI : ∀ i, Function.invFun eI (eI i) = i := Function.leftInverse_invFun h.injI
  have dO : ∀ o, Function.invFun eO (eO o) = o := Function.leftInverse_invFun h.injO
  let dP : Pos I' O' → Pos I O := embPos (Function.invFun eI) (Function.invFun eO)
  have hdP : ∀ p, dP (embPos eI eO p) = p := fun p => Prod.ext (dI _) (dO _)
  have hmap : ∀ l : List (Pos I O), (l.map (embPos eI eO)).map dP = l := by
    intro l
    rw [List.map_map]
    conv_rhs => rw [← List.map_id l]
    exact List.map_congr_left fun p _ => hdP p
  constructor
  · rintro ⟨σ', h1, h2⟩
    let σ : SysStrategy I O := fun l i => Function.invFun eO (σ' (l.map (embPos eI eO)) (eI i))
    have key : ∀ l, g.SysHist σ s l → g'.SysHist σ' (embPos eI eO s) (l.map (embPos eI eO)) ∧
        ∀ cur l', l = cur :: l' → ∀ i, g.safetyEnv cur i → ∃ o, σ' (l.map (embPos eI eO)) (eI i) = eO o ∧ g.safetySys cur (i, o) := by
      intro l hl
      have fin : ∀ cur l', g'.SysHist σ' (embPos eI eO s) ((cur :: l').map (embPos eI eO)) → ∀ i, g.safetyEnv cur i →
          ∃ o, σ' ((cur :: l').map (embPos eI eO)) (eI i) = eO o ∧ g.safetySys cur (i, o) := by
        intro cur l' hh i hi
        have := h1 (embPos eI eO cur) (l'.map (embPos eI eO)) (eI i) hh ((h.safetyEnv _ _).mpr ⟨i, rfl, hi⟩)
        exact (h.safetySys _ _ _ hi).mp this
      induction hl with
      | start => exact ⟨.start, fun cur l' e => by cases e; exact fin _ _ .start⟩
      | @step cur l i hl hi ih =>
        obtain ⟨o, ho, _⟩ := ih.2 cur l rfl i hi
        have e : σ (cur :: l) i = o := by simp only [σ]; rw [ho, dO]
        have hh : g'.SysHist σ' (embPos eI eO s) (((i, σ (cur :: l) i) :: cur :: l).map (embPos eI eO)) := by
          rw [e]
          have := Game.SysHist.step (i := eI i) ih.1 ((h.safetyEnv _ _).mpr ⟨i, rfl, hi⟩)
          have e2 : embPos eI eO (i, o) = (eI i, σ' (embPos eI eO cur :: l.map (embPos eI eO)) (eI i)) := Prod.ext rfl ho.symm
          rw [List.map_cons, e2]
          exact this
        exact ⟨hh, fun cur' l' e' => by cases e'; exact fin _ _ hh⟩
    refine ⟨σ, fun cur l i hl hi => ?_, fun p hp => ?_⟩
    · obtain ⟨o, ho, hs⟩ := (key _ hl).2 cur l rfl i hi
      have e : σ (cur :: l) i = o := by simp only [σ]; rw [ho, dO]
      rw [e]; exact hs
    · rw [← h.live]
      refine h2 _ fun n => ?_
      rw [prefixHist_map]
      exact (key _ (hp n)).1
  · rintro ⟨σ, h1, h2⟩
    let σ' : SysStrategy I' O' := fun l i => eO (σ (l.map dP) (Function.invFun eI i))
    have key : ∀ l', g'.SysHist σ' (embPos eI eO s) l' → ∃ l, l' = l.map (embPos eI eO) ∧ g.SysHist σ s l := by
      intro l' hl
      induction hl with
      | start => exact ⟨[s], rfl, .start⟩
      | @step cur' l' i' _ hi ih =>
        obtain ⟨l, hl, hh⟩ := ih
        obtain ⟨cur, l, rfl, rfl, rfl⟩ : ∃ cur l0, l = cur :: l0 ∧ cur' = embPos eI eO cur ∧ l' = l0.map (embPos eI eO) := by
          cases l with
          | nil => cases hl
          | cons a l => cases hl; exact ⟨a, l, rfl, rfl, rfl⟩
        obtain ⟨i, rfl, hi'⟩ := (h.safetyEnv _ _).mp hi
        refine ⟨(i, σ (cur :: l) i) :: cur :: l, ?_, .step hh hi'⟩
        simp only [σ', dI, ← List.map_cons, hmap]
        rfl
    refine ⟨σ', fun cur' l' i' hl hi => ?_, fun p' hp => ?_⟩
    · obtain ⟨l, hl, hh⟩ := key _ hl
      obtain ⟨cur, l, rfl, rfl, rfl⟩ : ∃ cur l0, l = cur :: l0 ∧ cur' = embPos eI eO cur ∧ l' = l0.map (embPos eI eO) := by
        cases l with
        | nil => cases hl
        | cons a l => cases hl; exact ⟨a, l, rfl, rfl, rfl⟩
      obtain ⟨i, rfl, hi'⟩ := (h.safetyEnv _ _).mp hi
      have := h1 cur l i hh hi'
      refine (h.safetySys _ _ _ hi').mpr ⟨σ (cur :: l) i, ?_, this⟩
      simp only [σ', dI, ← List.map_cons, hmap]
    · have hp1 : ∀ n, ∃ q, p' n = embPos eI eO q := by
        intro n
        obtain ⟨l, hl, _⟩ := key _ (hp n)
        cases n with
        | zero => cases l with
          | nil => cases hl
          | cons a l => exact ⟨a, (List.cons.inj hl).1⟩
        | succ n => cases l with
          | nil => cases hl
          | cons a l => exact ⟨a, (List.cons.inj hl).1⟩
      choose p hpe using hp1
      have e : p' = fun n => embPos eI eO (p n) := funext hpe
      subst e
      rw [h.live]
      refine h2 _ fun n => ?_
      obtain ⟨l, hl, hh⟩ := key _ (hp n)
      rw [prefixHist_map] at hl
      have : prefixHist p n = l := by
        have := congrArg (List.map dP) hl
        rwa [hmap, hmap] at this
      rw [this]; exact hh

theorem EmbedsPlay.realizable {g : Game I O} {g' : Game I' O'} {eI : I → I'} {eO : O → O'} (h : EmbedsPlay g g' eI eO) : g'.Realizable ↔ g.Realizable := by
  constructor
  · intro hr i hi
    obtain ⟨o', h1, h2⟩ := hr (eI i) ((h.initEnv _).mpr ⟨i, rfl, hi⟩)
    obtain ⟨o, rfl, h3⟩ := (h.initSys _ _).mp h1
    exact ⟨o, h3, (h.sysWins (i, o)).mp h2⟩
  · intro hr i' hi
    obtain ⟨i, rfl, hi'⟩ := (h.initEnv _).mp hi
    obtain ⟨o, h1, h2⟩ := hr i hi'
    exact ⟨eO o, (h.initSys _ _).mpr ⟨o, rfl, h1⟩, (h.sysWins (i, o)).mpr h2⟩

theorem Embeds.sysWins {g : Game I O} {g' : Game I' O'} {eI : I → I'} {eO : O → O'} (h : Embeds g g' eI eO) (s : Pos I O) :
    g'.SysWins (embPos eI eO s) ↔ g.SysWins s := h.play.sysWins s

theorem Embeds.realizable {g : Game I O} {g' : Game I' O'} {eI : I → I'} {eO : O → O'} (h : Embeds g g' eI eO) : g'.Realizable ↔ g.Realizable :=
  h.play.realizable

theorem Embeds.robotics {g : Game I O} {g' : Game I' O'} {eI : I → I'} {eO : O → O'} (h : Embeds g g' eI eO) :
    g'.RoboticsRealizable ↔ g.RoboticsRealizable := by
  constructor
  · intro hr i o hi ho
    exact (h.sysWins (i, o)).mp (hr (eI i) (eO o) ((h.initEnv _).mpr ⟨i, rfl, hi⟩) ((h.initSys _ _).mpr ⟨o, rfl, ho⟩))
  · intro hr i' o' hi ho
    obtain ⟨i, rfl, hi'⟩ := (h.initEnv _).mp hi
    obtain ⟨o, rfl, ho'⟩ := (h.initSys _ _).mp ho
    exact (h.sysWins (i, o)).mpr (hr i o hi' ho')

end Slugs.Spec
