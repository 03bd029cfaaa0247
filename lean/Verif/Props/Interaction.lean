import Verif.Lemmas.InteractionText
import Verif.Props.Trace

/-!
# C41, C42, C43: which parts of a specification make it unrealizable

`runInteraction` is the model of a complete run with `--analyzeSafetyLivenessInteraction`.  `Spec/Interaction.lean` says what it means to leave out parts of a
specification, and what the non-strict implication is; `Spec/Trace.lean` what it means to win in finite time.
-/

namespace Slugs.Props

open Slugs.Spec Slugs.Model

variable {B : Type} [DecidableEq B] [L : BddLib B]

/-! ### Padding -/

section
variable {I O : Type}

theorem padLive_inf (l : List (T I O)) (p : Nat → Pos I O) : (∀ a ∈ padLive l, InfOften a p) ↔ ∀ a ∈ l, InfOften a p := by
  cases l with
  | nil =>
    simp only [padLive, List.mem_singleton, forall_eq, List.not_mem_nil, false_imp_iff, implies_true, iff_true]
    exact fun n => ⟨n, Nat.le_refl n, trivial⟩
  | cons a l => exact Iff.rfl

theorem pad_assumed (g : Game I O) (p : Nat → Pos I O) : (padGame g).Assumed p ↔ g.Assumed p := padLive_inf _ _

theorem pad_guaranteed (g : Game I O) (p : Nat → Pos I O) : (padGame g).Guaranteed p ↔ g.Guaranteed p := and_congr_right fun _ => padLive_inf _ _

theorem pad_play (g : Game I O) (σ : SysStrategy I O) (s : Pos I O) (p : Nat → Pos I O) : (padGame g).SysPlay σ s p ↔ g.SysPlay σ s p :=
  ⟨fun ⟨h1, h2, h3⟩ => ⟨h1, h2, h3⟩, fun ⟨h1, h2, h3⟩ => ⟨h1, h2, h3⟩⟩

theorem pad_nonStrict (g : Game I O) (s : Pos I O) : (padGame g).NonStrictWins s ↔ g.NonStrictWins s := by
  simp only [Game.NonStrictWins, pad_assumed, pad_guaranteed, pad_play]

theorem pad_violation (g : Game I O) (s : Pos I O) : (padGame g).ForcesViolation s ↔ g.ForcesViolation s := by
  simp only [Game.ForcesViolation, pad_assumed, pad_play]

theorem pad_stage (g : Game I O) (env : Bool) (n : Nat) : stage (padGame g) env n = stage g env n := by
  induction n with
  | zero => rfl
  | succ n ih =>
    show fpre (padGame g) env (stage (padGame g) env n) = fpre g env (stage g env n)
    rw [ih]; rfl

theorem pad_starts (g : Game I O) (env : Bool) (W : Set (Pos I O)) : Starts (padGame g) env W ↔ Starts g env W := Iff.rfl

theorem pad_first (g : Game I O) (env : Bool) (f : Option Nat) : First (padGame g) env f ↔ First g env f := by
  cases f <;> simp only [First, pad_stage, pad_starts]

theorem rowCtx_sem (g : Game I O) (i : Nat) : rowCtx (semMgr I O) (gameCtx (padGame g)) i =
    gameCtx (padGame (g.keep (decide (0 < i &&& 8)) (decide (0 < i &&& 4)) (decide (0 < i &&& 2)) (decide (0 < i &&& 1)))) := by
  simp only [rowCtx, gameCtx, padGame, Game.keep, Ctx.mk.injEq, decide_eq_true_eq, true_and]
  refine ⟨?_, ?_, ?_, ?_⟩
  · split <;> rfl
  · split <;> rfl
  · split
    · rename_i h; simp [h]
    · rename_i h; simp [h, semMgr]
  · split
    · rename_i h; simp [h]
    · rename_i h; simp [h, semMgr]

/-- Row `i` is right. -/
def RowOK (g : Game I O) (i : Nat) (r : Bool × Bool) : Prop :=
  (r.1 = true ↔ (g.keep (decide (0 < i &&& 8)) (decide (0 < i &&& 4)) (decide (0 < i &&& 2)) (decide (0 < i &&& 1))).Realizable) ∧
  (r.2 = true ↔ (g.keep (decide (0 < i &&& 8)) (decide (0 < i &&& 4)) (decide (0 < i &&& 2)) (decide (0 < i &&& 1))).RoboticsRealizable)

theorem rowLoop_sem [Finite I] [Finite O] [Nonempty I] [Nonempty O] (g : Game I O) (fuel : Nat) (hf : Nat.card (Pos I O) < fuel) : ∀ is : List Nat,
    ∃ rs, rowLoop (semMgr I O) (gameCtx (padGame g)) fuel is = some rs ∧ List.Forall₂ (RowOK g) is rs
  | [] => ⟨[], rfl, .nil⟩
  | i :: is => by
    obtain ⟨rs, h1, h2⟩ := rowLoop_sem g fuel hf is
    obtain ⟨r, h3, h4, h5⟩ := checkBoth_sem (padGame (g.keep (decide (0 < i &&& 8)) (decide (0 < i &&& 4)) (decide (0 < i &&& 2)) (decide (0 < i &&& 1))))
      (padGame_assumptions _) (padGame_guarantees _) fuel hf
    rw [padGame_realizable] at h4
    rw [padGame_robotics] at h5
    exact ⟨r :: rs, by rw [rowLoop, rowCtx_sem, h3, h1], .cons ⟨h4, h5⟩ h2⟩

theorem keep_all (g : Game I O) : g.keep true true true true = g := by
  simp [Game.keep]

end

/-! ### Games with safety constraints only -/

section
variable {I O : Type}

theorem stages_stop [Finite I] [Finite O] (g : Game I O) (env : Bool) : ∃ k, stage g env (k + 1) = stage g env k := by
  by_contra hc
  simp only [not_exists] at hc
  have : ∀ k, k ≤ (stage g env k).ncard := by
    intro k
    induction k with
    | zero => omega
    | succ k ih =>
      have hlt : (stage g env k).ncard < (stage g env (k + 1)).ncard :=
        Set.ncard_lt_ncard (lt_of_le_of_ne (stage_succ g env k) (Ne.symm (hc k))) (Set.toFinite _)
      omega
  have h1 := this (Nat.card (Pos I O) + 1)
  have h2 : (stage g env (Nat.card (Pos I O) + 1)).ncard ≤ Nat.card (Pos I O) := by
    rw [← Set.ncard_univ]; exact Set.ncard_le_ncard (Set.subset_univ _) (Set.toFinite _)
  omega

/-- If only safety constraints count, the system wins from exactly those positions from which the environment cannot win in finite time. -/
theorem safety_wins [Finite I] [Finite O] (g : Game I O) (s : Pos I O) :
    (g.keep true false true false).SysWins s ↔ ∀ n, ¬ g.EnvForces n s := by
  classical
  constructor
  · rintro ⟨σ, h1, _⟩ n hn
    rw [← stage_env] at hn
    have key : ∀ n (cur : Pos I O) h, (g.keep true false true false).SysHist σ s (cur :: h) → cur ∉ stage g true n := by
      intro n
      induction n with
      | zero => exact fun _ _ _ h => h
      | succ n ih =>
        rintro cur h hh ⟨i, h2, h3⟩
        have hs := h1 cur h i hh (fun _ => h2) rfl
        exact ih _ _ (.step hh fun _ => h2) (h3 _ hs)
    exact key n s [] .start hn
  · intro h
    obtain ⟨k, hk⟩ := stages_stop g true
    have hs : s ∉ stage g true k := fun hm => h k ((stage_env g k s).mp hm)
    have hpick : ∀ (p : Pos I O) (i : I), ∃ o : O, p ∉ stage g true k → g.safetyEnv p i → g.safetySys p (i, o) ∧ (i, o) ∉ stage g true k := by
      intro p i
      by_cases hp : p ∉ stage g true k ∧ g.safetyEnv p i
      · obtain ⟨hp, hi⟩ := hp
        rw [← hk] at hp
        by_contra hc
        simp only [not_exists] at hc
        refine hp ⟨i, hi, fun o ho => ?_⟩
        by_contra hn
        exact hc o fun _ _ => ⟨ho, hn⟩
      · exact ⟨s.2, fun h1 h2 => absurd ⟨h1, h2⟩ hp⟩
    choose pick hpick using hpick
    let σ : SysStrategy I O := fun h i => match h with
      | [] => s.2
      | cur :: _ => pick cur i
    have inv : ∀ l, (g.keep true false true false).SysHist σ s l → ∃ cur h, l = cur :: h ∧ cur ∉ stage g true k := by
      intro l hl
      induction hl with
      | start => exact ⟨s, [], rfl, hs⟩
      | @step cur h i _ hi ih =>
        obtain ⟨cur', h', e, hc⟩ := ih
        cases e
        exact ⟨_, _, rfl, (hpick cur i hc (hi rfl)).2⟩
    refine ⟨σ, fun cur h i hh hi _ => ?_, fun p _ _ b hb => absurd hb List.not_mem_nil⟩
    obtain ⟨cur', h', e, hc⟩ := inv _ hh
    cases e
    exact (hpick cur i hc (hi rfl)).1

/-- If the specification with only the safety constraints is unrealizable, then the environment can force a violation in finite time. -/
theorem safety_forced [Finite I] [Finite O] (g : Game I O) (h : ¬ (g.keep true false true false).Realizable) : ∃ n, g.EnvForcesInit n := by
  simp only [Game.Realizable, not_forall, not_exists, not_and] at h
  obtain ⟨i, hi, h⟩ := h
  obtain ⟨k, hk⟩ := stages_stop g true
  refine ⟨k, i, hi, fun o ho => ?_⟩
  have := h o ho
  rw [safety_wins] at this
  simp only [not_forall, not_not] at this
  obtain ⟨n, hn⟩ := this
  rw [← stage_env] at hn ⊢
  rcases Nat.le_total n k with hle | hle
  · exact stage_mono g true hle hn
  · rwa [stage_stable g true hk n hle] at hn

end

/-! ### Complete runs -/

/-- What a report says. -/
structure ReportOK {I O : Type} (g : Game I O) (r : InteractionReport) : Prop where
  rows : List.Forall₂ (RowOK g) (List.range 16) r.rows
  notShown : r.nonStrict = none ↔ g.Realizable ∧ g.RoboticsRealizable
  classical : ∀ a b, r.nonStrict = some (a, b) → (a = true ↔ g.NonStrictRealizable ∧ ¬ g.Realizable)
  robotics : ∀ a b, r.nonStrict = some (a, b) → (b = true ↔
    (∀ i o, g.initEnv i → g.initSys (i, o) → g.ForcesViolation (i, o)) ∧ ¬ g.RoboticsRealizable)
  finite : ∃ b, (b = true ↔ (g.keep true false true false).Realizable) ∧ FiniteOK g b r.finite

theorem forall₂_getD {α β : Type} {R : α → β → Prop} {d : β} : ∀ {l : List α} {m : List β}, List.Forall₂ R l m → ∀ {k : Nat} {a : α}, l[k]? = some a →
    R a (m.getD k d)
  | _, _, .cons h _, 0, _, e => by cases e; exact h
  | _, _, .cons _ h, k + 1, _, e => by
    rw [List.getElem?_cons_succ] at e
    exact forall₂_getD h e

section
variable {X Y : Type} [Finite X] [Finite Y]

theorem pad_finite {I O : Type} {g : Game I O} {b : Bool} {f : FiniteReport} (h : FiniteOK (padGame g) b f) : FiniteOK g b f := by
  cases f with
  | env n x => exact ⟨h.1, (pad_first g _ _).mp h.2.1, h.2.2.trans (by rw [pad_stage]; rfl)⟩
  | envCannot => exact ⟨h.1, (pad_first g _ _).mp h.2⟩
  | sys n => exact ⟨h.1, (pad_first g _ _).mp h.2⟩
  | sysCannot => exact ⟨h.1, (pad_first g _ _).mp h.2⟩

theorem bit_card : Nat.card (Pos (X → Bool) (Option Y → Bool)) = 2 * Nat.card (Pos (X → Bool) (Y → Bool)) := by
  have e : (Option Y → Bool) ≃ Bool × (Y → Bool) :=
    { toFun := fun o => (o none, fun y => o (some y)), invFun := fun q y => y.elim q.1 q.2
      left_inv := fun o => funext fun y => by cases y <;> rfl, right_inv := fun q => rfl }
  have e1 : Nat.card (Option Y → Bool) = 2 * Nat.card (Y → Bool) := by
    rw [Nat.card_congr e, Nat.card_prod]; simp
  have e2 : Nat.card (Pos (X → Bool) (Y → Bool)) = Nat.card (X → Bool) * Nat.card (Y → Bool) := Nat.card_prod _ _
  rw [Nat.card_prod, e1, e2]
  exact Nat.mul_left_comm _ _ _

theorem nonStrict_sem (g : Game (X → Bool) (Y → Bool)) (fuel : Nat) (hf : 2 * Nat.card (Pos (X → Bool) (Y → Bool)) < fuel) :
    ∃ q, checkBoth (semMgr (X → Bool) (Option Y → Bool)) (gameCtx (failGame (padGame g))) fuel = some q ∧ (q.1 = true ↔ g.NonStrictRealizable) ∧
      (q.2 = true ↔ ∀ i o, g.initEnv i → g.initSys (i, o) → g.ForcesViolation (i, o)) := by
  obtain ⟨q, q1, q2, q3⟩ := checkBoth_sem (failGame (padGame g)) (by simpa [failGame] using padGame_assumptions g) (by simp [failGame]) fuel
    (by rw [bit_card]; exact hf)
  rw [failGame_realizable] at q2
  rw [failGame_robotics] at q3
  refine ⟨q, q1, q2.trans ?_, q3.trans ?_⟩
  · simp only [Game.NonStrictRealizable, pad_nonStrict]; rfl
  · simp only [pad_violation]; rfl

theorem executeInteraction_sem {tab : VarTable} (lay : Layout X Y tab.types)
    (hlen : (varsOfTypes tab.types [.preInput, .preOutput]).length = (varsOfTypes tab.types [.postInput, .postOutput]).length)
    (g : Game (X → Bool) (Y → Bool)) (fuel : Nat) (hf : 2 * Nat.card (Pos (X → Bool) (Y → Bool)) + 1 < fuel) :
    ∃ r, executeInteraction B tab ((gameCtx (padGame g)).map (lay.enc B)) fuel = some r ∧ ReportOK g r := by
  have hpos : 0 < Nat.card (Pos (X → Bool) (Y → Bool)) := Nat.card_pos
  have H := lay.hom B
  have H' := lift_hom B lay hlen
  obtain ⟨rs, h1, h2⟩ := rowLoop_sem g fuel (by omega) (List.range 16)
  have hrows := (rowLoop_hom H (gameCtx (padGame g)) fuel (List.range 16)).trans h1
  have h15 : RowOK g 15 (rs.getD 15 (false, false)) := forall₂_getD h2 rfl
  have h10 : RowOK g 10 (rs.getD 10 (false, false)) := forall₂_getD h2 rfl
  have k15 : g.keep (decide (0 < 15 &&& 8)) (decide (0 < 15 &&& 4)) (decide (0 < 15 &&& 2)) (decide (0 < 15 &&& 1)) = g := keep_all g
  rw [RowOK, k15] at h15
  have h10' : (rs.getD 10 (false, false)).1 = true ↔ (g.keep true false true false).Realizable := h10.1
  obtain ⟨f, f1, f2⟩ := finiteReport_sem (padGame g) fuel (by omega) (rs.getD 10 (false, false)).1
  have f2' := pad_finite f2
  obtain ⟨q, q1, q2, q3⟩ := nonStrict_sem g fuel (by omega)
  have q1' : checkBoth (bddMgr B (tab.types ++ [.preOutput, .postOutput])) (nonStrictCtx B ((gameCtx (padGame g)).map (lay.enc B)) tab.types.length) fuel =
      some q := by
    rw [nonStrictCtx_enc B lay hlen (padGame g)]
    exact (checkBoth_hom ((lay.addBit hlen).hom B) _ fuel).trans q1
  have htypes : ((tab.add .preOutput "safetyGuaranteesFailed".toList).add .postOutput "safetyGuaranteesFailed".toList).types =
      tab.types ++ [.preOutput, .postOutput] := by simp [VarTable.add]
  rw [executeInteraction, hrows]
  dsimp only
  rw [htypes]
  by_cases hc : (!(rs.getD 15 (false, false)).1 || !(rs.getD 15 (false, false)).2) = true
  · rw [if_pos hc, q1']
    dsimp only
    rw [(finiteReport_hom H' (gameCtx (padGame g)) fuel _).trans f1]
    refine ⟨_, rfl, h2, ?_, ?_, ?_, _, h10', f2'⟩
    · simp only [Bool.or_eq_true, Bool.not_eq_true', ← Bool.not_eq_true, h15.1, h15.2] at hc
      simp only [reduceCtorEq, false_iff]
      tauto
    · rintro a b e
      cases e
      rw [Bool.and_eq_true, Bool.not_eq_true', ← Bool.not_eq_true, q2, h15.1]
    · rintro a b e
      cases e
      rw [Bool.and_eq_true, Bool.not_eq_true', ← Bool.not_eq_true, q3, h15.2]
  · rw [if_neg hc, (finiteReport_hom H (gameCtx (padGame g)) fuel _).trans f1]
    refine ⟨⟨rs, none, f⟩, rfl, h2, ?_, fun a b (e : none = some _) => (nomatch e), fun a b (e : none = some _) => (nomatch e), _, h10', f2'⟩
    simp only [Bool.or_eq_true, Bool.not_eq_true', ← Bool.not_eq_true, h15.1, h15.2, not_or, not_not] at hc
    exact ⟨fun _ => hc, fun _ => rfl⟩

end

theorem runInteraction_sem {cap : Nat} {order : List Char → Bool} {text : List Char} {tab : VarTable} {c : Ctx B}
    (h : initContext (B := B) cap order text = .ok (tab, c)) {sp : SpecFile} (hd : Denotes text sp) (fuel : Nat)
    (hf : 2 * Nat.card (Pos sp.In sp.Out) + 1 < fuel) : ∃ r, runInteraction B cap order fuel text = .report r ∧ ReportOK sp.game r := by
  obtain ⟨ds, F, hn, rfl, hd', _, _, _, rfl⟩ := initContext_spec h
  have := Denotes.det hd hd'
  subst this
  obtain ⟨r, h1, h2⟩ := executeInteraction_sem (B := B) (tableLayout ds hn) (tableLayout_length ds) (specOf ds F).game fuel hf
  exact ⟨r, by rw [runInteraction, h]; exact (congrArg (fun o => match o with | none => InteractionOutcome.running | some r => .report r) h1), h2⟩

theorem runInteraction_more {cap : Nat} {order : List Char → Bool} {text : List Char} {n n' : Nat} (hn : n ≤ n') {r : InteractionReport}
    (h : runInteraction B cap order n text = .report r) : runInteraction B cap order n' text = .report r := by
  rw [runInteraction] at h ⊢
  cases hi : initContext (B := B) cap order text with
  | err _ => rw [hi] at h; cases h
  | ub => rw [hi] at h; cases h
  | stuck => rw [hi] at h; cases h
  | ok q =>
    obtain ⟨tab, c⟩ := q
    rw [hi] at h
    dsimp only at h ⊢
    cases e : executeInteraction B tab c n with
    | none => rw [e] at h; cases h
    | some r' =>
      rw [e] at h
      rw [executeInteraction_more hn e]
      exact h

theorem interaction_printed {cap : Nat} {order : List Char → Bool} {text : List Char} {fuel : Nat} {r : InteractionReport}
    (h : runInteraction B cap order fuel text = .report r) {sp : SpecFile} (hd : Denotes text sp) : ReportOK sp.game r := by
  cases hi : initContext (B := B) cap order text with
  | err _ => rw [runInteraction, hi] at h; cases h
  | ub => rw [runInteraction, hi] at h; cases h
  | stuck => rw [runInteraction, hi] at h; cases h
  | ok q =>
    obtain ⟨r', h1, h2⟩ := runInteraction_sem (tab := q.1) (c := q.2) hi hd (fuel + (2 * Nat.card (Pos sp.In sp.Out) + 2)) (by omega)
    rw [runInteraction_more (Nat.le_add_right _ _) h] at h1
    cases h1
    exact h2

/-! ### The properties -/

/-- The row of the table for the given parts of the specification; the table has sixteen rows, and the parts are counted in binary. -/
def rowFor (sa la sg lg : Bool) : Nat := 8 * sa.toNat + 4 * la.toNat + 2 * sg.toNat + lg.toNat

/-- **C41.** The analysis terminates for all accepted files, with a number of iterations that does not depend on the text except for the number of positions. -/
theorem C41_terminates {cap : Nat} {order : List Char → Bool} {text : List Char} {tab : VarTable} {c : Ctx B}
    (h : initContext (B := B) cap order text = .ok (tab, c)) {sp : SpecFile} (hd : Denotes text sp) (fuel : Nat)
    (hf : 2 * Nat.card (Pos sp.In sp.Out) + 1 < fuel) : ∃ r, runInteraction B cap order fuel text = .report r := by
  obtain ⟨r, h1, _⟩ := runInteraction_sem h hd fuel hf
  exact ⟨r, h1⟩

/-- **C41.** The table has sixteen rows, and for every choice of parts of the specification, the row for this choice says whether these parts alone are
realizable, in the standard and in the robotics semantics. -/
theorem C41_table {cap : Nat} {order : List Char → Bool} {text : List Char} {fuel : Nat} {r : InteractionReport}
    (h : runInteraction B cap order fuel text = .report r) {sp : SpecFile} (hd : Denotes text sp) :
    r.rows.length = 16 ∧ ∀ sa la sg lg, ∃ classical robotics, r.rows[rowFor sa la sg lg]? = some (classical, robotics) ∧
      (classical = true ↔ (sp.game.keep sa la sg lg).Realizable) ∧ (robotics = true ↔ (sp.game.keep sa la sg lg).RoboticsRealizable) := by
  have hr := (interaction_printed h hd).rows
  have hl : r.rows.length = 16 := by rw [← hr.length_eq, List.length_range]
  refine ⟨hl, fun sa la sg lg => ?_⟩
  have hlt : rowFor sa la sg lg < 16 := by cases sa <;> cases la <;> cases sg <;> cases lg <;> decide
  have hk : RowOK sp.game (rowFor sa la sg lg) (r.rows.getD (rowFor sa la sg lg) (false, false)) :=
    forall₂_getD hr (by rw [List.getElem?_range hlt])
  obtain ⟨q, hq⟩ : ∃ q, r.rows[rowFor sa la sg lg]? = some q := ⟨_, List.getElem?_eq_getElem (by omega)⟩
  rw [List.getD_eq_getElem?_getD, hq] at hk
  refine ⟨q.1, q.2, hq, ?_⟩
  cases sa <;> cases la <;> cases sg <;> cases lg <;> exact hk

/-- The row with all parts is about the specification itself. -/
theorem C41_last_row {cap : Nat} {order : List Char → Bool} {text : List Char} {fuel : Nat} {r : InteractionReport}
    (h : runInteraction B cap order fuel text = .report r) {sp : SpecFile} (hd : Denotes text sp) :
    ∃ classical robotics, r.rows[15]? = some (classical, robotics) ∧ (classical = true ↔ sp.game.Realizable) ∧
      (robotics = true ↔ sp.game.RoboticsRealizable) := by
  have := (C41_table h hd).2 true true true true
  rwa [keep_all] at this

/-- **C42.** The non-strict implication is analysed if and only if the specification is not realizable in one of the two semantics; then it is printed
that the specification becomes realizable in the standard semantics if and only if it is unrealizable, but realizable for the non-strict implication. -/
theorem C42_nonstrict_standard {cap : Nat} {order : List Char → Bool} {text : List Char} {fuel : Nat} {r : InteractionReport}
    (h : runInteraction B cap order fuel text = .report r) {sp : SpecFile} (hd : Denotes text sp) :
    (r.nonStrict = none ↔ sp.game.Realizable ∧ sp.game.RoboticsRealizable) ∧
    ∀ a b, r.nonStrict = some (a, b) → (a = true ↔ sp.game.NonStrictRealizable ∧ ¬ sp.game.Realizable) :=
  ⟨(interaction_printed h hd).notShown, (interaction_printed h hd).classical⟩

theorem violation_nonStrict {I O : Type} {g : Game I O} {s : Pos I O} (h : g.ForcesViolation s) : g.NonStrictWins s := by
  obtain ⟨σ, hσ⟩ := h
  exact ⟨σ, fun p hp ha => absurd ha (hσ p hp)⟩

/-- **C42** for the robotics semantics, in part: the line that the specification becomes realizable is only printed if it does, and exactly if, moreover, the
system can enforce from all initial positions that the assumptions are violated.  Missing: the converse, see `C42_nonstrict_robotics_violated`. -/
theorem C42_nonstrict_robotics_partial {cap : Nat} {order : List Char → Bool} {text : List Char} {fuel : Nat} {r : InteractionReport}
    (h : runInteraction B cap order fuel text = .report r) {sp : SpecFile} (hd : Denotes text sp) {a b : Bool} (hb : r.nonStrict = some (a, b)) :
    (b = true → sp.game.NonStrictRobotics ∧ ¬ sp.game.RoboticsRealizable) ∧
    (b = true ↔ (∀ i o, sp.game.initEnv i → sp.game.initSys (i, o) → sp.game.ForcesViolation (i, o)) ∧ ¬ sp.game.RoboticsRealizable) := by
  have hr := (interaction_printed h hd).robotics a b hb
  exact ⟨fun e => ⟨fun i o h1 h2 => violation_nonStrict ((hr.mp e).1 i o h1 h2), (hr.mp e).2⟩, hr⟩

/-- **C43.** That the system can falsify the assumptions within `n` steps is printed if and only if the safety constraints alone are realizable and `n`, at
least one, is the least number of rounds in which the system can force a violation of the safety assumptions from the initial positions; that it cannot, if
and only if the safety constraints alone are realizable and there is no such number. -/
theorem C43_system_rounds {cap : Nat} {order : List Char → Bool} {text : List Char} {fuel : Nat} {r : InteractionReport}
    (h : runInteraction B cap order fuel text = .report r) {sp : SpecFile} (hd : Denotes text sp) :
    (∀ n, r.finite = .sys n ↔ (sp.game.keep true false true false).Realizable ∧ 1 ≤ n ∧ sp.game.SysForcesInit n ∧
      ∀ m, 1 ≤ m → m < n → ¬ sp.game.SysForcesInit m) ∧
    (r.finite = .sysCannot ↔ (sp.game.keep true false true false).Realizable ∧ ∀ n, ¬ sp.game.SysForcesInit n) := by
  obtain ⟨b, hb, hf⟩ := (interaction_printed h hd).finite
  cases e : r.finite with
  | env n x =>
    rw [e] at hf
    have : ¬ (sp.game.keep true false true false).Realizable := by rw [← hb, hf.1]; simp
    simp [this]
  | envCannot =>
    rw [e] at hf
    have : ¬ (sp.game.keep true false true false).Realizable := by rw [← hb, hf.1]; simp
    simp [this]
  | sys n =>
    rw [e] at hf
    obtain ⟨h1, h2, h3, h4⟩ := hf
    rw [starts_sys] at h3
    simp only [starts_sys] at h4
    refine ⟨fun m => ⟨fun em => ?_, fun ⟨_, m1, m2, m3⟩ => ?_⟩, ⟨nofun, fun ⟨_, hno⟩ => absurd h3 (hno n)⟩⟩
    · cases em
      exact ⟨hb.mp h1, h2, h3, h4⟩
    · rcases Nat.lt_trichotomy n m with hlt | rfl | hlt
      · exact absurd h3 (m3 n h2 hlt)
      · rfl
      · exact absurd m2 (h4 m m1 hlt)
  | sysCannot =>
    rw [e] at hf
    obtain ⟨h1, h2⟩ := hf
    have hno : ∀ n, ¬ sp.game.SysForcesInit n := fun n hn =>
      h2 (n + 1) (by omega) ((starts_sys _ _).mpr (sysForcesInit_mono (Nat.le_succ n) hn))
    exact ⟨fun m => ⟨nofun, fun ⟨_, _, m2, _⟩ => absurd m2 (hno m)⟩, ⟨fun _ => ⟨hb.mp h1, hno⟩, fun _ => rfl⟩⟩

/-- **C43** for the environment, in part.  The message that the environment can falsify the guarantees is printed if and only if the safety constraints alone
are unrealizable, and then it really can; that it cannot is never printed.  If every input has an allowed initial output, then the number is the least
number of rounds in which the environment can force a violation of the safety guarantees, and the addition that there is no strategy from an initial position is
not printed.  Missing: the number and the addition if some input has no allowed initial output, see `C43_environment_rounds_violated`. -/
theorem C43_environment_rounds_partial {cap : Nat} {order : List Char → Bool} {text : List Char} {fuel : Nat} {r : InteractionReport}
    (h : runInteraction B cap order fuel text = .report r) {sp : SpecFile} (hd : Denotes text sp) :
    r.finite ≠ .envCannot ∧
    ((∃ n x, r.finite = .env n x) ↔ ¬ (sp.game.keep true false true false).Realizable) ∧
    ((∃ n x, r.finite = .env n x) → ∃ n, sp.game.EnvForcesInit n) ∧
    (InitAnswer sp.game → ∀ n x, r.finite = .env n x → x = false ∧ sp.game.EnvForcesInit n ∧ ∀ m, m < n → ¬ sp.game.EnvForcesInit m) := by
  obtain ⟨b, hb, hf⟩ := (interaction_printed h hd).finite
  cases e : r.finite with
  | env n x =>
    rw [e] at hf
    obtain ⟨h1, ⟨h2, h3, h4⟩, h5⟩ := hf
    have hun : ¬ (sp.game.keep true false true false).Realizable := by rw [← hb, h1]; simp
    refine ⟨nofun, ⟨fun _ => hun, fun _ => ⟨n, x, rfl⟩⟩, fun _ => safety_forced _ hun, fun ha n' x' e' => ?_⟩
    cases e'
    have hw := ((starts_env _ _).mp h3).resolve_right (not_not_intro ha)
    refine ⟨?_, hw, fun m hm hwm => ?_⟩
    · obtain ⟨i, hi, hw⟩ := hw
      obtain ⟨o, ho⟩ := ha i
      rw [← Bool.not_eq_true, h5]
      exact fun hno => hno i o hi ho ((stage_env _ _ _).mpr (hw o ho))
    · rcases Nat.eq_zero_or_pos m with rfl | hp
      · obtain ⟨i, _, hi⟩ := hwm
        obtain ⟨o, ho⟩ := ha i
        exact not_envForces_zero (hi o ho)
      · exact h4 m hp hm ((starts_env _ _).mpr (.inl hwm))
  | envCannot =>
    rw [e] at hf
    exfalso
    obtain ⟨h1, h2⟩ := hf
    have hun : ¬ (sp.game.keep true false true false).Realizable := by rw [← hb, h1]; simp
    obtain ⟨n, hn⟩ := safety_forced _ hun
    exact h2 (n + 1) (by omega) ((starts_env _ _).mpr (.inl (envForcesInit_mono (Nat.le_succ n) hn)))
  | sys n =>
    rw [e] at hf
    have hre := hb.mp hf.1
    exact ⟨nofun, ⟨fun ⟨_, _, e⟩ => (by cases e), fun hn => absurd hre hn⟩, fun ⟨_, _, e⟩ => (by cases e), fun _ _ _ e => (by cases e)⟩
  | sysCannot =>
    rw [e] at hf
    have hre := hb.mp hf.1
    exact ⟨nofun, ⟨fun ⟨_, _, e⟩ => (by cases e), fun hn => absurd hre hn⟩, fun ⟨_, _, e⟩ => (by cases e), fun _ _ _ e => (by cases e)⟩

/-! ### Concrete files -/

/-- The safety guarantees say that the next input `a` is false, so the environment can falsify them.  But it may not do anything any more when `x` is true. -/
def obeyText : List Char := txt!"[INPUT]\na\n[OUTPUT]\nx\n[ENV_INIT]\n! a\n[SYS_INIT]\n! x\n[ENV_TRANS]\n! x\n[SYS_TRANS]\n! a'"

theorem obey_run : ∃ f, runInteraction ROBDD 1000 (fun _ => true) 60 obeyText = .report ⟨
    [(true, true), (true, true), (false, false), (false, false), (true, true), (true, true), (false, false), (false, false),
     (true, true), (true, true), (false, false), (false, false), (true, true), (true, true), (false, false), (false, false)], some (true, true), f⟩ := ⟨_, rfl⟩

/-- The hypotheses are met by a file that is unrealizable, but realizable for the non-strict implication, in both semantics. -/
example : ∃ sp, Denotes obeyText sp ∧ ¬ sp.game.Realizable ∧ ¬ sp.game.RoboticsRealizable ∧ sp.game.NonStrictRealizable ∧ sp.game.NonStrictRobotics ∧
    (sp.game.keep true true false true).Realizable := by
  obtain ⟨r, hr⟩ : ∃ r, initContext (B := ROBDD) 1000 (fun _ => true) obeyText = .ok r := ⟨_, rfl⟩
  obtain ⟨sp, hd, _⟩ := C24_accepted_denotes (tab := r.1) (c := r.2) hr
  obtain ⟨f, hrun⟩ := obey_run
  have h1 := ((C42_nonstrict_standard hrun hd).2 true true rfl).mp rfl
  have h2 := (C42_nonstrict_robotics_partial hrun hd (a := true) (b := true) rfl).1 rfl
  obtain ⟨c, b, e, h3, _⟩ := (C41_table hrun hd).2 true true false true
  cases e
  exact ⟨sp, hd, h1.2, h2.2, h1.1, h2.1, h3.mp rfl⟩

/-- The environment can falsify the guarantees by setting `a`, but after this, it violates the assumptions. -/
def regretText : List Char := txt!"[INPUT]\na\n[OUTPUT]\nx\n[ENV_INIT]\n! a\n[ENV_TRANS]\n! a\n[SYS_TRANS]\n! a'"

def regret : SpecFile where
  inputs := [txt!"a"]
  outputs := [txt!"x"]
  envInit := [.not (.var txt!"a")]
  sysInit := []
  envTrans := [.not (.var txt!"a")]
  sysTrans := [.not (.var txt!"a'")]
  envLiveness := []
  sysLiveness := []

theorem regret_denotes : Denotes regretText regret := by
  refine ⟨[(.input, txt!"a"), (.output, txt!"x"), (.envInit, txt!"! a"), (.envTrans, txt!"! a"), (.sysTrans, txt!"! a'")], ?_, by decide, by decide,
    ?_, ?_, ?_, ?_, ?_, ?_⟩
  · have : splitLines regretText = [txt!"[INPUT]", txt!"a", txt!"[OUTPUT]", txt!"x", txt!"[ENV_INIT]", txt!"! a", txt!"[ENV_TRANS]", txt!"! a",
      txt!"[SYS_TRANS]", txt!"! a'"] := by decide
    rw [this]
    refine .header .input (by decide) (.item (by decide) (by decide) (by decide) ?_)
    refine .header .output (by decide) (.item (by decide) (by decide) (by decide) ?_)
    refine .header .envInit (by decide) (.item (by decide) (by decide) (by decide) ?_)
    refine .header .envTrans (by decide) (.item (by decide) (by decide) (by decide) ?_)
    exact .header .sysTrans (by decide) (.item (by decide) (by decide) (by decide) .nil)
  all_goals
    simp only [regret, itemsOf]
  · exact .cons (reads_text (.not (.var txt!"a")) (by simp [Fml.Wf]) (by decide) (by decide)) .nil
  · exact .nil
  · exact .cons (reads_text (.not (.var txt!"a")) (by simp [Fml.Wf]) (by decide) (by decide)) .nil
  · exact .cons (reads_text (.not (.var txt!"a'")) (by simp [Fml.Wf]) (by decide) (by decide)) .nil
  · exact .nil
  · exact .nil

theorem regret_run : runInteraction ROBDD 1000 (fun _ => true) 60 regretText = .report ⟨
    [(true, true), (true, true), (false, false), (false, false), (true, true), (true, true), (false, false), (false, false),
     (true, true), (true, true), (false, false), (false, false), (true, true), (true, true), (false, false), (false, false)], some (true, false), .env 1 false⟩ := by
  rfl

theorem regret_nonStrict (s : Pos regret.In regret.Out) : regret.game.NonStrictWins s := by
  refine ⟨fun _ _ _ => false, fun p hp _ => ⟨fun n => ?_, fun b hb => absurd hb List.not_mem_nil⟩⟩
  intro φ hφ
  obtain rfl : φ = .not (.var txt!"a'") := List.mem_singleton.mp hφ
  exact hp.allowed (n + 1) (.not (.var txt!"a")) (List.mem_singleton.mpr rfl)

/-- **C42** does not hold in general for the robotics semantics: nothing changes according to the printed line although the specification becomes realizable for
the non-strict implication.  The reason is that the extra bit is an output without an initialisation constraint, so that in the robotics semantics
(`extensionAnalyzeSafetyLivenessInteraction.hpp:121`) the system also has to win from the positions in which the bit says that the guarantees have been
violated before. -/
theorem C42_nonstrict_robotics_violated : ∃ (text : List Char) (sp : SpecFile) (r : InteractionReport) (a : Bool),
    runInteraction ROBDD 1000 (fun _ => true) 60 text = .report r ∧ Denotes text sp ∧ r.nonStrict = some (a, false) ∧ ¬ sp.game.RoboticsRealizable ∧
    sp.game.NonStrictRobotics := by
  refine ⟨regretText, regret, _, _, regret_run, regret_denotes, rfl, ?_, fun i o _ _ => regret_nonStrict _⟩
  obtain ⟨c, b, e, _, h⟩ := C41_last_row regret_run regret_denotes
  cases e
  exact fun hr => by cases h.mpr hr

/-- The hypotheses of the partial theorem for the environment are met: here the environment needs one round. -/
example : InitAnswer regret.game ∧ regret.game.EnvForcesInit 1 := by
  have ha : InitAnswer regret.game := fun i => ⟨fun _ => false, fun φ hφ => absurd hφ (List.not_mem_nil (a := φ))⟩
  exact ⟨ha, ((C43_environment_rounds_partial regret_run regret_denotes).2.2.2 ha 1 false rfl).2.1⟩

/-- The system can falsify the assumptions in two rounds, as `x` has to be false at first. -/
def winText : List Char := txt!"[INPUT]\na\n[OUTPUT]\nx\n[ENV_INIT]\n! a\n[SYS_INIT]\n! x\n[ENV_TRANS]\n! x"

/-- The hypotheses of the theorem for the system are met: here the system needs two rounds. -/
example : ∃ sp, Denotes winText sp ∧ sp.game.SysForcesInit 2 ∧ ¬ sp.game.SysForcesInit 1 := by
  obtain ⟨r, hr⟩ : ∃ r, initContext (B := ROBDD) 1000 (fun _ => true) winText = .ok r := ⟨_, rfl⟩
  obtain ⟨sp, hd, _⟩ := C24_accepted_denotes (tab := r.1) (c := r.2) hr
  have hrun : runInteraction ROBDD 1000 (fun _ => true) 60 winText = .report ⟨List.replicate 16 (true, true), none, .sys 2⟩ := by rfl
  have h := ((C43_system_rounds hrun hd).1 2).mp rfl
  exact ⟨sp, hd, h.2.2.1, h.2.2.2 1 (Nat.le_refl 1) (by omega)⟩

theorem missed_interaction : ∃ rows q, runInteraction ROBDD 1000 (fun _ => true) 60 missedText = .report ⟨rows, q, .env 1 true⟩ := ⟨_, _, rfl⟩

theorem missed_not_one : ¬ missed.game.EnvForcesInit 1 := by
  rintro ⟨i, hi, h⟩
  have ha : i ⟨txt!"a", by decide⟩ = false := by
    have e : some (!(i ⟨txt!"a", by decide⟩)) = some true := hi (.not (.var txt!"a")) (List.mem_singleton.mpr rfl)
    simpa using e
  have hs : missed.game.initSys (i, fun _ => false) := by
    intro φ hφ
    obtain rfl : φ = .not (.var txt!"a") := List.mem_singleton.mp hφ
    exact hi (.not (.var txt!"a")) (List.mem_singleton.mpr rfl)
  obtain ⟨j, _, hj⟩ := (stage_env _ _ _).mpr (h _ hs)
  refine hj (fun _ => false) fun φ hφ => ?_
  obtain rfl : φ = .not (.var txt!"a") := List.mem_singleton.mp hφ
  exact hi (.not (.var txt!"a")) (List.mem_singleton.mpr rfl)

/-- **C43** does not hold in general for the environment: for this file it is printed that the environment needs one step and that there is no strategy from
an initial position, while it needs two and there is one.  The test of the initial positions (`extensionAnalyzeSafetyLivenessInteraction.hpp:151`) is
the one of `C31_environment_trace_violated`. -/
theorem C43_environment_rounds_violated : ∃ (text : List Char) (sp : SpecFile) (r : InteractionReport),
    runInteraction ROBDD 1000 (fun _ => true) 60 text = .report r ∧ Denotes text sp ∧ r.finite = .env 1 true ∧ ¬ sp.game.EnvForcesInit 1 ∧
    sp.game.EnvForcesInit 2 ∧ ∃ p, sp.game.initEnv p.1 ∧ sp.game.initSys p ∧ sp.game.EnvForces 2 p := by
  obtain ⟨rows, q, hrun⟩ := missed_interaction
  refine ⟨missedText, missed, _, hrun, missed_denotes, rfl, missed_not_one, missed_forces, ?_⟩
  obtain ⟨i, hi, h⟩ := missed_forces
  have hs : missed.game.initSys (i, fun _ => false) := by
    intro φ hφ
    obtain rfl : φ = .not (.var txt!"a") := List.mem_singleton.mp hφ
    exact hi (.not (.var txt!"a")) (List.mem_singleton.mpr rfl)
  exact ⟨_, hi, hs, h _ hs⟩

end Slugs.Props
