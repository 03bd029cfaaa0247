import Verif.Lemmas.ExplicitSpec
import Verif.Lemmas.ExplicitFuel
import Verif.Lemmas.Checked
import Verif.Props.TextToVerdict

/-!
# C10–C14: explicit-state strategies

`runExplicit B alg robotics perm recovery …` is the model of a complete run with `--explicitStrategy` (`perm = false`; `recovery = true`
with `--simpleRecovery`) or `--extractExplicitPermissiveStrategy` (`perm = true`), in the standard or in the robotics semantics
(`--sysInitRoboticsSemantics`).  `Spec/Explicit.lean` says what a printed strategy has to satisfy.
-/

namespace Slugs.Props

open Slugs.Spec Slugs.Model

variable {B : Type} [DecidableEq B] [L : BddLib B] {alg : Algorithm}

/-! ### Runs on accepted files -/

theorem runExplicit_sem (alg : Algorithm) {cap : Nat} {order : List Char → Bool} {text : List Char} {tab : VarTable} {c : Ctx B}
    (h : initContext cap order text = .ok (tab, c)) {sp : SpecFile} (hd : Denotes text sp) (robotics perm recovery : Bool)
    (fuel : Nat) (hfuel : Nat.card (Pos sp.In sp.Out) * max 1 sp.sysLiveness.length < fuel) :
    (Wins robotics sp → ∃ sts, runExplicit B alg robotics perm recovery cap order fuel text = .strategy sts ∧
      Printed sp perm recovery sts) ∧
    (¬ Wins robotics sp → runExplicit B alg robotics perm recovery cap order fuel text = .none (.result false)) := by
  obtain ⟨ds, F, hn, rfl, hd', _, _, _, hc⟩ := initContext_spec h
  have := Denotes.det hd hd'
  subst this
  have hlen : (padGame (specOf ds F).game).guarantees.length = max 1 (specOf ds F).sysLiveness.length := by
    have : (specOf ds F).sysLiveness.length = (specOf ds F).game.guarantees.length := by simp [SpecFile.game]
    rw [this]
    simp only [padGame]
    cases (specOf ds F).game.guarantees <;> simp [padLive]
  have hcard : Nat.card (Pos (specOf ds F).In (specOf ds F).Out) < fuel :=
    lt_of_le_of_lt (Nat.le_mul_of_pos_right _ (by omega)) hfuel
  have hg := padGame_guarantees (specOf ds F).game
  obtain ⟨v, dump, hb, hv1, hv2, hfam, hZ⟩ := checked (B := B) alg ds F hn robotics fuel hcard
  rw [← hc] at hb
  rw [runExplicit, h]
  simp only
  rw [hb]
  constructor
  · intro hw
    rw [hv1.mpr hw]
    simp only
    obtain ⟨ks, sts, h1, h2⟩ := extractStrategy_spec (padGame (specOf ds F).game) hg (semVars_ok hn) perm recovery hfam fuel
      (by rw [hlen]; exact hfuel)
    refine ⟨sts, ?_, printed_of_extracted F hn perm recovery hfam hZ h2⟩
    have e := extractStrategy_hom ((tableLayout ds hn).hom B) (gameCtx (padGame (specOf ds F).game)) (semVars ds) perm recovery fuel
      (pre (nuZ (padGame (specOf ds F).game))) dump
    have e' : extractStrategy (bddMgr B (tableOf ds).types) c (tableVars B (tableOf ds)) perm recovery fuel
        ((tableLayout ds hn).enc B (pre (nuZ (padGame (specOf ds F).game)))) (Dump.map ((tableLayout ds hn).enc B) dump) =
        some sts := by
      rw [hc, tableVars_eq B hn]
      exact e.trans h1
    rw [e']
  · intro hw
    rw [hv2.mpr hw]
    rfl

/-- Whatever strategy is printed, for any number of rounds, is the one described by `Printed`. -/
theorem runExplicit_printed {robotics perm recovery : Bool} {cap : Nat} {order : List Char → Bool} {fuel : Nat} {text : List Char}
    {sts : List PState} (h : runExplicit B alg robotics perm recovery cap order fuel text = .strategy sts) {sp : SpecFile}
    (hd : Denotes text sp) : Wins robotics sp ∧ Printed sp perm recovery sts := by
  cases hi : initContext (B := B) cap order text with
  | err e => rw [runExplicit, hi] at h; cases h
  | ub => rw [runExplicit, hi] at h; cases h
  | stuck => rw [runExplicit, hi] at h; cases h
  | ok r =>
    obtain ⟨tab, c⟩ := r
    have hbig := Nat.lt_succ_of_le (Nat.le_add_left (Nat.card (Pos sp.In sp.Out) * max 1 sp.sysLiveness.length) fuel)
    have hmore := runExplicit_more (n' := (fuel + Nat.card (Pos sp.In sp.Out) * max 1 sp.sysLiveness.length).succ)
      (by omega) h
    obtain ⟨h1, h2⟩ := runExplicit_sem alg hi hd robotics perm recovery _ hbig
    by_cases hw : Wins robotics sp
    · obtain ⟨sts', h3, h4⟩ := h1 hw
      rw [h3] at hmore
      cases hmore
      exact ⟨hw, h4⟩
    · rw [h2 hw] at hmore
      cases hmore

/-- A strategy is only printed for texts that denote a specification. -/
theorem runExplicit_denotes {robotics perm recovery : Bool} {cap : Nat} {order : List Char → Bool} {fuel : Nat} {text : List Char}
    {sts : List PState} (h : runExplicit B alg robotics perm recovery cap order fuel text = .strategy sts) : ∃ sp, Denotes text sp := by
  cases hi : initContext (B := B) cap order text with
  | err e => rw [runExplicit, hi] at h; cases h
  | ub => rw [runExplicit, hi] at h; cases h
  | stuck => rw [runExplicit, hi] at h; cases h
  | ok r => exact (C24_accepted_denotes (c := r.2) hi).imp fun _ h => h.1

/-! ### C10 -/

/-- **C10.** In the strategy that is printed, every state is labelled with a value for each declared variable; for every state and every next input
that the safety assumptions allow there is exactly one listed successor with this input, and all steps obey the safety guarantees. -/
theorem C10_complete_and_safe {robotics recovery : Bool} {cap : Nat} {order : List Char → Bool} {fuel : Nat} {text : List Char}
    {sts : List PState} (h : runExplicit B alg robotics false recovery cap order fuel text = .strategy sts) {sp : SpecFile}
    (hd : Denotes text sp) :
    (∀ st ∈ sts, st.Complete sp) ∧
    (∀ st ∈ sts, ∀ i, sp.game.safetyEnv (st.pos sp) i →
      ∃ st', (Edge sts st st' ∧ (st'.pos sp).1 = i) ∧ ∀ st'', Edge sts st st'' ∧ (st''.pos sp).1 = i → st'' = st') ∧
    (∀ st st', Edge sts st st' → sp.game.safetySys (st.pos sp) (st'.pos sp)) := by
  obtain ⟨_, hp⟩ := runExplicit_printed h hd
  refine ⟨hp.wf.labels, fun st hm i hi => ?_, hp.safe⟩
  obtain ⟨st', h1, h2⟩ := hp.total st hm i hi
  exact ⟨st', ⟨h1, h2⟩, fun st'' ⟨h3, h4⟩ => hp.det rfl st st'' st' h3 h1 (h4.trans h2.symm)⟩

/-- **C10**, initial states.  In the standard semantics there is a state with rank 0 for every initial input that is allowed, labelled with this
input and obeying the initialisation guarantees; in the robotics semantics there is one for every initial position that is allowed. -/
theorem C10_initial_states {robotics recovery : Bool} {cap : Nat} {order : List Char → Bool} {fuel : Nat} {text : List Char}
    {sts : List PState} (h : runExplicit B alg robotics false recovery cap order fuel text = .strategy sts) {sp : SpecFile}
    (hd : Denotes text sp) :
    (robotics = false → ∀ i, sp.game.initEnv i → ∃ st ∈ sts, st.rank = 0 ∧ (st.pos sp).1 = i ∧ sp.game.initSys (st.pos sp)) ∧
    (robotics = true → ∀ s, sp.game.initEnv s.1 → sp.game.initSys s → ∃ st ∈ sts, st.rank = 0 ∧ st.pos sp = s) := by
  obtain ⟨hw, hp⟩ := runExplicit_printed h hd
  constructor
  · rintro rfl i hi
    obtain ⟨o, h1, h2⟩ := hw i hi
    obtain ⟨st, h3, h4, h5⟩ := hp.start (i, o) h2 (.inr ⟨h1, .inr hi⟩)
    exact ⟨st, h3, h5, by rw [h4], by rw [h4]; exact h1⟩
  · rintro rfl s hi hs
    obtain ⟨st, h3, h4, h5⟩ := hp.start s (hw s.1 s.2 hi hs) (.inr ⟨hs, .inr hi⟩)
    exact ⟨st, h3, h5, h4⟩

/-- **C10**, which states are initial.  The states that are listed first, up to some number, are exactly the winning states with rank 0 that satisfy the
initialisation constraints (with `--simpleRecovery`: the initialisation guarantees). -/
theorem C10_initial_states_first {robotics recovery : Bool} {cap : Nat} {order : List Char → Bool} {fuel : Nat} {text : List Char}
    {sts : List PState} (h : runExplicit B alg robotics false recovery cap order fuel text = .strategy sts) {sp : SpecFile}
    (hd : Denotes text sp) : ∃ n, ∀ st ∈ sts, st.num < n ↔
      (st.rank = 0 ∧ sp.game.SysWins (st.pos sp) ∧ sp.game.initSys (st.pos sp) ∧ (recovery = true ∨ sp.game.initEnv (st.pos sp).1)) := by
  obtain ⟨_, hp⟩ := runExplicit_printed h hd
  simpa using hp.first

/-- **C10**, what else is listed: without recovery only steps that obey the safety assumptions are listed; every printed state is winning. -/
theorem C10_only_allowed_inputs {robotics : Bool} {cap : Nat} {order : List Char → Bool} {fuel : Nat} {text : List Char}
    {sts : List PState} (h : runExplicit B alg robotics false false cap order fuel text = .strategy sts) {sp : SpecFile}
    (hd : Denotes text sp) :
    (∀ st st', Edge sts st st' → sp.game.safetyEnv (st.pos sp) (st'.pos sp).1) ∧ ∀ st ∈ sts, sp.game.SysWins (st.pos sp) := by
  obtain ⟨_, hp⟩ := runExplicit_printed h hd
  exact ⟨hp.strict rfl, hp.win⟩

/-! ### C11 -/

/-- **C11.** Every infinite run of the printed strategy satisfies the liveness part of the specification. -/
theorem C11_live {robotics : Bool} {cap : Nat} {order : List Char → Bool} {fuel : Nat} {text : List Char}
    {sts : List PState} (h : runExplicit B alg robotics false false cap order fuel text = .strategy sts) {sp : SpecFile}
    (hd : Denotes text sp) (r : Nat → PState) (hr : ∀ n, Edge sts (r n) (r (n + 1)))
    (ha : ∀ A ∈ sp.game.assumptions, InfOften A fun n => (r n).pos sp) :
    ∀ G ∈ sp.game.guarantees, InfOften G fun n => (r n).pos sp := by
  obtain ⟨_, hp⟩ := runExplicit_printed h hd
  exact hp.live r hr (fun n => hp.strict rfl _ _ (hr n)) ha

theorem infOften_tail {I O : Type} (A : Pos I O → Pos I O → Prop) (p : Nat → Pos I O) (N : Nat) :
    InfOften A (fun n => p (n + N)) ↔ InfOften A p := by
  constructor
  · intro h n
    obtain ⟨m, h1, h2⟩ := h n
    exact ⟨m + N, by omega, by simpa [Nat.add_right_comm] using h2⟩
  · intro h n
    obtain ⟨m, h1, h2⟩ := h (n + N)
    refine ⟨m - N, by omega, ?_⟩
    have e : m - N + N = m := by omega
    have e' : m - N + 1 + N = m + 1 := by omega
    simp only [e, e']
    exact h2

/-- **C11**, also with `--simpleRecovery`: it suffices that the environment obeys the safety assumptions from some point on. -/
theorem C11_live_recovery {robotics recovery : Bool} {cap : Nat} {order : List Char → Bool} {fuel : Nat} {text : List Char}
    {sts : List PState} (h : runExplicit B alg robotics false recovery cap order fuel text = .strategy sts) {sp : SpecFile}
    (hd : Denotes text sp) (r : Nat → PState) (hr : ∀ n, Edge sts (r n) (r (n + 1))) (N : Nat)
    (henv : ∀ n ≥ N, sp.game.safetyEnv ((r n).pos sp) ((r (n + 1)).pos sp).1)
    (ha : ∀ A ∈ sp.game.assumptions, InfOften A fun n => (r n).pos sp) :
    ∀ G ∈ sp.game.guarantees, InfOften G fun n => (r n).pos sp := by
  obtain ⟨_, hp⟩ := runExplicit_printed h hd
  have := hp.live (fun n => r (n + N)) (fun n => by have := hr (n + N); rwa [Nat.add_right_comm] at this)
    (fun n => by have := henv (n + N) (by omega); rwa [Nat.add_right_comm n N 1] at this)
  intro G hG
  rw [← infOften_tail G _ N]
  exact this (fun A hA => (infOften_tail A _ N).mpr (ha A hA)) G hG

/-! ### C12 -/

/-- **C12.** On accepted files the extraction terminates (with the given number of rounds in each loop): a strategy is printed if and only if the
specification is realizable. -/
theorem C12_terminates {cap : Nat} {order : List Char → Bool} {text : List Char} {tab : VarTable} {c : Ctx B}
    (h : initContext cap order text = .ok (tab, c)) {sp : SpecFile} (hd : Denotes text sp) (robotics perm recovery : Bool)
    (fuel : Nat) (hfuel : Nat.card (Pos sp.In sp.Out) * max 1 sp.sysLiveness.length + 1 ≤ fuel) :
    (Wins robotics sp → ∃ sts, runExplicit B alg robotics perm recovery cap order fuel text = .strategy sts) ∧
    (¬ Wins robotics sp → runExplicit B alg robotics perm recovery cap order fuel text = .none (.result false)) := by
  obtain ⟨h1, h2⟩ := runExplicit_sem alg h hd robotics perm recovery fuel hfuel
  exact ⟨fun hw => (h1 hw).imp fun _ h => h.1, h2⟩

/-- **C12.** At most `positions × goals` states are printed, they are numbered in the order in which they are printed, no state is printed twice,
and every successor number is that of a printed state and listed once. -/
theorem C12_well_formed {robotics perm recovery : Bool} {cap : Nat} {order : List Char → Bool} {fuel : Nat} {text : List Char}
    {sts : List PState} (h : runExplicit B alg robotics perm recovery cap order fuel text = .strategy sts) {sp : SpecFile}
    (hd : Denotes text sp) :
    sts.length ≤ Nat.card (Pos sp.In sp.Out) * max 1 sp.sysLiveness.length ∧ WellFormed sp sts := by
  obtain ⟨_, hp⟩ := runExplicit_printed h hd
  have : sp.sysLiveness.length = sp.game.guarantees.length := by simp [SpecFile.game]
  rw [this]
  exact ⟨hp.length, hp.wf⟩

/-- **C12**, no superfluous states: every printed state can be reached, along listed successors, from a printed state with rank 0 whose position is
winning and satisfies the initialisation constraints (in a permissive strategy: is winning). -/
theorem C12_reachable {robotics perm recovery : Bool} {cap : Nat} {order : List Char → Bool} {fuel : Nat} {text : List Char}
    {sts : List PState} (h : runExplicit B alg robotics perm recovery cap order fuel text = .strategy sts) {sp : SpecFile}
    (hd : Denotes text sp) (st : PState) (hst : st ∈ sts) :
    ∃ st0 ∈ sts, st0.rank = 0 ∧ sp.game.SysWins (st0.pos sp) ∧
      (perm = true ∨ (sp.game.initSys (st0.pos sp) ∧ (recovery = true ∨ sp.game.initEnv (st0.pos sp).1))) ∧
      ∃ path : List PState, (st0 :: path).IsChain (Edge sts) ∧ (st0 :: path).getLast? = some st := by
  obtain ⟨_, hp⟩ := runExplicit_printed h hd
  generalize hk : st.num = k
  induction k using Nat.strong_induction_on generalizing st with
  | _ k ih =>
    rcases hp.reach st hst with ⟨h1, h2, h3⟩ | ⟨st', h1, h2⟩
    · exact ⟨st, hst, h1, h2, h3, [], by simp, rfl⟩
    · obtain ⟨st0, a1, a2, a3, a4, path, a5, a6⟩ := ih st'.num (by omega) st' h1.1 rfl
      refine ⟨st0, a1, a2, a3, a4, path ++ [st], ?_, by rw [← List.cons_append, List.getLast?_append]; rfl⟩
      rw [← List.cons_append, List.isChain_append]
      refine ⟨a5, by simp, ?_⟩
      intro x hx y hy
      rw [a6] at hx
      simp only [Option.mem_def, List.head?_cons, Option.some.injEq] at hx hy
      rw [← hx, ← hy]
      exact h1

/-! ### C13 -/

/-- The value of a BF only depends on the given variables. -/
def DependsOn (ks : List Nat) (f : B) : Prop := ∀ a a' : Asg, (∀ k ∈ ks, a k = a' k) → L.eval f a = L.eval f a'

/-- `r` is a determinisation of `f` with respect to the variables `ks`: it implies `f`, is satisfiable if `f` is, and fixes the
value of each variable in `ks`.  If `f` is over these variables only, `r` has exactly one satisfying assignment of them. -/
def Determinizes (ks : List Nat) (f r : B) : Prop :=
  (∀ a, L.eval r a = true → L.eval f a = true) ∧
  ((∃ a, L.eval f a = true) → ∃ a, L.eval r a = true) ∧
  (∀ k ∈ ks, ∀ a a', L.eval r a = true → L.eval r a' = true → a k = a' k) ∧
  (DependsOn ks f → (∃ a, L.eval f a = true) → ∃ a0 : Asg, ∀ a, L.eval r a = true ↔ ∀ k ∈ ks, a k = a0 k)

theorem determinizes_of {ks : List Nat} {f r : B} (h : IsDet (fun b (a : Asg) => L.eval b a = true) (ks.map L.var) f r)
    (hdep : DependsOn ks f → DependsOn ks r) : Determinizes ks f r := by
  have hfix : ∀ k ∈ ks, ∀ a a', L.eval r a = true → L.eval r a' = true → a k = a' k := by
    intro k hk a a' ha ha'
    rcases h.fixed (L.var k) (List.mem_map.mpr ⟨k, hk, rfl⟩) with h1 | h1
    · have e1 := h1 a ha; have e2 := h1 a' ha'
      rw [L.eval_var] at e1 e2; rw [e1, e2]
    · have e1 := h1 a ha; have e2 := h1 a' ha'
      rw [L.eval_var] at e1 e2; rw [Bool.not_eq_true] at e1 e2; rw [e1, e2]
  refine ⟨h.sub, h.nonempty, hfix, fun hd hne => ?_⟩
  obtain ⟨a0, ha0⟩ := h.nonempty hne
  refine ⟨a0, fun a => ⟨fun ha k hk => hfix k hk a a0 ha ha0, fun ha => ?_⟩⟩
  rw [hdep hd a a0 ha]; exact ha0

/-- **C13.** `determinize` picks exactly one assignment. -/
theorem C13_determinize (types : List VarType) (ks : List Nat) (f : B) :
    Determinizes ks f (determinize (bddMgr B types) (ks.map L.var) f) := by
  refine determinizes_of (determinize_isDet (bddReading types) _ f) fun hd => ?_
  refine determinize_closed (M := bddMgr B types) (DependsOn ks) _ f hd fun v hv g hg => ?_
  obtain ⟨k, hk, rfl⟩ := List.mem_map.mp hv
  constructor <;> intro a a' h <;> simp [bddMgr, L.eval_and, L.eval_not, L.eval_var, hg a a' h, h k hk]

/-- **C13.** `determinizeRandomized` picks exactly one assignment, for every sequence of random bits. -/
theorem C13_determinizeRandomized (types : List VarType) (rnd : List Bool) (ks : List Nat) (f : B) :
    Determinizes ks f (determinizeRandomized (bddMgr B types) rnd (ks.map L.var) f) := by
  refine determinizes_of (determinizeRandomized_isDet (bddReading types) _ rnd f) fun hd => ?_
  refine determinizeRandomized_closed (M := bddMgr B types) (DependsOn ks) _ rnd f hd fun v hv g hg => ?_
  obtain ⟨k, hk, rfl⟩ := List.mem_map.mp hv
  constructor <;> intro a a' h <;> simp [bddMgr, L.eval_and, L.eval_not, L.eval_var, hg a a' h, h k hk]

/-! ### C14 -/

/-- **C14.** The permissive strategy never blocks an input that is allowed, all its steps obey the safety guarantees, and every infinite run satisfies
the liveness part of the specification; it starts from every position from which the system wins. -/
theorem C14_permissive {robotics : Bool} {cap : Nat} {order : List Char → Bool} {fuel : Nat} {text : List Char}
    {sts : List PState} (h : runExplicit B alg robotics true false cap order fuel text = .strategy sts) {sp : SpecFile}
    (hd : Denotes text sp) :
    (∀ st ∈ sts, ∀ i, sp.game.safetyEnv (st.pos sp) i → ∃ st', Edge sts st st' ∧ (st'.pos sp).1 = i) ∧
    (∀ st st', Edge sts st st' → sp.game.safetySys (st.pos sp) (st'.pos sp)) ∧
    (∀ r : Nat → PState, (∀ n, Edge sts (r n) (r (n + 1))) → sp.game.Live fun n => (r n).pos sp) ∧
    (∀ s, sp.game.SysWins s ↔ ∃ st ∈ sts, st.rank = 0 ∧ st.pos sp = s) := by
  obtain ⟨_, hp⟩ := runExplicit_printed h hd
  refine ⟨hp.total, hp.safe, fun r hr => hp.live r hr fun n => hp.strict rfl _ _ (hr n), fun s => ⟨fun hs => ?_, ?_⟩⟩
  · obtain ⟨st, h1, h2, h3⟩ := hp.start s hs (.inl rfl)
    exact ⟨st, h1, h3, h2⟩
  · rintro ⟨st, h1, _, rfl⟩
    exact hp.win st h1

/-! ### The hypotheses hold for a concrete file -/

/-- The system may only grant after a request; it has to grant infinitely often and to not grant infinitely often, provided that there are
infinitely many requests. -/
def strategyText : List Char :=
  txt!"[INPUT]\nr\n[OUTPUT]\ng\n[SYS_TRANS]\n| ! g' r'\n[ENV_LIVENESS]\nr\n[SYS_LIVENESS]\ng\n! g"

theorem strategyText_run : runExplicit ROBDD .standard false false false 1000 (fun _ => true) 20 strategyText = .strategy
    [{ num := 0, rank := 0, label := [(['r'], false), (['g'], false)], succ := [0, 3] },
     { num := 1, rank := 0, label := [(['r'], false), (['g'], true)], succ := [4, 5] },
     { num := 2, rank := 0, label := [(['r'], true), (['g'], false)], succ := [0, 3] },
     { num := 3, rank := 0, label := [(['r'], true), (['g'], true)], succ := [4, 5] },
     { num := 4, rank := 1, label := [(['r'], false), (['g'], false)], succ := [0, 2] },
     { num := 5, rank := 1, label := [(['r'], true), (['g'], false)], succ := [0, 2] }] := by rfl

/-- The hypotheses of the theorems for C10, C11 and C12 hold. -/
example : ∃ sts sp, runExplicit ROBDD .standard false false false 1000 (fun _ => true) 20 strategyText = .strategy sts ∧
    Denotes strategyText sp ∧ sts.length = 6 := by
  obtain ⟨sp, h⟩ := runExplicit_denotes strategyText_run
  exact ⟨_, sp, strategyText_run, h, rfl⟩

/-- The hypotheses of `C14_permissive` hold. -/
example : ∃ sts sp, runExplicit ROBDD .standard false true false 1000 (fun _ => true) 20 strategyText = .strategy sts ∧
    Denotes strategyText sp ∧ sts.length = 7 := by
  obtain ⟨sp, h⟩ := runExplicit_denotes strategyText_run
  exact ⟨_, sp, rfl, h, rfl⟩

/-- An infinite run of the printed strategy, as in `C11_live`. -/
example : ∃ sts, runExplicit ROBDD .standard false false false 1000 (fun _ => true) 20 strategyText = .strategy sts ∧
    ∃ r : Nat → PState, ∀ n, Edge sts (r n) (r (n + 1)) := by
  refine ⟨_, strategyText_run, fun n => if n % 3 = 0 then { num := 2, rank := 0, label := [(['r'], true), (['g'], false)], succ := [0, 3] }
    else if n % 3 = 1 then { num := 3, rank := 0, label := [(['r'], true), (['g'], true)], succ := [4, 5] }
    else { num := 5, rank := 1, label := [(['r'], true), (['g'], false)], succ := [0, 2] }, fun n => ?_⟩
  have h : n % 3 = 0 ∨ n % 3 = 1 ∨ n % 3 = 2 := by omega
  rcases h with h | h | h
  · have h' : (n + 1) % 3 = 1 := by omega
    simp only [h, h']; simp [Edge]
  · have h' : (n + 1) % 3 = 2 := by omega
    simp only [h, h']; simp [Edge]
  · have h' : (n + 1) % 3 = 0 := by omega
    simp only [h, h']; simp [Edge]

/-- Determinising `x ∨ y` over `x`, `y`. -/
example : determinize (bddMgr ROBDD [.preInput, .preOutput]) [BddLib.var 0, BddLib.var 1]
    (BddLib.or (BddLib.var 0) (BddLib.var 1) : ROBDD) = BddLib.and (BddLib.not (BddLib.var 0)) (BddLib.var 1) := by decide

example : determinizeRandomized (bddMgr ROBDD [.preInput, .preOutput]) [false, true] [BddLib.var 0, BddLib.var 1]
    (BddLib.or (BddLib.var 0) (BddLib.var 1) : ROBDD) = BddLib.and (BddLib.var 0) (BddLib.not (BddLib.var 1)) := by decide

end Slugs.Props
