import Verif.Lemmas.Symbolic
import Verif.Props.Explicit

/-!
# C15: symbolic strategies

`runSymbolic B alg robotics goalEncoded …` is the model of a complete run with `--simpleSymbolicStrategy` (`goalEncoded = true`: the
number of the current goal and its next value are variables) or `--symbolicStrategy` (`goalEncoded = false`: the number of the current goal is a
variable, and the variable `strat_type` selects the transitions that reach it), in the standard or in the robotics semantics.
A strategy is a Boolean function over numbered variables; `Spec/Symbolic.lean` says how assignments are read.
-/

namespace Slugs.Props

open Slugs.Spec Slugs.Model

variable {B : Type} [DecidableEq B] [L : BddLib B] {alg : Algorithm}

/-- The strategy has a transition from `s` to `t` that changes the goal number from `j` to `j'`. -/
def Allows (sp : SpecFile) (R : SymbolicStrategy B) (s t : Pos sp.In sp.Out) (j j' : Nat) : Prop :=
  ∃ a, Assigns sp R.table.names s t a ∧ Holds R.counterPre j a ∧ Holds R.counterPost j' a ∧ L.eval R.strategy a = true

/-- The strategy has a transition from `s` to `t` for goal `j` and value `b` of the selector `strat_type`. -/
def AllowsSel (sp : SpecFile) (R : SymbolicStrategy B) (s t : Pos sp.In sp.Out) (j : Nat) (b : Bool) : Prop :=
  ∃ a, Assigns sp R.table.names s t a ∧ Holds R.counterPre j a ∧ a R.selector = b ∧ L.eval R.strategy a = true

/-! ### Runs on accepted files -/

theorem runSymbolic_produced {robotics ge : Bool} {cap : Nat} {order : List Char → Bool} {fuel : Nat} {text : List Char}
    {R : SymbolicStrategy B} (h : runSymbolic B alg robotics ge cap order fuel text = .strategy R) {sp : SpecFile} (hd : Denotes text sp) :
    ∃ (ds : Decls) (F : Section → List Fml) (hn : (tableOf ds).names.Nodup) (dump : Dump (T (specOf ds F).In (specOf ds F).Out)),
      sp = specOf ds F ∧
      R = extractSymbolic ge (tableOf ds) ((gameCtx (padGame (specOf ds F).game)).map ((tableLayout ds hn).enc B))
        (Dump.map ((tableLayout ds hn).enc B) dump) ∧ Wins robotics (specOf ds F) ∧
      Family (padGame (specOf ds F).game) (nuZ (padGame (specOf ds F).game)) (entries dump) ∧
      ∀ s, s ∈ nuZ (padGame (specOf ds F).game) ↔ (specOf ds F).game.SysWins s := by
  cases hi : initContext (B := B) cap order text with
  | err e => rw [runSymbolic, hi] at h; cases h
  | ub => rw [runSymbolic, hi] at h; cases h
  | stuck => rw [runSymbolic, hi] at h; cases h
  | ok r =>
    obtain ⟨tab, c⟩ := r
    obtain ⟨ds, F, hn, rfl, hd', _, _, _, hc⟩ := initContext_spec hi
    have := Denotes.det hd hd'
    subst this
    obtain ⟨v, dump, hb, hv1, _, hfam, hZ⟩ := checked (B := B) alg ds F hn robotics
      (fuel + Nat.card (Pos (specOf ds F).In (specOf ds F).Out)).succ (by omega)
    rw [← hc] at hb
    rw [runSymbolic, hi] at h
    simp only at h
    have key : ∀ W D, (if robotics = true then checkRealizabilityRobotics alg (bddMgr B (tableOf ds).types) c fuel
        else checkRealizability alg (bddMgr B (tableOf ds).types) c fuel) = some (.realizable, W, D) → v = .realizable ∧
          D = Dump.map ((tableLayout ds hn).enc B) dump := by
      intro W D hr
      have : some (Verdict.realizable, W, D) = some (v, (tableLayout ds hn).enc B (pre (nuZ (padGame (specOf ds F).game))),
          Dump.map ((tableLayout ds hn).enc B) dump) := by
        rw [← hb]
        cases robotics
        · exact (checkRealizability_more _ _ (by omega) hr).symm
        · exact (checkRealizabilityRobotics_more _ _ (by omega) hr).symm
      cases this
      exact ⟨rfl, rfl⟩
    split at h
    · rename_i W D hr
      obtain ⟨h1, h2⟩ := key _ _ hr
      cases h
      refine ⟨ds, F, hn, dump, rfl, ?_, hv1.mp h1, hfam, hZ⟩
      rw [h2, hc]
    · cases h

/-- A strategy is written for exactly those accepted files that are realizable. -/
theorem C15_written {cap : Nat} {order : List Char → Bool} {text : List Char} {tab : VarTable} {c : Ctx B}
    (h : initContext cap order text = .ok (tab, c)) {sp : SpecFile} (hd : Denotes text sp) (robotics ge : Bool)
    (fuel : Nat) (hfuel : Nat.card (Pos sp.In sp.Out) < fuel) :
    (Wins robotics sp → ∃ R, runSymbolic B alg robotics ge cap order fuel text = .strategy R) ∧
    (¬ Wins robotics sp → runSymbolic B alg robotics ge cap order fuel text = .none (.result false)) := by
  obtain ⟨ds, F, hn, rfl, hd', _, _, _, hc⟩ := initContext_spec h
  have := Denotes.det hd hd'
  subst this
  obtain ⟨v, dump, hb, hv1, hv2, _⟩ := checked (B := B) alg ds F hn robotics fuel hfuel
  rw [← hc] at hb
  rw [runSymbolic, h]
  simp only
  rw [hb]
  constructor
  · intro hw
    rw [hv1.mpr hw]
    exact ⟨_, rfl⟩
  · intro hw
    rw [hv2.mpr hw]
    rfl

theorem goals_padGame (sp : SpecFile) : (padGame sp.game).guarantees.length = sp.goals := by
  have : sp.sysLiveness.length = sp.game.guarantees.length := by simp [SpecFile.game]
  rw [SpecFile.goals, this]
  simp only [padGame]
  cases sp.game.guarantees <;> simp [padLive]

theorem goalAt_padGame (sp : SpecFile) {j : Nat} (hj : j < sp.goals) (s t : Pos sp.In sp.Out) :
    goalAt (padGame sp.game) j s t ↔ sp.Reaches j s t := by
  rw [← goals_padGame] at hj
  simp only [padGame] at hj
  simp only [goalAt, SpecFile.Reaches, padGame]
  generalize sp.game.guarantees = gs at hj ⊢
  cases gs with
  | nil =>
    simp only [padLive, List.length_singleton] at hj
    have : j = 0 := by omega
    subst this
    simp [padLive]
  | cons a l =>
    simp only [padLive] at hj ⊢
    rw [List.getElem?_eq_getElem hj]
    simp

/-! ### C15 -/

/-- **C15**, reading the file.  The header lists the declared variables first, then the counter bits (and their primed versions, or else the
selector) under their names.  There are enough bits for the numbers of the goals; each combination of positions and counter values (below
`2 ^ bits`) is described by an assignment, and the strategy has the same value on all assignments that describe the same combination. -/
theorem C15_readable {robotics ge : Bool} {cap : Nat} {order : List Char → Bool} {fuel : Nat} {text : List Char}
    {R : SymbolicStrategy B} (h : runSymbolic B alg robotics ge cap order fuel text = .strategy R) {sp : SpecFile} (hd : Denotes text sp) :
    sp.goals < 2 ^ R.counterPre.length ∧
    (∀ k v, R.counterPre[k]? = some v → R.table.names[v]? = some (counterName k)) ∧
    (∀ k v, R.counterPost[k]? = some v → R.table.names[v]? = some (prime (counterName k))) ∧
    (ge = true → R.counterPost.length = R.counterPre.length) ∧
    (ge = false → R.table.names[R.selector]? = some txt!"strat_type") ∧
    (∀ (s t : Pos sp.In sp.Out) (j j' : Nat) (b : Bool), ∃ a, Assigns sp R.table.names s t a ∧ Holds R.counterPre j a ∧
      Holds R.counterPost j' a ∧ (ge = false → a R.selector = b)) ∧
    (∀ (s t : Pos sp.In sp.Out) (j j' : Nat) (a a' : Asg), j < 2 ^ R.counterPre.length → j' < 2 ^ R.counterPre.length →
      Assigns sp R.table.names s t a → Assigns sp R.table.names s t a' → Holds R.counterPre j a → Holds R.counterPre j a' →
      Holds R.counterPost j' a → Holds R.counterPost j' a' → (ge = false → a R.selector = a' R.selector) →
      L.eval R.strategy a = L.eval R.strategy a') := by
  obtain ⟨ds, F, hn, dump, rfl, hR, _, _, _⟩ := runSymbolic_produced h hd
  obtain ⟨m, hs, _⟩ := extractSymbolic_shape ge (tableOf ds)
    ((gameCtx (padGame (specOf ds F).game)).map ((tableLayout ds hn).enc B)) (Dump.map ((tableLayout ds hn).enc B) dump)
  rw [← hR] at hs
  have hbits := hs.bits
  have e1 : ((gameCtx (padGame (specOf ds F).game)).map ((tableLayout ds hn).enc B)).livenessGuarantees.length =
      (specOf ds F).goals := by
    rw [← goals_padGame]
    exact List.length_map _
  rw [e1] at hbits
  have hnames := hs.names.trans (List.append_assoc _ _ _)
  have hgetn : ∀ {k y : Nat}, k < m → y < stride ge → R.table.names[(tableOf ds).names.length + (stride ge * k + y)]? =
      (if ge then [counterName k, counterName k ++ ['\'']] else [counterName k])[y]? := by
    intro k y hk hy
    have hin : stride ge * k + y < (counterNames ge m).length := by
      rw [length_counterNames]
      have : stride ge * m = stride ge * k + stride ge * (m - k) := by rw [← Nat.mul_add]; congr 1; omega
      have : stride ge * 1 ≤ stride ge * (m - k) := Nat.mul_le_mul_left _ (by omega)
      omega
    rw [hnames, List.getElem?_append_right (by omega), Nat.add_sub_cancel_left, List.getElem?_append_left hin]
    exact counterNames_get ge hk hy
  refine ⟨by rw [hs.pre]; simpa using hbits, ?_, ?_, ?_, ?_, ?_, ?_⟩
  · intro k v hv
    rw [hs.pre, List.getElem?_map] at hv
    obtain ⟨k', hk, rfl⟩ := Option.map_eq_some_iff.mp hv
    obtain ⟨hkm, rfl⟩ := List.getElem?_eq_some_iff.mp hk
    simp only [List.length_range] at hkm
    rw [List.getElem_range]
    have := hgetn (y := 0) hkm (by cases ge <;> simp [stride])
    rw [Nat.add_zero] at this
    rw [this]
    cases ge <;> rfl
  · intro k v hv
    rw [hs.post] at hv
    cases ge with
    | false => simp at hv
    | true =>
      simp only [if_true, List.getElem?_map] at hv
      obtain ⟨k', hk, rfl⟩ := Option.map_eq_some_iff.mp hv
      obtain ⟨hkm, rfl⟩ := List.getElem?_eq_some_iff.mp hk
      simp only [List.length_range] at hkm
      rw [List.getElem_range]
      have := hgetn (y := 1) hkm (by simp [stride])
      exact this
  · intro hge
    subst hge
    rw [hs.pre, hs.post]
    simp
  · intro hge
    subst hge
    rw [hs.sel, hnames, List.getElem?_append_right (by omega), Nat.add_sub_cancel_left,
      List.getElem?_append_right (by rw [length_counterNames]), length_counterNames]
    simp
  · intro s t j j' b
    obtain ⟨a, h1, h2, h3⟩ := exists_assignment (tableLayout ds hn) (by simp [tableOf]) hs s t j j' b
    exact ⟨a, (assigns_pos F hn hnames).mpr ⟨h1, h2⟩, h3⟩
  · intro s t j j' a a' hj hj' ha ha' h1 h1' h2 h2' h3
    obtain ⟨p1, p2⟩ := (assigns_pos F hn hnames).mp ha
    obtain ⟨q1, q2⟩ := (assigns_pos F hn hnames).mp ha'
    rw [Bool.eq_iff_iff]
    cases ge with
    | true =>
      exact (step_goalEncoded (tableLayout ds hn) (padGame (specOf ds F).game) dump hR p1 p2 h1 h2 hj hj').trans
        (step_goalEncoded (tableLayout ds hn) (padGame (specOf ds F).game) dump hR q1 q2 h1' h2' hj hj').symm
    | false =>
      refine (step_selector (tableLayout ds hn) (padGame (specOf ds F).game) dump hR p1 p2 h1 hj).trans ?_
      rw [h3 rfl]
      exact (step_selector (tableLayout ds hn) (padGame (specOf ds F).game) dump hR q1 q2 h1' hj).symm

/-- What a strategy with goal numbers allows, in terms of the game. -/
theorem allows_iff {ds : Decls} {F : Section → List Fml} {hn : (tableOf ds).names.Nodup}
    {dump : Dump (T (specOf ds F).In (specOf ds F).Out)} {R : SymbolicStrategy B}
    (hR : R = extractSymbolic true (tableOf ds) ((gameCtx (padGame (specOf ds F).game)).map ((tableLayout ds hn).enc B))
        (Dump.map ((tableLayout ds hn).enc B) dump))
    {s t : Pos (specOf ds F).In (specOf ds F).Out} {j j' : Nat} (hj : j < 2 ^ R.counterPre.length) (hj' : j' < 2 ^ R.counterPre.length) :
    Allows (specOf ds F) R s t j j' ↔ j < (specOf ds F).goals ∧ strat (entries dump j) s t ∧
      ((specOf ds F).Reaches j s t → j' = (j + 1) % (specOf ds F).goals) ∧ (¬ (specOf ds F).Reaches j s t → j' = j) := by
  obtain ⟨m, hs, _⟩ := extractSymbolic_shape true (tableOf ds)
    ((gameCtx (padGame (specOf ds F).game)).map ((tableLayout ds hn).enc B)) (Dump.map ((tableLayout ds hn).enc B) dump)
  rw [← hR] at hs
  have hnames := hs.names.trans (List.append_assoc _ _ _)
  have key : ∀ {a : Asg}, Assigns (specOf ds F) R.table.names s t a → Holds R.counterPre j a → Holds R.counterPost j' a →
      (L.eval R.strategy a = true ↔ j < (specOf ds F).goals ∧ strat (entries dump j) s t ∧
      ((specOf ds F).Reaches j s t → j' = (j + 1) % (specOf ds F).goals) ∧ (¬ (specOf ds F).Reaches j s t → j' = j)) := by
    intro a h1 h2 h3
    obtain ⟨p1, p2⟩ := (assigns_pos F hn hnames).mp h1
    have e : L.eval R.strategy a = true ↔ j < (padGame (specOf ds F).game).guarantees.length ∧ strat (entries dump j) s t ∧
        (goalAt (padGame (specOf ds F).game) j s t → j' = (j + 1) % (padGame (specOf ds F).game).guarantees.length) ∧
        (¬ goalAt (padGame (specOf ds F).game) j s t → j' = j) :=
      step_goalEncoded (tableLayout ds hn) (padGame (specOf ds F).game) dump hR p1 p2 h2 h3 hj hj'
    rw [e, goals_padGame]
    refine and_congr_right fun h4 => ?_
    rw [goalAt_padGame _ h4]
  constructor
  · rintro ⟨a, h1, h2, h3, h4⟩
    exact (key h1 h2 h3).mp h4
  · intro h4
    obtain ⟨a, h1, h2, h3, h5, _⟩ := exists_assignment (tableLayout ds hn) (by simp [tableOf]) hs s t j j' false
    have ha := (assigns_pos F hn hnames).mpr ⟨h1, h2⟩
    exact ⟨a, ha, h3, h5, (key ha h3 h5).mpr h4⟩

/-- What a strategy with a selector allows, in terms of the game. -/
theorem allowsSel_iff {ds : Decls} {F : Section → List Fml} {hn : (tableOf ds).names.Nodup}
    {dump : Dump (T (specOf ds F).In (specOf ds F).Out)} {R : SymbolicStrategy B}
    (hR : R = extractSymbolic false (tableOf ds) ((gameCtx (padGame (specOf ds F).game)).map ((tableLayout ds hn).enc B))
        (Dump.map ((tableLayout ds hn).enc B) dump))
    {s t : Pos (specOf ds F).In (specOf ds F).Out} {j : Nat} {b : Bool} (hj : j < 2 ^ R.counterPre.length) :
    AllowsSel (specOf ds F) R s t j b ↔ j < (specOf ds F).goals ∧ strat (entries dump j) s t ∧
      (b = true → (specOf ds F).Reaches j s t) := by
  obtain ⟨m, hs, _⟩ := extractSymbolic_shape false (tableOf ds)
    ((gameCtx (padGame (specOf ds F).game)).map ((tableLayout ds hn).enc B)) (Dump.map ((tableLayout ds hn).enc B) dump)
  rw [← hR] at hs
  have hnames := hs.names.trans (List.append_assoc _ _ _)
  have key : ∀ {a : Asg}, Assigns (specOf ds F) R.table.names s t a → Holds R.counterPre j a → a R.selector = b →
      (L.eval R.strategy a = true ↔ j < (specOf ds F).goals ∧ strat (entries dump j) s t ∧
      (b = true → (specOf ds F).Reaches j s t)) := by
    intro a h1 h2 h3
    obtain ⟨p1, p2⟩ := (assigns_pos F hn hnames).mp h1
    have e : L.eval R.strategy a = true ↔ j < (padGame (specOf ds F).game).guarantees.length ∧ strat (entries dump j) s t ∧
        (a R.selector = true → goalAt (padGame (specOf ds F).game) j s t) :=
      step_selector (tableLayout ds hn) (padGame (specOf ds F).game) dump hR p1 p2 h2 hj
    rw [e, goals_padGame, h3]
    refine and_congr_right fun h4 => ?_
    rw [goalAt_padGame _ h4]
  constructor
  · rintro ⟨a, h1, h2, h3, h4⟩
    exact (key h1 h2 h3).mp h4
  · intro h4
    obtain ⟨a, h1, h2, h3, _, h5⟩ := exists_assignment (tableLayout ds hn) (by simp [tableOf]) hs s t j 0 b
    have ha := (assigns_pos F hn hnames).mpr ⟨h1, h2⟩
    exact ⟨a, ha, h3, h5 rfl, (key ha h3 (h5 rfl)).mpr h4⟩

/-- **C15**, strategies with goal numbers.  From a winning position and with the number of a goal no allowed input is blocked; transitions from
winning positions obey the safety guarantees, lead to winning positions, and move on to the next goal exactly if the current one is reached. -/
theorem C15_never_blocks {robotics : Bool} {cap : Nat} {order : List Char → Bool} {fuel : Nat} {text : List Char}
    {R : SymbolicStrategy B} (h : runSymbolic B alg robotics true cap order fuel text = .strategy R) {sp : SpecFile} (hd : Denotes text sp) :
    Wins robotics sp ∧
    (∀ s j i, sp.game.SysWins s → j < sp.goals → sp.game.safetyEnv s i → ∃ o j', j' < sp.goals ∧ Allows sp R s (i, o) j j') ∧
    (∀ s t j j', j < 2 ^ R.counterPre.length → j' < 2 ^ R.counterPre.length → Allows sp R s t j j' →
      sp.game.safetySys s t ∧ sp.game.SysWins t ∧ j < sp.goals ∧
      (sp.Reaches j s t → j' = (j + 1) % sp.goals) ∧ (¬ sp.Reaches j s t → j' = j)) := by
  have hbits := (C15_readable h hd).1
  obtain ⟨ds, F, hn, dump, rfl, hR, hw, hfam, hZ⟩ := runSymbolic_produced h hd
  have hpos : 0 < (specOf ds F).goals := by simp [SpecFile.goals]
  have hlist : ∀ {j}, j < (specOf ds F).goals → ∃ G, GoodList (padGame (specOf ds F).game) G
      (nuZ (padGame (specOf ds F).game)) (entries dump j) := fun hj => by
    rw [← goals_padGame] at hj
    exact ⟨_, hfam _ _ (List.getElem?_eq_getElem hj)⟩
  refine ⟨hw, ?_, ?_⟩
  · intro s j i hs hj hi
    obtain ⟨G, hl⟩ := hlist hj
    obtain ⟨o, ho⟩ := strat_exists (padGame (specOf ds F).game) (hl.covers ((hZ s).mpr hs)) hi
    by_cases hr : (specOf ds F).Reaches j s (i, o)
    · refine ⟨o, (j + 1) % (specOf ds F).goals, Nat.mod_lt _ hpos, (allows_iff hR (by omega) ?_).mpr ⟨hj, ho, fun _ => rfl, fun h => absurd hr h⟩⟩
      exact lt_trans (Nat.mod_lt _ hpos) hbits
    · exact ⟨o, j, hj, (allows_iff hR (by omega) (by omega)).mpr ⟨hj, ho, fun h => absurd h hr, fun _ => rfl⟩⟩
  · intro s t j j' hj hj' ha
    obtain ⟨h1, h2, h3⟩ := (allows_iff hR hj hj').mp ha
    obtain ⟨G, hl⟩ := hlist h1
    exact ⟨hl.safe (strat_mem h2), (hZ t).mp (hl.stays (strat_mem h2)), h1, h3⟩

/-- **C15**, strategies with goal numbers: every infinite run from a winning position on which the environment obeys the safety assumptions
satisfies the safety guarantees and the liveness part of the specification. -/
theorem C15_live {robotics : Bool} {cap : Nat} {order : List Char → Bool} {fuel : Nat} {text : List Char}
    {R : SymbolicStrategy B} (h : runSymbolic B alg robotics true cap order fuel text = .strategy R) {sp : SpecFile} (hd : Denotes text sp)
    (p : Nat → Pos sp.In sp.Out) (j : Nat → Nat) (hp : sp.game.SysWins (p 0)) (hj : ∀ n, j n < 2 ^ R.counterPre.length)
    (hrun : ∀ n, Allows sp R (p n) (p (n + 1)) (j n) (j (n + 1))) (henv : ∀ n, sp.game.safetyEnv (p n) (p (n + 1)).1) :
    (∀ n, sp.game.safetySys (p n) (p (n + 1))) ∧ sp.game.Live p := by
  refine ⟨fun n => ((C15_never_blocks h hd).2.2 _ _ _ _ (hj n) (hj (n + 1)) (hrun n)).1, ?_⟩
  obtain ⟨ds, F, hn, dump, rfl, hR, hw, hfam, hZ⟩ := runSymbolic_produced h hd
  have hst := fun n => (allows_iff hR (hj n) (hj (n + 1))).mp (hrun n)
  rw [← padGame_live]
  refine family_live (padGame (specOf ds F).game) hfam p j (fun n => ?_) ((hZ _).mpr hp) (fun n => strat_used (hst n).2.1 (henv n)) ?_
  · rw [goals_padGame]; exact (hst n).1
  · intro n
    have hlt := (hst n).1
    refine ⟨fun hg => (hst n).2.2.2 (fun hr => hg ((goalAt_padGame _ hlt _ _).mpr hr)), fun hg => ?_⟩
    refine ⟨1, Nat.le_refl 1, ?_, ?_, ?_⟩
    · rw [goals_padGame]; omega
    · rw [goals_padGame]; exact (hst n).2.2.1 ((goalAt_padGame _ hlt _ _).mp hg)
    · intro l hl
      have : l = 0 := by omega
      subst this
      rw [goals_padGame, Nat.add_zero, Nat.mod_eq_of_lt hlt]
      exact hg

/-- **C15**, strategies with a selector.  From a winning position and with the number of a goal, no allowed input is blocked if the selector is 0;
transitions obey the safety guarantees and lead to winning positions; the value 1 of the selector is possible for exactly those transitions that
reach the current goal. -/
theorem C15_never_blocks_selector {robotics : Bool} {cap : Nat} {order : List Char → Bool} {fuel : Nat} {text : List Char}
    {R : SymbolicStrategy B} (h : runSymbolic B alg robotics false cap order fuel text = .strategy R) {sp : SpecFile} (hd : Denotes text sp) :
    Wins robotics sp ∧
    (∀ s j i, sp.game.SysWins s → j < sp.goals → sp.game.safetyEnv s i → ∃ o, AllowsSel sp R s (i, o) j false) ∧
    (∀ s t j b, j < 2 ^ R.counterPre.length → AllowsSel sp R s t j b →
      sp.game.safetySys s t ∧ sp.game.SysWins t ∧ j < sp.goals) ∧
    (∀ s t j, j < 2 ^ R.counterPre.length → (AllowsSel sp R s t j true ↔ AllowsSel sp R s t j false ∧ sp.Reaches j s t)) := by
  have hbits := (C15_readable h hd).1
  obtain ⟨ds, F, hn, dump, rfl, hR, hw, hfam, hZ⟩ := runSymbolic_produced h hd
  have hlist : ∀ {j}, j < (specOf ds F).goals → ∃ G, GoodList (padGame (specOf ds F).game) G
      (nuZ (padGame (specOf ds F).game)) (entries dump j) := fun hj => by
    rw [← goals_padGame] at hj
    exact ⟨_, hfam _ _ (List.getElem?_eq_getElem hj)⟩
  refine ⟨hw, ?_, ?_, ?_⟩
  · intro s j i hs hj hi
    obtain ⟨G, hl⟩ := hlist hj
    obtain ⟨o, ho⟩ := strat_exists (padGame (specOf ds F).game) (hl.covers ((hZ s).mpr hs)) hi
    exact ⟨o, (allowsSel_iff hR (by omega)).mpr ⟨hj, ho, by simp⟩⟩
  · intro s t j b hj ha
    obtain ⟨h1, h2, h3⟩ := (allowsSel_iff hR hj).mp ha
    obtain ⟨G, hl⟩ := hlist h1
    exact ⟨hl.safe (strat_mem h2), (hZ t).mp (hl.stays (strat_mem h2)), h1⟩
  · intro s t j hj
    rw [allowsSel_iff hR hj, allowsSel_iff hR hj]
    simp only [forall_true_left, Bool.false_eq_true, false_imp_iff, and_true, and_assoc]

/-- **C15**, strategies with a selector: if the executor moves on to the next goal with selector 1 whenever the chosen transition admits this
value, and otherwise stays with the goal, every infinite run from a winning position on which the environment obeys the safety assumptions
satisfies the safety guarantees and the liveness part of the specification. -/
theorem C15_live_selector {robotics : Bool} {cap : Nat} {order : List Char → Bool} {fuel : Nat} {text : List Char}
    {R : SymbolicStrategy B} (h : runSymbolic B alg robotics false cap order fuel text = .strategy R) {sp : SpecFile} (hd : Denotes text sp)
    (p : Nat → Pos sp.In sp.Out) (j : Nat → Nat) (hp : sp.game.SysWins (p 0)) (hj0 : j 0 < sp.goals)
    (hrun : ∀ n, AllowsSel sp R (p n) (p (n + 1)) (j n) false)
    (hnext : ∀ n, AllowsSel sp R (p n) (p (n + 1)) (j n) true → j (n + 1) = (j n + 1) % sp.goals)
    (hstay : ∀ n, ¬ AllowsSel sp R (p n) (p (n + 1)) (j n) true → j (n + 1) = j n)
    (henv : ∀ n, sp.game.safetyEnv (p n) (p (n + 1)).1) :
    (∀ n, sp.game.safetySys (p n) (p (n + 1))) ∧ sp.game.Live p := by
  have hbits := (C15_readable h hd).1
  have hj : ∀ n, j n < sp.goals := by
    intro n
    induction n with
    | zero => exact hj0
    | succ n ih =>
      by_cases hc : AllowsSel sp R (p n) (p (n + 1)) (j n) true
      · rw [hnext n hc]; exact Nat.mod_lt _ (by omega)
      · rw [hstay n hc]; exact ih
  have hj' : ∀ n, j n < 2 ^ R.counterPre.length := fun n => lt_trans (hj n) hbits
  obtain ⟨_, _, hc1, hc2⟩ := C15_never_blocks_selector h hd
  refine ⟨fun n => (hc1 _ _ _ _ (hj' n) (hrun n)).1, ?_⟩
  obtain ⟨ds, F, hn, dump, rfl, hR, hw, hfam, hZ⟩ := runSymbolic_produced h hd
  have hst := fun n => (allowsSel_iff hR (hj' n)).mp (hrun n)
  rw [← padGame_live]
  refine family_live (padGame (specOf ds F).game) hfam p j (fun n => ?_) ((hZ _).mpr hp) (fun n => strat_used (hst n).2.1 (henv n)) ?_
  · rw [goals_padGame]; exact hj n
  · intro n
    refine ⟨fun hg => hstay n (fun hr => hg ((goalAt_padGame _ (hj n) _ _).mpr ((hc2 _ _ _ (hj' n)).mp hr).2)), fun hg => ?_⟩
    refine ⟨1, Nat.le_refl 1, ?_, ?_, ?_⟩
    · have := hj n
      rw [goals_padGame]; omega
    · rw [goals_padGame]
      exact hnext n ((hc2 _ _ _ (hj' n)).mpr ⟨hrun n, (goalAt_padGame _ (hj n) _ _).mp hg⟩)
    · intro l hl
      have : l = 0 := by omega
      subst this
      rw [goals_padGame, Nat.add_zero, Nat.mod_eq_of_lt (hj n)]
      exact hg

/-! ### The hypotheses hold for a concrete file -/

/-- What is written, as far as it can be compared. -/
def written : SymbolicOutcome ROBDD → Option (List Nat × List Nat × Nat × List Name × ROBDD)
  | .strategy R => some (R.counterPre, R.counterPost, R.selector, R.table.names, R.strategy)
  | .none _ => none

theorem exists_of_written {o : SymbolicOutcome ROBDD} (h : (written o).isSome = true) : ∃ R, o = .strategy R := by
  cases o with
  | strategy R => exact ⟨R, rfl⟩
  | none o => simp [written] at h

example : ∃ R sp, runSymbolic ROBDD .standard false true 1000 (fun _ => true) 20 strategyText = .strategy R ∧ Denotes strategyText sp := by
  obtain ⟨sp, h⟩ := runExplicit_denotes strategyText_run
  obtain ⟨R, hR⟩ := exists_of_written (o := runSymbolic ROBDD .standard false true 1000 (fun _ => true) 20 strategyText) (by rfl)
  exact ⟨R, sp, hR, h⟩

example : ∃ R sp, runSymbolic ROBDD .standard false false 1000 (fun _ => true) 20 strategyText = .strategy R ∧ Denotes strategyText sp := by
  obtain ⟨sp, h⟩ := runExplicit_denotes strategyText_run
  obtain ⟨R, hR⟩ := exists_of_written (o := runSymbolic ROBDD .standard false false 1000 (fun _ => true) 20 strategyText) (by rfl)
  exact ⟨R, sp, hR, h⟩

/-- The header of that strategy. -/
example : (written (runSymbolic ROBDD .standard false true 1000 (fun _ => true) 20 strategyText)).map (fun w => (w.1, w.2.1, w.2.2.2.1)) =
    some ([4, 6], [5, 7], [txt!"r", txt!"r'", txt!"g", txt!"g'", txt!"_jx_b0", txt!"_jx_b0'", txt!"_jx_b1", txt!"_jx_b1'"]) := by rfl

/-- Runs as in `C15_live` exist for every strategy that is written and every winning position with allowed inputs from every position. -/
theorem C15_runs_exist {robotics : Bool} {cap : Nat} {order : List Char → Bool} {fuel : Nat} {text : List Char}
    {R : SymbolicStrategy B} (h : runSymbolic B alg robotics true cap order fuel text = .strategy R) {sp : SpecFile} (hd : Denotes text sp)
    (s : Pos sp.In sp.Out) (hs : sp.game.SysWins s) (henv : ∀ s, ∃ i, sp.game.safetyEnv s i) :
    ∃ (p : Nat → Pos sp.In sp.Out) (j : Nat → Nat), p 0 = s ∧ j 0 = 0 ∧ ∀ n, j n < sp.goals ∧
      Allows sp R (p n) (p (n + 1)) (j n) (j (n + 1)) ∧ sp.game.safetyEnv (p n) (p (n + 1)).1 := by
  classical
  have hbits := (C15_readable h hd).1
  obtain ⟨_, h1, h2⟩ := C15_never_blocks h hd
  have hpos : 0 < sp.goals := by simp [SpecFile.goals]
  have step : ∀ x : {x : Pos sp.In sp.Out × Nat // sp.game.SysWins x.1 ∧ x.2 < sp.goals},
      ∃ y : {x : Pos sp.In sp.Out × Nat // sp.game.SysWins x.1 ∧ x.2 < sp.goals},
        Allows sp R x.1.1 y.1.1 x.1.2 y.1.2 ∧ sp.game.safetyEnv x.1.1 y.1.1.1 := by
    rintro ⟨⟨s, j⟩, hs, hj⟩
    obtain ⟨i, hi⟩ := henv s
    obtain ⟨o, j', hj', ha⟩ := h1 s j i hs hj hi
    exact ⟨⟨⟨(i, o), j'⟩, (h2 _ _ _ _ (lt_trans hj hbits) (lt_trans hj' hbits) ha).2.1, hj'⟩, ha, hi⟩
  choose f hf using step
  let r : Nat → {x : Pos sp.In sp.Out × Nat // sp.game.SysWins x.1 ∧ x.2 < sp.goals} := fun n => Nat.rec ⟨(s, 0), hs, hpos⟩ (fun _ x => f x) n
  exact ⟨fun n => (r n).1.1, fun n => (r n).1.2, rfl, rfl, fun n => ⟨(r n).2.2, hf (r n)⟩⟩

end Slugs.Props
