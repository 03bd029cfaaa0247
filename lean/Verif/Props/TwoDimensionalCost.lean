import Verif.Lemmas.CostRun
import Verif.Lemmas.CostRead
import Verif.Props.Aiger
import Verif.Model.ROBDD
import Mathlib.Algebra.Order.Ring.WithTop
import Mathlib.Algebra.Order.Group.Int

/-!
# C72, C73: cost-optimal strategies

`runCost B N robotics explicit …` is the model of a complete run with `--twoDimensionalCost`, alone (`explicit = none`) or together with `--explicitStrategy`
(`explicit = some (false, recovery)`) or `--extractExplicitPermissiveStrategy` (`explicit = some (true, recovery)`).  `N` is any arithmetic of floating-point numbers.
`Spec/Cost.lean` says what a cost file denotes and what is claimed of a printed strategy.
-/

namespace Slugs.Props

open Slugs.Spec Slugs.Model

variable {B : Type} [DecidableEq B] [L : BddLib B] {D : Type} [LinearOrder D] {N : Doubles D}

/-- All that a run on a specification and a cost file can end with. -/
theorem runCost_cases (robotics : Bool) (explicit : Option (Bool × Bool)) {cap : Nat} {order : List Char → Bool} (fuel : Nat) {text costText : List Char} {sp : SpecFile}
    (hd : Denotes text sp) {w a : D} {pr : Bool} {entries : List (D × Fml)} (hc : CostText N.read costText w a pr entries) {r : CostOutcome}
    (h : runCost B N robotics explicit cap order fuel text costText = r) :
    r = .running ∨ r = .ub ∨ (∃ e, r = .error e ∧ e ≠ .overlap) ∨ (r = .unrealizable ∧ ¬ Wins robotics sp) ∨
    (r = .error .overlap ∧ Wins robotics sp ∧ sp.Overlap entries) ∨
    (r = .realizable ∧ explicit = none ∧ Wins robotics sp ∧ ¬ sp.Overlap entries) ∨
    ∃ perm recovery sts, r = .strategy sts ∧ explicit = some (perm, recovery) ∧ Wins robotics sp ∧ ¬ sp.Overlap entries ∧ CostPrinted sp perm recovery sts := by
  rw [runCost] at h
  cases hi : initContext (B := B) cap order text with
  | err e => simp only [hi] at h; exact .inr (.inr (.inl ⟨_, h.symm, by simp⟩))
  | ub => simp only [hi] at h; exact .inr (.inl h.symm)
  | stuck => simp only [hi] at h; exact .inl h.symm
  | ok tc =>
    obtain ⟨tab, c⟩ := tc
    obtain ⟨ds, F, hn, rfl, hd', _, _, _, hcc⟩ := initContext_spec hi
    obtain rfl := Denotes.det hd hd'
    simp only [hi] at h
    cases hr : readCosts (B := B) N (tableOf ds) cap order costText with
    | err e =>
      simp only [hr] at h
      exact .inr (.inr (.inl ⟨_, h.symm, readCosts_not_overlap hr⟩))
    | ub => simp only [hr] at h; exact .inr (.inl h.symm)
    | stuck => simp only [hr] at h; exact .inl h.symm
    | ok pc =>
      obtain ⟨p, costs⟩ := pc
      simp only [hr] at h
      obtain ⟨entries', ht, hinv⟩ := readCosts_sound (F := F) (hn := hn) hr
      obtain ⟨_, _, _, rfl⟩ := CostText.det hc ht
      rw [hcc] at h
      rcases costRun_spec ds F hn N robotics explicit fuel p hinv h with h | h | h | h | h
      · exact .inl h
      · exact .inr (.inr (.inr (.inl h)))
      · exact .inr (.inr (.inr (.inr (.inl h))))
      · exact .inr (.inr (.inr (.inr (.inr (.inl h)))))
      · exact .inr (.inr (.inr (.inr (.inr (.inr h)))))

/-- **C72.**  Whenever a run with `--twoDimensionalCost` ends, for any arithmetic of the costs, its verdict is right: it says "realizable" (or prints a strategy) only if the
specification is realizable and no transition has two different costs; "unrealizable" only if the specification is not realizable; and it only reports overlapping costs if there
are some (which it does for realizable specifications only).  There is no internal error. -/
theorem C72_verdict {robotics : Bool} {explicit : Option (Bool × Bool)} {cap : Nat} {order : List Char → Bool} {fuel : Nat} {text costText : List Char} {sp : SpecFile}
    (hd : Denotes text sp) {w a : D} {pr : Bool} {entries : List (D × Fml)} (hc : CostText N.read costText w a pr entries) :
    (runCost B N robotics explicit cap order fuel text costText = .unrealizable → ¬ Wins robotics sp) ∧
    (runCost B N robotics explicit cap order fuel text costText = .realizable → explicit = none ∧ Wins robotics sp ∧ ¬ sp.Overlap entries) ∧
    (∀ sts, runCost B N robotics explicit cap order fuel text costText = .strategy sts → explicit.isSome ∧ Wins robotics sp ∧ ¬ sp.Overlap entries) ∧
    (runCost B N robotics explicit cap order fuel text costText = .error .overlap → Wins robotics sp ∧ sp.Overlap entries) ∧
    runCost B N robotics explicit cap order fuel text costText ≠ .internalError := by
  have h := runCost_cases (B := B) robotics explicit (cap := cap) (order := order) fuel hd hc rfl
  generalize runCost B N robotics explicit cap order fuel text costText = r at h ⊢
  rcases h with rfl | rfl | ⟨e, rfl, he⟩ | ⟨rfl, h⟩ | ⟨rfl, h⟩ | ⟨rfl, h⟩ | ⟨perm, recovery, sts, rfl, rfl, h1, h2, h3⟩
  · simp
  · simp
  · simp [he]
  · simpa using h
  · simpa using h
  · simpa using h
  · exact ⟨by simp, by simp, fun _ _ => ⟨rfl, h1, h2⟩, by simp, by simp⟩

/-- The files that are not rejected: `C24` for the specification, and in the cost file lines that can be read, with formulas over the declared variables. -/
structure ProperCosts (N : Doubles D) (cap : Nat) (sp : SpecFile) (costText : List Char) (w a : D) (pr : Bool) (entries : List (D × Fml)) : Prop where
  text : CostText N.read costText w a pr entries
  lines : ∀ l ∈ (splitLines costText).tail, l.length ≤ cap
  formulas : ∀ e ∈ entries, e.2.Wf 0 ∧ ∀ x ∈ e.2.vars, x ∈ sp.names

/-- **C72.**  Files that are written properly are not rejected; and a run on them that ends says "realizable" exactly if the specification is realizable and no transition has two
different costs. -/
theorem C72_proper {robotics : Bool} {cap : Nat} {order : List Char → Bool} {fuel : Nat} {text costText : List Char} {sp : SpecFile} (hf : ProperFile cap text)
    (hd : Denotes text sp) {w a : D} {pr : Bool} {entries : List (D × Fml)} (hc : ProperCosts N cap sp costText w a pr entries)
    (hend : runCost B N robotics none cap order fuel text costText ≠ .running) :
    (runCost B N robotics none cap order fuel text costText = .unrealizable ↔ ¬ Wins robotics sp) ∧
    (runCost B N robotics none cap order fuel text costText = .realizable ↔ Wins robotics sp ∧ ¬ sp.Overlap entries) ∧
    (runCost B N robotics none cap order fuel text costText = .error .overlap ↔ Wins robotics sp ∧ sp.Overlap entries) := by
  obtain ⟨⟨tab, c⟩, hi⟩ := C24_proper_accepted (B := B) cap order text hf
  obtain ⟨ds, F, hn, rfl, hd', _, _, _, hcc⟩ := initContext_spec hi
  obtain rfl := Denotes.det hd hd'
  obtain ⟨costs, hr⟩ := readCosts_complete (B := B) (order := order) rfl hc.text hc.lines hc.formulas
  obtain ⟨entries', ht, hinv⟩ := readCosts_sound (F := F) (hn := hn) hr
  obtain ⟨_, _, _, rfl⟩ := CostText.det hc.text ht
  generalize hrun : runCost B N robotics none cap order fuel text costText = r at hend ⊢
  rw [runCost] at hrun
  simp only [hi, hr] at hrun
  rw [hcc] at hrun
  rcases costRun_spec ds F hn N robotics none fuel _ hinv hrun with rfl | ⟨rfl, h⟩ | ⟨rfl, h⟩ | ⟨rfl, _, h⟩ | ⟨perm, recovery, sts, rfl, h, _⟩
  · exact absurd rfl hend
  · simp [h]
  · simp [h]
  · simp [h]
  · cases h

/-- **C73** (partial).  What holds for every explicit strategy that is printed together with `--twoDimensionalCost`: it is well-formed, it starts in initial states,
it is deterministic (unless a permissive strategy was asked for), it only has moves of the environment that obey the assumptions (unless recovery was asked for), and every
move answers with an output that obeys the guarantees and leads to a winning position, and the number of the goal that is pursued only changes when this goal is reached.
Missing: that there is an answer to every move of the environment, which does not hold (`C73_stuck`), that the goals are reached infinitely often, and that the costs are optimal. -/
theorem C73_strategy_partial {robotics perm recovery : Bool} {cap : Nat} {order : List Char → Bool} {fuel : Nat} {text costText : List Char} {sp : SpecFile}
    (hd : Denotes text sp) {w a : D} {pr : Bool} {entries : List (D × Fml)} (hc : CostText N.read costText w a pr entries) {sts : List PState}
    (h : runCost B N robotics (some (perm, recovery)) cap order fuel text costText = .strategy sts) :
    CostPrinted sp perm recovery sts := by
  rcases runCost_cases (B := B) robotics (some (perm, recovery)) fuel hd hc h with h | h | ⟨e, h, _⟩ | ⟨h, _⟩ | ⟨h, _⟩ | ⟨h, _⟩ | ⟨perm', recovery', sts', h, h', _, _, h''⟩
  · cases h
  · cases h
  · cases h
  · cases h
  · cases h
  · cases h
  · cases h
    cases h'
    exact h''

/-- **C73** (partial).  Unless recovery is asked for, all printed states are winning, and all moves obey the assumptions and the guarantees. -/
theorem C73_winning_partial {robotics perm : Bool} {cap : Nat} {order : List Char → Bool} {fuel : Nat} {text costText : List Char} {sp : SpecFile}
    (hd : Denotes text sp) {w a : D} {pr : Bool} {entries : List (D × Fml)} (hc : CostText N.read costText w a pr entries) {sts : List PState}
    (h : runCost B N robotics (some (perm, false)) cap order fuel text costText = .strategy sts) :
    (∀ st ∈ sts, sp.game.SysWins (st.pos sp)) ∧ Safe sp sts := by
  have hp := C73_strategy_partial hd hc h
  refine ⟨fun st hst => ?_, fun st st' he => (hp.safe st st' he (hp.strict rfl st st' he)).1⟩
  rcases hp.reach st hst with h | ⟨st', he, _⟩
  · exact h.2.1
  · exact (hp.safe st' st he (hp.strict rfl st' st he)).2.1

/-! ### An arithmetic: fixed-point numbers with three digits after the point, and infinity -/

/-- An operation that is not applied to infinity. -/
def fixedOp (f : Int → Int → Int) : WithTop Int → WithTop Int → WithTop Int
  | some a, some b => some (f a b)
  | _, _ => none

/-- Reading a whole number. -/
def readFixed (s : List Char) : Option (WithTop Int × List Char) :=
  let s := s.dropWhile isSpace
  let neg := s.head? = some '-'
  let s := if neg then s.tail else s
  let d := s.takeWhile isDigit
  if d = [] then none else some (some ((if neg then -1 else 1) * 1000 * (digitsVal d : Int)), s.dropWhile isDigit)

def fixedPoint : Doubles (WithTop Int) where
  zero := some 0
  infinity := none
  add := fixedOp (· + ·)
  sub := fixedOp (· - ·)
  mul := fixedOp fun a b => a * b / 1000
  ofNat n := some (1000 * (n : Int))
  next x := x.map (· + 1)
  read := readFixed

/-! ### The printed strategy need not be one -/

/-- The environment sets `x` to false infinitely often; the system has to have the last value of `y` different from `x` infinitely often. -/
def differText : List Char := txt!"[INPUT]\nx\n[OUTPUT]\ny\n[ENV_LIVENESS]\n! x'\n[SYS_LIVENESS]\n^ y x'\n"

/-- There are no costs. -/
def freeText : List Char := txt!"1 1 <\n"

def differA : Fml := .not (.var txt!"x'")

def differG : Fml := .bin .xor (.var txt!"y") (.var txt!"x'")

def differ : SpecFile :=
  { inputs := [txt!"x"], outputs := [txt!"y"], envInit := [], sysInit := [], envTrans := [], sysTrans := [],
    envLiveness := [differA], sysLiveness := [differG] }

def differLabel (x y c i : Bool) : List (Word × Bool) := [(txt!"x", x), (txt!"y", y), (txt!"_l_a_c_v_1", c), (txt!"_is_infty_cost_Pre", i)]

def differStates : List PState :=
  [⟨0, 0, differLabel false false false true, [4, 5]⟩, ⟨1, 0, differLabel false true false true, [4, 5]⟩, ⟨2, 0, differLabel true false false true, [4, 5]⟩,
   ⟨3, 0, differLabel true true false true, [4, 5]⟩, ⟨4, 0, differLabel false true true true, [6, 2]⟩, ⟨5, 0, differLabel true true true true, [6, 5]⟩,
   ⟨6, 0, differLabel false false false false, [7]⟩, ⟨7, 0, differLabel true false false false, [7]⟩]

set_option maxRecDepth 100000 in
theorem differ_run : runCost ROBDD fixedPoint false (some (false, false)) 1000 (fun _ => false) 100 differText freeText = .strategy differStates := by
  decide +kernel

theorem differ_reads : ReadsLine txt!"! x'" differA ∧ ReadsLine txt!"^ y x'" differG :=
  ⟨reads_plain differA (by simp [differA, Fml.Wf]) (by decide) (by decide), reads_plain differG (by simp [differG, Fml.Wf]) (by decide) (by decide)⟩

def differItems : List (Section × List Char) := [(.input, txt!"x"), (.output, txt!"y"), (.envLiveness, txt!"! x'"), (.sysLiveness, txt!"^ y x'")]

theorem differ_content : Content none (splitLines differText) differItems := by
  have : splitLines differText = [txt!"[INPUT]", txt!"x", txt!"[OUTPUT]", txt!"y", txt!"[ENV_LIVENESS]", txt!"! x'", txt!"[SYS_LIVENESS]", txt!"^ y x'"] := by decide
  rw [this]
  refine .header .input (by decide) (.item (by decide) (by decide) (by decide) ?_)
  refine .header .output (by decide) (.item (by decide) (by decide) (by decide) ?_)
  refine .header .envLiveness (by decide) (.item (by decide) (by decide) (by decide) ?_)
  exact .header .sysLiveness (by decide) (.item (by decide) (by decide) (by decide) .nil)

theorem differ_denotes : Denotes differText differ :=
  ⟨_, differ_content, rfl, rfl, .nil, .nil, .nil, .nil, .cons differ_reads.1 .nil, .cons differ_reads.2 .nil⟩

theorem free_costs : CostText fixedPoint.read freeText (some 1000) (some 1000) true [] := by
  refine ⟨FirstLine.mk (r1 := txt!" 1 <") (r2 := txt!" <") (r3 := []) (c := '<') ?_ ?_ ?_ (.inl rfl), [], ?_, rfl⟩
  · decide
  · decide
  · decide
  · have : (splitLines freeText).tail = [] := by decide
    rw [this]
    exact .nil

theorem differ_look (p q : Pos differ.In differ.Out) :
    differ.look p q txt!"y" = p.2 ⟨txt!"y", by decide⟩ ∧ differ.look p q txt!"x'" = q.1 ⟨txt!"x", by decide⟩ := by
  refine ⟨?_, ?_⟩
  · rw [SpecFile.look, if_pos (by decide), SpecFile.now, dif_neg (by decide), dif_pos (by decide)]
  · rw [SpecFile.look, if_neg (by decide), SpecFile.now, dif_pos (by decide)]; rfl

theorem differ_env (p : Pos differ.In differ.Out) (i : differ.In) : differ.game.safetyEnv p i := by
  simp [SpecFile.game, differ]

/-- **C73** is violated: the strategy that is printed for this specification, without any costs, does not answer every move of the environment (in state 6, `x` may stay false),
and it has runs that do not satisfy the specification (states 2 and 4 in turn: `x` is false infinitely often, but always equal to the last value of `y`). -/
theorem C73_stuck : ∃ (text costText : List Char) (sp : SpecFile) (sts : List PState), Denotes text sp ∧
    (∃ w a pr entries, CostText fixedPoint.read costText w a pr entries) ∧
    runCost ROBDD fixedPoint false (some (false, false)) 1000 (fun _ => false) 100 text costText = .strategy sts ∧ ¬ Complete sp sts ∧ ¬ LiveRuns sp sts := by
  refine ⟨differText, freeText, differ, differStates, differ_denotes, ⟨_, _, _, _, free_costs⟩, differ_run, ?_, ?_⟩
  · intro h
    obtain ⟨st', he, hi⟩ := h ⟨6, 0, differLabel false false false false, [7]⟩ (by decide) (fun _ => false) (differ_env _ _)
    obtain ⟨_, h1, h2⟩ := he
    have hx := congrFun hi ⟨txt!"x", by decide⟩
    simp only [List.mem_singleton] at h2
    have h3 : st' = ⟨7, 0, differLabel true false false false, [7]⟩ := by
      revert h1 h2
      revert st'
      have : ∀ st' ∈ differStates, st'.num = 7 → st' = ⟨7, 0, differLabel true false false false, [7]⟩ := by decide
      intro st' _ _ h1 h2
      exact this st' h1 h2
    rw [h3] at hx
    revert hx
    decide
  · intro h
    let a : PState := ⟨2, 0, differLabel true false false true, [4, 5]⟩
    let b : PState := ⟨4, 0, differLabel false true true true, [6, 2]⟩
    have hl := h (fun n => if n % 2 = 0 then a else b) (fun n => by
      rcases Nat.mod_two_eq_zero_or_one n with e | e
      · rw [if_pos e, if_neg (by omega)]
        exact ⟨by decide, by decide, by decide⟩
      · rw [if_neg (by omega), if_pos (by omega)]
        exact ⟨by decide, by decide, by decide⟩) (fun n => differ_env _ _)
    have hg := hl (fun f hf (n : Nat) => by
      have hf' : f = fun p q => differ.holds p q differA := List.mem_singleton.mp hf
      subst hf'
      refine ⟨2 * n, by omega, ?_⟩
      simp only
      rw [if_pos (by omega), if_neg (by omega)]
      simp only [SpecFile.holds, differA, Fml.eval, (differ_look _ _).2]
      decide) (fun p q => differ.holds p q differG) (List.mem_singleton.mpr rfl) 0
    obtain ⟨m, _, hm⟩ := hg
    rcases Nat.mod_two_eq_zero_or_one m with e | e
    · simp only at hm
      rw [if_pos e, if_neg (by omega)] at hm
      simp only [SpecFile.holds, differG, Fml.eval, differ_look] at hm
      revert hm
      decide
    · simp only at hm
      rw [if_neg (by omega), if_pos (by omega)] at hm
      simp only [SpecFile.holds, differG, Fml.eval, differ_look] at hm
      revert hm
      decide

/-- What is printed there has the properties of `C73_strategy_partial` and `C73_winning_partial`. -/
example : CostPrinted differ false false differStates ∧ (∀ st ∈ differStates, differ.game.SysWins (st.pos differ)) ∧ Safe differ differStates :=
  ⟨C73_strategy_partial differ_denotes free_costs differ_run, C73_winning_partial differ_denotes free_costs differ_run⟩

/-- Two costs for the transitions from states in which both variables are true. -/
def twoText : List Char := txt!"1 1 <\n# costs\n1 x\n2 y\n"

theorem two_costs : CostText fixedPoint.read twoText (some 1000) (some 1000) true [(some 1000, .var txt!"x"), (some 2000, .var txt!"y")] := by
  refine ⟨FirstLine.mk (r1 := txt!" 1 <") (r2 := txt!" <") (r3 := []) (c := '<') ?_ ?_ ?_ (.inl rfl),
    [none, some (some 1000, .var txt!"x"), some (some 2000, .var txt!"y")], ?_, rfl⟩
  · decide
  · decide
  · decide
  · have : (splitLines twoText).tail = [txt!"# costs", txt!"1 x", txt!"2 y"] := by decide
    rw [this]
    refine .cons .comment (.cons ?_ (.cons ?_ .nil))
    · exact CostLine.cost (num := txt!"1") (fml := txt!"x") (rest := []) (by decide) (by decide) (by decide) (reads_plain (.var txt!"x") (by simp [Fml.Wf]) (by decide) (by decide))
    · exact CostLine.cost (num := txt!"2") (fml := txt!"y") (rest := []) (by decide) (by decide) (by decide) (reads_plain (.var txt!"y") (by simp [Fml.Wf]) (by decide) (by decide))

set_option maxRecDepth 100000 in
theorem two_run : runCost ROBDD fixedPoint false none 1000 (fun _ => false) 100 differText twoText = .error .overlap := by
  decide +kernel

set_option maxRecDepth 100000 in
theorem free_run : runCost ROBDD fixedPoint false none 1000 (fun _ => false) 100 differText freeText = .realizable := by
  decide +kernel

/-- `C72_verdict` applies: the specification is realizable, and these two costs overlap. -/
example : Wins false differ ∧ differ.Overlap [(some 1000, Fml.var txt!"x"), ((some 2000 : WithTop Int), .var txt!"y")] :=
  ⟨((C72_verdict differ_denotes free_costs).2.1 free_run).2.1, ((C72_verdict differ_denotes two_costs).2.2.2.1 two_run).2⟩

theorem differ_proper : ProperFile 1000 differText := by
  refine ⟨_, differ_content, by decide, ?_⟩
  intro before s line after h h1 h2
  rcases before with _ | ⟨p1, _ | ⟨p2, _ | ⟨p3, _ | ⟨p4, before⟩⟩⟩⟩ <;>
    simp only [differItems, List.cons_append, List.nil_append, List.cons.injEq, Prod.mk.injEq] at h
  · exact absurd h.1.1.symm h1
  · exact absurd h.2.1.1.symm h2
  · obtain ⟨rfl, rfl, ⟨rfl, rfl⟩, _⟩ := h
    exact ⟨by decide, differA, differ_reads.1, by simp [differA, Fml.Wf], by decide⟩
  · obtain ⟨rfl, rfl, rfl, ⟨rfl, rfl⟩, _⟩ := h
    exact ⟨by decide, differG, differ_reads.2, by simp [differG, Fml.Wf], by decide⟩
  · simp at h

theorem two_proper : ProperCosts fixedPoint 1000 differ twoText (some 1000) (some 1000) true [(some 1000, .var txt!"x"), (some 2000, .var txt!"y")] where
  text := two_costs
  lines := by decide
  formulas := by
    intro e he
    simp only [List.mem_cons, List.not_mem_nil, or_false] at he
    rcases he with rfl | rfl
    · exact ⟨by simp [Fml.Wf], by decide⟩
    · exact ⟨by simp [Fml.Wf], by decide⟩

/-- `C72_proper` applies. -/
example : ¬ (runCost ROBDD fixedPoint false none 1000 (fun _ => false) 100 differText twoText = .realizable) := by
  have h := C72_proper (B := ROBDD) (robotics := false) (order := fun _ => false) (fuel := 100) differ_proper differ_denotes two_proper (by rw [two_run]; simp)
  rw [h.2.1]
  exact fun h' => h'.2 (h.2.2.mp two_run).2

/-! ### All runs end -/

/-- **C72.**  If the weight of waiting costs and all costs are not negative, and the weight of action costs is positive, then the run ends, whatever is printed.  (`Doubles.Lawful`: sums
and products are monotone, and those of finite numbers are finite.) -/
theorem C72_ends (hN : N.Lawful) (robotics : Bool) (explicit : Option (Bool × Bool)) {cap : Nat} {order : List Char → Bool} {text costText : List Char} {sp : SpecFile}
    (hf : ProperFile cap text) (hd : Denotes text sp) {w a : D} {pr : Bool} {entries : List (D × Fml)} (hc : ProperCosts N cap sp costText w a pr entries)
    (hw : N.zero ≤ w ∧ w < N.infinity) (ha : N.zero < a ∧ a < N.infinity) (hpos : ∀ e ∈ entries, N.zero ≤ e.1) :
    ∃ n, ∀ fuel, n ≤ fuel → runCost B N robotics explicit cap order fuel text costText ≠ .running := by
  obtain ⟨⟨tab, c⟩, hi⟩ := C24_proper_accepted (B := B) cap order text hf
  obtain ⟨ds, F, hn, rfl, hd', _, _, _, hcc⟩ := initContext_spec hi
  obtain rfl := Denotes.det hd hd'
  obtain ⟨costs, hr⟩ := readCosts_complete (B := B) (order := order) rfl hc.text hc.lines hc.formulas
  obtain ⟨entries', ht, hinv⟩ := readCosts_sound (F := F) (hn := hn) hr
  obtain ⟨_, _, _, rfl⟩ := CostText.det hc.text ht
  obtain ⟨n, h⟩ := costRun_ends (B := B) ds F hn hN robotics explicit (q := ⟨w, a, pr⟩) ⟨hw.1, hw.2, ha.1, ha.2⟩ hinv hpos
  refine ⟨n, fun fuel hle => ?_⟩
  rw [runCost]
  simp only [hi, hr]
  rw [hcc]
  exact h fuel hle

theorem fixedPoint_lawful : fixedPoint.Lawful where
  zero_lt := by decide
  le_infinity _ := le_top
  add_lt
    | some _, some _, _, _ => WithTop.coe_lt_top _
    | none, _, h, _ => absurd h (lt_irrefl _)
    | some _, none, _, h => absurd h (lt_irrefl _)
  mul_lt
    | some _, some _, _, _ => WithTop.coe_lt_top _
    | none, _, h, _ => absurd h (lt_irrefl _)
    | some _, none, _, h => absurd h (lt_irrefl _)
  ofNat_lt _ := WithTop.coe_lt_top _
  add_mono
    | some _, some _, some _, some _, h1, h2 => WithTop.coe_le_coe.mpr (Int.add_le_add (WithTop.coe_le_coe.mp h1) (WithTop.coe_le_coe.mp h2))
    | none, some _, _, _, h1, _ => absurd h1 (not_le_of_gt (WithTop.coe_lt_top _))
    | _, _, none, some _, _, h2 => absurd h2 (not_le_of_gt (WithTop.coe_lt_top _))
    | _, none, _, _, _, _ => le_top
    | _, some _, _, none, _, _ => le_top
  le_add
    | some x, some y, h => WithTop.coe_le_coe.mpr (by have := WithTop.coe_le_coe.mp h; dsimp only; omega)
    | none, _, _ => le_top
    | some _, none, _ => le_top
  mul_mono
    | some _, some _, some _, h, h1, _ => WithTop.coe_le_coe.mpr (Int.ediv_le_ediv (by decide) (Int.mul_le_mul_of_nonneg_left (WithTop.coe_le_coe.mp h1) (WithTop.coe_le_coe.mp h)))
    | _, _, none, _, _, h2 => absurd h2 (lt_irrefl _)
    | _, none, some _, _, h1, _ => absurd h1 (not_le_of_gt (WithTop.coe_lt_top _))
    | none, some _, some _, _, _, _ => le_top
  ofNat_mono m n h := WithTop.coe_le_coe.mpr (by omega)

theorem free_proper : ProperCosts fixedPoint 1000 differ freeText (some 1000) (some 1000) true [] where
  text := free_costs
  lines := by decide
  formulas := by simp

theorem some_lt : ((1000 : Int) : WithTop Int) < fixedPoint.infinity := WithTop.coe_lt_top _

theorem some_le : fixedPoint.zero ≤ ((1000 : Int) : WithTop Int) := WithTop.coe_le_coe.mpr (by decide)

theorem some_pos : fixedPoint.zero < ((1000 : Int) : WithTop Int) := WithTop.coe_lt_coe.mpr (by decide)

/-- `C72_ends` applies, with costs and without. -/
example (robotics : Bool) (explicit : Option (Bool × Bool)) :
    ∃ n, ∀ fuel, n ≤ fuel → runCost ROBDD fixedPoint robotics explicit 1000 (fun _ => false) fuel differText twoText ≠ .running :=
  C72_ends fixedPoint_lawful robotics explicit differ_proper differ_denotes two_proper ⟨some_le, some_lt⟩ ⟨some_pos, some_lt⟩ (by decide)

/-- And then the answer is the right one. -/
example : ∃ n, ∀ fuel, n ≤ fuel → runCost ROBDD fixedPoint false none 1000 (fun _ => false) fuel differText freeText = .realizable := by
  obtain ⟨n, h⟩ := C72_ends (B := ROBDD) (order := fun _ => false) fixedPoint_lawful false none differ_proper differ_denotes free_proper ⟨some_le, some_lt⟩ ⟨some_pos, some_lt⟩ (by simp)
  exact ⟨n, fun fuel hle => (C72_proper differ_proper differ_denotes free_proper (h fuel hle)).2.1.mpr ((C72_verdict differ_denotes free_costs).2.1 free_run).2⟩

end Slugs.Props
