import Verif.Model.StuckAt

/-!
Model of `tools/kResilientRealizabilityChecker.py`, a Python 2 program.  Not modelled: what is written to `stderr` the
times that are measured and printed, Python's limit on recursion, and the option `--writeOptimalCaseSpecifications` (which writes the files that are modelled by `mixedFile`).
-/

namespace Slugs.Model.Resilience

open Slugs.Spec Slugs.Model.Structured
open Slugs.Model.Core (Categories writeLines sectionLines)

/-! ### Reading the file -/

/-- The line starts with `## Variable limits`. -/
def isLimitComment (line : List Char) : Bool := txt!"## Variable limits".isPrefixOf line

/-- The loop `kResilientRealizabilityChecker.py:65-81`; `limits` is `nextIsVariableLimits`; the result is `essentialEnvTrans` and `lines`; `none` is a `KeyError`. -/
def readSpec : List Char → Bool → List (List Char) → Categories → List (List Char) → Option (List (List Char) × Categories)
  | _, _, essential, c, [] => some (essential, c)
  | mode, limits, essential, c, l :: ls =>
    let line := trim l
    if line = [] then readSpec mode limits essential c ls
    else if line.head? = some '#' then readSpec mode (limits || isLimitComment line) essential c ls
    else if line.head? = some '[' then readSpec line limits essential c ls
    else if limits = true ∧ mode = Section.envTrans.header then readSpec mode false (essential ++ [line]) c ls
    else
      match headerOf mode with
      | none => none
      | some s => readSpec mode false essential (c.add s line) ls

/-! ### The search for maximal elements -/

/-- `resultStoragePlace`, `cachedOracleFalseElements` and `doneStoragePlace`. -/
structure Store (α : Type) where
  results : List α
  falses : List α
  done : List α

/-- The loop `:153-156`; `rec` is the recursive call, and `found` is `foundGreaterElement`. -/
def searchAll {α : Type} (rec : α → Store α → Option (Bool × Store α)) : List α → Bool → Store α → Option (Bool × Store α)
  | [], found, st => some (found, st)
  | a :: as, found, st =>
    match rec a st with
    | none => none
    | some (new, st) => searchAll rec as (found || new) st

/-- `getFrontierSetInLatticeRecurse`, `:121-164`.  At its end, `None` is returned if a greater element has been found, which counts as false.  `none` is an exception
or the end of the process in `oracleFunction`, or that the recursion is deeper than `fuel`. -/
def search {α : Type} [DecidableEq α] (leq : α → α → Bool) (succ : α → List α) (oracle : α → Option Bool) (known : List α) :
    Nat → α → Store α → Option (Bool × Store α)
  | 0, _, _ => none
  | fuel + 1, x, st =>
    if x ∈ st.done then some (st.results.any (leq x), st)
    else if st.falses.any (fun y => leq y x) then some (false, st)
    else
      let st := { st with done := x :: st.done }
      let toBeChecked := !(st.results.any (leq x)) && !(known.any (leq x))
      match if toBeChecked then oracle x else some true with
      | none => none
      | some false => some (false, { st with falses := x :: st.falses })
      | some true =>
        match searchAll (search leq succ oracle known fuel) (succ x) false st with
        | none => none
        | some (true, st) => some (false, st)
        | some (false, st) => if st.results.any (leq x) then some (false, st) else some (true, { st with results := st.results ++ [x] })

/-- `getFrontierSetInLattice`, `:167-172`. -/
def frontier {α : Type} [DecidableEq α] (leq : α → α → Bool) (succ : α → List α) (oracle : α → Option Bool) (known : List α) (fuel : Nat) (start : α) :
    Option (List α) :=
  (search leq succ oracle known fuel start ⟨[], [], []⟩).map fun r => r.2.results

/-! ### Any number of violations -/

/-- `sysPrefix`, `:198-203` and `:318-327`: the negations of some assumptions. -/
def violationPrefix (as : List (List Char)) : List Char := as.foldl (fun p a => txt!"| ! " ++ a ++ txt!" " ++ p) []

/-- The sections that are copied, `:188`. -/
def copiedOrder : List Section := [.input, .output, .envLiveness, .envInit, .sysInit, .sysTrans]

/-- The lines of `c`, each with the entry of `v` at its position (`d` if there is none). -/
def levels {β : Type} (d : β) (v : List β) (c : List (List Char)) : List (List Char × β) := c.zipIdx.map fun p => (p.1, v.getD p.2 d)

/-- The assumptions at which `v` has an entry that satisfies `f`. -/
def atLevel {β : Type} (d : β) (v : List β) (f : β → Bool) (c : List (List Char)) : List (List Char) := ((levels d v c).filter fun p => f p.2).map Prod.fst

/-- The file that is written by `checkInftyRobustImplementability`, `:186-208`. -/
def inftyFile (essential : List (List Char)) (c : Categories) (v : List Bool) : List Char :=
  let pre := violationPrefix (atLevel false v id (c .envTrans))
  writeLines (sectionLines [[]] copiedOrder c ++ [Section.envTrans.header] ++ (essential ++ atLevel false v (! ·) (c .envTrans)) ++
    [Section.sysLiveness.header] ++ (c .sysLiveness).map (pre ++ ·))

/-- Calling slugs, `:216-229` and `:409-431`: the process ends if there is no verdict. -/
def askSlugs (B : Type) [DecidableEq B] [BddLib B] (alg : Algorithm) (cap : Nat) (order : List Char → Bool) (fuel : Nat) (text : List Char) : Option Bool :=
  match runSlugs B alg false cap order fuel text with
  | .result b => some b
  | _ => none

/-- `BoolVectorLatticeElement.getSuccessors`, `:254-261`. -/
def inftySucc (v : List Bool) : List (List Bool) := (List.range v.length).filterMap fun a => if v.getD a false then none else some (v.set a true)

/-- `BoolVectorLatticeElement.isLeqThan`, `:262-266`. -/
def inftyLeq (v w : List Bool) : Bool := (List.range v.length).all fun a => w.getD a false || !(v.getD a false)

/-- `findInftyRobustSolutions`, `:240-269`; the recursion is not deeper than the number of assumptions plus one. -/
def findInfty (check : List Char → Option Bool) (essential : List (List Char)) (c : Categories) : Option (List (List Bool)) :=
  frontier inftyLeq inftySucc (fun v => check (inftyFile essential c v)) [] ((c .envTrans).length + 1) (List.replicate (c .envTrans).length false)

/-- The program up to `:499`: the file is read (the ends of lines are stripped, so it does not matter that `readlines` keeps them), and the first search is made. -/
def firstSearch (check : List Char → Option Bool) (text : List Char) : Option (List (List Bool)) :=
  match readSpec [] false [] (fun _ => []) (splitLines text) with
  | none => none
  | some (essential, c) => findInfty check essential c

/-! ### Mixed resilience -/

/-- `binaryEncode`, `:278-286`; the value may be negative, and `>>` rounds down. -/
def binaryEncode : Nat → Int → List Bool
  | 0, _ => []
  | n + 1, value => decide (value % 2 = 1) :: binaryEncode n (value / 2)

/-- `itertools.combinations`. -/
def combinations {β : Type} : Nat → List β → List (List β)
  | 0, _ => [[]]
  | _ + 1, [] => []
  | r + 1, a :: as => (combinations r as).map (a :: ·) ++ combinations (r + 1) as

/-- The name of a bit of the counter. -/
def counterName (i : Nat) : List Char := txt!"_ResilienceCounter_" ++ decimal i

/-- Some copies of an operator, each with a blank. -/
def ops (n : Nat) (op : Char) : List Char := (List.replicate n [op, ' ']).flatten

/-- `("& "*nofCounterBits)+" ".join([...]+["1"])`, `:346` and `:365`: the counter has the value. -/
def selector (b : Nat) (value : Int) : List Char :=
  ops b '&' ++ joinWords ((List.range b).zipWith (fun i (v : Bool) => (if v then [] else txt!"! ") ++ counterName i) (binaryEncode b value) ++ [txt!"1"])

/-- `recurseSmaller`, `:368-375`, where the position is `n - 1`: the next value of the counter is not greater than the reference. -/
def smaller (reference : Nat) : Nat → List Char
  | 0 => txt!"1"
  | n + 1 => (if reference.testBit n then txt!"| ! " else txt!"& ! ") ++ prime (counterName n) ++ txt!" " ++ smaller reference n

/-- `:346` and `:351-352`. -/
def limitLine (b : Nat) (value : Int) (combination : List (List Char)) : List Char :=
  txt!"| ! " ++ selector b value ++ txt!" " ++ (ops combination.length '|' ++ joinWords (combination ++ [txt!"0"]))

/-- The loop `:342-352`. -/
def limitLines (b k : Nat) (masked : List (List Char)) : List (List Char) :=
  (List.range masked.length).flatMap fun (j : Nat) =>
    let value : Int := (k : Int) - masked.length + 1 + j
    (combinations (masked.length - j) masked).map (limitLine b value)

/-- `:364-383`. -/
def countLine (b fromValue toValue : Nat) (selected : List (List Char)) : List Char :=
  txt!"| " ++ (txt!"| " ++ (txt!"! " ++ selector b fromValue) ++ txt!" " ++ smaller toValue b) ++ txt!" " ++
    (ops selected.length '|' ++ txt!"0 " ++ joinWords (selected.map (txt!"! " ++ ·)))

/-- The loop `:360-383`. -/
def countLines (b k : Nat) (masked : List (List Char)) : List (List Char) :=
  (List.range (k + 1)).flatMap fun fromValue =>
    ((List.range (min (k + 1) (fromValue + masked.length + 1))).filter (fromValue ≤ ·)).flatMap fun toValue =>
      (combinations (masked.length + fromValue - toValue) masked).map (countLine b fromValue toValue)

/-- The file that is written by `writeMixedRobustSpecification`, `:288-393`, for the levels `v` of the assumptions and the number `k` (together, these are the argument of the
function).  `bits` is how `nofCounterBits` is computed from `k`: this is done with floating-point logarithms. -/
def mixedFile (bits : Nat → Nat) (essential : List (List Char)) (c : Categories) (v : List Nat) (k : Nat) : List Char :=
  let b := bits k
  let names := (List.range b).map counterName
  let masked := atLevel 0 v (· == 1) (c .envTrans)
  let pre := violationPrefix (atLevel 0 v (0 < ·) (c .envTrans))
  writeLines (
    [Section.output.header] ++ c .output ++ names ++ [[]] ++
    [Section.input.header] ++ c .input ++ [[]] ++
    [Section.envInit.header] ++ c .envInit ++ [[]] ++
    [Section.envLiveness.header] ++ (c .envLiveness).map (fun a => ops b '|' ++ joinWords names ++ txt!" " ++ a) ++ [[]] ++
    [Section.sysInit.header] ++ c .sysInit ++ names.map (txt!"! " ++ ·) ++ [[]] ++
    [Section.envTrans.header] ++ essential ++ atLevel 0 v (· == 0) (c .envTrans) ++ limitLines b k masked ++ [[]] ++
    [Section.sysTrans.header] ++ c .sysTrans ++ countLines b k masked ++ [[]] ++
    [Section.sysLiveness.header] ++ (c .sysLiveness).map (pre ++ ·) ++ [pre ++ (ops b '&' ++ joinWords (names.map (fun x => txt!"! " ++ prime x) ++ [txt!"1"]))])

/-- `isMoreAmbitionThanInftyRobustSolutions`, `:461-468`. -/
def moreAmbitious (infty : List (List Bool)) (v : List Nat) : Bool :=
  infty.all fun w =>
    let isLeq := (List.range w.length).all fun i => v.getD i 0 == 0 || w.getD i false
    let isLess := (List.range w.length).any fun i => decide (0 < v.getD i 0) && !w.getD i false
    isLess || !isLeq

/-- `MixedLatticeElement.getSuccessors`, `:452-474`. -/
def mixedSucc (infty : List (List Bool)) (x : List Nat × Nat) : List (List Nat × Nat) :=
  ((List.range x.1.length).filterMap fun a => if x.1.getD a 0 < 2 then some (x.1.set a (x.1.getD a 0 + 1), x.2) else none) ++
    (if moreAmbitious infty x.1 then [(x.1, x.2 + 1)] else [])

/-- `MixedLatticeElement.isLeqThan`, `:475-479`. -/
def mixedLeq (x y : List Nat × Nat) : Bool := ((List.range x.1.length).all fun a => decide (x.1.getD a 0 ≤ y.1.getD a 0)) && decide (x.2 ≤ y.2)

/-- `findMixedRobustSolutions`, `:438-484`; `depth` is a bound on the recursion. -/
def findMixed (bits : Nat → Nat) (check : List Char → Option Bool) (depth : Nat) (essential : List (List Char)) (c : Categories) (infty : List (List Bool)) :
    Option (List (List Nat × Nat)) :=
  match infty with
  | [] => none
  | first :: _ =>
    frontier mixedLeq (mixedSucc infty) (fun x => check (mixedFile bits essential c x.1 x.2)) (infty.map fun w => (w.map fun a => if a then 2 else 0, 1)) depth
      (first.map fun _ => 0, 1)

/-- What is printed for one result, `:512-524`; in Python 2, `print` with a comma at the end puts one blank before the next output. -/
def levelLine (x : List Nat × Nat) : List Char :=
  joinWords (txt!"-" :: x.1.map (fun l => if l = 0 then txt!"none," else if l = 1 then txt!"some," else txt!"any, ") ++ [txt!"k=" ++ decimal x.2]) ++ txt!"\n"

/-- The program, `:499-524`: what it prints on `stdout` (without the time). -/
def program (bits : Nat → Nat) (check : List Char → Option Bool) (depth : Nat) (text : List Char) : Option (List Char) :=
  match readSpec [] false [] (fun _ => []) (splitLines text) with
  | none => none
  | some (essential, c) =>
    match findInfty check essential c with
    | none => none
    | some [] => some txt!"Result: Our specification is absolutely unrealizable, so the script stops here.\n"
    | some infty =>
      match findMixed bits check depth essential c infty with
      | none => none
      | some found => some (txt!"Error-resilience levels achievable:\n" ++ (found.map levelLine).flatten)

end Slugs.Model.Resilience
