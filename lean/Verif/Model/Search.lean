import Verif.Spec.Text
import Verif.Spec.Search
import Mathlib.Data.Int.Basic
import Mathlib.Data.Nat.Size
import Mathlib.Tactic.Linarith

/-!
Model of `tools/binaryRealizabilitySearch.py` and `tools/multiDimensionalRealizabilitySearch.py`.  The script that is called is represented by a function from
parameters to what it writes and its exit code; it is assumed that a second call with the same parameters has the same result.
-/

namespace Slugs.Model.Search

open Slugs.Spec

/-- What a call of the script yields: the lines it writes to its standard output and standard error output, and its exit code. -/
structure Call where
  lines : List (List Char)
  code : Nat

/-- `checkRealizability`, `binaryRealizabilitySearch.py:13-49`, `multiDimensionalRealizabilitySearch.py:12-49` (the two are the same); `none` is an error message.
(The text of the message is not modelled.) -/
def checkRealizability (c : Call) : Option Bool :=
  let lines := c.lines.map trim
  let nofRealizable := lines.count txt!"RESULT: Specification is realizable."
  let nofUnrealizable := lines.count txt!"RESULT: Specification is unrealizable."
  if c.code ≠ 0 then none
  else if nofRealizable + nofUnrealizable > 1 then none
  else if nofRealizable + nofUnrealizable = 0 then none
  else some (decide (nofRealizable > 0))

/-- How the binary search ends. -/
inductive BinaryEnd where
  | value (v : Int)
  | unrealizable
  | error
  deriving DecidableEq

/-- A run: how it ends, and the parameters with which the script has been called, in order. -/
structure BinaryRun where
  ended : BinaryEnd
  calls : List Int
  deriving DecidableEq

/-- `testValue`, `binaryRealizabilitySearch.py:82-85`. -/
def testValue (monotone : Bool) (mn mx : Int) : Int :=
  let t := (mn + mx) / 2
  if !monotone && decide ((mn + mx) % 2 > 0) then t + 1 else t

theorem testValue_bounds (monotone : Bool) {mn mx : Int} (h : mn < mx) :
    (monotone = true → mn ≤ testValue monotone mn mx ∧ testValue monotone mn mx < mx) ∧
    (monotone = false → mn < testValue monotone mn mx ∧ testValue monotone mn mx ≤ mx) := by
  cases monotone
  · refine ⟨by simp, fun _ => ?_⟩
    simp only [testValue, Bool.not_false, Bool.true_and, decide_eq_true_eq]
    split <;> omega
  · refine ⟨fun _ => ?_, by simp⟩
    simp only [testValue, Bool.not_true, Bool.false_and]
    simp
    omega

/-- The main program, `binaryRealizabilitySearch.py:79-119`, after the arguments have been read. -/
def binarySearch (monotone : Bool) (ask : Int → Option Bool) (mn mx : Int) : BinaryRun :=
  if h : mn < mx then
    let t := testValue monotone mn mx
    match ask t with
    | some true =>
      let r := if monotone then binarySearch monotone ask mn t else binarySearch monotone ask t mx
      { r with calls := t :: r.calls }
    | some false =>
      let r := if monotone then binarySearch monotone ask (t + 1) mx else binarySearch monotone ask mn (t - 1)
      { r with calls := t :: r.calls }
    | none => ⟨.error, [t]⟩
  else
    match ask mx with
    | some true => ⟨.value mx, [mx]⟩
    | some false => ⟨.unrealizable, [mx]⟩
    | none => ⟨.error, [mx]⟩
termination_by (mx - mn).toNat
decreasing_by
  all_goals
    have hb := testValue_bounds monotone h
    cases monotone
    · have := hb.2 rfl
      simp_all
      try omega
    · have := hb.1 rfl
      simp_all
      try omega


/-! ### Several parameters -/

/-- `tupleComparator(t1,t2)==True`, `multiDimensionalRealizabilitySearch.py:52-64`.  (If the tuples are equal, the result is `True`.) -/
def tupleLe : List Int → List Int → Bool
  | a :: s, b :: t => decide (a ≤ b) && tupleLe s t
  | _, _ => true

/-- `xrange(mini,maxi+1)`. -/
def range (mini maxi : Int) : List Int := (List.range (maxi + 1 - mini).toNat).map fun k : Nat => mini + (k : Int)

/-- `itertools.product(*[...])`. -/
def product : List (List Int) → List (List Int)
  | [] => [[]]
  | l :: ls => l.flatMap fun a => (product ls).map fun t => a :: t

/-- The normalized range, `multiDimensionalRealizabilitySearch.py:73-81`. -/
def normalized (p : Parameter) : Int × Int := if p.monotone then (p.least, p.greatest) else (-1 * p.greatest, -1 * p.least)

/-- Translating a tuple back, `multiDimensionalRealizabilitySearch.py:132-139,147-152`. -/
def translate : List Parameter → List Int → List Int
  | p :: ps, a :: t => (if p.monotone then a else -1 * a) :: translate ps t
  | _, _ => []

/-- The tuples that have been found to be unrealizable and realizable. -/
structure Points where
  negative : List (List Int)
  positive : List (List Int)

/-- `outerCover`, `multiDimensionalRealizabilitySearch.py:95-102`. -/
def Points.covers (P : Points) (t : List Int) : Bool := P.negative.any (fun c => tupleLe t c) || P.positive.any (fun c => tupleLe c t)

/-- `distNeg`, `multiDimensionalRealizabilitySearch.py:107-113`. -/
def distNeg (box : List (Int × Int)) (P : Points) (t : List Int) : Nat :=
  ((product ((t.zip box).map fun (a, b) => range a b.2)).filter fun s => !P.positive.any (fun c => tupleLe c s)).length

/-- `distPos`, `multiDimensionalRealizabilitySearch.py:116-122`. -/
def distPos (box : List (Int × Int)) (P : Points) (t : List Int) : Nat :=
  ((product ((t.zip box).map fun (a, b) => range b.1 a)).filter fun s => !P.negative.any (fun c => tupleLe s c)).length

/-- The loop that chooses a tuple, `multiDimensionalRealizabilitySearch.py:85-128`: the tuple and its value; no tuple means `-1`. -/
def choose (box : List (Int × Int)) (P : Points) : List (List Int) → Option (List Int × Nat) → Option (List Int × Nat)
  | [], best => best
  | t :: ts, best =>
    if P.covers t then choose box P ts best
    else
      let dp := distPos box P t
      let dn := distNeg box P t
      let v := min dn dp
      if dp > 0 ∨ dn > 0 then
        match best with
        | none => choose box P ts (some (t, v))
        | some (_, w) => choose box P ts (if v ≥ w then some (t, v) else best)
      else choose box P ts best

/-- The end of a run with several parameters. -/
inductive ParetoEnd where
  | front (ts : List (List Int))
  | running
  deriving DecidableEq

/-- `runSearch`, `multiDimensionalRealizabilitySearch.py:66-171`; if there is no result for a tuple, the loop starts again.  (The assertions about negative limits,
`:76-77`, are in `runSearch`.) -/
def searchLoop (ps : List Parameter) (ask : List Int → Option Bool) : Nat → Points → ParetoEnd
  | 0, _ => .running
  | n + 1, P =>
    let box := ps.map normalized
    match choose box P (product (box.map fun b => range b.1 b.2)) none with
    | none => .front (P.positive.map (translate ps))
    | some (t, _) =>
      match ask (translate ps t) with
      | some true => searchLoop ps ask n { P with positive := P.positive.filter (fun a => !tupleLe t a) ++ [t] }
      | some false => searchLoop ps ask n { P with negative := P.negative.filter (fun a => !tupleLe a t) ++ [t] }
      | none => searchLoop ps ask n P

/-- `runSearch`; `none` is a failed assertion. -/
def runSearch (ps : List Parameter) (ask : List Int → Option Bool) (fuel : Nat) : Option ParetoEnd :=
  if ps.all (fun p => decide (p.least ≥ 0 ∧ p.greatest ≥ 0)) then some (searchLoop ps ask fuel ⟨[], []⟩) else none

end Slugs.Model.Search
