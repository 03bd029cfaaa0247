import Verif.Spec.Decoded

/-!
Signals that are stuck at a constant value, in structured specifications.
-/

namespace Slugs.Spec.Structured

namespace SSpec

variable (S : SSpec)

/-- The game in which the system must always give the value `v` to the output `x`. -/
def fixOutput (x : Word) (v : Int) : Game S.In S.Out :=
  { S.game with
    initSys := fun p => S.game.initSys p ∧ p.2.1 x = v
    safetySys := fun p q => S.game.safetySys p q ∧ q.2.1 x = v }

/-- The game in which the environment must always give the value `v` to the input `x`. -/
def fixInput (x : Word) (v : Int) : Game S.In S.Out :=
  { S.game with
    initEnv := fun i => S.game.initEnv i ∧ i.1 x = v
    safetyEnv := fun p i => S.game.safetyEnv p i ∧ i.1 x = v }

end SSpec

/-- The values of a variable, in increasing order. -/
def Decl.values (d : Decl) : List Int :=
  match d.range with
  | none => [0, 1]
  | some (lo, hi) => (List.range (hi + 1 - lo).toNat).map fun k : Nat => lo + k

/-- How the report shows a value. -/
def Decl.shown (d : Decl) (v : Int) : List Char :=
  match d.range with
  | none => if v = 0 then txt!"False" else txt!"True"
  | some _ => intText v

/-- An enumeration: `a`, `a or b`, `a, b, or c`. -/
def enumeration : List (List Char) → List Char
  | [] => []
  | [a] => a
  | [a, b] => a ++ txt!" or " ++ b
  | a :: b :: c :: l => (txt!", ").intercalate (a :: b :: (c :: l).dropLast) ++ txt!", or " ++ (c :: l).getLastD []

/-- What the report says about a variable, given the values that do not change the verdict. -/
def stuckLine (kind : List Char) (d : Decl) (vs : List Int) : List Char :=
  if vs = [] then txt!"Fixing the value of the " ++ kind ++ txt!" " ++ d.name ++ txt!" changes that.\n"
  else txt!"Fixing the value of the " ++ kind ++ txt!" " ++ d.name ++ txt!" to " ++ enumeration (vs.map d.shown) ++ txt!" does not change this fact.\n"

open Classical in
/-- The report on a structured specification: if it is realizable, for every output the values at which it can be stuck such that the specification is still
realizable; and if it is unrealizable, for every input the values at which it can be stuck such that the specification is still unrealizable. -/
noncomputable def stuckReport (S : SSpec) : List Char :=
  if S.game.Realizable then
    txt!"Starting point is a realizable specification\n" ++
      (S.outputs.map fun d => stuckLine txt!"output signal" d (d.values.filter fun v => decide (S.fixOutput d.name v).Realizable)).flatten
  else
    txt!"Starting point is an unrealizable specification\n" ++
      (S.inputs.map fun d => stuckLine txt!"input signal" d (d.values.filter fun v => decide (¬ (S.fixInput d.name v).Realizable))).flatten

end Slugs.Spec.Structured
