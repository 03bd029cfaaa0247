import Verif.Model.Structured

/-!
Model of `examples/benchmark_generators/cinderella_stepmother.py`, which writes specifications of the game of Cinderella and her stepmother.
-/

namespace Slugs.Model.Cinderella

open Slugs.Model.Structured

/-- `sep.join(l)` (used in cinderella_stepmother.py:96-103). -/
def joined (sep : List Char) : List (List Char) → List Char
  | [] => []
  | [a] => a
  | a :: b :: l => a ++ (sep ++ joined sep (b :: l))

/-- `"x"+str(i)` (cinderella_stepmother.py:96-103). -/
def xName (i : Nat) : List Char := 'x' :: strNat i
/-- `"y"+str(i)` (cinderella_stepmother.py:97-103). -/
def yName (i : Nat) : List Char := 'y' :: strNat i

/-- The condition under which bucket `i` is emptied (cinderella_stepmother.py:102-103). -/
def emptiedText (n power i : Nat) : List Char :=
  txt!"((e<=" ++ (strNat i ++ (txt!" & e+" ++ (strNat power ++ (txt!" > " ++ (strNat i ++ (txt!") | (e+" ++
    (strInt ((power : Int) - 1) ++ (txt!" >= " ++ (strNat (i + n) ++ txt!"))")))))))))

/-- `inLines` (cinderella_stepmother.py:96). -/
def inLines (n units : Nat) : List (List Char) := (List.range n).map fun i => xName i ++ (txt!":0..." ++ strNat units)
/-- `outLines` (cinderella_stepmother.py:97). -/
def outLines (n capacity : Nat) : List (List Char) := (List.range n).map fun i => yName i ++ (txt!":0..." ++ strNat capacity)
/-- `stepMotherRestrictionLine` (cinderella_stepmother.py:99). -/
def restriction (n units : Nat) : List Char := joined txt!"+" ((List.range n).map fun i => xName i ++ txt!"'") ++ (txt!" <= " ++ strNat units)
/-- `envInit` (cinderella_stepmother.py:100). -/
def envInit (n : Nat) : List (List Char) := (List.range n).map fun i => xName i ++ txt!" = 0"
/-- `sysInit` (cinderella_stepmother.py:101). -/
def sysInit (n : Nat) : List (List Char) := (List.range n).map fun i => yName i ++ txt!" = 0"
/-- `sysTransA` (cinderella_stepmother.py:102). -/
def sysTransA (n power : Nat) : List (List Char) := (List.range n).map fun i =>
  '!' :: (emptiedText n power i ++ (txt!" -> " ++ (yName i ++ (txt!"' = " ++ (yName i ++ (txt!" + " ++ (xName i ++ txt!"'")))))))
/-- `sysTransB` (cinderella_stepmother.py:103). -/
def sysTransB (n power : Nat) : List (List Char) := (List.range n).map fun i =>
  emptiedText n power i ++ (txt!" -> " ++ (yName i ++ (txt!"' = " ++ (xName i ++ txt!"'"))))

/-- `text` in `makeBenchmarkFile` (cinderella_stepmother.py:74-106): the contents of the structured specification file.  Not modelled are the name of the file and the
calls of other programs afterwards. -/
def benchmark (n power capacity units : Nat) : List Char :=
  txt!"[INPUT]\n" ++ (joined txt!"\n" (inLines n units) ++ (txt!"\n\n[OUTPUT]\n" ++ (joined txt!"\n" (outLines n capacity) ++ (txt!"\ne:0..." ++
    (strInt ((n : Int) - 1) ++ (txt!"\n\n[ENV_TRANS]\n" ++ (restriction n units ++ (txt!"\n\n[ENV_INIT]\n" ++ (joined txt!"\n" (envInit n) ++
    (txt!"\n\n[SYS_INIT]\n" ++ (joined txt!"\n" (sysInit n) ++ (txt!"\n\n[SYS_TRANS]\n" ++ (joined txt!"\n" (sysTransA n power) ++ (txt!"\n" ++
    (joined txt!"\n" (sysTransB n power) ++ txt!"\n\n")))))))))))))))

end Slugs.Model.Cinderella
