import Verif.Model.Cinderella

/-!
Model of `examples/benchmark_generators/factory_assembly_line.py`, which writes specifications of an assembly line with two robot arms.
-/

namespace Slugs.Model.Factory

open Slugs.Model.Structured Slugs.Model.Cinderella

/-- `"p"+str(i)+"_"+str(j)` (factory_assembly_line.py:124). -/
def pName (i j : Nat) : List Char := 'p' :: (strNat i ++ '_' :: strNat j)

/-- `PositionAPs` (factory_assembly_line.py:124). -/
def positions (n m : Nat) : List (List Char) := (List.range n).flatMap fun i => (List.range m).map fun j => pName i j
/-- `SomeNextTaskAlreadyDoneAtTheFirstElement` (factory_assembly_line.py:125). -/
def someNext (m : Nat) : List Char := joined txt!" | " ((List.range m).map fun j => pName 0 j ++ txt!"'")
/-- `LinesFirstElementsUpdated` (factory_assembly_line.py:126). -/
def firstLines (m : Nat) : List (List Char) := (List.range m).map fun j =>
  txt!"movingcounter'!=0 -> (" ++ (pName 0 j ++ (txt!"' <-> " ++ (pName 0 j ++ (txt!" & (movingcounter'!=0) | arm1=0 & arm1op=" ++ (strNat j ++
    (txt!" | arm2=0 & arm2op=" ++ (strNat j ++ txt!")")))))))
/-- `LinesNonFirstElementsUpdated` (factory_assembly_line.py:127); the places `1..n-1` are written `i + 1`. -/
def otherLines (n m : Nat) : List (List Char) := (List.range (n - 1)).flatMap fun i => (List.range m).map fun j =>
  pName (i + 1) j ++ (txt!"' <-> (" ++ (pName (i + 1) j ++ (txt!" & (movingcounter'!=0) | arm1=" ++ (strNat (i + 1) ++ (txt!" & arm1op=" ++ (strNat j ++
    (txt!" | arm2=" ++ (strNat (i + 1) ++ (txt!" & arm2op=" ++ (strNat j ++ (txt!" | (" ++ (pName i j ++ txt!" & movingcounter'=0))"))))))))))))
/-- `SafetyGuarantees` (factory_assembly_line.py:128). -/
def safeLines (n m : Nat) : List (List Char) := (List.range m).map fun j => txt!"!(!" ++ (pName (n - 1) j ++ txt!" & movingcounter'=0)")

/-- `text` in `makeBenchmarkFile` (factory_assembly_line.py:70-130): the contents of the structured specification file for a configuration `(n, m, k, most)`.  Not modelled
are the name of the file and the calls of other programs afterwards.  Simplified: places are natural numbers, so the index `n - 1` in `safeLines` is right for `n ≥ 1` only. -/
def benchmark (n m k most : Nat) : List Char :=
  txt!"[INPUT]\nmovingcounter:0..." ++ (strInt ((k : Int) - 1) ++ (txt!"\n" ++ (joined txt!"\n" (positions n m) ++ (txt!"\nerrorCount:0..." ++ (strNat most ++
    (txt!"\n\n[OUTPUT]\narm1:0..." ++ (strInt ((n : Int) - 1) ++ (txt!"\narm2:0..." ++ (strInt ((n : Int) - 1) ++ (txt!"\narm1op:0..." ++ (strInt ((m : Int) - 1) ++
    (txt!"\narm2op:0..." ++ (strInt ((m : Int) - 1) ++ (txt!"\n\n[ENV_TRANS]\nmovingcounter'=0 -> ((" ++ (someNext m ++
    (txt!") | errorCount' > errorCount)\nerrorCount' >= errorCount\n\n\n" ++ (joined txt!"\n" (firstLines m) ++ (txt!"\n\n" ++ (joined txt!"\n" (otherLines n m) ++
    (txt!"\n\n# The moving counter counts module\n(movingcounter<" ++ (strInt ((k : Int) - 1) ++ (txt!") -> (movingcounter' = movingcounter+1)\n(movingcounter=" ++
    (strInt ((k : Int) - 1) ++ (txt!") -> (movingcounter' = 0)\n\n[SYS_TRANS]\narm1' < arm2'\narm1' <= arm1+1\narm1 <= arm1'+1\narm2' <= arm2+1\narm2 <= arm2'+1\n\n# Everything must be done one step *before* the items are moved away.\n" ++
    (joined txt!"\n" (safeLines n m) ++ (txt!"\n\n[ENV_INIT]\nmovingcounter = 0\n" ++ (joined txt!"\n" (positions n m) ++
    txt!"\n\n[SYS_INIT]\narm1 = 0\narm2 = 2\narm1op = 0\narm2op = 0\n")))))))))))))))))))))))))))

end Slugs.Model.Factory
