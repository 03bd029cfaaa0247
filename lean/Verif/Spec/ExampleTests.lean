import Verif.Spec.StructuredFile

/-! What the script that tests the examples is about (C88). -/

namespace Slugs.Spec.ExampleTests

open Slugs.Spec Slugs.Spec.Structured

/-- An example file: whether its name ends with `.structuredslugs`, and its text. -/
structure Example where
  structured : Bool
  text : List Char
  deriving DecidableEq

/-- The specification in the file is realizable. -/
def Example.IsRealizable (e : Example) : Prop :=
  if e.structured then ∃ S, SDenotes e.text S ∧ S.game.Realizable else ∃ sp, Denotes e.text sp ∧ sp.game.Realizable

/-- A test: an example and the expected result. -/
structure Test where
  expected : Bool
  file : Example
  deriving DecidableEq

/-- The example has the expected result. -/
def Test.Right (t : Test) : Prop := t.expected = true ↔ t.file.IsRealizable

end Slugs.Spec.ExampleTests
