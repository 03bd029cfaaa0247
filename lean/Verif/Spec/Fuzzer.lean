import Verif.Spec.Formula

/-!
The formulas of which the fuzzer for safety specifications makes its specifications.
-/

namespace Slugs.Spec

mutual

/-- The formulas: variables from the list, `TRUE`, negation, conjunction and disjunction; buffers with one to five elements, where only the first one can contain a buffer
again, and elements of the innermost buffer.  `n` is the number of elements stored so far in the innermost buffer. -/
def Fml.Random (names : List Word) : Nat → Fml → Prop
  | _, .const b => b = true
  | _, .var x => x ∈ names
  | n, .not f => f.Random names n
  | n, .bin op f g => (op = .and ∨ op = .or) ∧ f.Random names n ∧ g.Random names n
  | n, .buffer fs => n = 0 ∧ 1 ≤ fs.length ∧ fs.length ≤ 5 ∧ Fml.RandomBuffer names 0 fs
  | n, .recall i => i < n

def Fml.RandomBuffer (names : List Word) : Nat → List Fml → Prop
  | _, [] => True
  | n, f :: fs => f.Random names n ∧ Fml.RandomBuffer names (n + 1) fs

end

end Slugs.Spec
