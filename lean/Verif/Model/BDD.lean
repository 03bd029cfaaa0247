/-!
The contract under which the BDD library (CUDD behind `BFAbstractionLibrary`) is modelled.
-/

namespace Slugs.Model

/-- Assignments of the BDD variables. -/
abbrev Asg := Nat → Bool

/-- Two assignments agree outside of a set of variables. -/
def AgreeOff (vs : List Nat) (v w : Asg) : Prop := ∀ k, k ∉ vs → v k = w k

/-- The permutation array built by `Cudd_bddSwapVariables(x,y,n)`: starting from the identity, for each `i` the entries
of `x[i]` and `y[i]` are set to the respective other variable (later writes win). -/
def swapPerm : List Nat → List Nat → (Nat → Nat) → Nat → Nat
  | x :: xs, y :: ys, p => swapPerm xs ys (fun k => if k = y then x else if k = x then y else p k)
  | _, _, p => p

/-- The contract.  `eval_inj` is canonicity: `BFBdd::operator==` compares pointers (`BFCudd.h:96-98`), and equal
functions have equal pointers.  The operations model `BFCudd.h:80-202`, `BFCuddInlines.h:16-59`; `var k` is the `k`-th
variable allocated with `newVariable` (`BFCuddInlines.h:24-26`).  Not modelled: running out of memory, reference
counting and reordering (which do not change the represented functions). -/
class BddLib (B : Type) [DecidableEq B] where
  eval : B → Asg → Bool
  tt : B
  ff : B
  var : Nat → B
  and : B → B → B
  or : B → B → B
  xor : B → B → B
  not : B → B
  exist : List Nat → B → B
  univ : List Nat → B → B
  swap : List Nat → List Nat → B → B
  eval_inj : ∀ a b, (∀ v, eval a v = eval b v) → a = b
  eval_tt : ∀ v, eval tt v = true
  eval_ff : ∀ v, eval ff v = false
  eval_var : ∀ k v, eval (var k) v = v k
  eval_and : ∀ a b v, eval (and a b) v = (eval a v && eval b v)
  eval_or : ∀ a b v, eval (or a b) v = (eval a v || eval b v)
  eval_xor : ∀ a b v, eval (xor a b) v = (eval a v != eval b v)
  eval_not : ∀ a v, eval (not a) v = !eval a v
  eval_exist : ∀ vs a v, eval (exist vs a) v = true ↔ ∃ w, AgreeOff vs v w ∧ eval a w = true
  eval_univ : ∀ vs a v, eval (univ vs a) v = true ↔ ∀ w, AgreeOff vs v w → eval a w = true
  eval_swap : ∀ xs ys a v, eval (swap xs ys a) v = eval a (fun k => v (swapPerm xs ys id k))

end Slugs.Model
