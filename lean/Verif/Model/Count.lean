import Verif.Model.BDD

/-!
Model of `BFBdd::getNofSatisfyingAssignments` (`BFAbstractionLibrary/BFCudd.cpp`), which works on the nodes of CUDD.
-/

namespace Slugs.Model

/-- A `DdNode*`: an address and the complement bit (the least significant bit of the pointer). -/
structure Ref where
  neg : Bool
  addr : Nat
  deriving DecidableEq, Repr

/-- A node that is not constant: `index`, `cuddT`, `cuddE` (CUDD). -/
structure DdNode where
  index : Nat
  t : Ref
  e : Ref
  deriving DecidableEq, Repr

/-- The nodes of a `DdManager`.  Address 0 is the constant node `dd->one`, address `k+1` is `nodes[k]`; nodes are numbered in
the order of creation, so that the children of a node come first.  `level` is `cuddI(dd,_)`, the position of a variable in the
current variable order. -/
structure Dd where
  nodes : List DdNode
  level : Nat → Nat

/-- The Boolean function of a node, `fuel` being a bound on the depth. -/
def Dd.evalN (dd : Dd) : Nat → Ref → Asg → Bool
  | _, ⟨neg, 0⟩, _ => !neg
  | 0, ⟨_, _ + 1⟩, _ => false
  | n + 1, ⟨neg, k + 1⟩, a =>
    match dd.nodes[k]? with
    | none => false
    | some nd => (if a nd.index then dd.evalN n nd.t a else dd.evalN n nd.e a) != neg

/-- The Boolean function of a node. -/
def Dd.eval (dd : Dd) (r : Ref) : Asg → Bool := dd.evalN r.addr r

/-- What CUDD maintains: children come before their parents, variables are ordered along paths, no node has two equal children, the
then-child is not complemented, no node occurs twice, and the level of a variable determines the variable. -/
structure Dd.Ok (dd : Dd) : Prop where
  level_inj : ∀ i j, dd.level i = dd.level j → i = j
  t_lt : ∀ (k : Nat) (nd : DdNode), dd.nodes[k]? = some nd → nd.t.addr ≤ k
  e_lt : ∀ (k : Nat) (nd : DdNode), dd.nodes[k]? = some nd → nd.e.addr ≤ k
  t_order : ∀ (k : Nat) (nd : DdNode) (m : Nat) (nd' : DdNode), dd.nodes[k]? = some nd → nd.t.addr = m + 1 → dd.nodes[m]? = some nd' → dd.level nd.index < dd.level nd'.index
  e_order : ∀ (k : Nat) (nd : DdNode) (m : Nat) (nd' : DdNode), dd.nodes[k]? = some nd → nd.e.addr = m + 1 → dd.nodes[m]? = some nd' → dd.level nd.index < dd.level nd'.index
  t_regular : ∀ (k : Nat) (nd : DdNode), dd.nodes[k]? = some nd → nd.t.neg = false
  reduced : ∀ (k : Nat) (nd : DdNode), dd.nodes[k]? = some nd → nd.t ≠ nd.e
  unique : ∀ (k k' : Nat) (nd : DdNode), dd.nodes[k]? = some nd → dd.nodes[k']? = some nd → k = k'

/-- The pointer refers to a node. -/
def Dd.Valid (dd : Dd) (r : Ref) : Prop := r.addr ≤ dd.nodes.length

/-- `std::map<DdNode*,double>`.  Values are natural numbers, `none` is NaN.  (Rounding of large `double`s is not modelled.) -/
abbrev CountBuffer := List (Ref × Option Nat)

/-- Outcomes of the recursion. -/
inductive CountRes where
  | val (c : Option Nat) (buffer : CountBuffer)
  /-- `throw "Wua"`, `BFCudd.cpp:25` -/
  | wua
  /-- a pointer that does not refer to a node is followed -/
  | dangling
  /-- the recursion is deeper than the given bound -/
  | deeper
  deriving DecidableEq, Repr

/-- `2*value` -/
def twice : CountRes → CountRes
  | .val c b => .val (c.map (2 * ·)) b
  | r => r

/-- The sum of two values; NaN plus anything is NaN. -/
def plus (c c' : Option Nat) : Option Nat := match c, c' with | some m, some n => some (m + n) | _, _ => none

/-- Toggling the complement bit, `(size_t)p ^ xoring`. -/
def Ref.xor (r : Ref) (b : Bool) : Ref := { r with neg := r.neg != b }

/-- `recurse_getNofSatisfyingAssignments`, `BFCudd.cpp:17-61`.  The first argument bounds the depth of the recursion.  (For a constant cube,
`cubeNext` is read but not used.)  The operands of `+` in line 57 are evaluated from left to right. -/
def countRec (dd : Dd) : Nat → Ref → Ref → CountBuffer → CountRes
  | 0, _, _, _ => .deeper
  | n + 1, orig, cube, buffer =>
    if cube.neg then .wua
    else match orig.addr with
    | 0 => match cube.addr with
      | 0 => .val (some (if orig = ⟨false, 0⟩ then 1 else 0)) buffer
      | k + 1 => match dd.nodes[k]? with
        | none => .dangling
        | some c => twice (countRec dd n orig c.t buffer)
    | m + 1 => match dd.nodes[m]? with
      | none => .dangling
      | some nd => match cube.addr with
        | 0 => .val none buffer
        | k + 1 => match dd.nodes[k]? with
          | none => .dangling
          | some c =>
            let i1 := dd.level c.index
            let i2 := dd.level nd.index
            if i1 < i2 then twice (countRec dd n orig c.t buffer)
            else if i1 > i2 then .val none buffer
            else match buffer.lookup orig with
              | some v => .val v buffer
              | none =>
                match countRec dd n (nd.t.xor orig.neg) c.t buffer with
                | .val v1 buffer1 =>
                  match countRec dd n (nd.e.xor orig.neg) c.t buffer1 with
                  | .val v2 buffer2 => .val (plus v1 v2) ((orig, plus v1 v2) :: buffer2)
                  | r => r
                | r => r

/-- `BFBdd::getNofSatisfyingAssignments`, `BFCudd.cpp:69-76`. -/
def getNofSatisfyingAssignments (dd : Dd) (depth : Nat) (node cube : Ref) : CountRes := countRec dd depth node cube []

end Slugs.Model
