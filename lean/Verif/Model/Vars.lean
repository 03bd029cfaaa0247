import Verif.Model.Mgr
import Verif.Model.BDD

/-!
Model of `variableTypes.hpp`, `variableManager.hpp` and `variableManager.cpp`.
-/

namespace Slugs.Model

/-- Variable names. -/
abbrev Name := List Char

/-- `VariableType`, `variableTypes.hpp:60-92` (`NoneVariableType` is modelled by `none : Option VarType`). -/
inductive VarType where
  | pre | post
  | preInput | preOutput | postInput | postOutput
  | preOutputFast | preOutputSlow | postOutputFast | postOutputSlow
  | preOutputBefore | preOutputAfter | postOutputBefore | postOutputAfter
  | observablePre | observablePost | controllablePre | controllablePost
  | unobservablePre | unobservablePost | estimationPre | estimationPost
  | preMotionState | postMotionState | preOtherOutput | postOtherOutput
  | preMotionControlOutput | postMotionControlOutput
  | symbolicStrategyCounterVar
  | currentLivenessAssumptionCounterPre | currentLivenessAssumptionCounterPost | isInftyCostPre
  | isInftyCostPost | transitiveClosureIntermediateVariables
  deriving DecidableEq, Repr

/-- The registered hierarchy, `variableTypes.hpp:133-174`. -/
def VarType.parent : VarType → Option VarType
  | .pre => none
  | .post => none
  | .preInput => some .pre
  | .postInput => some .post
  | .preOutput => some .pre
  | .postOutput => some .post
  | .preOutputFast => some .preOutput
  | .preOutputSlow => some .preOutput
  | .postOutputFast => some .postOutput
  | .postOutputSlow => some .postOutput
  | .preOutputBefore => some .preOutput
  | .preOutputAfter => some .preOutput
  | .postOutputBefore => some .postOutput
  | .postOutputAfter => some .postOutput
  | .observablePre => some .preInput
  | .observablePost => some .postInput
  | .unobservablePre => some .preInput
  | .unobservablePost => some .postInput
  | .estimationPre => some .preOutput
  | .estimationPost => some .postOutput
  | .controllablePre => some .observablePre
  | .controllablePost => some .observablePost
  | .preMotionState => some .preOutput
  | .postMotionState => some .postOutput
  | .preOtherOutput => some .preOutput
  | .postOtherOutput => some .postOutput
  | .preMotionControlOutput => some .preOutput
  | .postMotionControlOutput => some .postOutput
  | .symbolicStrategyCounterVar => none
  | .currentLivenessAssumptionCounterPre => some .preOutput
  | .isInftyCostPre => some .preOutput
  | .currentLivenessAssumptionCounterPost => some .postOutput
  | .isInftyCostPost => some .postOutput
  | .transitiveClosureIntermediateVariables => none

/-- The loop `while (type!=NoneVariableType)` of `variableManager.cpp:138-143`; the first argument bounds the number of
rounds (`closure_complete` shows that four always suffice). -/
def VarType.closureAux : Nat → VarType → List VarType
  | 0, _ => []
  | n + 1, t => t :: (match t.parent with | none => [] | some p => VarType.closureAux n p)

/-- `variableTypesAll[i]` for a variable of the given type. -/
def VarType.closure (t : VarType) : List VarType := VarType.closureAux 4 t

theorem VarType.closure_complete (t : VarType) (n : Nat) : VarType.closureAux (n + 4) t = t.closure := by
  cases t <;> rfl

/-- The variable table: `variableNames` and `variableTypes`, `variableManager.hpp:57-58`.  `variables[i]` is the BDD variable
number `i`, since `addVariable` allocates one BDD variable per entry. -/
structure VarTable where
  names : List Name
  types : List VarType
  deriving DecidableEq

/-- `SlugsVariableManager::addVariable`, `variableManager.cpp:117-123`. -/
def VarTable.add (t : VarTable) (type : VarType) (name : Name) : VarTable :=
  { names := t.names ++ [name], types := t.types ++ [type] }

/-- Numbers of the variables that inherit the type, in increasing order; the inner loops of
`variableManager.cpp:151-155,173-177,187-191`. -/
def varsOfType (types : List VarType) (ty : VarType) : List Nat :=
  (List.range types.length).filter (fun i => match types[i]? with | some t => t.closure.contains ty | none => false)

/-- The variables of a vector (`variableManager.cpp:148-157,170-179`) or a cube (`variableManager.cpp:182-192`) given by a list of types.
(For cubes the types are visited in the order of a `std::set`; the order does not matter for a cube.) -/
def varsOfTypes (types : List VarType) (tys : List VarType) : List Nat := tys.flatMap (varsOfType types)

/-- The BF operations with the vectors and cubes of `gr1context.hpp:32-39` as computed by
`computeVariableInformation` (`variableManager.cpp:130-205`). -/
def bddMgr (B : Type) [DecidableEq B] [L : BddLib B] (types : List VarType) : Mgr B where
  tt := L.tt
  ff := L.ff
  and := L.and
  or := L.or
  not := L.not
  swap := L.swap (varsOfTypes types [.preInput, .preOutput]) (varsOfTypes types [.postInput, .postOutput])
  exPostOutput := L.exist (varsOfTypes types [.postOutput])
  exPostInput := L.exist (varsOfTypes types [.postInput])
  exPost := L.exist (varsOfTypes types [.postOutput, .postInput])
  exPre := L.exist (varsOfTypes types [.preOutput, .preInput])
  exPreOutput := L.exist (varsOfTypes types [.preOutput])
  exPreInput := L.exist (varsOfTypes types [.preInput])
  allPostInput := L.univ (varsOfTypes types [.postInput])
  allPostOutput := L.univ (varsOfTypes types [.postOutput])
  allPreInput := L.univ (varsOfTypes types [.preInput])
  allPreOutput := L.univ (varsOfTypes types [.preOutput])

end Slugs.Model
