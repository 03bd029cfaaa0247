import Verif.Spec.Explicit
import Verif.Spec.StructuredFile

/-!
Explicit strategies for structured specifications: the states have values for the Boolean and integer variables; there are no bits here.
-/

namespace Slugs.Spec.Structured

/-- One state of an explicit strategy for a structured specification. -/
structure IState (S : SSpec) where
  num : Nat
  rank : Nat
  pos : Pos S.In S.Out
  succ : List Nat

/-- `st'` is a listed successor of `st`. -/
def IEdge {S : SSpec} (sts : List (IState S)) (st st' : IState S) : Prop := st ∈ sts ∧ st' ∈ sts ∧ st'.num ∈ st.succ

/-- The states are an implementation of the specification: they are numbered in this order and different, and every successor is one of them; there is an initial state for
every allowed initial input (in the robotics semantics: for every allowed initial position); in every state there is exactly one successor for every allowed next
input; every step obeys the safety guarantees; every infinite run that satisfies the liveness assumptions satisfies the liveness guarantees. -/
structure Implements (S : SSpec) (robotics : Bool) (sts : List (IState S)) : Prop where
  numbers : sts.map IState.num = List.range sts.length
  distinct : (sts.map fun st => (st.pos, st.rank)).Nodup
  targets : ∀ st ∈ sts, ∀ n ∈ st.succ, n < sts.length
  start : robotics = false → ∀ i, S.game.initEnv i → ∃ st ∈ sts, st.rank = 0 ∧ st.pos.1 = i ∧ S.game.initSys st.pos
  startRobotics : robotics = true → ∀ p, S.game.initEnv p.1 → S.game.initSys p → ∃ st ∈ sts, st.rank = 0 ∧ st.pos = p
  total : ∀ st ∈ sts, ∀ i, S.game.safetyEnv st.pos i → ∃ st', (IEdge sts st st' ∧ st'.pos.1 = i) ∧ ∀ st'', IEdge sts st st'' ∧ st''.pos.1 = i → st'' = st'
  strict : ∀ st st', IEdge sts st st' → S.game.safetyEnv st.pos st'.pos.1
  safe : ∀ st st', IEdge sts st st' → S.game.safetySys st.pos st'.pos
  live : ∀ r : Nat → IState S, (∀ n, IEdge sts (r n) (r (n + 1))) → S.game.Live fun n => (r n).pos

/-! ### Texts -/

/-- The variables that appear in the text: those with more than one value. -/
def Decl.visible (d : Decl) : Bool :=
  match d.range with
  | none => true
  | some (lo, hi) => decide (lo < hi)

/-- An integer in decimal notation. -/
def intText (z : Int) : List Char := if z < 0 then '-' :: decimal (-z).toNat else decimal z.toNat

/-- The value of a variable: `x:0` or `x:1` for a Boolean variable, `x=5` for an integer variable. -/
def valueText (d : Decl) (v : Int) : List Char :=
  match d.range with
  | none => d.name ++ txt!":" ++ (if v = 1 then txt!"1" else txt!"0")
  | some _ => d.name ++ txt!"=" ++ intText v

/-- The text of a state, with the variables in the given order. -/
def IState.text {S : SSpec} (vars : List Decl) (st : IState S) : List Char :=
  txt!"State " ++ decimal st.num ++ txt!" with rank " ++ decimal st.rank ++ txt!" -> <" ++
    (txt!", ").intercalate (vars.map fun d => valueText d (S.now st.pos d.name)) ++ txt!">\n\tWith successors : " ++
    (txt!", ").intercalate (st.succ.map decimal) ++ txt!"\n"

end Slugs.Spec.Structured
