import Verif.Spec.Explicit

/-!
What a cost file for `--twoDimensionalCost` denotes (the messages in `/repo/src/extensionTwoDimensionalCost.hpp` are its only documentation): the first line gives the weight of
the waiting costs, the weight of the action costs, and `<` or `>`; every further line gives a cost and the transitions that have this cost.
-/

namespace Slugs.Spec

variable {D : Type}

/-- One line after the first one.  `read` reads a number and gives the rest of the text. -/
inductive CostLine (read : List Char → Option (D × List Char)) : List Char → Option (D × Fml) → Prop
  | empty : CostLine read [] none
  | comment {cs} : CostLine read ('#' :: cs) none
  /-- the cost, a space, and a formula -/
  | cost {num fml v rest φ} : ' ' ∉ num → (num ++ ' ' :: fml).head? ≠ some '#' → read num = some (v, rest) → ReadsLine fml φ →
      CostLine read (num ++ ' ' :: fml) (some (v, φ))
  /-- a line without a space is both the cost and the formula -/
  | both {line v rest φ} : line ≠ [] → ' ' ∉ line → line.head? ≠ some '#' → read line = some (v, rest) → ReadsLine line φ → CostLine read line (some (v, φ))

/-- The first line. -/
inductive FirstLine (read : List Char → Option (D × List Char)) : List Char → D → D → Bool → Prop
  | mk {line w r1 a r2 r3 c} : read line = some (w, r1) → read r1 = some (a, r2) → r2.dropWhile isSpace = c :: r3 → c = '<' ∨ c = '>' →
      FirstLine read line w a (c == '<')

/-- The text of a cost file, with the two weights, the preference, and the costs of transitions. -/
def CostText (read : List Char → Option (D × List Char)) (text : List Char) (waiting action : D) (waitingFirst : Bool) (entries : List (D × Fml)) : Prop :=
  FirstLine read ((splitLines text).headD []) waiting action waitingFirst ∧
  ∃ os, List.Forall₂ (CostLine read) (splitLines text).tail os ∧ entries = os.filterMap id

/-- There is a transition with two different costs. -/
def SpecFile.Overlap (sp : SpecFile) (entries : List (D × Fml)) : Prop :=
  ∃ e ∈ entries, ∃ e' ∈ entries, e.1 ≠ e'.1 ∧ ∃ p q, sp.holds p q e.2 ∧ sp.holds p q e'.2

/-- The number of the goal after a step: it stays if the goal was not reached, and otherwise moves on past goals that were all reached by this step. -/
def NextGoal {I O : Type} (goals : List (Pos I O → Pos I O → Prop)) (s t : Pos I O) (j j' : Nat) : Prop :=
  ∀ hj : j < goals.length, (¬ goals[j] s t → j' = j) ∧
    (goals[j] s t → ∃ k, 1 ≤ k ∧ k ≤ goals.length ∧ j' = (j + k) % goals.length ∧
      ∀ (l : Nat) (hl : (j + l) % goals.length < goals.length), l < k → goals[(j + l) % goals.length] s t)

/-- The states that are printed for a cost-optimal strategy. -/
structure CostPrinted (sp : SpecFile) (perm recovery : Bool) (sts : List PState) : Prop where
  numbers : sts.map PState.num = List.range sts.length
  labels : ∀ st ∈ sts, ∃ l extra, st.label = l ++ extra ∧ (l.map Prod.fst).Perm (sp.inputs ++ sp.outputs)
  targets : ∀ st ∈ sts, ∀ n ∈ st.succ, n < sts.length
  once : ∀ st ∈ sts, st.succ.Nodup
  rank : ∀ st ∈ sts, st.rank < max 1 sp.game.guarantees.length
  det : perm = false → Deterministic sp sts
  strict : recovery = false → ∀ st st', Edge sts st st' → sp.game.safetyEnv (st.pos sp) (st'.pos sp).1
  safe : ∀ st st', Edge sts st st' → sp.game.safetyEnv (st.pos sp) (st'.pos sp).1 →
    sp.game.safetySys (st.pos sp) (st'.pos sp) ∧ sp.game.SysWins (st'.pos sp) ∧
    (sp.game.guarantees ≠ [] → NextGoal sp.game.guarantees (st.pos sp) (st'.pos sp) st.rank st'.rank)
  reach : ∀ st ∈ sts, (st.rank = 0 ∧ sp.game.SysWins (st.pos sp) ∧
      (perm = true ∨ (sp.game.initSys (st.pos sp) ∧ (recovery = true ∨ sp.game.initEnv (st.pos sp).1)))) ∨
    ∃ st', Edge sts st' st ∧ st'.num < st.num

end Slugs.Spec
