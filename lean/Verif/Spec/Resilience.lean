import Verif.Spec.SpecFile

/-!
Resilience against violations of safety assumptions.  Some of the safety assumptions of a specification are marked as limits of variables; they are never violated.
-/

namespace Slugs.Spec

/-- Like `Content`, but for every item it is also told whether a comment that starts with `## Variable limits` has been seen since the item before it. -/
inductive MarkedContent : Option Section → Bool → List (List Char) → List (Bool × Section × List Char) → Prop
  | nil {cur m} : MarkedContent cur m [] []
  | blank {cur m l ls items} : trim l = [] → MarkedContent cur m ls items → MarkedContent cur m (l :: ls) items
  | limits {cur m l ls items} : txt!"## Variable limits" <+: trim l → MarkedContent cur true ls items → MarkedContent cur m (l :: ls) items
  | comment {cur m l ls items} : (trim l).head? = some '#' → ¬ txt!"## Variable limits" <+: trim l → MarkedContent cur m ls items → MarkedContent cur m (l :: ls) items
  | header {cur m l ls items} (s : Section) : trim l = s.header → MarkedContent (some s) m ls items → MarkedContent cur m (l :: ls) items
  | item {s m l ls items} : trim l ≠ [] → (trim l).head? ≠ some '#' → (trim l).head? ≠ some '[' →
      MarkedContent (some s) false ls items → MarkedContent (some s) m (l :: ls) ((m, s, trim l) :: items)

/-- The safety assumptions that are marked (or not), in order. -/
def markedAssumptions (m : Bool) (items : List (Bool × Section × List Char)) : List (List Char) :=
  (items.filter fun p => p.1 = m ∧ p.2.1 = .envTrans).map fun p => p.2.2

/-- The safety assumptions of the file are the limits `hard` and the others, `soft`. -/
def Assumes (text : List Char) (hard soft : List Fml) : Prop :=
  ∃ items, MarkedContent none false (splitLines text) items ∧
    List.Forall₂ ReadsLine (markedAssumptions true items) hard ∧ List.Forall₂ ReadsLine (markedAssumptions false items) soft

/-- Those assumptions for which the entry of the list `v` satisfies `f`. -/
def pick {β : Type} (f : β → Bool) (v : List β) (soft : List Fml) : List Fml := ((soft.zip v).filter fun p => f p.2).map Prod.fst

/-- In the transition from `p` to the input `i`, the assumption is violated. -/
def SpecFile.violates (sp : SpecFile) (p : Pos sp.In sp.Out) (i : sp.In) (φ : Fml) : Bool := φ.eval (sp.look p (i, fun _ => false)) [] ≠ some true

/-- The environment may violate, in every round, those assumptions at which `v` is true.  A round in which this happens counts as one in which all goals are reached;
hence the goals must be reached infinitely often if there are finitely many violations. -/
def SpecFile.tolerant (sp : SpecFile) (hard soft : List Fml) (v : List Bool) : Game sp.In sp.Out :=
  { sp.game with
    safetyEnv := fun p i => ∀ φ ∈ hard ++ pick (! ·) v soft, sp.violates p i φ = false
    guarantees := sp.game.guarantees.map fun b p q => b p q ∨ ∃ φ ∈ pick id v soft, sp.violates p q.1 φ = true }

/-- The system also has a counter of violations, which starts with 0, and which it can decrease at any time.  There are three kinds of assumptions: those at which `v` is 0
are not violated.  Those at which `v` is 1 can be violated; all of these violations are counted, and the environment must not make more violations than what is left
of `k`.  Those at which `v` is 2 can always be violated.  While the counter is not 0, the liveness assumptions need not hold.  If there are finitely many violations,
then the goals must be reached infinitely often, and the counter must be 0 infinitely often. -/
def SpecFile.resilient (sp : SpecFile) (hard soft : List Fml) (v : List Nat) (k : Nat) : Game sp.In (sp.Out × Nat) where
  initEnv := sp.game.initEnv
  initSys p := sp.game.initSys (p.1, p.2.1) ∧ p.2.2 = 0
  safetyEnv p i := (∀ φ ∈ hard ++ pick (· == 0) v soft, sp.violates (p.1, p.2.1) i φ = false) ∧
    p.2.2 + (pick (· == 1) v soft).countP (sp.violates (p.1, p.2.1) i) ≤ k
  safetySys p q := sp.game.safetySys (p.1, p.2.1) (q.1, q.2.1) ∧ q.2.2 ≤ p.2.2 + (pick (· == 1) v soft).countP (sp.violates (p.1, p.2.1) q.1)
  assumptions := sp.game.assumptions.map fun a p q => p.2.2 ≠ 0 ∨ a (p.1, p.2.1) (q.1, q.2.1)
  guarantees :=
    (sp.game.guarantees.map (fun (b : Pos sp.In sp.Out → Pos sp.In sp.Out → Prop) (p q : Pos sp.In (sp.Out × Nat)) => b (p.1, p.2.1) (q.1, q.2.1)) ++
      [fun (_ q : Pos sp.In (sp.Out × Nat)) => q.2.2 = 0]).map
    fun (b : Pos sp.In (sp.Out × Nat) → Pos sp.In (sp.Out × Nat) → Prop) p q => b p q ∨ ∃ φ ∈ pick (0 < ·) v soft, sp.violates (p.1, p.2.1) q.1 φ = true

/-- The levels `x.1` of the assumptions and the number `x.2` are achievable.  The number is only greater than 1 if the assumptions with a level greater than 0 cannot be violated
any number of times (otherwise the number would not matter). -/
def SpecFile.achieves (sp : SpecFile) (hard soft : List Fml) (x : List Nat × Nat) : Prop :=
  x.1.length = soft.length ∧ (∀ a ∈ x.1, a ≤ 2) ∧ 1 ≤ x.2 ∧ (x.2 = 1 ∨ ¬ (sp.tolerant hard soft (x.1.map fun a => decide (0 < a))).Realizable) ∧
    (sp.resilient hard soft x.1 x.2).Realizable

/-- How levels and a number are printed. -/
def levelText (x : List Nat × Nat) : List Char :=
  txt!"-" ++ (x.1.map fun a => txt!" " ++ (if a = 0 then txt!"none," else if a = 1 then txt!"some," else txt!"any, ")).flatten ++ txt!" k=" ++ decimal x.2 ++ txt!"\n"

end Slugs.Spec
