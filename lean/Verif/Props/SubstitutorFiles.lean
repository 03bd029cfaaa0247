import Verif.Lemmas.SubstitutorWhole
import Verif.Props.StructuredFiles
import Verif.Props.Substitutor

/-!
# C81: replacing integer variables in files

The main use of the tool: integer variables are replaced by others with shifted values, because the compiler cannot handle negative lower bounds.  `Spec/Substitution.lean`
says which files there are.  `substFile` is the model of `integerVariableSubstitutor.py`, `convert` the one of the compiler, and `runSlugs` the one of slugs.
-/

namespace Slugs.Props

open Slugs.Spec Slugs.Spec.Structured Slugs.Model Slugs.Model.Structured Slugs.Model.Substitutor

variable {B : Type} [DecidableEq B] [L : BddLib B]

/-- **C81.** Whatever the tool prints is a proper structured specification.  It declares the shifted variables, in the same order, and it is realizable exactly
when the given one is, in the standard semantics and in the robotics semantics. -/
theorem C81_file {rs : List Shift} {S : SSpec} {text replacements out : List Char} (hS : SourceDenotes rs text S) (hs : Shifts rs S)
    (hr : ShiftFile replacements rs) (h : substFile text replacements = .ok out) :
    ∃ S', SDenotes out S' ∧ S'.inputs = S.inputs.map (Decl.shift rs) ∧ S'.outputs = S.outputs.map (Decl.shift rs) ∧
      (S'.game.Realizable ↔ S.game.Realizable) ∧ (S'.game.RoboticsRealizable ↔ S.game.RoboticsRealizable) := by
  obtain ⟨S', h1, h2, h3, f, g, he⟩ := subst_denotes hS hs hr h
  exact ⟨S', h1, h2, h3, he.realizable, he.robotics⟩

/-- **C81.** With what the tool prints, the compiler and slugs give the verdict for the game of the given specification. -/
theorem C81_verdict (thorough : Bool) {rs : List Shift} {S : SSpec} {text replacements out : List Char} (hS : SourceDenotes rs text S) (hs : Shifts rs S)
    (hr : ShiftFile replacements rs) (h : substFile text replacements = .ok out) :
    ∃ compiled, convert thorough out = .ok compiled ∧
      ∀ (alg : Algorithm) (cap : Nat) (order : List Char → Bool), (∀ l ∈ splitLines compiled, l.length ≤ cap) → cap < 2 ^ 32 → ∃ rounds, ∀ fuel, rounds ≤ fuel →
        (S.game.Realizable → runSlugs B alg false cap order fuel compiled = .result true) ∧
        (¬ S.game.Realizable → runSlugs B alg false cap order fuel compiled = .result false) ∧
        (S.game.RoboticsRealizable → runSlugs B alg true cap order fuel compiled = .result true) ∧
        (¬ S.game.RoboticsRealizable → runSlugs B alg true cap order fuel compiled = .result false) := by
  obtain ⟨S', h1, _, _, e1, e2⟩ := C81_file hS hs hr h
  obtain ⟨compiled, h2, h3⟩ := C59_structured_verdict (B := B) thorough h1
  refine ⟨compiled, h2, fun alg cap order hl h32 => ?_⟩
  obtain ⟨rounds, h4⟩ := h3 alg cap order hl h32
  refine ⟨rounds, fun fuel hf => ?_⟩
  rw [← e1, ← e2]
  exact h4 fuel hf

/-! ### A concrete file -/

/-- `x` has negative values. -/
def negativeText : List Char := txt!"[INPUT]\na\n\n[OUTPUT]\n# a height\nx:-2...5\n\n[SYS_TRANS]\na -> x' > x + 1\n"

def negative : SSpec where
  inputs := [⟨txt!"a", none⟩]
  outputs := [⟨txt!"x", some (-2, 5)⟩]
  envInit := []
  sysInit := []
  envTrans := []
  sysTrans := [.infix shiftFml]
  envLiveness := []
  sysLiveness := []

/-- It is replaced by `y`, with values that are greater by 2. -/
def heightShift : Shift := ⟨txt!"x:-2...5", txt!"y:0...7", txt!"x", txt!"y", txt!"2"⟩

def heightText : List Char := txt!"# heights\nx:-2...5,y:0...7\nx,y,2\nx',y',2\n"

def negativeOut : List Char := txt!"[INPUT]\na\n\n[OUTPUT]\n# a height\ny:0...7\n\n[SYS_TRANS]\n((a) -> (((y')+(2))>((((y)+(1)))+(2))))\n\n"

theorem negative_printed : substFile negativeText heightText = .ok negativeOut := by decide +kernel

theorem negative_bools : negative.bools = [txt!"a", txt!"a'"] := by decide

theorem negative_denotes : SourceDenotes [heightShift] negativeText negative where
  content := by
    refine ⟨[(.input, txt!"a"), (.output, txt!"x:-2...5"), (.sysTrans, txt!"a -> x' > x + 1")], ?_, ?_, ?_, .nil, .nil, .nil, ?_, .nil, .nil⟩
    · have e : splitLines (universal negativeText) = [txt!"[INPUT]", txt!"a", [], txt!"[OUTPUT]", txt!"# a height", txt!"x:-2...5", [], txt!"[SYS_TRANS]",
          txt!"a -> x' > x + 1"] := by decide +kernel
      rw [e]
      exact .header .input (by decide) (SContent.item (l := txt!"a") (by decide) (by decide) (by decide) (.skip (by decide) (.header .output (by decide) (.skip (by decide)
        (SContent.item (l := txt!"x:-2...5") (by decide) (by decide) (by decide) (.skip (by decide) (.header .sysTrans (by decide)
        (SContent.item (l := txt!"a -> x' > x + 1") (by decide) (by decide) (by decide) .nil))))))))
    · refine .cons ⟨.bool ⟨⟨'a', rfl, by decide⟩, by decide, by decide, by decide, by decide⟩, ?_⟩ .nil
      intro r hr
      rw [List.mem_singleton.mp hr]
      decide
    · refine .cons ⟨?_, ?_⟩ .nil
      · exact Declares.num (x := txt!"x") (s1 := []) (s2 := []) (a := txt!"-2") (s3 := []) (s4 := []) (b := txt!"5") (lo := -2) (hi := 5)
          ⟨⟨'x', rfl, by decide⟩, by decide, by decide, by decide, by decide⟩ (by decide)
          ⟨txt!"2", by decide, by decide, .inr ⟨rfl, by decide⟩⟩ ⟨txt!"5", by decide, by decide, .inl ⟨rfl, by decide⟩⟩ (by decide)
      · intro r hr
        rw [List.mem_singleton.mp hr]
        decide
    · rw [negative_bools]
      exact .cons (.infix shift_formula) .nil
  nodup := by decide
  envInit := by intro c hc; cases hc
  sysInit := by intro c hc; cases hc
  envTrans := by intro c hc; cases hc
  sysTrans := by
    intro c hc
    have : c = .infix shiftFml := by simpa [negative] using hc
    subst this
    refine ⟨⟨trivial, trivial, trivial, trivial⟩, by decide, ?_⟩
    have hn : shiftFml.numbers false = [txt!"x'", txt!"x"] := by decide
    rw [hn]
    intro x hx
    simp only [List.mem_cons, List.not_mem_nil, or_false] at hx
    rcases hx with rfl | rfl
    · exact ⟨by decide, (-2, 5), by decide⟩
    · exact ⟨by decide, (-2, 5), by decide⟩
  envLiveness := by intro c hc; cases hc
  sysLiveness := by intro c hc; cases hc

theorem negative_shifts : Shifts [heightShift] negative where
  once := by decide
  number := by
    intro r hr
    rw [List.mem_singleton.mp hr]
    decide
  declared := by
    intro r hr
    rw [List.mem_singleton.mp hr]
    refine ⟨-2, 5, by simp [negative, heightShift], ?_⟩
    exact IsDecl.num (x := txt!"y") (s1 := []) (s2 := []) (a := txt!"0") (s3 := []) (s4 := []) (b := txt!"7") (lo := 0) (hi := 7)
      ⟨⟨'y', rfl, by decide⟩, by decide, by decide, by decide, by decide⟩ (by decide)
      ⟨txt!"0", by decide, by decide, .inl ⟨rfl, by decide⟩⟩ ⟨txt!"7", by decide, by decide, .inl ⟨rfl, by decide⟩⟩ (by decide) (by decide)
  fresh := by decide
  rest := by
    intro d hd lo hi hr hx
    simp only [negative, List.cons_append, List.nil_append, List.mem_cons, List.not_mem_nil, or_false] at hd
    rcases hd with rfl | rfl
    · cases hr
    · exact absurd rfl (hx heightShift (by simp))

theorem height_file : ShiftFile heightText [heightShift] := by
  have e : ((splitLines (universal heightText)).map pyTrim).filter (fun l => l ≠ [] ∧ l.head? ≠ some '#') = [txt!"x:-2...5,y:0...7", txt!"x,y,2", txt!"x',y',2"] := by
    decide +kernel
  rw [ShiftFile, e]
  rfl

/-- The system wins the game with negative values if and only if it wins the one that is printed. -/
example : ∃ S', SDenotes negativeOut S' ∧ S'.outputs = [⟨txt!"y", some (0, 7)⟩] ∧ (S'.game.Realizable ↔ negative.game.Realizable) := by
  obtain ⟨S', h1, _, h3, h4, _⟩ := C81_file negative_denotes negative_shifts height_file negative_printed
  exact ⟨S', h1, h3, h4⟩

/-- The compiler alone does not terminate for the given file, but it accepts what the tool prints. -/
example : convert false negativeText = .loops ∧ ∃ compiled, convert false negativeOut = .ok compiled := by
  refine ⟨by decide +kernel, ?_⟩
  obtain ⟨compiled, h, _⟩ := C81_verdict (B := ROBDD) false negative_denotes negative_shifts height_file negative_printed
  exact ⟨compiled, h⟩

end Slugs.Props
