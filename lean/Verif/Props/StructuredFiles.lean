import Verif.Lemmas.StructuredOutput
import Verif.Props.TextToVerdict

/-!
# C59: structured specification files

`Spec/StructuredFile.lean` says which texts are structured specifications, and which game over Boolean and integer variables they denote.  `convert` is the model of
the structured slugs compiler, `runSlugs` the one of slugs.  Texts are lists of characters; for characters beyond ASCII the two programs have different views
of a text (slugs reads bytes), which is not considered.
-/

namespace Slugs.Props

open Slugs.Spec Slugs.Spec.Structured Slugs.Model Slugs.Model.Structured

variable {B : Type} [DecidableEq B] [L : BddLib B]

/-- **C59.** Every proper structured specification is compiled, and for the file that the compiler prints, slugs prints the verdict for the game of the structured
specification: in the standard semantics and in the robotics semantics, with all algorithms, and with and without `--thorough`.  The lines of the printed file must
not be longer than slugs can handle. -/
theorem C59_structured_verdict (thorough : Bool) {text : List Char} {S : SSpec} (h : SDenotes text S) :
    ∃ out, convert thorough text = .ok out ∧
      ∀ (alg : Algorithm) (cap : Nat) (order : List Char → Bool), (∀ l ∈ splitLines out, l.length ≤ cap) → cap < 2 ^ 32 → ∃ rounds, ∀ fuel, rounds ≤ fuel →
        (S.game.Realizable → runSlugs B alg false cap order fuel out = .result true) ∧
        (¬ S.game.Realizable → runSlugs B alg false cap order fuel out = .result false) ∧
        (S.game.RoboticsRealizable → runSlugs B alg true cap order fuel out = .result true) ∧
        (¬ S.game.RoboticsRealizable → runSlugs B alg true cap order fuel out = .result false) := by
  obtain ⟨out, h1, h2⟩ := convert_denotes thorough h
  refine ⟨out, h1, fun alg cap order hl h32 => ?_⟩
  obtain ⟨sp, hd, hp, ⟨f, g, he, _⟩, _⟩ := h2 cap hl h32
  obtain ⟨⟨tab, c⟩, hi⟩ := C24_proper_accepted (B := B) cap order out hp
  refine ⟨Nat.card (Pos sp.In sp.Out) + 1, fun fuel hf => ?_⟩
  have := C24_text_to_verdict alg hi sp hd fuel hf
  rwa [he.realizable, he.robotics] at this

/-- **C59**, the printed file declares the Boolean variables and the bits of the integer variables, in the order of the structured specification. -/
theorem C59_declarations (thorough : Bool) {text : List Char} {S : SSpec} (h : SDenotes text S) :
    ∃ out, convert thorough text = .ok out ∧
      ∀ cap, (∀ l ∈ splitLines out, l.length ≤ cap) → cap < 2 ^ 32 → ∃ sp, Denotes out sp ∧
        sp.inputs = S.inputs.flatMap bitsOf ∧ sp.outputs = S.outputs.flatMap bitsOf := by
  obtain ⟨out, h1, h2⟩ := convert_denotes thorough h
  refine ⟨out, h1, fun cap hl h32 => ?_⟩
  obtain ⟨sp, hd, _, _, e⟩ := h2 cap hl h32
  exact ⟨sp, hd, e⟩

/-! ### A concrete file -/

/-- `n` counts up to 2, and must not decrease when `x` holds next. -/
def counterText : List Char :=
  txt!"# A counter\n[INPUT]\nx\n\n[OUTPUT]\nn : 0...2\n\n[SYS_INIT]\nn = 0\n\n[SYS_TRANS]\n# never back\nx' -> n' >= n\n\n[ENV_LIVENESS]\n! x\n"

def counter : SSpec where
  inputs := [⟨txt!"x", none⟩]
  outputs := [⟨txt!"n", some (0, 2)⟩]
  envInit := []
  sysInit := [.infix (.cmp .eq (.var txt!"n") (.num 0))]
  envTrans := []
  sysTrans := [.infix (.imp (.atom txt!"x'") (.cmp .ge (.var txt!"n'") (.var txt!"n")))]
  envLiveness := [.plain (.not (.var txt!"x"))]
  sysLiveness := []

def counterItems : List (Section × List Char) :=
  [(.input, txt!"x"), (.output, txt!"n : 0...2"), (.sysInit, txt!"n = 0"), (.sysTrans, txt!"x' -> n' >= n"), (.envLiveness, txt!"! x")]

theorem counter_content : SContent none (splitLines (universal counterText)) counterItems := by
  have e : splitLines (universal counterText) = [txt!"# A counter", txt!"[INPUT]", txt!"x", [], txt!"[OUTPUT]", txt!"n : 0...2", [], txt!"[SYS_INIT]", txt!"n = 0", [],
      txt!"[SYS_TRANS]", txt!"# never back", txt!"x' -> n' >= n", [], txt!"[ENV_LIVENESS]", txt!"! x"] := by decide +kernel
  rw [e]
  refine .skip (by decide) (.header .input (by decide) (SContent.item (l := txt!"x") (by decide) (by decide) (by decide) (.skip (by decide)
    (.header .output (by decide) (SContent.item (l := txt!"n : 0...2") (by decide) (by decide) (by decide) (.skip (by decide)
    (.header .sysInit (by decide) (SContent.item (l := txt!"n = 0") (by decide) (by decide) (by decide) (.skip (by decide)
    (.header .sysTrans (by decide) (.skip (by decide) (SContent.item (l := txt!"x' -> n' >= n") (by decide) (by decide) (by decide) (.skip (by decide)
    (.header .envLiveness (by decide) (SContent.item (l := txt!"! x") (by decide) (by decide) (by decide) .nil)))))))))))))))

theorem counter_bools : counter.bools = [txt!"x", txt!"x'"] := by decide

theorem counter_init : IsFormula counter.bools txt!"n = 0" (.cmp .eq (.var txt!"n") (.num 0)) := by
  refine ⟨[⟨.numID, txt!"n"⟩, ⟨.equal, txt!"="⟩, ⟨.numeral, txt!"0"⟩], ?_, ?_⟩
  · rw [counter_bools]
    exact Lexes.name (c := 'n') (w := []) (rest := txt!" = 0") (by decide) (by decide) (by decide)
      (.space (by decide) (.char (c := '=') (by decide) (by decide) (by decide) (.space (by decide) (Lexes.number (w := txt!"0") (rest := []) (by decide) (by decide) (by decide) .nil))))
  · refine .up (by decide) (.up (by decide) (.up (by decide) (.up (by decide) (.up (by decide) ?_))))
    exact Infix.cmp (ts := [⟨.numID, txt!"n"⟩]) (op := [⟨.equal, txt!"="⟩]) (us := [⟨.numeral, txt!"0"⟩]) .eq (.one (.one (InfixNumber.var (t := ⟨.numID, txt!"n"⟩) rfl))) rfl
      (.one (.one (InfixNumber.num (t := ⟨.numeral, txt!"0"⟩) rfl)))

theorem counter_trans : IsFormula counter.bools txt!"x' -> n' >= n" (.imp (.atom txt!"x'") (.cmp .ge (.var txt!"n'") (.var txt!"n"))) := by
  refine ⟨[⟨.boolID, txt!"x'"⟩, ⟨.minus, txt!"-"⟩, ⟨.greater, txt!">"⟩, ⟨.numID, txt!"n'"⟩, ⟨.greater, txt!">"⟩, ⟨.equal, txt!"="⟩, ⟨.numID, txt!"n"⟩], ?_, ?_⟩
  · rw [counter_bools]
    exact Lexes.name (c := 'x') (w := txt!"'") (rest := txt!" -> n' >= n") (by decide) (by decide) (by decide)
      (.space (by decide) (.char (c := '-') (by decide) (by decide) (by decide) (.char (c := '>') (by decide) (by decide) (by decide) (.space (by decide)
      (Lexes.name (c := 'n') (w := txt!"'") (rest := txt!" >= n") (by decide) (by decide) (by decide) (.space (by decide)
      (.char (c := '>') (by decide) (by decide) (by decide) (.char (c := '=') (by decide) (by decide) (by decide) (.space (by decide)
      (Lexes.name (c := 'n') (w := []) (rest := []) (by decide) (by decide) (by decide) .nil))))))))))
  · refine .up (by decide) (Infix.imp (ts := [⟨.boolID, txt!"x'"⟩]) (op := [⟨.minus, txt!"-"⟩, ⟨.greater, txt!">"⟩])
      (us := [⟨.numID, txt!"n'"⟩, ⟨.greater, txt!">"⟩, ⟨.equal, txt!"="⟩, ⟨.numID, txt!"n"⟩]) ?_ (.inl rfl) ?_)
    · refine .up (by decide) (.up (by decide) (.up (by decide) (.up (by decide) ?_)))
      exact Infix.atom (t := ⟨.boolID, txt!"x'"⟩) rfl
    · refine .up (by decide) (.up (by decide) (.up (by decide) ?_))
      exact Infix.cmp (ts := [⟨.numID, txt!"n'"⟩]) (op := [⟨.greater, txt!">"⟩, ⟨.equal, txt!"="⟩]) (us := [⟨.numID, txt!"n"⟩]) .ge
        (.one (.one (InfixNumber.var (t := ⟨.numID, txt!"n'"⟩) rfl))) rfl (.one (.one (InfixNumber.var (t := ⟨.numID, txt!"n"⟩) rfl)))

theorem counter_live : ReadsLine txt!"! x" (.not (.var txt!"x")) :=
  reads_text (.not (.var txt!"x")) (by simp [Fml.Wf]) (by simp [Fml.vars]; decide) (by decide)

/-- The text denotes the specification. -/
theorem counter_denotes : SDenotes counterText counter where
  content := by
    refine ⟨counterItems, counter_content, ?_, ?_, ?_, ?_, ?_, ?_, ?_, ?_⟩
    · exact .cons (.bool (by refine ⟨⟨'x', rfl, by decide⟩, by decide, by decide, by decide, by decide⟩)) .nil
    · refine .cons ?_ .nil
      exact IsDecl.num (x := txt!"n") (s1 := txt!" ") (s2 := txt!" ") (a := txt!"0") (s3 := []) (s4 := []) (b := txt!"2") (lo := 0) (hi := 2)
        ⟨⟨'n', rfl, by decide⟩, by decide, by decide, by decide, by decide⟩ (by decide)
        ⟨txt!"0", by decide, by decide, .inl ⟨rfl, by decide⟩⟩ ⟨txt!"2", by decide, by decide, .inl ⟨rfl, by decide⟩⟩ (by decide) (by decide)
    · exact .nil
    · exact .cons (.infix counter_init) .nil
    · exact .nil
    · exact .cons (.infix counter_trans) .nil
    · exact .cons (.plain counter_live (by decide)) .nil
    · exact .nil
  nodup := by decide
  envInit := by intro c hc; cases hc
  sysInit := by
    intro c hc
    have : c = .infix (.cmp .eq (.var txt!"n") (.num 0)) := by simpa [counter] using hc
    subst this
    exact ⟨⟨⟨⟨0, 2, by decide, by decide⟩, by decide⟩, trivial⟩, by decide, by decide⟩
  envTrans := by intro c hc; cases hc
  sysTrans := by
    intro c hc
    have : c = .infix (.imp (.atom txt!"x'") (.cmp .ge (.var txt!"n'") (.var txt!"n"))) := by simpa [counter] using hc
    subst this
    exact ⟨⟨fun h => (by cases h), ⟨⟨0, 2, by decide, by decide⟩, by decide⟩, ⟨0, 2, by decide, by decide⟩, by decide⟩, by decide, by decide⟩
  envLiveness := by
    intro c hc
    have : c = .plain (.not (.var txt!"x")) := by simpa [counter] using hc
    subst this
    exact ⟨by simp [Fml.Wf], by simp [Fml.vars]; decide⟩
  sysLiveness := by intro c hc; cases hc

/-- What the compiler prints for it: `n` gets two bits, and their value must not be 3. -/
def counterOut : List Char :=
  txt!"[INPUT]\nx\n\n\n[OUTPUT]\nn@0.0.2\nn@1\n\n\n[SYS_TRANS]\n# never back\n| ! x' $ 1 | & n@1' ! n@1 & | ! n@1 n@1' | & n@0.0.2' ! n@0.0.2 & | ! n@0.0.2 n@0.0.2' 1\n\n## Variable limits: 0<=n'<=2\n| ! n@1' | ! n@0.0.2' 0\n\n[SYS_INIT]\n$ 1 & ! n@1 & ! n@0.0.2 1\n\n## Variable limits: 0<=n<=2\n| ! n@1 | ! n@0.0.2 0\n\n[ENV_LIVENESS]\n! x\n\n"

theorem counter_out : convert false counterText = .ok counterOut := by decide +kernel

/-- The system wins by never changing `n`. -/
theorem counter_realizable : counter.game.Realizable := by
  intro i _
  have hval : (∀ d ∈ counter.outputs, d.Ok ((fun _ => 0 : Word → Int) d.name)) ∧ ∀ x, x ∉ counter.outputs.map Decl.name → (fun _ => 0 : Word → Int) x = 0 := by
    refine ⟨fun d hd => ?_, fun _ _ => rfl⟩
    have : d = ⟨txt!"n", some (0, 2)⟩ := by simpa [counter] using hd
    subst this
    exact ⟨le_refl _, by decide⟩
  refine ⟨⟨fun _ => 0, hval⟩, ?_, fun h _ => match h with | cur :: _ => cur.2 | [] => ⟨fun _ => 0, hval⟩, ?_, ?_⟩
  · intro c hc
    have : c = .infix (.cmp .eq (.var txt!"n") (.num 0)) := by simpa [counter] using hc
    subst this
    rfl
  · intro cur h j _ _ c hc
    have : c = .infix (.imp (.atom txt!"x'") (.cmp .ge (.var txt!"n'") (.var txt!"n"))) := by simpa [counter] using hc
    subst this
    have e1 : counter.look cur (j, cur.2) txt!"n'" = cur.2.1 txt!"n" := rfl
    have e2 : counter.look cur (j, cur.2) txt!"n" = cur.2.1 txt!"n" := rfl
    simp only [SSpec.holds, SFml.holds, NExp.value, Cmp.holds, e1, e2, ge_iff_le, le_refl, decide_true, Bool.or_true]
  · intro p _ _ b hb
    cases hb

/-- So slugs says that the printed file is realizable. -/
example (order : List Char → Bool) : ∃ rounds, ∀ fuel, rounds ≤ fuel → runSlugs B .standard false 1000 order fuel counterOut = .result true := by
  obtain ⟨out, h1, h2⟩ := C59_structured_verdict (B := B) false counter_denotes
  rw [counter_out] at h1
  cases h1
  obtain ⟨rounds, h3⟩ := h2 .standard 1000 order (by decide +kernel) (by decide)
  exact ⟨rounds, fun fuel hf => (h3 fuel hf).1 counter_realizable⟩

/-! ### What is not proper -/

/-- A constraint that starts with a bracket `[` is taken for the header of a section.  If another header or the end of the file follows, it is dropped without
notice: `[x'] & y` is a formula, and the printed file has no constraints. -/
theorem C59_bracketed_constraint_lost :
    IsFormula [txt!"x", txt!"x'", txt!"y", txt!"y'"] txt!"[x'] & y" (.and (.atom txt!"x'") (.atom txt!"y")) ∧
    convert false txt!"[INPUT]\nx\n[OUTPUT]\ny\n[SYS_TRANS]\n[x'] & y\n" = .ok txt!"[INPUT]\nx\n\n[OUTPUT]\ny\n\n" := by
  refine ⟨⟨[⟨.lbrack, txt!"["⟩, ⟨.boolID, txt!"x'"⟩, ⟨.rbrack, txt!"]"⟩, ⟨.amp, txt!"&"⟩, ⟨.boolID, txt!"y"⟩], ?_, ?_⟩, by decide +kernel⟩
  · exact .char (c := '[') (by decide) (by decide) (by decide) (Lexes.name (c := 'x') (w := txt!"'") (rest := txt!"] & y") (by decide) (by decide) (by decide)
      (.char (c := ']') (by decide) (by decide) (by decide) (.space (by decide) (.char (c := '&') (by decide) (by decide) (by decide) (.space (by decide)
      (Lexes.name (c := 'y') (w := []) (rest := []) (by decide) (by decide) (by decide) .nil))))))
  · refine .up (by decide) (.up (by decide) (.up (by decide) (Infix.and (ts := [⟨.lbrack, txt!"["⟩, ⟨.boolID, txt!"x'"⟩, ⟨.rbrack, txt!"]"⟩])
      (op := [⟨.amp, txt!"&"⟩]) (us := [⟨.boolID, txt!"y"⟩]) ?_ (.inl rfl) ?_)))
    · refine .up (by decide) (.up (by decide) ?_)
      refine Infix.brackets (l := ⟨.lbrack, txt!"["⟩) (r := ⟨.rbrack, txt!"]"⟩) (ts := [⟨.boolID, txt!"x'"⟩]) (.inr ⟨rfl, rfl⟩) ?_
      refine .up (by decide) (.up (by decide) (.up (by decide) (.up (by decide) (.up (by decide) ?_))))
      exact Infix.atom (t := ⟨.boolID, txt!"x'"⟩) rfl
    · refine .up (by decide) ?_
      exact Infix.atom (t := ⟨.boolID, txt!"y"⟩) rfl

/-- Text before the first header is ignored without notice (slugs itself refuses such files). -/
theorem C59_text_before_header_lost :
    convert false txt!"x -> y\n[INPUT]\nx\n[OUTPUT]\ny\n" = .ok txt!"[INPUT]\nx\n\n[OUTPUT]\ny\n\n" := by decide +kernel

end Slugs.Props
