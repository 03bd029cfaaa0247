import Verif.Lemmas.SubstitutorMeaning

/-!
# C80: replacing integer variables

`Spec/Substitution.lean` says what a replacement means.  `substLine` is the model of what `integerVariableSubstitutor.py` does with a line in infix notation.
-/

namespace Slugs.Props

open Slugs.Spec Slugs.Spec.Structured Slugs.Model.Structured Slugs.Model.Substitutor

/-- **C80.** If the tool prints a line for a formula, then the line is a formula, and it holds exactly when the given one holds, if the replaced variables have the
values of the terms that are given for them and the others keep theirs.  Bounds of variables do not matter. -/
theorem C80_line_meaning {texts : Replacements} {R : Terms} {bools : List Word} (hR : TermsFor bools texts R)
    (hb : ∀ x ∈ bools, '\'' ∉ x → prime x ∈ bools) {line out : List Char} {f : SFml} (hf : IsFormula bools line f) (hp : f.Plain)
    (h : substLine texts bools line = .ok out) :
    ∃ f', IsFormula bools out f' ∧
      (∀ bounds bounds' b val val', (∀ x ∈ f.numbers false, FitsAt R bounds' val val' x) → f'.holds bounds' b val' = f.holds bounds b val) ∧
      (∀ bounds', (∀ x ∈ f.numbers false, ProperAt R bounds' x) → f'.Proper bounds' false) ∧
      (∀ y ∈ f'.atoms false, y ∈ f.atoms false) ∧ (∀ y ∈ f'.numbers false, ∃ x ∈ f.numbers false, y ∈ namesFor R x) := by
  obtain ⟨f', h1, h2⟩ := substLine_right hR hb hf hp h
  exact ⟨f', h1, h2.holds, h2.proper, h2.atoms, h2.numbers⟩

/-- **C80**, for every reading of the printed line. -/
theorem C80_every_reading {texts : Replacements} {R : Terms} {bools : List Word} (hR : TermsFor bools texts R)
    (hb : ∀ x ∈ bools, '\'' ∉ x → prime x ∈ bools) {line out : List Char} {f f' : SFml} (hf : IsFormula bools line f) (hp : f.Plain)
    (h : substLine texts bools line = .ok out) (hf' : IsFormula bools out f') (bounds bounds' : Bounds) (b : Word → Bool) (val val' : Word → Int)
    (hv : ∀ x ∈ f.numbers false, FitsAt R bounds' val val' x) : f'.holds bounds' b val' = f.holds bounds b val := by
  obtain ⟨g, h1, h2⟩ := substLine_right hR hb hf hp h
  rw [(isFormula_unique hf' h1).holds]
  exact h2.holds bounds bounds' b val val' hv

/-- The variable `x` is replaced by `y - 5`. -/
def shiftTexts : Replacements := fun w =>
  if w = txt!"x" then some (txt!"y", txt!"5") else if w = txt!"x'" then some (txt!"y'", txt!"5") else none

def shiftTerms : Terms := fun w =>
  if w = txt!"x" then some (.var txt!"y", .num 5) else if w = txt!"x'" then some (.var txt!"y'", .num 5) else none

theorem isSum_var {bools : List Word} {w : List Char} {t : Tok} (h : tokenize bools w = [t]) (hk : t.kind = .numID) : IsSum bools w (.var t.text) :=
  ⟨[t], h ▸ tokenize_lexes bools w, .one (.one (.var hk))⟩

theorem isSum_num {bools : List Word} {w : List Char} {t : Tok} (h : tokenize bools w = [t]) (hk : t.kind = .numeral) :
    IsSum bools w (.num (digitsVal t.text)) :=
  ⟨[t], h ▸ tokenize_lexes bools w, .one (.one (.num hk))⟩

theorem shift_terms : TermsFor [txt!"a", txt!"a'"] shiftTexts shiftTerms := by
  have h5 : IsSum [txt!"a", txt!"a'"] txt!"5" (.num 5) := isSum_num (t := ⟨.numeral, txt!"5"⟩) (by decide +kernel) rfl
  intro x
  by_cases h1 : x = txt!"x"
  · exact .inr ⟨txt!"y", txt!"5", _, _, by rw [shiftTexts, if_pos h1], by rw [shiftTerms, if_pos h1],
      isSum_var (t := ⟨.numID, txt!"y"⟩) (by decide +kernel) rfl, h5⟩
  · by_cases h2 : x = txt!"x'"
    · exact .inr ⟨txt!"y'", txt!"5", _, _, by rw [shiftTexts, if_neg h1, if_pos h2], by rw [shiftTerms, if_neg h1, if_pos h2],
        isSum_var (t := ⟨.numID, txt!"y'"⟩) (by decide +kernel) rfl, h5⟩
    · exact .inl ⟨by rw [shiftTexts, if_neg h1, if_neg h2], by rw [shiftTerms, if_neg h1, if_neg h2]⟩

def shiftFml : SFml := .imp (.atom txt!"a") (.cmp .gt (.var txt!"x'") (.add (.var txt!"x") (.num 1)))

theorem shift_formula : IsFormula [txt!"a", txt!"a'"] txt!"a -> x' > x + 1" shiftFml := by
  refine ⟨tokenize [txt!"a", txt!"a'"] txt!"a -> x' > x + 1", tokenize_lexes _ _, ?_⟩
  have e : tokenize [txt!"a", txt!"a'"] txt!"a -> x' > x + 1" = [⟨.boolID, txt!"a"⟩] ++ [⟨.minus, txt!"-"⟩, ⟨.greater, txt!">"⟩] ++
    ([⟨.numID, txt!"x'"⟩] ++ [⟨.greater, txt!">"⟩] ++ ([⟨.numID, txt!"x"⟩] ++ ⟨.plus, txt!"+"⟩ :: [⟨.numeral, txt!"1"⟩])) := by decide +kernel
  rw [e]
  refine .up (by omega) (.imp ?_ (.inl rfl) ?_)
  · exact .up (by omega) (.up (by omega) (.up (by omega) (.up (by omega) (.atom rfl))))
  · exact .up (by omega) (.up (by omega) (.up (by omega) (.cmp .gt (.one (.one (.var rfl))) rfl (.add (.one (.var rfl)) rfl (.one (.one (.num rfl)))))))

/-- What is printed for `a -> x' > x + 1`. -/
theorem shift_printed : substLine shiftTexts [txt!"a", txt!"a'"] txt!"a -> x' > x + 1" = .ok txt!"((a) -> (((y')+(5))>((((y)+(1)))+(5))))" := by
  decide +kernel

/-- The hypotheses of the theorems can be met: for the replacement of `x` by `y - 5`. -/
example : ∃ f', IsFormula [txt!"a", txt!"a'"] txt!"((a) -> (((y')+(5))>((((y)+(1)))+(5))))" f' ∧
    ∀ bounds bounds' b val val', val txt!"x" = val' txt!"y" - 5 → val txt!"x'" = val' txt!"y'" - 5 →
      f'.holds bounds' b val' = shiftFml.holds bounds b val := by
  obtain ⟨f', h1, h2, _⟩ := C80_line_meaning shift_terms (by decide) shift_formula ⟨trivial, trivial, trivial, trivial⟩ shift_printed
  refine ⟨f', h1, fun bounds bounds' b val val' hx hx' => h2 bounds bounds' b val val' ?_⟩
  have hn : shiftFml.numbers false = [txt!"x'", txt!"x"] := by decide
  rw [hn]
  simp only [List.mem_cons, List.not_mem_nil, or_false, forall_eq_or_imp, forall_eq]
  exact ⟨hx', hx⟩

/-- A comment in the code says that numbers in brackets are fine; they are refused. -/
theorem C80_brackets_refused : substLine shiftTexts [txt!"a", txt!"a'"] txt!"(x + 1) > 2" = .exc ∧
    substLine (fun _ => none) [txt!"a", txt!"a'"] txt!"(x + 1) > 2" = .exc ∧ substLine shiftTexts [txt!"a", txt!"a'"] txt!"(x) > 2" = .exc := by
  decide +kernel

/-- So the tool refuses what it has printed, if there is a sum in it. -/
theorem C80_own_output_refused : substLine shiftTexts [txt!"a", txt!"a'"] txt!"x + 1 > 2" = .ok txt!"((y)+(1))>((2)+(5))" ∧
    substLine shiftTexts [txt!"a", txt!"a'"] txt!"((y)+(1))>((2)+(5))" = .exc := by
  decide +kernel

/-- Integer variables below `next` are refused, as the message in the code says, even when they are not replaced. -/
theorem C80_next_refused : substLine shiftTexts [txt!"a", txt!"a'"] txt!"next(x > 2)" = .exc ∧ substLine shiftTexts [txt!"a", txt!"a'"] txt!"next(z > 2)" = .exc ∧
    substLine shiftTexts [txt!"a", txt!"a'"] txt!"next(a)" = .ok txt!"a'" := by
  decide +kernel

/-- Only the name that is given is replaced: with no entry for `x'`, the printed line mixes both variables. -/
theorem C80_primed_name_needed :
    substLine (fun w => if w = txt!"x" then some (txt!"y", txt!"5") else none) [] txt!"x' > x" = .ok txt!"((x')+(5))>y" := by
  decide +kernel

end Slugs.Props
