import Verif.Lemmas.StructuredMeaning
import Verif.Lemmas.StructuredEnds
import Verif.Props.Counterstrategy

/-!
# C57, C58: the formulas of structured specifications

`Spec/Structured.lean` says which lines are formulas and what they mean.  `translateLine` is the model of the translation of a line; its tables (`Names`) give the
bounds of the integer variables and the names of their bits.
-/

namespace Slugs.Props

open Slugs.Spec Slugs.Spec.Structured Slugs.Model.Structured

/-! ### C57 -/

/-- **C57**, the parser: its tables accept exactly the sequences of symbols that the grammar allows, and yield the parse tree; every sequence of symbols is
processed in finitely many steps. -/
theorem C57_parser_exact (toks : List Tok) (h : ∀ t ∈ toks, t.kind ≠ .eof) (T : Structured.Tree) :
    (parse toks = .tree T ↔ Derives (.n .Formula) T toks) ∧ parse toks ≠ .running :=
  ⟨⟨parse_sound h, parse_complete⟩, parse_total toks⟩

/-- **C57**, the grammar is unambiguous. -/
theorem C57_unambiguous {toks : List Tok} {T T' : Structured.Tree} (h : Derives (.n .Formula) T toks) (h' : Derives (.n .Formula) T' toks) : T = T' :=
  derives_unique h h'

/-- **C57.** A line is translated exactly if it is a formula in infix notation (`IsFormula`) in which variables are used properly (`SFml.Proper`).  The tables
must have as many names of bits for a variable as the distance of its bounds needs. -/
theorem C57_accepted_iff (nm : Names) (hb : ∀ x lo hi, nm.limits x = some (lo, hi) → ∃ bs, nm.bits x = some bs ∧ bs.length = bitsFor (hi - lo))
    (bools : List Word) (line : List Char) :
    (∃ out, translateLine nm bools line = .ok out) ↔ ∃ f, IsFormula bools line f ∧ f.Proper nm.limits false := by
  have hn : NamesOk nm nm.limits := ⟨rfl, hb⟩
  constructor
  · rintro ⟨out, h⟩
    obtain ⟨g, f, toks, h1, h2, h3, _⟩ := translateLine_sound h
    exact ⟨g, h1, (h2.proper _ _).mp ((cmpl_iff hn f false).2 ⟨toks, h3⟩)⟩
  · rintro ⟨g, h1, h2⟩
    obtain ⟨f, h3, h4⟩ := translateLine_complete h1
    obtain ⟨toks, h5, _⟩ := (cmpl_iff hn f false).1 ((h3.proper _ _).mpr h2)
    exact ⟨_, h4 nm toks h5⟩

/-- **C57**, a line has one meaning: formulas for the same line hold in the same situations. -/
theorem C57_one_meaning {bools : List Word} {line : List Char} {f g : SFml} (hf : IsFormula bools line f) (hg : IsFormula bools line g) (bounds : Bounds)
    (b : Word → Bool) (val : Word → Int) : f.holds bounds b val = g.holds bounds b val ∧ (f.Proper bounds false ↔ g.Proper bounds false) :=
  ⟨(isFormula_unique hf hg).holds bounds b val, (isFormula_unique hf hg).proper bounds false⟩

/-- **C57**, the translation of a line ends if no integer variable has a negative lower bound (missing: negative ones, for which it can go on forever, see below). -/
theorem C57_ends_partial (nm : Names) (h : ∀ x lo hi, nm.limits x = some (lo, hi) → 0 ≤ lo) (bools : List Word) (line : List Char) :
    translateLine nm bools line ≠ .loops :=
  translateLine_ends (fun x q hq => h x q.1 q.2 hq) bools line

/-- Tables with one integer variable. -/
def oneNumber (x : Word) (lo hi : Int) (bits : List Word) : Names where
  limits y := if y = x then some (lo, hi) else none
  bits y := if y = x then some bits else none

/-- With a negative lower bound it need not end: `x:-1...1` and the line `x > 0`. -/
theorem C57_negative_bound_never_ends :
    translateLine (oneNumber txt!"x" (-1) 1 [txt!"x@0.-1.1", txt!"x@1"]) [txt!"x@0.-1.1", txt!"x@1"] txt!"x > 0" = .loops := by decide +kernel

/-- The documentation lists exclusive disjunction, subtraction and multiplication; they are refused. -/
theorem C57_documented_operators_refused :
    translateLine (oneNumber txt!"x" 0 3 [txt!"x@0.0.3", txt!"x@1"]) [txt!"a", txt!"a'", txt!"b", txt!"b'"] txt!"a ^ b" = .exc ∧
    translateLine (oneNumber txt!"x" 0 3 [txt!"x@0.0.3", txt!"x@1"]) [txt!"a", txt!"a'", txt!"b", txt!"b'"] txt!"x * 2 > 2" = .exc ∧
    translateLine (oneNumber txt!"x" 0 3 [txt!"x@0.0.3", txt!"x@1"]) [txt!"a", txt!"a'", txt!"b", txt!"b'"] txt!"x - 1 > 1" = .exc := by
  decide +kernel

/-- A line that is accepted. -/
example : translateLine (oneNumber txt!"x" 0 3 [txt!"x@0.0.3", txt!"x@1"]) [txt!"a", txt!"a'", txt!"x@0.0.3", txt!"x@1"] txt!"a' -> (x > 1)" =
    .ok txt!"| ! a' $ 1 | x@1 | & x@0.0.3 ! 1 & | ! 1 x@0.0.3 0" := by decide +kernel

/-! ### C58 -/

/-- **C58.** The translation of a formula has the meaning of the formula.  It is the text of a well-formed formula in the notation of slugs; this formula only uses
Boolean variables of the line, and bits of integer variables of the line; and it holds exactly if the line does, whenever the bits of the integer variables
represent their values. -/
theorem C58_translation_right (nm : Names) (hb : ∀ x lo hi, nm.limits x = some (lo, hi) → ∃ bs, nm.bits x = some bs ∧ bs.length = bitsFor (hi - lo))
    {bools : List Word} {line out : List Char} {f : SFml} (hf : IsFormula bools line f) (h : translateLine nm bools line = .ok out) :
    ∃ φ : Fml, out = φ.text ∧ φ.Wf 0 ∧
      (∀ w ∈ φ.vars, w ∈ f.atoms false ∨
        ∃ x ∈ f.numbers false, ∃ bs, nm.bits (unprimed x) = some bs ∧ ∃ b ∈ bs, w = if isPrimed x then prime b else b) ∧
      ∀ ρ val, Encodes nm.limits nm.bits ρ val → φ.eval ρ [] = some (f.holds nm.limits ρ val) := by
  have hn : NamesOk nm nm.limits := ⟨rfl, hb⟩
  obtain ⟨g, f', toks, h1, h2, h3, rfl⟩ := translateLine_sound h
  have e := h2.trans (isFormula_unique h1 hf)
  have hp := (cmpl_iff hn f' false).2 ⟨toks, h3⟩
  obtain ⟨toks', h4, h5⟩ := (cmpl_iff hn f' false).1 hp
  rw [h3] at h4
  cases h4
  obtain ⟨s1, s2⟩ := syn_compF (nm := nm) f' false hp 0
  refine ⟨compF nm f' false, join_sp h5, s1, fun w hw => ?_, fun ρ val he => ?_⟩
  · rw [← e.atoms, ← e.numbers]
    exact s2 w hw
  · have := sem_compF hn he f' false hp []
    simp only [Bool.false_eq_true, if_false] at this
    rw [this, e.holds]

/-- **C58**, slugs reads it as this formula, provided that the names it uses are words for slugs and the line has less than 2^32 characters. -/
theorem C58_translation_read (nm : Names) (hb : ∀ x lo hi, nm.limits x = some (lo, hi) → ∃ bs, nm.bits x = some bs ∧ bs.length = bitsFor (hi - lo))
    {bools : List Word} {line out : List Char} {f : SFml} (hf : IsFormula bools line f) (h : translateLine nm bools line = .ok out)
    (hl : out.length < 2 ^ 32)
    (hw : ∀ w, w ∈ f.atoms false ∨ (∃ x ∈ f.numbers false, ∃ bs, nm.bits (unprimed x) = some bs ∧ ∃ b ∈ bs, w = if isPrimed x then prime b else b) →
      (w ≠ [] ∧ ∀ c ∈ w, isSpace c = false) ∧ w ∉ reserved) :
    ∃ φ : Fml, ReadsLine out φ ∧ (∀ φ', ReadsLine out φ' → φ' = φ) ∧
      ∀ ρ val, Encodes nm.limits nm.bits ρ val → φ.eval ρ [] = some (f.holds nm.limits ρ val) := by
  obtain ⟨φ, rfl, h1, h2, h3⟩ := C58_translation_right nm hb hf h
  have hr := reads_text φ h1 (fun x hx => hw x (h2 x hx)) hl
  exact ⟨φ, hr, fun φ' h' => ReadsLine.det h' hr, h3⟩

/-- The value 2 of `x:1...3` is represented by the bits of `2 - 1 = 1`; its next value 3 by those of 2. -/
example : Encodes (oneNumber txt!"x" 1 3 [txt!"x@0.1.3", txt!"x@1"]).limits (oneNumber txt!"x" 1 3 [txt!"x@0.1.3", txt!"x@1"]).bits
    (fun w => w == txt!"x@0.1.3" || w == txt!"x@1'") (fun w => if w = txt!"x'" then 3 else 2) := by
  intro x lo hi bs h1 h2
  simp only [oneNumber] at h1 h2
  by_cases h : x = txt!"x"
  · rw [if_pos h] at h1 h2
    cases h1
    cases h2
    subst h
    decide
  · rw [if_neg h] at h1
    cases h1

end Slugs.Props
