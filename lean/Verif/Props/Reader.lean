import Verif.Lemmas.Parser
import Verif.Lemmas.Bdd

/-!
Properties of the formula reader (C17, C18, C20) and of the BDD contract (C34).
-/

namespace Slugs.Props

open Slugs.Spec Slugs.Model

variable {B : Type} [DecidableEq B] [L : BddLib B]

/-! ### C17 -/

/-- **C17.** Take any well-formed formula over declared, allowed variables whose names are not operator words, and any line that
spells it (any white space between the words).  The reader accepts the line, and the result is the function that
the formula denotes.  (`tab.names.idxOf x` is the number of the variable called `x`.)
Lines are shorter than 2^32 characters and memory for a buffer of the size of the line can be allocated. -/
theorem C17_reading_yields_meaning (tab : VarTable) (allowed : List VarType) (cap : Nat) (order : List Char → Bool)
    (φ : Fml) (line rest : List Char) (hline : Spells line φ.words rest) (hrest : ∀ c ∈ rest, isSpace c)
    (hwf : φ.Wf 0) (hres : ∀ x ∈ φ.vars, x ∉ reserved) (hdecl : ∀ x ∈ φ.vars, Declared tab allowed x)
    (hlen : line.length < 2 ^ 32) (hcap : line.length ≤ cap) :
    ∃ b : B, parseFormula tab allowed cap order line = .ok (some b) ∧
      ∀ (a : Asg) (ρ : Word → Bool), (∀ x ∈ φ.vars, ρ x = a (tab.names.idxOf x)) →
        φ.eval ρ [] = some (L.eval b a) := by
  have hr : Reads line φ rest := hline.reads φ 0 hlen (Nat.zero_le _) hwf hres
  obtain ⟨b, hb⟩ := parse_complete (B := B) tab allowed cap order (line.length + 1) φ [] 0 line rest (Nat.lt_succ_self _)
    hcap hr (by simpa using hwf) hdecl
  simp only [memOf, List.map_nil, List.replicate_zero, List.append_nil] at hb
  refine ⟨b, ?_, ?_⟩
  · rw [parseFormula, hb]
    simp only [readWord_nil.mpr hrest, if_true]
  · obtain ⟨ψ, h1, _, h3⟩ := parse_sound _ _ _ _ _ _ _ _ _ hb
    obtain ⟨rfl, _⟩ := h1.det hr
    intro a ρ hρ
    rw [Fml.eval_congr ψ [] hρ]
    exact h3 a

/-- **C17**, for the text with single blanks between the words. -/
theorem C17_round_trip (tab : VarTable) (allowed : List VarType) (cap : Nat) (order : List Char → Bool)
    (φ : Fml) (hwf : φ.Wf 0) (hnames : ∀ x ∈ φ.vars, x ≠ [] ∧ (∀ c ∈ x, isSpace c = false) ∧ x ∉ reserved)
    (hdecl : ∀ x ∈ φ.vars, Declared tab allowed x)
    (hlen : φ.text.length < 2 ^ 32) (hcap : φ.text.length ≤ cap) :
    ∃ b : B, parseFormula tab allowed cap order φ.text = .ok (some b) ∧
      ∀ (a : Asg) (ρ : Word → Bool), (∀ x ∈ φ.vars, ρ x = a (tab.names.idxOf x)) →
        φ.eval ρ [] = some (L.eval b a) :=
  C17_reading_yields_meaning tab allowed cap order φ φ.text []
    (Spells.joinWords _ (Fml.words_good φ fun x hx => ⟨(hnames x hx).1, (hnames x hx).2.1⟩)) (by simp) hwf
    (fun x hx => (hnames x hx).2.2) hdecl hlen hcap

/-- **C17**, converse: whatever is accepted is the text of exactly one formula, over declared and allowed variables
only, and the result is its meaning. -/
theorem C17_accepted_only_if_formula (tab : VarTable) (allowed : List VarType) (cap : Nat) (order : List Char → Bool)
    (line : List Char) (b : B) (h : parseFormula tab allowed cap order line = .ok (some b)) :
    ∃ φ, ReadsLine line φ ∧ (∀ ψ, ReadsLine line ψ → ψ = φ) ∧ (∀ x ∈ φ.vars, Declared tab allowed x) ∧
      ∀ (a : Asg) (ρ : Word → Bool), (∀ x ∈ φ.vars, ρ x = a (tab.names.idxOf x)) → φ.eval ρ [] = some (L.eval b a) := by
  rw [parseFormula] at h
  cases hp : parseRec (B := B) tab allowed cap order (line.length + 1) [] line with
  | err e => simp [hp] at h
  | ub => simp [hp] at h
  | stuck => simp [hp] at h
  | ok r =>
    obtain ⟨v, r⟩ := r
    simp only [hp] at h
    split at h
    · rename_i hr
      simp only [Res.ok.injEq] at h
      subst h
      obtain ⟨φ, h1, h2, h3⟩ := parse_sound _ _ _ _ _ _ _ _ _ hp
      have hl : ReadsLine line φ := ⟨r, h1, readWord_nil.mp hr⟩
      refine ⟨φ, hl, fun ψ hψ => hψ.det hl, h2, fun a ρ hρ => ?_⟩
      rw [Fml.eval_congr φ [] hρ]
      exact h3 a
    · cases h

/-- The formula `| x $ 2 & x y' ! ? 0`, which uses a buffer. -/
def demoFml : Fml :=
  .bin .or (.var txt!"x") (.buffer [.bin .and (.var txt!"x") (.var txt!"y'"), .not (.recall 0)])

def demoTab : VarTable where
  names := [txt!"x", txt!"x'", txt!"y", txt!"y'"]
  types := [.preInput, .postInput, .preOutput, .postOutput]

example : demoFml.text = txt!"| x $ 2 & x y' ! ? 0" := by decide

/-- The hypotheses of `C17_round_trip` hold for `demoFml`. -/
example : demoFml.Wf 0 ∧ (∀ x ∈ demoFml.vars, x ≠ [] ∧ (∀ c ∈ x, isSpace c = false) ∧ x ∉ reserved) ∧
    (∀ x ∈ demoFml.vars, Declared demoTab (allowedIn .sysTrans) x) ∧ demoFml.text.length < 2 ^ 32 := by
  refine ⟨by simp [demoFml, Fml.Wf, Fml.WfBuffer], by decide, ?_, by decide⟩
  intro x hx
  simp only [demoFml, Fml.vars, Fml.varsBuffer, List.append_nil, List.cons_append, List.nil_append,
    List.mem_cons, List.not_mem_nil, or_false] at hx
  rcases hx with rfl | rfl | rfl
  · exact ⟨by decide, .preInput, by decide, by decide⟩
  · exact ⟨by decide, .preInput, by decide, by decide⟩
  · exact ⟨by decide, .postOutput, by decide, by decide⟩

/-- ... and they fail in a section in which next outputs are not allowed: the reader reports an error. -/
example : parseFormula (B := ROBDD) demoTab (allowedIn .envTrans) 1000 (fun _ => false) demoFml.text =
    .err .notAllowed := by decide

/-! ### C18 -/

/-- **C18.** The result does not depend on the order in which operands are evaluated. -/
theorem C18_operand_order (tab : VarTable) (allowed : List VarType) (cap : Nat) (order order' : List Char → Bool)
    (line : List Char) : parseFormula (B := B) tab allowed cap order line = parseFormula tab allowed cap order' line := by
  rw [parseFormula, parseFormula, parse_order]

/-! ### C20

The property fails: there are lines with undefined behaviour (`C20_violated_empty_buffer`, `C20_violated_recall`).
What holds: reading always ends, and lines without memory buffers, as well as lines that are the text of a
well-formed formula, never have undefined behaviour.  Missing for the full property: all other lines. -/

/-- The line `$ 0` reads `memoryNew[-1]`. -/
theorem C20_violated_empty_buffer (tab : VarTable) (allowed : List VarType) (cap : Nat) (hcap : 0 < cap)
    (order : List Char → Bool) : parseFormula (B := B) tab allowed cap order txt!"$ 0" = .ub := by
  have h1 : readWord txt!"$ 0" = (['$'], [' ', '0']) := by decide
  have h2 : readUnsigned [' ', '0'] = some (0, []) := by decide
  have h3 : ¬ cap = 0 := by omega
  simp [parseFormula, parseRec, h1, h2, bufLoop, h3]

/-- The line `$ 1 ! ? 0` negates an element that has not been stored. -/
theorem C20_violated_recall (tab : VarTable) (allowed : List VarType) (cap : Nat) (hcap : 1 < cap)
    (order : List Char → Bool) : parseFormula (B := B) tab allowed cap order txt!"$ 1 ! ? 0" = .ub := by
  have h1 : readWord txt!"$ 1 ! ? 0" = (['$'], txt!" 1 ! ? 0") := by decide
  have h2 : readUnsigned txt!" 1 ! ? 0" = some (1, txt!" ! ? 0") := by decide
  have h3 : readWord txt!" ! ? 0" = (['!'], txt!" ? 0") := by decide
  have h4 : readWord txt!" ? 0" = (['?'], txt!" 0") := by decide
  have h5 : readUnsigned txt!" 0" = some (0, []) := by decide
  have h6 : ¬ cap ≤ 1 := by omega
  simp [parseFormula, parseRec, h1, h2, h3, h4, h5, h6, bufLoop]

/-- **C20**, partial: reading a line ends with a result, an error or undefined behaviour (the recursion is bounded by the
length of the line). -/
theorem C20_reading_ends_partial (tab : VarTable) (allowed : List VarType) (cap : Nat) (order : List Char → Bool)
    (line : List Char) : parseFormula (B := B) tab allowed cap order line ≠ .stuck := by
  rw [parseFormula]
  have := parse_not_stuck (B := B) tab allowed cap order (line.length + 1) [] line (Nat.lt_succ_self _)
  cases h : parseRec (B := B) tab allowed cap order (line.length + 1) [] line with
  | ok r => obtain ⟨v, r⟩ := r; simp only; split <;> simp
  | err e => simp
  | ub => simp
  | stuck => exact absurd h this

/-- **C20**, partial: a line without the character `$` yields a Boolean function or a reported error. -/
theorem C20_no_buffer_partial (tab : VarTable) (allowed : List VarType) (cap : Nat) (order : List Char → Bool)
    (line : List Char) (h : '$' ∉ line) :
    (∃ b, parseFormula (B := B) tab allowed cap order line = .ok (some b)) ∨
      ∃ e, parseFormula (B := B) tab allowed cap order line = .err e := by
  rw [parseFormula]
  rcases parse_no_dollar (B := B) tab allowed cap order (line.length + 1) line (Nat.lt_succ_self _) h with
    ⟨v, r, e⟩ | ⟨e, he⟩
  · rw [e]
    by_cases hr : (readWord r).1 = []
    · exact .inl ⟨v, by simp [hr]⟩
    · exact .inr ⟨.strayCharacters, by simp [hr]⟩
  · rw [he]; exact .inr ⟨e, rfl⟩

/-- **C20**, partial: a line that is the text of a well-formed formula yields a Boolean function or a reported error. -/
theorem C20_well_formed_partial (tab : VarTable) (allowed : List VarType) (cap : Nat) (order : List Char → Bool)
    (line : List Char) (φ : Fml) (h : ReadsLine line φ) (hwf : φ.Wf 0) :
    (∃ b, parseFormula (B := B) tab allowed cap order line = .ok (some b)) ∨
      ∃ e, parseFormula (B := B) tab allowed cap order line = .err e := by
  rw [parseFormula]
  obtain ⟨rest, h1, h2⟩ := h
  rcases parse_wf (B := B) tab allowed cap order (line.length + 1) φ [] 0 line rest (Nat.lt_succ_self _) h1
    (by simpa using hwf) with ⟨v, e⟩ | ⟨e, he⟩
  · simp only [memOf, List.map_nil, List.replicate_zero, List.append_nil] at e
    rw [e]
    exact .inl ⟨v, by simp [readWord_nil.mpr h2]⟩
  · simp only [memOf, List.map_nil, List.replicate_zero, List.append_nil] at he
    rw [he]; exact .inr ⟨e, rfl⟩

example : ReadsLine demoFml.text demoFml ∧ demoFml.Wf 0 := by
  have hw : demoFml.Wf 0 := by simp [demoFml, Fml.Wf, Fml.WfBuffer]
  exact ⟨⟨[], (Spells.joinWords _ (Fml.words_good demoFml (by decide))).reads demoFml 0 (by decide) (by decide) hw
    (by decide), by simp⟩, hw⟩

/-! ### C34 -/

/-- **C34.** The contract can be met: ordered reduced decision diagrams implement it, and in them (as in every implementation
of the contract) every Boolean function of finitely many variables has exactly one representation. -/
theorem C34_contract_met :
    (∃ (B : Type) (_ : DecidableEq B) (L : BddLib B), (∀ b : B, ∃ n, DependsBelow n (L.eval b)) ∧
      ∃ t : B → BDT, (∀ b, (t b).ok 0) ∧ (∀ b a, (t b).eval a = L.eval b a) ∧ (∀ b b', t b = t b' → b = b')) ∧
    ∀ (B : Type) [DecidableEq B] [L : BddLib B] (n : Nat) (f : Asg → Bool), DependsBelow n f →
      ∃ b : B, (∀ a, L.eval b a = f a) ∧ ∀ b' : B, (∀ a, L.eval b' a = f a) → b' = b := by
  refine ⟨⟨ROBDD, inferInstance, inferInstance, fun b => BDT.finite_support b.1, fun b => b.1, fun b => b.2,
    fun _ _ => rfl, fun _ _ h => Subtype.ext h⟩, ?_⟩
  intro B _ L n f hf
  obtain ⟨b, hb⟩ := exists_bdd (B := B) n f hf
  exact ⟨b, hb, fun b' hb' => L.eval_inj _ _ fun v => by rw [hb, hb']⟩

/-- A function to which `C34_contract_met` applies. -/
example : DependsBelow 2 (fun a => a 0 != a 1) := fun a a' h => by
  simp only [h 0 (by decide), h 1 (by decide)]

end Slugs.Props
