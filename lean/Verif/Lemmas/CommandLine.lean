import Verif.Model.CommandLine
import Verif.Spec.CommandLine

/-! Lemmas about the command line. -/

namespace Slugs.Model

open Slugs.Spec

/-! ### The set of options -/

theorem strLt_irrefl (a : List Char) : strLt a a = false := by
  induction a with
  | nil => rfl
  | cons c a ih => rw [strLt, if_neg (by omega), if_pos rfl, ih]

theorem strLt_trans : ∀ {a b c : List Char}, strLt a b = true → strLt b c = true → strLt a c = true := by
  intro a
  induction a with
  | nil =>
    intro b c h1 h2
    cases b with
    | nil => cases h1
    | cons y b =>
      cases c with
      | nil => cases h2
      | cons z c => rfl
  | cons x a ih =>
    intro b c h1 h2
    cases b with
    | nil => cases h1
    | cons y b =>
      cases c with
      | nil => cases h2
      | cons z c =>
        rw [strLt] at h1 h2 ⊢
        split at h1
        · split at h2
          · rw [if_pos (by omega)]
          · split at h2
            · rw [if_pos (by omega)]
            · cases h2
        · split at h1
          · split at h2
            · rw [if_pos (by omega)]
            · split at h2
              · rw [if_neg (by omega), if_pos (by omega)]
                exact ih h1 h2
              · cases h2
          · cases h1

theorem strLt_tri : ∀ (a b : List Char), strLt a b = true ∨ a = b ∨ strLt b a = true := by
  intro a
  induction a with
  | nil =>
    intro b
    cases b with
    | nil => exact .inr (.inl rfl)
    | cons y b => exact .inl rfl
  | cons x a ih =>
    intro b
    cases b with
    | nil => exact .inr (.inr rfl)
    | cons y b =>
      rw [strLt, strLt]
      rcases Nat.lt_trichotomy x.val.toNat y.val.toNat with h | h | h
      · exact .inl (if_pos h)
      · rw [if_neg (by omega), if_pos h, if_neg (by omega), if_pos h.symm]
        have : x = y := Char.ext (UInt32.toNat_inj.mp h)
        subst this
        rcases ih b with h1 | h1 | h1
        · exact .inl h1
        · exact .inr (.inl (by rw [h1]))
        · exact .inr (.inr h1)
      · exact .inr (.inr (if_pos h))

/-- The elements of a set, in the order in which they are visited. -/
def SetOrder (l : List (List Char)) : Prop := l.Pairwise fun a b => strLt a b = true

theorem mem_setInsert {a x : List Char} : ∀ {l : List (List Char)}, x ∈ setInsert a l ↔ x = a ∨ x ∈ l := by
  intro l
  induction l with
  | nil => simp [setInsert]
  | cons b l ih =>
    rw [setInsert]
    split
    · exact List.mem_cons
    · split
      · rename_i h; subst h; simp
      · rw [List.mem_cons, ih, List.mem_cons]; tauto

theorem setInsert_order {a : List Char} : ∀ {l : List (List Char)}, SetOrder l → SetOrder (setInsert a l) := by
  intro l
  induction l with
  | nil => intro _; exact List.pairwise_singleton _ _
  | cons b l ih =>
    intro h
    rw [setInsert]
    obtain ⟨h1, h2⟩ := List.pairwise_cons.mp h
    split
    · rename_i hab
      refine List.pairwise_cons.mpr ⟨fun x hx => ?_, h⟩
      rcases List.mem_cons.mp hx with rfl | hx
      · exact hab
      · exact strLt_trans hab (h1 x hx)
    · split
      · exact h
      · rename_i h3 h4
        refine List.pairwise_cons.mpr ⟨fun x hx => ?_, ih h2⟩
        rcases mem_setInsert.mp hx with rfl | hx
        · rcases strLt_tri x b with h5 | h5 | h5
          · exact absurd h5 h3
          · exact absurd h5 h4
          · exact h5
        · exact h1 x hx

/-- A set has one order. -/
theorem SetOrder.unique : ∀ {l l' : List (List Char)}, SetOrder l → SetOrder l' → (∀ x, x ∈ l ↔ x ∈ l') → l = l' := by
  intro l
  induction l with
  | nil =>
    intro l' _ _ h
    cases l' with
    | nil => rfl
    | cons b l' => exact absurd ((h b).mpr List.mem_cons_self) List.not_mem_nil
  | cons a l ih =>
    intro l' h1 h2 h
    cases l' with
    | nil => exact absurd ((h a).mp List.mem_cons_self) List.not_mem_nil
    | cons b l' =>
      obtain ⟨g1, g2⟩ := List.pairwise_cons.mp h1
      obtain ⟨g3, g4⟩ := List.pairwise_cons.mp h2
      have hab : a = b := by
        rcases List.mem_cons.mp ((h a).mp List.mem_cons_self) with e | e
        · exact e
        rcases List.mem_cons.mp ((h b).mpr List.mem_cons_self) with e' | e'
        · exact e'.symm
        have := strLt_trans (g1 b e') (g3 a e)
        rw [strLt_irrefl] at this; cases this
      subst hab
      refine congrArg _ (ih g2 g4 fun x => ⟨fun hx => ?_, fun hx => ?_⟩)
      · rcases List.mem_cons.mp ((h x).mp (List.mem_cons_of_mem _ hx)) with e | e
        · subst e; have := g1 x hx; rw [strLt_irrefl] at this; cases this
        · exact e
      · rcases List.mem_cons.mp ((h x).mpr (List.mem_cons_of_mem _ hx)) with e | e
        · subst e; have := g3 x hx; rw [strLt_irrefl] at this; cases this
        · exact e

/-! ### The arguments -/

theorem known_iff (a : List Char) : commandLineArguments.any (fun o => o = a) = true ↔ ∃ o : Opt, a = o.text := by
  rw [List.any_eq_true]
  constructor
  · rintro ⟨x, hx, e⟩
    have e : x = a := of_decide_eq_true e
    subst e
    have : ∀ x ∈ commandLineArguments, ∃ o : Opt, x = o.text := by
      simp only [commandLineArguments, List.forall_mem_cons]
      exact ⟨⟨.explicitStrategy, rfl⟩, ⟨.symbolicStrategy, rfl⟩, ⟨.simpleSymbolicStrategy, rfl⟩, ⟨.jsonOutput, rfl⟩, ⟨.sysInitRoboticsSemantics, rfl⟩,
        ⟨.computeWeakenedSafetyAssumptions, rfl⟩, ⟨.biasForAction, rfl⟩, ⟨.computeCNFFormOfTheSpecification, rfl⟩, ⟨.counterStrategy, rfl⟩,
        ⟨.simpleRecovery, rfl⟩, ⟨.fixedPointRecycling, rfl⟩, ⟨.interactiveStrategy, rfl⟩, ⟨.irosFastSlow, rfl⟩, ⟨.analyzeInterleaving, rfl⟩,
        ⟨.analyzeInitialPositions, rfl⟩, ⟨.restrictToReachableStates, rfl⟩, ⟨.analyzeAssumptions, rfl⟩, ⟨.analyzeSafetyLivenessInteraction, rfl⟩,
        ⟨.computeInterestingRunOfTheSystem, rfl⟩, ⟨.computeAbstractWinningTrace, rfl⟩, ⟨.extractExplicitPermissiveStrategy, rfl⟩,
        ⟨.computeIncompleteInformationEstimator, rfl⟩, ⟨.nonDeterministicMotion, rfl⟩, ⟨.twoDimensionalCost, rfl⟩, ⟨.cooperativeGR1Strategy, rfl⟩,
        by simp⟩
    exact this x hx
  · rintro ⟨o, rfl⟩
    refine ⟨o.text, ?_, by simp⟩
    cases o <;> decide

theorem text_isOption (o : Opt) : isOption o.text = true := by cases o <;> rfl

theorem text_inj {o o' : Opt} (h : o.text = o'.text) : o = o' := by
  cases o <;> cases o' <;> first | rfl | (revert h; decide)

/-- What the loop over the arguments yields. -/
theorem parseArgs_spec : ∀ (args ps fs : List (List Char)), SetOrder ps →
    (∃ a ∈ args, isOption a = true ∧ (∀ o : Opt, a ≠ o.text) ∧ parseArgs args ps fs = .inl a) ∨
    ((∀ a ∈ args, isOption a = true → ∃ o : Opt, a = o.text) ∧ ∃ ps', parseArgs args ps fs = .inr (ps', fs ++ fileNames args) ∧ SetOrder ps' ∧
      ∀ x, x ∈ ps' ↔ x ∈ ps ∨ (x ∈ args ∧ isOption x = true)) := by
  intro args
  induction args with
  | nil => intro ps fs h; exact .inr ⟨by simp, ps, by simp [parseArgs, fileNames], h, by simp⟩
  | cons a args ih =>
    intro ps fs h
    rw [parseArgs]
    by_cases h1 : a.head? = some '-'
    · have ho : isOption a = true := by simp [isOption, h1]
      rw [if_pos h1]
      by_cases h2 : commandLineArguments.any (fun o => o = a) = true
      · rw [if_pos h2]
        rcases ih (setInsert a ps) fs (setInsert_order h) with ⟨b, g1, g2, g3, g4⟩ | ⟨g1, ps', g2, g3, g4⟩
        · exact .inl ⟨b, List.mem_cons_of_mem _ g1, g2, g3, g4⟩
        · refine .inr ⟨fun b hb hb' => ?_, ps', ?_, g3, fun x => ?_⟩
          · rcases List.mem_cons.mp hb with rfl | hb
            · exact (known_iff b).mp h2
            · exact g1 b hb hb'
          · rw [g2, fileNames, fileNames, List.filter_cons_of_neg (by simp [ho])]
          · rw [g4, mem_setInsert, List.mem_cons]
            constructor
            · rintro ((rfl | hx) | hx)
              · exact .inr ⟨.inl rfl, ho⟩
              · exact .inl hx
              · exact .inr ⟨.inr hx.1, hx.2⟩
            · rintro (hx | ⟨rfl | hx, hx'⟩)
              · exact .inl (.inr hx)
              · exact .inl (.inl rfl)
              · exact .inr ⟨hx, hx'⟩
      · rw [if_neg h2]
        exact .inl ⟨a, List.mem_cons_self, ho, fun o e => h2 ((known_iff a).mpr ⟨o, e⟩), rfl⟩
    · have ho : isOption a = false := by simp [isOption, h1]
      rw [if_neg h1]
      rcases ih ps (fs ++ [a]) h with ⟨b, g1, g2, g3, g4⟩ | ⟨g1, ps', g2, g3, g4⟩
      · exact .inl ⟨b, List.mem_cons_of_mem _ g1, g2, g3, g4⟩
      · refine .inr ⟨fun b hb hb' => ?_, ps', ?_, g3, fun x => ?_⟩
        · rcases List.mem_cons.mp hb with rfl | hb
          · rw [ho] at hb'; cases hb'
          · exact g1 b hb hb'
        · rw [g2, fileNames, fileNames, List.filter_cons_of_pos (by simp [ho]), List.append_assoc]; rfl
        · rw [g4, List.mem_cons]
          constructor
          · rintro (hx | hx)
            · exact .inl hx
            · exact .inr ⟨.inr hx.1, hx.2⟩
          · rintro (hx | ⟨rfl | hx, hx'⟩)
            · exact .inl hx
            · rw [ho] at hx'; cases hx'
            · exact .inr ⟨hx, hx'⟩

/-! ### The table -/

/-- Options contain no blanks. -/
def NoBlank (w : List Char) : Prop := w ≠ [] ∧ ' ' ∉ w

theorem text_noBlank (o : Opt) : NoBlank o.text := by
  cases o <;> exact ⟨by decide, by decide⟩

theorem append_blank_inj : ∀ {a b u v : List Char}, ' ' ∉ a → ' ' ∉ b → a ++ ' ' :: u = b ++ ' ' :: v → a = b ∧ u = v := by
  intro a
  induction a with
  | nil =>
    intro b u v _ h2 h
    cases b with
    | nil => simp only [List.nil_append, List.cons.injEq, true_and] at h; exact ⟨rfl, h⟩
    | cons c b =>
      simp only [List.nil_append, List.cons_append, List.cons.injEq] at h
      exact absurd (List.mem_cons.mpr (.inl h.1)) h2
  | cons c a ih =>
    intro b u v h1 h2 h
    cases b with
    | nil =>
      simp only [List.nil_append, List.cons_append, List.cons.injEq] at h
      exact absurd (List.mem_cons.mpr (.inl h.1.symm)) h1
    | cons d b =>
      simp only [List.cons_append, List.cons.injEq] at h
      obtain ⟨e1, e2⟩ := ih (fun hh => h1 (List.mem_cons_of_mem _ hh)) (fun hh => h2 (List.mem_cons_of_mem _ hh)) h.2
      exact ⟨by rw [h.1, e1], e2⟩

theorem joinParameters_cons (a b : List Char) (l : List (List Char)) : joinParameters (a :: b :: l) = a ++ ' ' :: joinParameters (b :: l) := rfl

theorem joinParameters_inj : ∀ {l l' : List (List Char)}, (∀ w ∈ l, NoBlank w) → (∀ w ∈ l', NoBlank w) → joinParameters l = joinParameters l' → l = l' := by
  intro l
  induction l with
  | nil =>
    intro l' _ h2 h
    cases l' with
    | nil => rfl
    | cons b l' =>
      have hb := (h2 b List.mem_cons_self).1
      cases l' with
      | nil => exact absurd h.symm hb
      | cons c l' => rw [joinParameters_cons] at h; simp [joinParameters] at h
  | cons a l ih =>
    intro l' h1 h2 h
    have ha := h1 a List.mem_cons_self
    cases l' with
    | nil =>
      cases l with
      | nil => exact absurd h ha.1
      | cons c l => rw [joinParameters_cons] at h; simp [joinParameters] at h
    | cons b l' =>
      have hb := h2 b List.mem_cons_self
      cases l with
      | nil =>
        cases l' with
        | nil => simp only [joinParameters] at h; rw [h]
        | cons c l' =>
          rw [joinParameters_cons] at h
          simp only [joinParameters] at h
          exact absurd (h ▸ List.mem_append_right b List.mem_cons_self) ha.2
      | cons c l =>
        cases l' with
        | nil =>
          rw [joinParameters_cons] at h
          simp only [joinParameters] at h
          exact absurd (h ▸ List.mem_append_right a List.mem_cons_self) hb.2
        | cons d l' =>
          rw [joinParameters_cons, joinParameters_cons] at h
          obtain ⟨e1, e2⟩ := append_blank_inj ha.2 hb.2 h
          rw [e1, ih (fun w hw => h1 w (List.mem_cons_of_mem _ hw)) (fun w hw => h2 w (List.mem_cons_of_mem _ hw)) e2]

/-- The options as a set. -/
def optionSet (os : List Opt) : List (List Char) := os.foldr (fun o l => setInsert o.text l) []

theorem optionSet_order : ∀ os, SetOrder (optionSet os) := by
  intro os
  induction os with
  | nil => exact List.Pairwise.nil
  | cons o os ih => exact setInsert_order ih

theorem mem_optionSet {x : List Char} : ∀ {os : List Opt}, x ∈ optionSet os ↔ ∃ o ∈ os, x = o.text := by
  intro os
  induction os with
  | nil => simp [optionSet]
  | cons o os ih =>
    rw [optionSet, List.foldr_cons, mem_setInsert]
    rw [optionSet] at ih
    rw [ih]; simp

/-- The class for a base algorithm; the two-dimensional cost has its own version of the initialisation semantics. -/
def algPlugin : Alg → (robotics recovery : Bool) → Plugin
  | .standard, rob, _ => if rob then .robotics .gr1 else .gr1
  | .bias, rob, _ => if rob then .robotics (.bias .gr1) else .bias .gr1
  | .recycling, rob, _ => if rob then .robotics (.recycling .gr1) else .recycling .gr1
  | .cooperative, rob, _ => if rob then .robotics (.cooperative .gr1) else .cooperative .gr1
  | .fastSlow, rob, _ => if rob then .robotics (.fastSlow .gr1) else .fastSlow .gr1
  | .twoDim, rob, rec => .twoDim .gr1 rob rec

/-- The class that performs a mode. -/
def modePlugin : Mode → Plugin
  | .synthesis alg (.verdict rob) => algPlugin alg rob false
  | .synthesis alg (.explicit rec json rob) => .explicit (algPlugin alg rob rec) rec json
  | .synthesis alg (.symbolic rec simple rob) => .symbolic (algPlugin alg rob rec) rec simple
  | .synthesis alg (.permissive rob) => .permissive (algPlugin alg rob false) false
  | .synthesis alg .interactive => .interactive (algPlugin alg false false)
  | .motion rob => .motion .gr1 rob
  | .motionInteractive => .interactive (.motion .gr1 false)
  | .counter rob => .explicitCounter (.counter .gr1 rob)
  | .initialPositions restrict => .initialPositions .gr1 restrict
  | .assumptions => .assumptions .gr1
  | .interleaving => .interleave .gr1
  | .interaction => .interaction .gr1
  | .trace => .trace .gr1
  | .cnf => .cnf .gr1
  | .estimator => .estimator .gr1
  | .run => .run .gr1
  | .weakened => .weakened .gr1

def bools : List Bool := [false, true]

/-- All modes. -/
def allModes : List Mode :=
  ([.standard, .bias, .recycling, .cooperative, .fastSlow, .twoDim].flatMap fun alg =>
    (bools.map fun a => Mode.synthesis alg (.verdict a)) ++ (bools.flatMap fun a => bools.flatMap fun b => bools.map fun c => .synthesis alg (.explicit a b c)) ++
    (bools.flatMap fun a => bools.flatMap fun b => bools.map fun c => .synthesis alg (.symbolic a b c)) ++ (bools.map fun a => .synthesis alg (.permissive a)) ++
    [.synthesis alg .interactive]) ++
  bools.map .motion ++ [.motionInteractive] ++ bools.map .counter ++ bools.map .initialPositions ++
  [.assumptions, .interleaving, .interaction, .trace, .cnf, .estimator, .run, .weakened]

theorem mem_allModes (m : Mode) : m ∈ allModes := by
  cases m with
  | synthesis alg use =>
    cases use with
    | verdict a => cases alg <;> cases a <;> decide
    | explicit a b c => cases alg <;> cases a <;> cases b <;> cases c <;> decide
    | symbolic a b c => cases alg <;> cases a <;> cases b <;> cases c <;> decide
    | permissive a => cases alg <;> cases a <;> decide
    | interactive => cases alg <;> decide
  | motion a => cases a <;> decide
  | counter a => cases a <;> decide
  | initialPositions a => cases a <;> decide
  | _ => decide

/-- Each available mode is in the table. -/
theorem table_complete (m : Mode) (hm : m.available) : findCombination (joinParameters (optionSet m.options)) optionCombinations = some (modePlugin m) := by
  have : ∀ m ∈ allModes, m.available → findCombination (joinParameters (optionSet m.options)) optionCombinations = some (modePlugin m) := by
    decide +kernel
  exact this m (mem_allModes m) hm

/-- Each entry of the table belongs to an available mode. -/
theorem table_sound : ∀ e ∈ optionCombinations, ∃ m : Mode, m.available ∧ e = (joinParameters (optionSet m.options), modePlugin m) := by
  have : ∀ e ∈ optionCombinations, ∃ m ∈ allModes, m.available ∧ e = (joinParameters (optionSet m.options), modePlugin m) := by decide +kernel
  intro e he
  obtain ⟨m, _, h⟩ := this e he
  exact ⟨m, h⟩

theorem findCombination_mem {t : List Char} {p : Plugin} : ∀ {l : List (List Char × Plugin)}, findCombination t l = some p → (t, p) ∈ l := by
  intro l
  induction l with
  | nil => intro h; cases h
  | cons e l ih =>
    obtain ⟨a, q⟩ := e
    intro h
    rw [findCombination] at h
    split at h
    · rename_i hh; cases h; rw [hh]; exact List.mem_cons_self
    · exact List.mem_cons_of_mem _ (ih h)

end Slugs.Model
