import Verif.Lemmas.CommandLine

/-!
# C25 and C37: the command line

`runMain args` is the model of `main` up to the call of `execute`.  `Spec/CommandLine.lean` lists the options and the modes that can be requested with them;
`modePlugin m` is the class that performs mode `m`.
-/

namespace Slugs.Props

open Slugs.Spec Slugs.Model

/-- What `main` does with the file names after the class has been selected. -/
def afterSelection (p : Plugin) (names : List (List Char)) : MainOutcome :=
  match construct p { filenames := names } with
  | .ok s =>
    match initFiles p s with
    | .ok s => if s.filenames.length > 0 then .tooManyNames else .run p s.spec s.second s.output
    | .err e => .fileError e
    | _ => .ub
  | .err e => .fileError e
  | _ => .ub

theorem afterSelection_ne (p : Plugin) (names : List (List Char)) :
    (∀ a, afterSelection p names ≠ .unknownOption a) ∧ afterSelection p names ≠ .notPermissible ∧
    ∀ q a b c, afterSelection p names = .run q a b c → q = p := by
  rw [afterSelection]
  repeat' split
  all_goals refine ⟨fun a h => ?_, fun h => ?_, fun q a b c h => ?_⟩
  all_goals cases h
  rfl

theorem runMain_cases (args : List (List Char)) :
    (∃ a ∈ args, isOption a = true ∧ (∀ o : Opt, a ≠ o.text) ∧ runMain args = .unknownOption a) ∨
    ((∀ a ∈ args, isOption a = true → ∃ o : Opt, a = o.text) ∧
      ((∃ m : Mode, m.available ∧ m.Requested args ∧ runMain args = afterSelection (modePlugin m) (fileNames args)) ∨
       ((¬ ∃ m : Mode, m.available ∧ m.Requested args) ∧ runMain args = .notPermissible))) := by
  rcases parseArgs_spec args [] [] List.Pairwise.nil with ⟨a, h1, h2, h3, h4⟩ | ⟨h1, ps, h2, h3, h4⟩
  · exact .inl ⟨a, h1, h2, h3, by rw [runMain, h4]⟩
  · refine .inr ⟨h1, ?_⟩
    have hreq : ∀ m : Mode, m.Requested args ↔ ps = optionSet m.options := by
      intro m
      constructor
      · intro h
        refine SetOrder.unique h3 (optionSet_order _) fun x => ?_
        rw [h4, mem_optionSet, ← h x]
        simp
      · rintro rfl x
        rw [← mem_optionSet, h4]
        simp
    have hnb : ∀ w ∈ ps, NoBlank w := fun w hw => by
      rcases (h4 w).mp hw with h | ⟨h, h'⟩
      · cases h
      · obtain ⟨o, rfl⟩ := h1 w h h'; exact text_noBlank o
    rw [List.nil_append] at h2
    cases hf : findCombination (joinParameters ps) optionCombinations with
    | none =>
      refine .inr ⟨?_, by rw [runMain, h2]; simp only; rw [hf]⟩
      rintro ⟨m, hm, hr⟩
      rw [(hreq m).mp hr, table_complete m hm] at hf
      cases hf
    | some p =>
      obtain ⟨m, hm, he⟩ := table_sound _ (findCombination_mem hf)
      rw [Prod.mk.injEq] at he
      have : ps = optionSet m.options := joinParameters_inj hnb (fun w hw => by
        obtain ⟨o, _, rfl⟩ := mem_optionSet.mp hw; exact text_noBlank o) he.1
      refine .inl ⟨m, hm, (hreq m).mpr this, ?_⟩
      rw [runMain, h2]
      simp only
      rw [hf, he.2]
      rfl

/-! ### C25 -/

/-- Different modes are requested with different options. -/
theorem requested_unique {m m' : Mode} {args : List (List Char)} (h : m.Requested args) (h' : m'.Requested args) (ha : m.available) (ha' : m'.available) :
    modePlugin m = modePlugin m' := by
  have e : optionSet m.options = optionSet m'.options := SetOrder.unique (optionSet_order _) (optionSet_order _) fun x => by
    rw [mem_optionSet, mem_optionSet, ← h x, ← h' x]
  have h1 := table_complete m ha
  rw [e, table_complete m' ha'] at h1
  exact (Option.some.inj h1).symm

/-- **C25**, unknown options: exactly the argument lists with an unknown option are rejected with the message that an option is unknown, and the message names one of
the unknown options. -/
theorem C25_unknown (args : List (List Char)) :
    ((∃ a ∈ args, isOption a = true ∧ ∀ o : Opt, a ≠ o.text) ↔ ∃ a, runMain args = .unknownOption a) ∧
    ∀ a, runMain args = .unknownOption a → a ∈ args ∧ isOption a = true ∧ ∀ o : Opt, a ≠ o.text := by
  rcases runMain_cases args with ⟨a, h1, h2, h3, h4⟩ | ⟨h1, h2⟩
  · refine ⟨⟨fun _ => ⟨a, h4⟩, fun _ => ⟨a, h1, h2, h3⟩⟩, fun b hb => ?_⟩
    rw [h4] at hb; cases hb
    exact ⟨h1, h2, h3⟩
  · have hne : ∀ a, runMain args ≠ .unknownOption a := by
      intro a h
      rcases h2 with ⟨m, _, _, h3⟩ | ⟨_, h3⟩
      · exact (afterSelection_ne _ _).1 a (h3 ▸ h)
      · rw [h3] at h; cases h
    refine ⟨⟨fun ⟨a, g1, g2, g3⟩ => ?_, fun ⟨a, h⟩ => absurd h (hne a)⟩, fun a h => absurd h (hne a)⟩
    obtain ⟨o, ho⟩ := h1 a g1 g2
    exact absurd ho (g3 o)

/-- **C25**, unsupported combinations: known options are rejected exactly if they are not the options of a mode. -/
theorem C25_unsupported (args : List (List Char)) :
    runMain args = .notPermissible ↔
      (∀ a ∈ args, isOption a = true → ∃ o : Opt, a = o.text) ∧ ¬ ∃ m : Mode, m.available ∧ m.Requested args := by
  rcases runMain_cases args with ⟨a, h1, h2, h3, h4⟩ | ⟨h1, ⟨m, hm, hr, h2⟩ | ⟨h2, h3⟩⟩
  · refine ⟨fun h => ?_, fun h => ?_⟩
    · rw [h4] at h; cases h
    · obtain ⟨o, ho⟩ := h.1 a h1 h2; exact absurd ho (h3 o)
  · refine ⟨fun h => ?_, fun h => absurd ⟨m, hm, hr⟩ h.2⟩
    exact absurd (h2 ▸ h) (afterSelection_ne _ _).2.1
  · exact ⟨fun _ => ⟨h1, h2⟩, fun _ => h3⟩

/-- **C25**, what is run: a run performs the mode whose options are exactly those given, so no option is ignored. -/
theorem C25_no_option_ignored {args : List (List Char)} {p : Plugin} {spec output : List Char} {second : Option (List Char)}
    (h : runMain args = .run p spec second output) :
    ∃ m : Mode, m.available ∧ m.Requested args ∧ p = modePlugin m := by
  rcases runMain_cases args with ⟨a, h1, h2, h3, h4⟩ | ⟨h1, ⟨m, hm, hr, h2⟩ | ⟨h2, h3⟩⟩
  · rw [h4] at h; cases h
  · rw [h2] at h
    exact ⟨m, hm, hr, (afterSelection_ne _ _).2.2 _ _ _ _ h⟩
  · rw [h3] at h; cases h

/-- **C25**, order, repetition and position of options are irrelevant. -/
theorem C25_order_irrelevant {args args' : List (List Char)} (h : ∀ a, isOption a = true → (a ∈ args ↔ a ∈ args'))
    (hf : fileNames args = fileNames args') :
    runMain args = runMain args' ∨ ∃ a a', runMain args = .unknownOption a ∧ runMain args' = .unknownOption a' := by
  have hr : ∀ m : Mode, m.Requested args ↔ m.Requested args' := fun m => forall_congr' fun a => by
    have : (a ∈ args ∧ isOption a = true) ↔ (a ∈ args' ∧ isOption a = true) := and_congr_left (h a)
    rw [this]
  rcases runMain_cases args with ⟨a, h1, h2, h3, h4⟩ | ⟨h1, h2⟩
  · obtain ⟨a', h5⟩ := (C25_unknown args').1.mp ⟨a, (h a h2).mp h1, h2, h3⟩
    exact .inr ⟨a, a', h4, h5⟩
  · rcases runMain_cases args' with ⟨a', g1, g2, g3, g4⟩ | ⟨g1, g2⟩
    · obtain ⟨o, ho⟩ := h1 a' ((h a' g2).mpr g1) g2
      exact absurd ho (g3 o)
    · rcases h2 with ⟨m, hm, h3, h4⟩ | ⟨h3, h4⟩
      · rcases g2 with ⟨m', hm', g3, g4⟩ | ⟨g3, _⟩
        · left
          rw [h4, g4, hf, requested_unique ((hr m).mp h3) g3 hm hm']
        · exact absurd ⟨m, hm, (hr m).mp h3⟩ g3
      · rcases g2 with ⟨m', hm', g3, _⟩ | ⟨_, g4⟩
        · exact absurd ⟨m', hm', (hr m').mpr g3⟩ h3
        · left; rw [h4, g4]

/-! ### C37 -/

theorem runMain_mode {args : List (List Char)} {m : Mode} (hm : m.available) (hr : m.Requested args) :
    runMain args = afterSelection (modePlugin m) (fileNames args) := by
  rcases runMain_cases args with ⟨a, h1, h2, h3, _⟩ | ⟨_, ⟨m', hm', hr', h2⟩ | ⟨h2, _⟩⟩
  · obtain ⟨o, _, ho⟩ := (hr a).mp ⟨h1, h2⟩
    exact absurd ho (h3 o)
  · rw [h2, requested_unique hr' hr hm' hm]
  · exact absurd ⟨m, hm, hr⟩ h2

/-- What should happen with the file names. -/
def expected (m : Mode) (names : List (List Char)) : MainOutcome → Prop := fun r =>
  if names.length < m.inputs + (if m.mustWrite then 1 else 0) then ∃ e, r = .fileError e
  else if m.inputs + (if m.mayWrite then 1 else 0) < names.length then r = .tooManyNames
  else r = .run (modePlugin m) (names.getD 0 []) (if m.inputs = 2 then names[1]? else none) (names.getD m.inputs [])

theorem afterSelection_expected (m : Mode) (hm : ∀ rob, m ≠ .counter rob) (names : List (List Char)) :
    expected m names (afterSelection (modePlugin m) names) := by
  have big : ∀ n : Nat, ¬ n + 1 + 1 + 1 + 1 < 2 ∧ ¬ n + 1 + 1 + 1 + 1 < 1 ∧ ¬ n + 1 + 1 + 1 + 1 < 3 ∧ 2 < n + 1 + 1 + 1 + 1 ∧ 1 < n + 1 + 1 + 1 + 1 ∧
    3 < n + 1 + 1 + 1 + 1 := fun n => by omega
  rcases names with _ | ⟨a, _ | ⟨b, _ | ⟨c, _ | ⟨d, names⟩⟩⟩⟩
  all_goals cases m with
    | synthesis alg use =>
      cases use with
      | verdict x =>
        cases alg <;> cases x <;>
          simp [expected, afterSelection, modePlugin, algPlugin, construct, initFiles, takeSpec, Mode.inputs, Mode.mayWrite, Mode.mustWrite, big]
      | explicit x y z =>
        cases alg <;> cases z <;>
          simp [expected, afterSelection, modePlugin, algPlugin, construct, initFiles, takeSpec, Mode.inputs, Mode.mayWrite, Mode.mustWrite, big]
      | symbolic x y z =>
        cases alg <;> cases z <;>
          simp [expected, afterSelection, modePlugin, algPlugin, construct, initFiles, takeSpec, Mode.inputs, Mode.mayWrite, Mode.mustWrite, big]
      | permissive x =>
        cases alg <;> cases x <;>
          simp [expected, afterSelection, modePlugin, algPlugin, construct, initFiles, takeSpec, Mode.inputs, Mode.mayWrite, Mode.mustWrite, big]
      | interactive =>
        cases alg <;>
          simp [expected, afterSelection, modePlugin, algPlugin, construct, initFiles, takeSpec, Mode.inputs, Mode.mayWrite, Mode.mustWrite, big]
    | counter rob => exact absurd rfl (hm rob)
    | _ =>
      simp [expected, afterSelection, modePlugin, algPlugin, construct, initFiles, takeSpec, Mode.inputs, Mode.mayWrite, Mode.mustWrite, big]

/-- **C37** (without counterstrategies).  The first file name is the specification, the second one is the second input file in the modes that need one, and the next
one, if the mode can write a file, is the name of the file that is written; too few and too many names are rejected. -/
theorem C37_file_names_partial {args : List (List Char)} {m : Mode} (hm : m.available) (hr : m.Requested args) (hc : ∀ rob, m ≠ .counter rob) :
    expected m (fileNames args) (runMain args) := by
  rw [runMain_mode hm hr]
  exact afterSelection_expected m hc _

/-- **C37**, counterstrategies: what happens instead. -/
theorem C37_counterstrategy {args : List (List Char)} {rob : Bool} (hr : (Mode.counter rob).Requested args) :
    (fileNames args = [] → runMain args = .ub) ∧
    (∀ a, fileNames args = [a] → runMain args = .run (modePlugin (.counter rob)) a none []) ∧
    (∀ a b, fileNames args = [a, b] → runMain args = .run (modePlugin (.counter rob)) b none a) ∧
    (∀ a b c l, fileNames args = a :: b :: c :: l → runMain args = .tooManyNames) := by
  rw [runMain_mode (m := .counter rob) trivial hr]
  refine ⟨fun h => ?_, fun a h => ?_, fun a b h => ?_, fun a b c l h => ?_⟩
  all_goals rw [h]
  all_goals simp [afterSelection, modePlugin, construct, initFiles, takeSpec]

/-! ### Concrete cases -/

/-- Options in any order, before and after the file names. -/
example : runMain [txt!"spec", txt!"--jsonOutput", txt!"out", txt!"--explicitStrategy", txt!"--jsonOutput"] =
    .run (.explicit .gr1 false true) txt!"spec" none txt!"out" := by decide +kernel

example : (Mode.synthesis .standard (.explicit false true false)).Requested [txt!"spec", txt!"--jsonOutput", txt!"out", txt!"--explicitStrategy", txt!"--jsonOutput"] := by
  intro a
  simp only [Mode.options, Alg.options, Use.options, Opt.when, List.mem_cons, List.not_mem_nil, or_false]
  constructor
  · rintro ⟨rfl | rfl | rfl | rfl | rfl, h⟩
    · exact absurd h (by decide)
    · exact ⟨.jsonOutput, by decide, rfl⟩
    · exact absurd h (by decide)
    · exact ⟨.explicitStrategy, by decide, rfl⟩
    · exact ⟨.jsonOutput, by decide, rfl⟩
  · rintro ⟨o, ho, rfl⟩
    have : o = .explicitStrategy ∨ o = .jsonOutput := by simpa using ho
    rcases this with rfl | rfl
    · exact ⟨by simp [Opt.text], by decide⟩
    · exact ⟨by simp [Opt.text], by decide⟩

example : runMain [txt!"spec", txt!"--help"] = .unknownOption txt!"--help" := by decide +kernel

example : runMain [txt!"--jsonOutput", txt!"spec"] = .notPermissible := by decide +kernel

example : runMain [txt!"spec", txt!"a", txt!"b", txt!"--twoDimensionalCost", txt!"--symbolicStrategy", txt!"c"] = .tooManyNames := by decide +kernel

example : runMain [txt!"spec", txt!"--symbolicStrategy"] = .fileError .noOutput := by decide +kernel

/-! ### A defect -/

/-- **C37** does not hold with `--counterStrategy`: with two file names the first one, which is the specification in all other modes, is the file that is
written, and without file names the behaviour is undefined. -/
theorem C37_violated_counterstrategy :
    runMain [txt!"--counterStrategy", txt!"spec", txt!"out"] = .run (modePlugin (.counter false)) txt!"out" none txt!"spec" ∧
    runMain [txt!"--counterStrategy"] = .ub ∧
    ¬ expected (.counter false) [txt!"spec", txt!"out"] (runMain [txt!"--counterStrategy", txt!"spec", txt!"out"]) ∧
    ¬ expected (.counter false) [] (runMain [txt!"--counterStrategy"]) := by
  have h1 : runMain [txt!"--counterStrategy", txt!"spec", txt!"out"] = .run (modePlugin (.counter false)) txt!"out" none txt!"spec" := by decide +kernel
  have h2 : runMain [txt!"--counterStrategy"] = .ub := by decide +kernel
  refine ⟨h1, h2, ?_, ?_⟩
  · rw [h1]; simp [expected, Mode.inputs, Mode.mayWrite, Mode.mustWrite]
  · rw [h2]; simp [expected, Mode.inputs, Mode.mayWrite, Mode.mustWrite]

end Slugs.Props
