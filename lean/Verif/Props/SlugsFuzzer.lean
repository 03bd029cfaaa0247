import Verif.Lemmas.SlugsFuzzerFile
import Verif.Props.LtlTranslators
import Verif.Props.CommandLine

/-!
C84: `tools/slugsFuzzer.py`.

Whatever the random choices are, the specification that is made up is translated, and the translation says the same as the formulas; and all formulas of the described shape can be
made up.  But slugs never gets to see any of them: the options and the name of the file are run together on its command line (`C84_aborts`).
-/

namespace Slugs.Props

open Slugs.Spec Slugs.Spec.LtlText Slugs.Model Slugs.Model.LtlText Slugs.Model.SlugsFuzzer
open Slugs.Model.AisyFuzzer (Draws several choice)

namespace SlugsFuzzer

/-- The variables in the specification. -/
def inputs : List Word := [txt!"in0", txt!"in1", txt!"in2"]
def outputs : List Word := [txt!"out0", txt!"out1", txt!"out2"]

/-- Assumptions and guarantees. -/
def Assumption (c : Ltl) : Prop := RandomSafety fuzzInputs c ∨ RandomLiveness c
def Guarantee (c : Ltl) : Prop := RandomSafety (fuzzInputs ++ fuzzOutputs) c ∨ RandomLiveness c

theorem apsInput_eq : apsInput = fuzzInputs := by decide +kernel
theorem apsOutput_eq : apsOutput = fuzzOutputs := by decide +kernel

theorem part_of {later : List Word} (hl : later ⊆ aps) {c : Ltl} (h : RandomSafety later c ∨ RandomLiveness c) : Part c := by
  rcases h with ⟨f, hf, rfl⟩ | ⟨f, hf, rfl⟩
  · exact ⟨f, later, hl, hf, .inl rfl⟩
  · exact ⟨f, [], by simp, hf, .inr ⟨rfl, rfl⟩⟩

theorem Assumption.part {c : Ltl} (h : Assumption c) : Part c := part_of (by simp [aps]) h
theorem Guarantee.part {c : Ltl} (h : Guarantee c) : Part c := part_of (by simp [aps]) h

theorem flatMap_always {fs : List Ltl} {now later : List Word} (h : ∀ f ∈ fs, Ltl.Random now later f) :
    (fs.map ltlText).flatMap always = (fs.map Ltl.globally).flatMap (fun c => txt!"  &  " ++ constraintText c ++ ['\n']) := by
  induction fs with
  | nil => rfl
  | cons f fs ih =>
    simp only [List.map_cons, List.flatMap_cons]
    rw [ih (fun g hg => h g (by simp [hg])), constraintText_always (h f (by simp))]
    simp [always]

theorem flatMap_infinitelyOften {fs : List Ltl} :
    (fs.map ltlText).flatMap infinitelyOften = (fs.map (fun f => Ltl.globally (.eventually f))).flatMap (fun c => txt!"  &  " ++ constraintText c ++ ['\n']) := by
  induction fs with
  | nil => rfl
  | cons f fs ih =>
    simp only [List.map_cons, List.flatMap_cons]
    rw [ih]
    simp [infinitelyOften, constraintText]

theorem parts_sound {depth : Nat} {initNow later : List Word} {ds ds' : Draws} {t : List Char} (hi : initNow ⊆ aps) (h : parts depth initNow aps later aps ds = some (t, ds')) :
    ∃ cs : List Ltl, (∀ c ∈ cs, RandomSafety later c ∨ RandomLiveness c) ∧ t = cs.flatMap (fun c => txt!"  &  " ++ constraintText c ++ ['\n']) := by
  rw [parts] at h
  split at h
  · cases h
  · rename_i t1 ds1 h1
    split at h
    · cases h
    · rename_i t2 ds2 h2
      split at h
      · cases h
      · rename_i t3 ds3 h3
        cases h
        obtain ⟨f1, p1, rfl⟩ := several_sound (P := Ltl.Random initNow []) (fun ds t ds' h => make_sound _ _ _ ds t ds' h) _ _ _ _ h1
        obtain ⟨f2, p2, rfl⟩ := several_sound (P := Ltl.Random aps later) (fun ds t ds' h => make_sound _ _ _ ds t ds' h) _ _ _ _ h2
        obtain ⟨f3, p3, rfl⟩ := several_sound (P := Ltl.Random aps []) (fun ds t ds' h => make_sound _ _ _ ds t ds' h) _ _ _ _ h3
        refine ⟨f1.map .globally ++ f2.map .globally ++ f3.map (fun f => .globally (.eventually f)), ?_, ?_⟩
        · intro c hc
          simp only [List.mem_append, List.mem_map] at hc
          rcases hc with (⟨f, hf, rfl⟩ | ⟨f, hf, rfl⟩) | ⟨f, hf, rfl⟩
          · exact .inl ⟨f, Random.mono (p1 f hf) hi (by simp), rfl⟩
          · exact .inl ⟨f, p2 f hf, rfl⟩
          · exact .inr ⟨f, p3 f hf, rfl⟩
        · rw [flatMap_always p1, flatMap_always p2, flatMap_infinitelyOften]
          simp only [List.flatMap_append]

theorem generate_sound {depth : Nat} {ds ds' : Draws} {ltl : List Char} (h : generate depth ds = some (ltl, ds')) :
    ∃ as gs : List Ltl, (∀ c ∈ as, Assumption c) ∧ (∀ c ∈ gs, Guarantee c) ∧ ltl = ltlFileOf as gs := by
  rw [generate, apsInput_eq, apsOutput_eq] at h
  split at h
  · cases h
  · rename_i t1 ds1 h1
    split at h
    · cases h
    · rename_i t2 ds2 h2
      cases h
      obtain ⟨as, p1, rfl⟩ := parts_sound (by simp [aps]) h1
      obtain ⟨gs, p2, rfl⟩ := parts_sound (by simp [aps]) h2
      exact ⟨as, gs, p1, p2, rfl⟩

theorem smv_decls : SmvDecls none (splitLines smvText) inputs outputs := by
  have h : splitLines smvText = [txt!"-- Skeleton SMV file", txt!"-- (Generated by the Fuzzer) ", [], txt!"MODULE main", txt!"    VAR", txt!"        e : env();", txt!"        s : sys();",
      [], txt!"MODULE env -- inputs", txt!"    VAR", txt!"\t\tin0 : boolean;", txt!"\t\tin1 : boolean;", txt!"\t\tin2 : boolean;", txt!"MODULE sys -- outputs", txt!"    VAR",
      txt!"\t\tout0 : boolean;", txt!"\t\tout1 : boolean;", txt!"\t\tout2 : boolean;"] := by decide +kernel
  rw [h]
  iterate 8 refine .skip (by decide +kernel) (by decide +kernel) (.inr rfl) ?_
  refine .env (by decide +kernel) (.skip (by decide +kernel) (by decide +kernel) (.inl (by decide +kernel)) ?_)
  iterate 3 refine .input (t := txt!"boolean;") (by decide +kernel) (by decide) (by decide) ?_
  refine .sys (by decide +kernel) (.skip (by decide +kernel) (by decide +kernel) (.inl (by decide +kernel)) ?_)
  iterate 3 refine .output (t := txt!"boolean;") (by decide +kernel) (by decide) (by decide) ?_
  exact .nil

theorem names_usable : UsableNames inputs outputs := by
  constructor
  · have : ∀ x ∈ inputs ++ outputs, x ≠ [] ∧ (∀ c ∈ x, isSpace c = false) ∧ x ∉ reserved ∧ x.head? ≠ some '#' ∧ x.head? ≠ some '[' := by decide +kernel
    exact this
  · decide +kernel

theorem drop_inputs : ∀ x ∈ fuzzInputs, x.drop 2 ∈ inputs := by decide +kernel
theorem drop_outputs : ∀ x ∈ fuzzOutputs, x.drop 2 ∈ outputs := by decide +kernel

/-- The formulas of a generated file have all the properties that the translation needs. -/
theorem conj_good {cs : List Ltl} {later : List Word} (hl : later ⊆ aps) (h : ∀ c ∈ cs, RandomSafety later c ∨ RandomLiveness c) :
    (∀ nx, (conj cs).Gr1 nx) ∧ (conj cs).Prefixed ∧ (conj cs).Positive ∧ (conj cs).conjuncts = .tt :: cs := by
  have hc : (conj cs).conjuncts = .tt :: cs := by
    rw [conj, conjuncts_foldl]
    · rfl
    · intro c hc
      rcases h c hc with ⟨f, -, rfl⟩ | ⟨f, -, rfl⟩ <;> rfl
  refine ⟨fun nx c hm => ?_, fun u hu => ?_, ?_, hc⟩
  · rw [hc] at hm
    rcases List.mem_cons.mp hm with rfl | hm
    · trivial
    · rcases h c hm with ⟨f, hf, rfl⟩ | ⟨f, hf, rfl⟩
      · rw [role_always hf]
        exact oneStep_of hf (by simp)
      · exact oneStep_of (f := f) hf (fun _ => rfl)
  · rw [conj, uses_foldl] at hu
    simp only [Ltl.uses, List.nil_append, List.mem_flatMap] at hu
    obtain ⟨c, hm, hu⟩ := hu
    have : u.1 ∈ aps := by
      rcases h c hm with ⟨f, hf, rfl⟩ | ⟨f, hf, rfl⟩
      · rcases uses_of hf u hu with hu | hu
        · exact hu.1
        · exact hl hu.1
      · rcases uses_of hf u hu with hu | hu
        · exact hu.1
        · simp at hu
    exact (aps_word u.1 this).2.2.2.2.1
  · rw [conj, positive_foldl]
    refine ⟨trivial, fun c hm => ?_⟩
    rcases h c hm with ⟨f, hf, rfl⟩ | ⟨f, hf, rfl⟩
    · exact positive_of (f := f) hf
    · exact positive_of (f := f) hf

theorem names_aps {x : Word} (h : x ∈ fuzzInputs ++ fuzzOutputs) : x.drop 2 ∈ inputs ++ outputs := by
  rcases List.mem_append.mp h with h | h
  · exact List.mem_append_left _ (drop_inputs x h)
  · exact List.mem_append_right _ (drop_outputs x h)

theorem env_scoped {cs : List Ltl} (h : ∀ c ∈ cs, Assumption c) : EnvScoped (·.drop 2) inputs outputs (conj cs) := by
  intro c hc u hu
  rw [(conj_good (by simp [aps]) h).2.2.2] at hc
  rcases List.mem_cons.mp hc with rfl | hc
  · simp [Ltl.role, Ltl.uses] at hu
  · rcases h c hc with ⟨f, hf, rfl⟩ | ⟨f, hf, rfl⟩
    · rw [role_always hf] at hu ⊢
      show u.1.drop 2 ∈ inputs ∨ u.1.drop 2 ∈ outputs ∧ u.2 = false
      rcases uses_of hf u hu with ⟨h1, h2⟩ | ⟨h1, -⟩
      · rcases List.mem_append.mp h1 with h1 | h1
        · exact .inl (drop_inputs _ h1)
        · exact .inr ⟨drop_outputs _ h1, h2⟩
      · exact .inl (drop_inputs _ h1)
    · show u.1.drop 2 ∈ inputs ++ outputs
      rcases uses_of (f := f) hf u hu with ⟨h1, -⟩ | ⟨h1, -⟩
      · exact names_aps h1
      · simp at h1

theorem sys_scoped {cs : List Ltl} (h : ∀ c ∈ cs, Guarantee c) : SysScoped (·.drop 2) inputs outputs (conj cs) := by
  intro c hc u hu
  rw [(conj_good (by simp [aps]) h).2.2.2] at hc
  rcases List.mem_cons.mp hc with rfl | hc
  · simp [Ltl.role, Ltl.uses] at hu
  · rcases h c hc with ⟨f, hf, rfl⟩ | ⟨f, hf, rfl⟩
    · rw [role_always hf] at hu ⊢
      refine ⟨?_, by simp⟩
      rcases uses_of hf u hu with ⟨h1, -⟩ | ⟨h1, -⟩ <;> exact names_aps h1
    · refine ⟨?_, by simp [Ltl.role]⟩
      rcases uses_of (f := f) hf u hu with ⟨h1, -⟩ | ⟨h1, -⟩
      · exact names_aps h1
      · simp at h1

/-- What is said about a generated file. -/
theorem file_good {as gs : List Ltl} (ha : ∀ c ∈ as, Assumption c) (hg : ∀ c ∈ gs, Guarantee c) :
    ∃ out, fromLtlmop smvText (ltlFileOf as gs) = some out ∧ (∀ cap, out.length ≤ cap → ProperFile cap out) ∧ ∃ sp, Denotes out sp ∧ Expresses sp inputs outputs (·.drop 2) as gs := by
  have a := conj_good (by simp [aps]) ha
  have g := conj_good (by simp [aps]) hg
  obtain ⟨out, h1, h2, sp, h3, h4, h5, h6⟩ := C75_translated_partial smv_decls (ltlFile_of (fun c hc => (ha c hc).part) (fun c hc => (hg c hc).part))
    (isFormula_whole (fun c hc => (ha c hc).part)) (isFormula_whole (fun c hc => (hg c hc).part)) ⟨a.1 _, g.1 _⟩ ⟨a.2.1, g.2.1⟩ ⟨a.2.2.1, g.2.2.1⟩
    ⟨env_scoped ha, sys_scoped hg⟩ names_usable
  refine ⟨out, h1, h2, sp, h3, h4, h5, fun r => ?_⟩
  have := h6 r
  simpa [holds_conj] using this

theorem safety_list {later : List Word} : ∀ {ss : List Ltl}, (∀ c ∈ ss, RandomSafety later c) → ∃ fs : List Ltl, (∀ f ∈ fs, f.Random aps later) ∧ ss = fs.map .globally
  | [], _ => ⟨[], by simp, rfl⟩
  | c :: ss, h => by
    obtain ⟨f, hf, rfl⟩ := h c (by simp)
    obtain ⟨fs, hfs, rfl⟩ := safety_list (ss := ss) (fun d hd => h d (by simp [hd]))
    exact ⟨f :: fs, by simpa using ⟨hf, hfs⟩, rfl⟩

theorem liveness_list : ∀ {ls : List Ltl}, (∀ c ∈ ls, RandomLiveness c) → ∃ fs : List Ltl, (∀ f ∈ fs, f.Random aps []) ∧ ls = fs.map (fun f => .globally (.eventually f))
  | [], _ => ⟨[], by simp, rfl⟩
  | c :: ls, h => by
    obtain ⟨f, hf, rfl⟩ := h c (by simp)
    obtain ⟨fs, hfs, rfl⟩ := liveness_list (ls := ls) (fun d hd => h d (by simp [hd]))
    exact ⟨f :: fs, by simpa using ⟨hf, hfs⟩, rfl⟩

theorem parts_complete {initNow later : List Word} {ss ls : List Ltl} (h1 : ∀ c ∈ ss, RandomSafety later c) (h2 : ∀ c ∈ ls, RandomLiveness c) :
    ∃ D, ∀ depth, D ≤ depth → ∃ es : Draws, ∀ rest,
      parts depth initNow aps later aps (es ++ rest) = some ((ss ++ ls).flatMap (fun c => txt!"  &  " ++ constraintText c ++ ['\n']), rest) := by
  obtain ⟨f2, p2, rfl⟩ := safety_list h1
  obtain ⟨f3, p3, rfl⟩ := liveness_list h2
  obtain ⟨D2, k2⟩ := several_complete (gen := fun depth => makeAProperty depth aps later) f2 (fun f hf => make_complete f _ _ (p2 f hf))
  obtain ⟨D3, k3⟩ := several_complete (gen := fun depth => makeAProperty depth aps []) f3 (fun f hf => make_complete f _ _ (p3 f hf))
  refine ⟨D2 + D3, fun depth hd => ?_⟩
  obtain ⟨e2, l2, r2⟩ := k2 depth (by omega)
  obtain ⟨e3, l3, r3⟩ := k3 depth (by omega)
  refine ⟨0 :: (e2 ++ e3), fun rest => ?_⟩
  have r1 : several (makeAProperty depth initNow []) ((0 :: (e2 ++ e3) ++ rest).length + 1) (0 :: (e2 ++ e3) ++ rest) = some ([], e2 ++ (e3 ++ rest)) := by
    rw [List.cons_append, several, List.append_assoc]
    rfl
  rw [parts, r1]
  simp only
  rw [r2 _ _ (by simp; omega)]
  simp only
  rw [r3 _ _ (by simp; omega)]
  simp only
  rw [flatMap_always p2, flatMap_infinitelyOften]
  simp

/-- No option of slugs has a slash in it. -/
theorem opt_slash (o : Opt) : '/' ∉ o.text := by cases o <;> decide

end SlugsFuzzer

open SlugsFuzzer

/-- Whatever the random choices are, the files that are made up are translated to a specification that slugs reads without complaint; in all sequences of positions, the environment
satisfies its assumptions if and only if all the assumptions that were made up hold, and likewise for the system.  The assumptions and guarantees are safety constraints (in which
assumptions do not use next values of outputs) and liveness constraints. -/
theorem C84_generated_partial {depth : Nat} {ds ds' : Draws} {ltl : List Char} (h : generate depth ds = some (ltl, ds')) :
    ∃ as gs : List Ltl, (∀ c ∈ as, Assumption c) ∧ (∀ c ∈ gs, Guarantee c) ∧
      ∃ out, fromLtlmop smvText ltl = some out ∧ (∀ cap, out.length ≤ cap → ProperFile cap out) ∧ ∃ sp, Denotes out sp ∧ Expresses sp inputs outputs (·.drop 2) as gs := by
  obtain ⟨as, gs, ha, hg, rfl⟩ := generate_sound h
  exact ⟨as, gs, ha, hg, file_good ha hg⟩

/-- All specifications of this shape can be made up. -/
theorem C84_coverage {ss ls sg lg : List Ltl} (h1 : ∀ c ∈ ss, RandomSafety fuzzInputs c) (h2 : ∀ c ∈ ls, RandomLiveness c)
    (h3 : ∀ c ∈ sg, RandomSafety (fuzzInputs ++ fuzzOutputs) c) (h4 : ∀ c ∈ lg, RandomLiveness c) :
    ∃ D, ∀ depth, D ≤ depth → ∃ ds ltl, generate depth ds = some (ltl, []) ∧
      ∃ out, fromLtlmop smvText ltl = some out ∧ ∃ sp, Denotes out sp ∧ Expresses sp inputs outputs (·.drop 2) (ss ++ ls) (sg ++ lg) := by
  obtain ⟨D, hD⟩ := parts_complete (initNow := fuzzInputs) h1 h2
  obtain ⟨E, hE⟩ := parts_complete (initNow := fuzzInputs ++ fuzzOutputs) h3 h4
  refine ⟨D + E, fun depth hd => ?_⟩
  obtain ⟨es, hes⟩ := hD depth (by omega)
  obtain ⟨es', hes'⟩ := hE depth (by omega)
  have h5 : ∀ c ∈ ss ++ ls, Assumption c := fun c hc => (List.mem_append.mp hc).imp (h1 c) (h2 c)
  have h6 : ∀ c ∈ sg ++ lg, Guarantee c := fun c hc => (List.mem_append.mp hc).imp (h3 c) (h4 c)
  obtain ⟨out, g1, -, sp, g2, g3⟩ := file_good h5 h6
  refine ⟨es ++ (es' ++ []), ltlFileOf (ss ++ ls) (sg ++ lg), ?_, out, g1, sp, g2, g3⟩
  rw [generate, apsInput_eq, apsOutput_eq]
  have e1 := hes (es' ++ [])
  have e2 := hes' []
  rw [aps] at e1 e2
  rw [e1]
  simp only
  rw [e2]
  rfl

/-- The fuzzer never tests anything: whatever the random choices and the options it is given, slugs refuses its arguments because of an unknown option, the first round is aborted
and no dot is printed. -/
theorem C84_aborts (rest : List Char → MainOutcome → Round) (options : List (List Char)) (pid : Nat) {depth : Nat} {ds ds' : Draws} {ltl : List Char}
    (h : generate depth ds = some (ltl, ds')) :
    (∃ a, runMain (slugsArguments options pid) = .unknownOption a) ∧ fuzzOnce rest options pid depth ds = some (.slugsFailed, ds') ∧
      ∀ n, fuzz rest options pid depth (n + 1) ds = some (0, false) := by
  have h1 : ∃ a, runMain (slugsArguments options pid) = .unknownOption a := by
    refine (C25_unknown _).1.mp ⟨txt!"--explicitStrategy" ++ slugsinFile pid, by simp [slugsArguments], rfl, fun o ho => opt_slash o ?_⟩
    rw [← ho]
    simp [slugsinFile]
  obtain ⟨a, ha⟩ := h1
  obtain ⟨-, -, -, -, out, ho, -⟩ := C84_generated_partial h
  have h2 : fuzzOnce rest options pid depth ds = some (.slugsFailed, ds') := by
    simp only [fuzzOnce, h, ho, ha]
  exact ⟨⟨a, ha⟩, h2, fun n => by simp only [fuzz, h2]⟩

/-! ## A concrete case -/

/-- Random numbers for one safety assumption, one guarantee of the first kind and one liveness guarantee. -/
def fuzzDraws : Draws := [0, 1, 1, 4, 2, 0, 0, 1, 2, 0, 4, 3, 3, 6, 5, 1, 0, 0, 1, 5, 5, 0]

/-- The file that is made up. -/
def fuzzLtl : List Char :=
  txt!"LTLSPEC -- Assumptions\n\t( \n\t\tTRUE    &  [](next(e.in2))\n);\nLTLSPEC -- Guarantees\n\t( \n\t\tTRUE    &  [](((!s.out0)&(((TRUE)|(e.in1)))))\n  &  []<>(s.out2)\n);\n"

example : generate 10 fuzzDraws = some (fuzzLtl, []) := by decide +kernel

/-- With a blank between the option and the file, slugs would accept its arguments. -/
example : runMain [txt!"--sysInitRoboticsSemantics", txt!"--explicitStrategy", slugsinFile 7, autFile 7] =
    .run (.explicit (.robotics .gr1) false false) (slugsinFile 7) none (autFile 7) := by decide +kernel

end Slugs.Props
