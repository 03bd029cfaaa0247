import Verif.Lemmas.AisyFuzzerFile
import Verif.Props.Aiger
import Verif.Model.ROBDD

/-!
# C83: the fuzzer for safety specifications

`AisyFuzzer.fuzzOnce` is the model of one round of `fuzzSafetySpecsAgainstAisy.py`; what slugs and the other solver do are parameters.  `Spec/Fuzzer.lean` says which formulas
the constraints are made of.
-/

namespace Slugs.Props

open Slugs.Spec Slugs.Model Slugs.Model.AisyFuzzer

variable {B : Type} [DecidableEq B] [BddLib B]

/-- The input variables, the output variables, and their next values. -/
def fuzzInputs : List Word := [txt!"in0", txt!"in1", txt!"in2", txt!"in3", txt!"in4"]
def fuzzOutputs : List Word := [txt!"out0", txt!"out1", txt!"out2", txt!"out3", txt!"out4"]

/-- The specifications that the fuzzer can make: no liveness, and the formulas of `Fml.Random` over the variables that are allowed in the sections. -/
structure FuzzSpec (sp : SpecFile) : Prop where
  inputs : sp.inputs = fuzzInputs
  outputs : sp.outputs = fuzzOutputs
  envInit : ∀ f ∈ sp.envInit, f.Random fuzzInputs 0
  sysInit : ∀ f ∈ sp.sysInit, f.Random fuzzOutputs 0
  envTrans : ∀ f ∈ sp.envTrans, f.Random (fuzzInputs ++ fuzzOutputs ++ fuzzInputs.map prime) 0
  sysTrans : ∀ f ∈ sp.sysTrans, f.Random (fuzzInputs ++ fuzzOutputs ++ fuzzInputs.map prime ++ fuzzOutputs.map prime) 0
  envLiveness : sp.envLiveness = []
  sysLiveness : sp.sysLiveness = []

theorem spec_fuzz {e1 e2 s1 s2 : List Fml} (h1 : ∀ f ∈ e1, f.Random apsInput 0) (h2 : ∀ f ∈ e2, f.Random (apsInput ++ apsOutput ++ apsInputPost) 0)
    (h3 : ∀ f ∈ s1, f.Random apsOutput 0) (h4 : ∀ f ∈ s2, f.Random apNames 0) : FuzzSpec (specOf e1 e2 s1 s2) :=
  ⟨show apsInput = fuzzInputs by decide +kernel, show apsOutput = fuzzOutputs by decide +kernel, h1, h3, h2, h4, rfl, rfl⟩

/-- All lines of the constraints have at most `cap` characters. -/
def Short (cap : Nat) (properties : Core.Categories) : Prop := ∀ s, ∀ l ∈ properties s, l.length ≤ cap

/-- **C83**, the files: whatever the random numbers are, the generated file is a proper file for a specification of the intended kind, and it is translated to a circuit that is
realizable if and only if the specification is. -/
theorem C83_generated {depth cap : Nat} {ds ds' : Draws} {properties : Core.Categories} (h : generate depth ds = some (properties, ds')) (hs : Short cap properties) (h32 : cap < 2 ^ 32) :
    ∃ (sp : SpecFile) (A : Aag), ProperFile cap (slugsFile properties) ∧ Denotes (slugsFile properties) sp ∧ FuzzSpec sp ∧ Aiger.translate (slugsFile properties) = some A.text ∧ A.Valid ∧
      (A.Realizable ↔ sp.game.Realizable) := by
  obtain ⟨e1, e2, s1, s2, rfl, h1, h2, h3, h4⟩ := generate_some h
  obtain ⟨hp, hd, hw⟩ := file_of h1 h2 h3 h4 h32 (fun f hf => by
    simp only [List.mem_append] at hf
    rcases hf with ((hf | hf) | hf) | hf
    · exact hs .envInit _ (List.mem_map_of_mem hf)
    · exact hs .envTrans _ (List.mem_map_of_mem hf)
    · exact hs .sysInit _ (List.mem_map_of_mem hf)
    · exact hs .sysTrans _ (List.mem_map_of_mem hf))
  obtain ⟨A, ht, hv, hr⟩ := C69_realizable_partial hp hd hw rfl rfl (show ∀ x ∈ apsInput, ¬ txt!"controllable_" <+: x by decide +kernel)
  exact ⟨_, A, hp, hd, spec_fuzz h1 h2 h3 h4, ht, hv, hr⟩

/-- **C83**, coverage: every specification of the intended kind can be generated. -/
theorem C83_coverage {sp : SpecFile} (h : FuzzSpec sp) {cap : Nat} (h32 : cap < 2 ^ 32)
    (hl : ∀ f ∈ sp.envInit ++ sp.envTrans ++ sp.sysInit ++ sp.sysTrans, f.text.length ≤ cap) :
    ∃ D, ∀ depth, D ≤ depth → ∃ ds properties, generate depth ds = some (properties, []) ∧ Short (max cap 5) properties ∧ Denotes (slugsFile properties) sp := by
  obtain ⟨i, o, e1, s1, e2, s2, e3, s3⟩ := sp
  have hi : i = apsInput := h.inputs.trans (by decide +kernel)
  have ho : o = apsOutput := h.outputs.trans (by decide +kernel)
  have hv1 : e3 = [] := h.envLiveness
  have hv2 : s3 = [] := h.sysLiveness
  subst hi ho hv1 hv2
  have n1 : fuzzInputs = apsInput := by decide +kernel
  have n2 : fuzzOutputs = apsOutput := by decide +kernel
  have k1 : ∀ f ∈ e1, f.Random apsInput 0 := by rw [← n1]; exact h.envInit
  have k2 : ∀ f ∈ e2, f.Random (apsInput ++ apsOutput ++ apsInputPost) 0 := by
    rw [show apsInput ++ apsOutput ++ apsInputPost = fuzzInputs ++ fuzzOutputs ++ fuzzInputs.map prime by decide +kernel]; exact h.envTrans
  have k3 : ∀ f ∈ s1, f.Random apsOutput 0 := by rw [← n2]; exact h.sysInit
  have k4 : ∀ f ∈ s2, f.Random apNames 0 := by
    rw [show apNames = fuzzInputs ++ fuzzOutputs ++ fuzzInputs.map prime ++ fuzzOutputs.map prime by decide +kernel]; exact h.sysTrans
  obtain ⟨D, hD⟩ := generate_complete k1 k2 k3 k4
  refine ⟨D, fun depth hd => ?_⟩
  obtain ⟨ds, hds⟩ := hD depth hd []
  refine ⟨ds, _, hds, fun s l hls => ?_, (file_of k1 k2 k3 k4 h32 hl).2.1⟩
  have a1 : ∀ l ∈ apsInput, l.length ≤ 5 := by decide +kernel
  have a2 : ∀ l ∈ apsOutput, l.length ≤ 5 := by decide +kernel
  cases s <;> simp only [propertiesOf, List.mem_map, List.not_mem_nil] at hls
  · exact Nat.le_trans (a1 l hls) (Nat.le_max_right ..)
  · exact Nat.le_trans (a2 l hls) (Nat.le_max_right ..)
  all_goals
    obtain ⟨f, hf, rfl⟩ := hls
    exact Nat.le_trans (hl f (by simp [hf])) (Nat.le_max_left ..)

open Classical in
/-- **C83**, one round: suppose that the other solver answers correctly for the circuit (with exit status 10 or 20).  Then the round is passed if and only if slugs gives the right verdict, whatever
slugs does, and what is printed says which one it is. -/
theorem C83_round {depth cap : Nat} {ds ds' : Draws} {properties : Core.Categories} (h : generate depth ds = some (properties, ds')) (hs : Short cap properties) (h32 : cap < 2 ^ 32) :
    ∃ (sp : SpecFile) (A : Aag), Denotes (slugsFile properties) sp ∧ FuzzSpec sp ∧ Aiger.translate (slugsFile properties) = some A.text ∧ A.Valid ∧
      ∀ (slugs : List Char → Outcome) (solve : List Char → Option Nat), solve A.text = some (if A.Realizable then 10 else 20) → ∃ r, fuzzOnce slugs solve depth ds = some (r, ds') ∧
        ∀ b, r = .passed b ↔ slugs (slugsFile properties) = .result b ∧ (b = true ↔ sp.game.Realizable) := by
  obtain ⟨sp, A, _, hd, hf, ht, hv, hr⟩ := C83_generated h hs h32
  refine ⟨sp, A, hd, hf, ht, hv, fun slugs solve hsol => ⟨AisyFuzzer.compare slugs solve (slugsFile properties), by rw [fuzzOnce, h], fun b => ?_⟩⟩
  rw [AisyFuzzer.compare]
  cases hsl : slugs (slugsFile properties) with
  | result v =>
    simp only [ht, hsol, Outcome.result.injEq]
    by_cases hA : A.Realizable
    · have hg := hr.mp hA
      simp only [hA, if_true, hg]
      cases v <;> cases b <;> simp
    · have hg : ¬ sp.game.Realizable := fun h => hA (hr.mpr h)
      simp only [hA, if_false, hg]
      cases v <;> cases b <;> simp
  | _ => simp

open Classical in
/-- **C83**, no false alarms: if the other solver answers correctly for the circuit, the round is passed with slugs itself. -/
theorem C83_no_false_alarm (alg : Algorithm) (order : List Char → Bool) {depth cap : Nat} {ds ds' : Draws} {properties : Core.Categories} (h : generate depth ds = some (properties, ds'))
    (hs : Short cap properties) (h32 : cap < 2 ^ 32) :
    ∃ (sp : SpecFile) (A : Aag), Denotes (slugsFile properties) sp ∧ FuzzSpec sp ∧ Aiger.translate (slugsFile properties) = some A.text ∧ A.Valid ∧
      ∀ (solve : List Char → Option Nat), solve A.text = some (if A.Realizable then 10 else 20) → ∀ fuel, Nat.card (Pos sp.In sp.Out) + 1 ≤ fuel →
        fuzzOnce (runSlugs B alg false cap order fuel) solve depth ds = some (.passed (decide sp.game.Realizable), ds') := by
  obtain ⟨sp, A, hd, hf, ht, hv, hr⟩ := C83_round h hs h32
  obtain ⟨_, _, hp, _⟩ := C83_generated h hs h32
  refine ⟨sp, A, hd, hf, ht, hv, fun solve hsol fuel hfuel => ?_⟩
  obtain ⟨r, h1, h2⟩ := hr (runSlugs B alg false cap order fuel) solve hsol
  obtain ⟨q, hok⟩ := C24_proper_accepted (B := B) cap order _ hp
  obtain ⟨a, b, _, _⟩ := C24_text_to_verdict alg (tab := q.1) (c := q.2) hok sp hd fuel hfuel
  rw [h1, (h2 (decide sp.game.Realizable)).mpr]
  refine ⟨?_, by simp⟩
  by_cases hg : sp.game.Realizable
  · rw [a hg, decide_eq_true hg]
  · rw [b hg, decide_eq_false hg]

/-- Rounds that are passed one after the other, with the verdicts; each takes the random numbers that the one before has left. -/
inductive PassedRounds (once : Draws → Option (Round × Draws)) : Draws → List Bool → Draws → Prop
  | nil {ds} : PassedRounds once ds [] ds
  | cons {ds ds1 ds' b bs} : once ds = some (.passed b, ds1) → PassedRounds once ds1 bs ds' → PassedRounds once ds (b :: bs) ds'

/-- **C83**, the loop: it prints `+` for each round that is passed with the verdict "realizable" and `-` for the others; it goes on until a round fails, and then stops. -/
theorem C83_loop {slugs : List Char → Outcome} {solve : List Char → Option Nat} {depth : Nat} : ∀ {n : Nat} {ds : Draws} {printed : List Char} {ok : Bool},
    fuzz slugs solve depth n ds = some (printed, ok) → ∃ bs ds', PassedRounds (fuzzOnce slugs solve depth) ds bs ds' ∧ printed = bs.map (fun b => if b then '+' else '-') ∧
      (ok = true → bs.length = n) ∧ (ok = false → bs.length < n ∧ ∃ ds'', fuzzOnce slugs solve depth ds' = some (.aborted, ds''))
  | 0, ds, printed, ok, h => by cases h; exact ⟨[], ds, .nil, rfl, fun _ => rfl, fun h => by cases h⟩
  | n + 1, ds, printed, ok, h => by
    rw [fuzz] at h
    split at h
    · cases h
    · rename_i ds1 h1
      cases h
      exact ⟨[], ds, .nil, rfl, fun h => (by cases h), fun _ => ⟨by simp, _, h1⟩⟩
    · rename_i b ds1 h0
      rw [Option.map_eq_some_iff] at h
      obtain ⟨r, h1, h2⟩ := h
      obtain ⟨bs, ds', k1, k2, k3, k4⟩ := C83_loop (printed := r.1) (ok := r.2) h1
      cases h2
      refine ⟨b :: bs, ds', .cons h0 k1, by rw [k2, List.map_cons], fun hk => by rw [List.length_cons, k3 hk], fun hk => ?_⟩
      obtain ⟨k5, k6⟩ := k4 hk
      exact ⟨by rw [List.length_cons]; omega, k6⟩

/-! ## A concrete case -/

/-- Random numbers for one assumption and two guarantees. -/
def someDraws : Draws := [1, 2, 3, 0, 3, 10, 0, 0, 1, 0, 3, 2, 0, 1, 4, 1, 1, 3, 15, 3, 1, 3, 20, 0]

/-- The generated file. -/
def someFile : List Char :=
  txt!"[INPUT]\nin0\nin1\nin2\nin3\nin4\n\n[OUTPUT]\nout0\nout1\nout2\nout3\nout4\n\n[ENV_INIT]\n\n[ENV_TRANS]\n| in0 in0'\n\n[SYS_INIT]\n! out2\n\n[SYS_TRANS]\n$ 2 & out0' in1 ? 0\n\n"

example : (generate 10 someDraws).map (fun r => (slugsFile r.1, r.2)) = some (someFile, []) := by decide +kernel

/-- With slugs itself and a solver that says "unrealizable", the round is passed; with one that says "realizable", it is not. -/
example : fuzz (runSlugs ROBDD .standard false 1000 (fun _ => true) 100) (fun _ => some 20) 10 1 someDraws = some (['-'], true) ∧
    fuzz (runSlugs ROBDD .standard false 1000 (fun _ => true) 100) (fun _ => some 10) 10 1 someDraws = some ([], false) := by decide +kernel

end Slugs.Props
