import Verif.Lemmas.StuckAtReport
import Verif.Props.StructuredFiles

/-!
# C68: signals that are stuck at a constant

`Spec/StuckAt.lean` says what a report on stuck signals is; `StuckAt.analyze` is the model of `analyzeStuckAtConstant.py`, which calls the structured slugs compiler
and slugs (`checkRealizability`).
-/

namespace Slugs.Props

open Slugs.Spec Slugs.Spec.Structured Slugs.Model Slugs.Model.Structured Slugs.Model.StuckAt

variable {B : Type} [DecidableEq B] [L : BddLib B]

open Classical in
/-- The verdict on a proper file. -/
theorem settled_verdict {text : List Char} {S : SSpec} (h : SDenotes text S) (alg : Algorithm) {cap : Nat} (order : List Char → Bool)
    (hl : ∀ out, convert true text = .ok out → ∀ l ∈ splitLines out, l.length ≤ cap) (h32 : cap < 2 ^ 32) :
    ∃ rounds, ∀ fuel, rounds ≤ fuel → checkRealizability B alg cap order fuel text = some (decide S.game.Realizable) := by
  obtain ⟨out, h1, h2⟩ := C59_structured_verdict (B := B) true h
  obtain ⟨rounds, h3⟩ := h2 alg cap order (hl out h1) h32
  refine ⟨rounds, fun fuel hf => ?_⟩
  obtain ⟨h4, h5, _⟩ := h3 fuel hf
  rw [StuckAt.checkRealizability, h1]
  dsimp only
  by_cases hr : S.game.Realizable
  · rw [h4 hr, decide_eq_true hr]
  · rw [h5 hr, decide_eq_false hr]

/-- Finitely many verdicts are settled at the same time. -/
theorem settled_together {α : Type} {P : Nat → α → Prop} : ∀ {l : List α}, (∀ a ∈ l, ∃ r, ∀ fuel, r ≤ fuel → P fuel a) → ∃ r, ∀ fuel, r ≤ fuel → ∀ a ∈ l, P fuel a
  | [], _ => ⟨0, by simp⟩
  | a :: l, h => by
    obtain ⟨r1, h1⟩ := h a (by simp)
    obtain ⟨r2, h2⟩ := settled_together fun b hb => h b (List.mem_cons_of_mem _ hb)
    refine ⟨max r1 r2, fun fuel hf b hb => ?_⟩
    rcases List.mem_cons.mp hb with rfl | hb
    · exact h1 fuel (le_trans (le_max_left _ _) hf)
    · exact h2 fuel (le_trans (le_max_right _ _) hf) b hb

/-- **C68.** For every proper structured specification (without exotic white space), the tool prints the report on stuck signals: for a realizable specification, it
says for every output for which of its values the specification is still realizable when the output must always have this value; for an unrealizable
specification, it says for every input for which of its values the specification is still unrealizable when the input always has this value.  The lines of the files
that the compiler prints must not be longer than slugs can handle. -/
theorem C68_stuck_report (alg : Algorithm) {cap : Nat} (order : List Char → Bool) {file : List Char} {S : SSpec} (h : SDenotes file S)
    (hs : ∀ c ∈ file, pySpace c = true → c = ' ' ∨ c = '\t' ∨ c = '\n')
    (hl : ∀ t ∈ checkedFiles file, ∀ out, convert true t = .ok out → ∀ l ∈ splitLines out, l.length ≤ cap) (h32 : cap < 2 ^ 32) :
    ∃ rounds, ∀ fuel, rounds ≤ fuel → analyze (checkRealizability B alg cap order fuel) file = some (stuckReport S) := by
  classical
  obtain ⟨J, hJ, hG⟩ := good_of_denotes h hs
  have hok := denotes_decls h
  obtain ⟨c1, c2⟩ := tried_checked hJ hG
  obtain ⟨r0, v0⟩ := settled_verdict (B := B) h alg order (hl file (by rw [checkedFiles]; exact List.mem_cons_self)) h32
  obtain ⟨r1, v1⟩ : ∃ r, ∀ fuel, r ≤ fuel → ∀ p ∈ S.outputs.flatMap fun d => d.values.map fun v => (d, v),
      checkRealizability B alg cap order fuel (fixedFile J .sysTrans .sysInit p.1 p.2) = some (decide (S.fixOutput p.1.name p.2).Realizable) := by
    refine settled_together fun p hp => ?_
    obtain ⟨d, hd, hp⟩ := List.mem_flatMap.mp hp
    obtain ⟨v, hv, rfl⟩ := List.mem_map.mp hp
    obtain ⟨S', d1, d2⟩ := fixed_output hok hG hd hv
    rw [← decide_eq_decide.mpr d2]
    exact settled_verdict d1 alg order (hl _ (c1 d hd _ (List.mem_map_of_mem hv))) h32
  obtain ⟨r2, v2⟩ : ∃ r, ∀ fuel, r ≤ fuel → ∀ p ∈ S.inputs.flatMap fun d => d.values.map fun v => (d, v),
      checkRealizability B alg cap order fuel (fixedFile J .envTrans .envInit p.1 p.2) = some (decide (S.fixInput p.1.name p.2).Realizable) := by
    refine settled_together fun p hp => ?_
    obtain ⟨d, hd, hp⟩ := List.mem_flatMap.mp hp
    obtain ⟨v, hv, rfl⟩ := List.mem_map.mp hp
    obtain ⟨S', d1, d2⟩ := fixed_input hok hG hd hv
    rw [← decide_eq_decide.mpr d2]
    exact settled_verdict d1 alg order (hl _ (c2 d hd _ (List.mem_map_of_mem hv))) h32
  refine ⟨max r0 (max r1 r2), fun fuel hf => ?_⟩
  simp only [max_le_iff] at hf
  refine analyze_eq hJ hG ?_ ?_ ?_
  · rw [v0 fuel hf.1]
  · exact fun d hd v hv => by
      rw [v1 fuel hf.2.1 (d, v) (List.mem_flatMap.mpr ⟨d, hd, List.mem_map_of_mem hv⟩)]
  · exact fun d hd v hv => by
      rw [v2 fuel hf.2.2 (d, v) (List.mem_flatMap.mpr ⟨d, hd, List.mem_map_of_mem hv⟩)]

/-- Fixing an output makes it harder for the system: values at which an output of an unrealizable specification is fixed need not be tried. -/
theorem C68_stuck_output (S : SSpec) (x : Word) (v : Int) (h : (S.fixOutput x v).Realizable) : S.game.Realizable := by
  intro i hi
  obtain ⟨o, h1, σ, h2, h3⟩ := h i hi
  have e : ∀ {hist}, S.game.SysHist σ (i, o) hist → (S.fixOutput x v).SysHist σ (i, o) hist := by
    intro hist hh
    induction hh with
    | start => exact .start
    | step _ hs ih => exact .step ih hs
  exact ⟨o, h1.1, σ, fun cur hist j hh hs => (h2 cur hist j (e hh) hs).1, fun p hp => h3 p fun n => e (hp n)⟩

/-- Fixing an input makes it easier for the system: values at which an input of a realizable specification is fixed need not be tried. -/
theorem C68_stuck_input (S : SSpec) (x : Word) (v : Int) (h : S.game.Realizable) : (S.fixInput x v).Realizable := by
  intro i hi
  obtain ⟨o, h1, σ, h2, h3⟩ := h i hi.1
  have e : ∀ {hist}, (S.fixInput x v).SysHist σ (i, o) hist → S.game.SysHist σ (i, o) hist := by
    intro hist hh
    induction hh with
    | start => exact .start
    | step _ hs ih => exact .step ih hs.1
  exact ⟨o, h1, σ, fun cur hist j hh hs => h2 cur hist j (e hh) hs.1, fun p hp => h3 p fun n => e (hp n)⟩

/-! ### A concrete file -/

/-- The counter can stay at 0. -/
theorem counter_fixed_zero : (counter.fixOutput txt!"n" 0).Realizable := by
  intro i _
  have hval : (∀ d ∈ counter.outputs, d.Ok ((fun _ => 0 : Word → Int) d.name)) ∧ ∀ x, x ∉ counter.outputs.map Decl.name → (fun _ => 0 : Word → Int) x = 0 := by
    refine ⟨fun d hd => ?_, fun _ _ => rfl⟩
    have : d = ⟨txt!"n", some (0, 2)⟩ := by simpa [counter] using hd
    subst this
    exact ⟨le_refl _, by decide⟩
  have h0 : ∀ c ∈ counter.sysInit, counter.holds (i, ⟨fun _ => 0, hval⟩) (i, ⟨fun _ => 0, hval⟩) c := by
    intro c hc
    have : c = .infix (.cmp .eq (.var txt!"n") (.num 0)) := by simpa [counter] using hc
    subst this
    rfl
  refine ⟨⟨fun _ => 0, hval⟩, ⟨h0, rfl⟩, fun _ _ => ⟨fun _ => 0, hval⟩, ?_, ?_⟩
  · intro cur h j hh _
    have hz : cur.2.1 txt!"n" = 0 := by cases hh <;> rfl
    refine ⟨fun c hc => ?_, rfl⟩
    have : c = .infix (.imp (.atom txt!"x'") (.cmp .ge (.var txt!"n'") (.var txt!"n"))) := by simpa [counter] using hc
    subst this
    have e1 : counter.look cur (j, ⟨fun _ => 0, hval⟩) txt!"n'" = 0 := rfl
    have e2 : counter.look cur (j, ⟨fun _ => 0, hval⟩) txt!"n" = cur.2.1 txt!"n" := rfl
    simp only [SSpec.holds, SFml.holds, NExp.value, Cmp.holds, e1, e2, hz, ge_iff_le, le_refl, decide_true, Bool.or_true]
  · intro p _ _ b hb
    cases hb

/-- The counter starts at 0, so it cannot stay at another value. -/
theorem counter_fixed_other {v : Int} (hv : v ≠ 0) : ¬ (counter.fixOutput txt!"n" v).Realizable := by
  intro h
  have hval : (∀ d ∈ counter.inputs, d.Ok ((fun _ => 0 : Word → Int) d.name)) ∧ ∀ x, x ∉ counter.inputs.map Decl.name → (fun _ => 0 : Word → Int) x = 0 := by
    refine ⟨fun d hd => ?_, fun _ _ => rfl⟩
    have : d = ⟨txt!"x", none⟩ := by simpa [counter] using hd
    subst this
    exact .inl rfl
  obtain ⟨o, ⟨h1, h2⟩, _⟩ := h ⟨fun _ => 0, hval⟩ (fun c hc => by cases hc)
  have h3 := h1 (.infix (.cmp .eq (.var txt!"n") (.num 0))) (by simp [counter])
  have e1 : counter.look (⟨fun _ => 0, hval⟩, o) (⟨fun _ => 0, hval⟩, o) txt!"n" = o.1 txt!"n" := rfl
  simp only [SSpec.holds, SFml.holds, NExp.value, Cmp.holds, e1, decide_eq_true_eq] at h3
  exact hv (h2.symm.trans h3)

theorem counter_report : stuckReport counter =
    txt!"Starting point is a realizable specification\nFixing the value of the output signal n to 0 does not change this fact.\n" := by
  classical
  rw [stuckReport, if_pos counter_realizable]
  have e : (Decl.values ⟨txt!"n", some (0, 2)⟩).filter (fun v => decide (counter.fixOutput txt!"n" v).Realizable) = [0] := by
    have : Decl.values ⟨txt!"n", some (0, 2)⟩ = [0, 1, 2] := by decide
    rw [this]
    simp [counter_fixed_zero, counter_fixed_other]
  have : counter.outputs = [⟨txt!"n", some (0, 2)⟩] := rfl
  rw [this]
  simp only [List.map_cons, List.map_nil]
  rw [e]
  decide +kernel

/-- The report of the tool on the counter. -/
example (order : List Char → Bool) : ∃ rounds, ∀ fuel, rounds ≤ fuel → analyze (StuckAt.checkRealizability B .standard 1000 order fuel) counterText =
    some txt!"Starting point is a realizable specification\nFixing the value of the output signal n to 0 does not change this fact.\n" := by
  rw [← counter_report]
  refine C68_stuck_report .standard order counter_denotes (by decide +kernel) ?_ (by decide)
  have key : (checkedFiles counterText).all (fun t => match convert true t with | .ok out => (splitLines out).all fun l => l.length ≤ 1000 | _ => true) = true := by
    decide +kernel
  intro t ht out ho l hl
  have := List.all_eq_true.mp key t ht
  rw [ho] at this
  simpa using List.all_eq_true.mp this l hl

end Slugs.Props
