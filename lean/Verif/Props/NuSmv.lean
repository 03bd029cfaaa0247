import Verif.Lemmas.NuSmvValid
import Verif.Props.Printing
import Verif.Props.Aiger

/-!
C74: the instances for the model checker NuSMV, with which an automaton is tested against a specification
(`tools/makeNuSMVInstanceToTestAutomatonFileAgainstSlugsSpecification.py`).
-/

namespace Slugs.Props

open Slugs.Spec Slugs.Spec.Smv Slugs.Model Slugs.Model.NuSmv

variable {B : Type} [DecidableEq B] [BddLib B] {alg : Algorithm}

theorem lines_of {text : List Char} {sp : SpecFile} (hu : sp.Unambiguous) (hw : sp.WellScoped) (hd : Denotes text sp) (hp : AllPlain text sp) (hb : ∀ φ ∈ sp.constraints, φ.Basic) :
    Lines sp ∧ ∃ c, readSpec [] (fun _ => []) (Aiger.rawLines text) = some c ∧ Written c sp := by
  obtain ⟨items, hc, i1, i2, i3, i4, i5, i6, i7, i8⟩ := hd
  obtain ⟨items2, hc2, p1, p2, p3, p4, p5, p6⟩ := hp
  obtain rfl := Content.det hc hc2
  have good : ∀ {s : Section} {fs : List Fml}, List.Forall₂ ReadsLine (itemsOf s items) fs → ∀ φ ∈ fs, ∀ x ∈ φ.vars, x ∉ reserved ∧ ' ' ∉ x := by
    intro s fs h3 φ hφ
    obtain ⟨l, hl, rest, hrr, _⟩ := Aiger.forall₂_mem_right h3 hφ
    exact Aiger.reads_names hrr
  refine ⟨⟨hu, hw, hb, fun φ hφ => ?_⟩, _, readSpec_text hc, ⟨i1.symm, i2.symm, p1, p2, p3, p4, p5, p6⟩⟩
  simp only [SpecFile.constraints, List.mem_append] at hφ
  rcases hφ with ((((hφ | hφ) | hφ) | hφ) | hφ) | hφ
  · exact good i3 φ hφ
  · exact good i4 φ hφ
  · exact good i5 φ hφ
  · exact good i6 φ hφ
  · exact good i7 φ hφ
  · exact good i8 φ hφ

theorem whole_of {x : Word} (h : ∀ c ∈ x, identChar c = true) : Whole x := by
  intro c hc
  have := h c hc
  refine ⟨?_, ?_, ?_, ?_, ?_⟩
  · cases hs : isSpace c with
    | false => rfl
    | true =>
      simp only [isSpace, Bool.or_eq_true, beq_iff_eq] at hs
      rcases hs with ((((rfl | rfl) | rfl) | rfl) | rfl) | rfl <;> exact absurd this (by decide)
  all_goals rintro rfl; exact absurd this (by decide)

theorem instance_of {text : List Char} {sp : SpecFile} {sts : List PState} (hu : sp.Unambiguous) (hw : sp.WellScoped) (hd : Denotes text sp) (hp : AllPlain text sp)
    (hb : ∀ φ ∈ sp.constraints, φ.Basic) (hid : ∀ x ∈ sp.inputs ++ sp.outputs, ∀ c ∈ x, identChar c = true) (hv : sp.inputs ++ sp.outputs ≠ []) (ha : Automaton sp sts) :
    makeInstance text (sts.map stateText).flatten = some (theModule sp sts).text ∧ Lines sp ∧ Fits sp sts := by
  obtain ⟨hl, c, hc, hwr⟩ := lines_of hu hw hd hp hb
  have hf : Fits sp sts := ⟨ha.labels, ha.targets⟩
  have hr : readAutomaton (Aiger.rawLines (sts.map stateText).flatten) [] = some (sts.map astate) := by
    refine (readAutomaton_eq sts [] (fun st hst => ⟨?_, ?_, ?_⟩) ?_).trans (by simp)
    · intro h0
      have := ha.labels st hst
      rw [PState.Complete, h0, List.map_nil] at this
      exact hv (List.nil_perm.mp this)
    · intro l hl'
      exact whole_of (hid l.1 ((ha.labels st hst).mem_iff.mp (List.mem_map_of_mem hl')))
    · exact (ha.labels st hst).nodup_iff.mpr (List.nodup_append.mp (List.nodup_append.mp hu).1).1
    · rw [ha.numbers, List.range_eq_range']; rfl
  refine ⟨?_, hl, hf⟩
  rw [makeInstance, hc, hr]
  simp only [Option.bind_eq_bind, Option.bind_some]
  exact instance_eq hwr hl hf

theorem names_nodup {sp : SpecFile} (hu : sp.Unambiguous) : (sp.inputs ++ sp.outputs).Nodup := (List.nodup_append.mp (List.nodup_append.mp hu).1).1

/-- **C74.** Take a proper file whose constraints are written in the plainest way, without exclusive or and buffers, and whose names are identifiers of NuSMV, and any automaton for
the specification in the text format of slugs that has at most one successor for each next input.  The program makes a well-formed file for NuSMV.  If NuSMV finds that all properties
in it hold, then all runs of the automaton that start with an allowed initial position satisfy the safety guarantees as long as the environment has not violated the safety assumptions,
and the liveness guarantees if the environment satisfies all assumptions.  If the automaton has a successor for every next input that is allowed, the converse holds as well.
(Missing: automata with several successors for an input, see `C74_several_successors`, whether there is a state for every allowed initial input, see
`C74_initial_not_checked`, and files with other constraints or names, see below.) -/
theorem C74_checks_partial {cap : Nat} {text : List Char} {sp : SpecFile} {sts : List PState} (hf : ProperFile cap text) (hd : Denotes text sp) (hp : AllPlain text sp)
    (hb : ∀ φ ∈ sp.constraints, φ.Basic) (hid : ∀ x ∈ sp.inputs ++ sp.outputs, ∀ c ∈ x, identChar c = true) (hv : sp.inputs ++ sp.outputs ≠ []) (ha : Automaton sp sts)
    (hne : sts ≠ []) (hdet : Deterministic sp sts) :
    ∃ M : Smv.Module, makeInstance text (sts.map stateText).flatten = some M.text ∧ M.Valid ∧ (M.Passes → SafeRuns sp sts ∧ LiveRunsInit sp sts) ∧
      (Complete sp sts → (M.Passes ↔ SafeRuns sp sts ∧ LiveRunsInit sp sts)) := by
  obtain ⟨r, hr⟩ := C24_proper_accepted (B := ROBDD) cap (fun _ => true) text hf
  obtain ⟨sp', _, hun, hu, hw, _⟩ := C24_accepted_denotes (B := ROBDD) (tab := r.1) (c := r.2) hr
  obtain rfl := hun sp hd
  obtain ⟨h1, h2, h3⟩ := instance_of hu hw hd hp hb hid hv ha
  have hs : (theModule sp sts).Passes → SafeRuns sp sts ∧ LiveRunsInit sp sts := fun h =>
    ⟨safe_of_passes h2 h3 (names_nodup hu) ha.numbers hdet h, live_of_passes h2 h3 (names_nodup hu) ha.numbers hdet h⟩
  exact ⟨_, h1, module_valid h2 h3 hne hid, hs, fun hc => ⟨hs, fun h => passes_of h2 h3 (names_nodup hu) ha.numbers hc h.1 h.2⟩⟩

/-- **C74**, strategies of slugs: for what is printed with `--explicitStrategy`, also with `--simpleRecovery` and in the robotics semantics, the program makes a well-formed file,
unless the list of states is empty, and all properties in it hold. -/
theorem C74_strategies_pass {robotics recovery : Bool} {cap : Nat} {order : List Char → Bool} {fuel : Nat} {text printed : List Char}
    (h : runPrinted B alg robotics recovery .plain cap order fuel text = some printed) {sp : SpecFile} (hd : Denotes text sp) (hp : AllPlain text sp)
    (hb : ∀ φ ∈ sp.constraints, φ.Basic) (hid : ∀ x ∈ sp.inputs ++ sp.outputs, ∀ c ∈ x, identChar c = true) (hv : sp.inputs ++ sp.outputs ≠ []) (hne : printed ≠ []) :
    ∃ M : Smv.Module, makeInstance text printed = some M.text ∧ M.Valid ∧ M.Passes := by
  obtain ⟨tab, c, sts, h1, h2, rfl⟩ := runPrinted_some h
  obtain ⟨sp', _, hun, hu, hw, _⟩ := C24_accepted_denotes h1
  obtain rfl := hun sp hd
  obtain ⟨_, hpr⟩ := runExplicit_printed h2 hd
  have ha : Automaton sp sts := ⟨hpr.wf.numbers, hpr.wf.labels, hpr.wf.targets⟩
  obtain ⟨h3, h4, h5⟩ := instance_of hu hw hd hp hb hid hv ha
  refine ⟨_, h3, module_valid h4 h5 ?_ hid, passes_of h4 h5 (names_nodup hu) ha.numbers hpr.total ?_ ?_⟩
  · rintro rfl
    exact hne rfl
  · exact fun r n hr k hk => hpr.safe _ _ (hr.steps k hk).1
  · exact fun r hr => hpr.live r (fun n => ((hr (n + 1)).steps n (by omega)).1) fun n => ((hr (n + 1)).steps n (by omega)).2

/-- **C74**, automata that are refused: whatever the specification, there is a NuSMV file for a list of states in the text format of slugs only if the states are numbered 0, 1, …,
in this order. -/
theorem C74_numbered {text out : List Char} {sts : List PState} (hid : ∀ st ∈ sts, st.label ≠ [] ∧ ∀ l ∈ st.label, ∀ c ∈ l.1, identChar c = true)
    (h : makeInstance text (sts.map stateText).flatten = some out) : sts.map PState.num = List.range sts.length := by
  rw [makeInstance] at h
  simp only [Option.bind_eq_bind, Option.bind_eq_some_iff] at h
  obtain ⟨_, _, r, hr, _⟩ := h
  rw [readAutomaton_numbers sts [] r (fun st hst => ⟨(hid st hst).1, fun l hl => whole_of ((hid st hst).2 l hl)⟩) hr, List.range_eq_range']
  rfl

/-! ### Concrete cases -/

/-- The output is never true in the next step. -/
def calmText : List Char := txt!"[OUTPUT]\ny\n[SYS_TRANS]\n! y'\n"

/-- The second state has the number of the first. -/
example : makeInstance calmText (([⟨0, 0, [(txt!"y", false)], [0]⟩, ⟨0, 0, [(txt!"y", false)], [0]⟩] : List PState).map stateText).flatten = none := by decide +kernel

example : (makeInstance calmText (([⟨0, 0, [(txt!"y", false)], [1]⟩, ⟨1, 0, [(txt!"y", false)], [0]⟩] : List PState).map stateText).flatten).isSome = true := by decide +kernel

def calmItems : List (Section × List Char) := [(.output, txt!"y"), (.sysTrans, txt!"! y'")]

def calm : SpecFile := ⟨[], [txt!"y"], [], [], [], [.not (.var txt!"y'")], [], []⟩

theorem calm_content : Content none (splitLines calmText) calmItems := by
  have : splitLines calmText = [txt!"[OUTPUT]", txt!"y", txt!"[SYS_TRANS]", txt!"! y'"] := by decide
  rw [this]
  refine .header .output (by decide) (.item (by decide) (by decide) (by decide) ?_)
  exact .header .sysTrans (by decide) (.item (by decide) (by decide) (by decide) .nil)

theorem calm_reads : ReadsLine txt!"! y'" (.not (.var txt!"y'")) := reads_plain (.not (.var txt!"y'")) (by simp [Fml.Wf]) (by decide) (by decide)

theorem calm_proper : ProperFile 1000 calmText := by
  refine ⟨calmItems, calm_content, by decide, ?_⟩
  intro before s line after h h1 h2
  rcases before with _ | ⟨p1, _ | ⟨p2, before⟩⟩ <;> simp only [calmItems, List.cons_append, List.nil_append, List.cons.injEq, Prod.mk.injEq] at h
  · exact absurd h.1.1.symm h2
  · obtain ⟨rfl, ⟨rfl, rfl⟩, _⟩ := h
    exact ⟨by decide, _, calm_reads, by simp [Fml.Wf], by decide⟩
  · simp at h

theorem calm_denotes : Denotes calmText calm := ⟨calmItems, calm_content, rfl, rfl, .nil, .nil, .nil, .cons calm_reads .nil, .nil, .nil⟩

theorem calm_plain : AllPlain calmText calm := ⟨calmItems, calm_content, rfl, rfl, rfl, rfl, rfl, rfl⟩

theorem calm_basic : ∀ φ ∈ calm.constraints, φ.Basic := by
  intro φ hφ
  simp [SpecFile.constraints, calm] at hφ
  subst hφ
  trivial

def calmPrinted : List Char := txt!"State 0 with rank 0 -> <y:0>\n\tWith successors : 0\nState 1 with rank 0 -> <y:1>\n\tWith successors : 0\n"

theorem calm_printed : runPrinted ROBDD .standard false false .plain 1000 (fun _ => true) 30 calmText = some calmPrinted := by decide +kernel

/-- The hypotheses of `C74_strategies_pass` hold. -/
example : ∃ M : Smv.Module, makeInstance calmText calmPrinted = some M.text ∧ M.Valid ∧ M.Passes :=
  C74_strategies_pass calm_printed calm_denotes calm_plain calm_basic (by decide) (by decide) (by decide)

theorem calm_safety (p q : Pos calm.In calm.Out) : calm.game.safetySys p q ↔ q.2 ⟨txt!"y", by decide⟩ = false := by
  have look : calm.look p q txt!"y'" = q.2 ⟨txt!"y", by decide⟩ := by
    rw [SpecFile.look, if_neg (by decide), SpecFile.now, dif_neg (by decide), dif_pos (by decide)]
    rfl
  have e : calm.game.safetySys p q ↔ calm.holds p q (.not (.var txt!"y'")) := by
    constructor
    · intro h; exact h _ (by simp [calm])
    · intro h φ hφ
      have : φ = .not (.var txt!"y'") := by simpa [calm] using hφ
      rwa [this]
  rw [e, SpecFile.holds]
  simp [Fml.eval, look]

/-- An automaton with two successors of a state. -/
def wild : List PState := [⟨0, 0, [(txt!"y", false)], [0, 1]⟩, ⟨1, 0, [(txt!"y", true)], [0]⟩]

theorem wild_automaton : Automaton calm wild := ⟨by decide, by unfold PState.Complete; decide, by decide⟩

theorem wild_unsafe : ¬ SafeRuns calm wild := by
  intro h
  have hr : AllowedRun calm wild (fun k => nth wild k) 1 := by
    refine ⟨⟨by decide, by simp [SpecFile.game, calm], by simp [SpecFile.game, calm]⟩, fun k hk => ?_⟩
    obtain rfl : k = 0 := by omega
    exact ⟨⟨by decide, by decide, by decide⟩, by simp [SpecFile.game, calm]⟩
  have := h _ 1 hr 0 (by omega)
  rw [calm_safety] at this
  revert this
  decide

theorem wild_state {tr : Trace} (hr : (theModule calm wild).Run tr) (h1 : tr.state 1 ≠ 2) : ∀ t, tr.state (t + 1) < 2
  | 0 => (run_state (sp := calm) (sts := wild) ⟨wild_automaton.labels, wild_automaton.targets⟩ (by decide) hr h1).1
  | t + 1 => by
    have ih := wild_state hr h1 t
    rcases step_cases (sp := calm) (sts := wild) ⟨wild_automaton.labels, wild_automaton.targets⟩ (by decide) hr (t + 1) with ⟨e, he, _, h3, _⟩ | ⟨hno, h⟩
    · rw [h3]
      have : ∀ e ∈ edges wild, e.2 < 2 := by decide
      exact this e he
    · exfalso
      have : ∀ i < 2, (i, 0) ∈ edges wild := by decide
      exact hno _ (this _ ih) ⟨rfl, by simp [calm]⟩

theorem wild_output {tr : Trace} (hr : (theModule calm wild).Run tr) {t : Nat} (ht : tr.state t < 2) : tr.val (t + 1) txt!"v_y" = false := by
  obtain ⟨bs, hp, hm⟩ := (hr.2 t).2 (txt!"v_y", outputBranches calm.inputs calm.outputs wild txt!"y") (by simp [theModule, calm])
  rcases picks_iff.mp hp with ⟨e, he, rfl⟩ | ⟨hn, _⟩
  · obtain ⟨h1, h2⟩ := firstOf_some he
    have h3 := (edgeTests_iff.mp h2).1
    have h4 : e = (0, 0) ∨ e = (0, 1) ∨ e = (1, 0) := by
      have : edges wild = [(0, 0), (0, 1), (1, 0)] := by decide
      rw [this] at h1
      simpa using h1
    have h5 : e ≠ (0, 1) := by
      rintro rfl
      have h6 : firstOf tr t (edgeTests calm.inputs wild) (edges wild) = some (0, 0) := by
        have : edges wild = [(0, 0), (0, 1), (1, 0)] := by decide
        rw [this]
        exact firstOf_head (edgeTests_iff.mpr ⟨h3, by simp [calm]⟩)
      have h7 : firstOf tr t (edgeTests calm.inputs wild) (edges wild) = some (0, 1) := he
      rw [h6] at h7
      simp at h7
    simp only [Choice.values, List.mem_singleton] at hm
    rw [hm]
    rcases h4 with rfl | rfl | rfl
    · decide
    · exact absurd rfl h5
    · decide
  · exfalso
    have : ∀ i < 2, (i, 0) ∈ edges wild := by decide
    exact firstOf_none.mp hn _ (this _ ht) (edgeTests_iff.mpr ⟨rfl, by simp [calm]⟩)

/-- **C74**, defect: if there are several successors for an input, NuSMV only follows the first one, so that all properties hold for an automaton with a run that violates
a safety guarantee. -/
theorem C74_several_successors : ∃ M : Smv.Module, makeInstance calmText (wild.map stateText).flatten = some M.text ∧ M.Valid ∧ M.Passes ∧ Automaton calm wild ∧ ¬ SafeRuns calm wild := by
  obtain ⟨r, hr⟩ := C24_proper_accepted (B := ROBDD) 1000 (fun _ => true) calmText calm_proper
  obtain ⟨sp', _, hun, hu, hw, _⟩ := C24_accepted_denotes (B := ROBDD) (tab := r.1) (c := r.2) hr
  obtain rfl := hun calm calm_denotes
  obtain ⟨h1, h2, h3⟩ := instance_of hu hw calm_denotes calm_plain calm_basic (by decide) (by decide) wild_automaton
  refine ⟨_, h1, module_valid h2 h3 (by decide) (by decide), ?_, wild_automaton, wild_unsafe⟩
  intro f hf tr hrun
  have : f = safetySpec calm 2 (.not (.var txt!"y'")) := by simpa [theModule, calm, wild] using hf
  subst this
  intro hi u _ _
  left
  have h4 := wild_state hrun ((init_iff h2 tr 2).mp hi).2.2 u
  rw [ltl_iff hu tr u (by trivial) (by decide)]
  have := (calm_safety (posAt calm tr u) (posAt calm tr (u + 1))).mpr (wild_output hrun h4)
  exact this _ (by simp [calm])

/-- The first input has to be true, which the environment need not obey. -/
def luckyText : List Char := txt!"[INPUT]\na\n[OUTPUT]\ny\n[SYS_INIT]\na\n[SYS_TRANS]\n! y'\n"

def luckyItems : List (Section × List Char) := [(.input, txt!"a"), (.output, txt!"y"), (.sysInit, txt!"a"), (.sysTrans, txt!"! y'")]

def lucky : SpecFile := ⟨[txt!"a"], [txt!"y"], [], [.var txt!"a"], [], [.not (.var txt!"y'")], [], []⟩

theorem lucky_content : Content none (splitLines luckyText) luckyItems := by
  have : splitLines luckyText = [txt!"[INPUT]", txt!"a", txt!"[OUTPUT]", txt!"y", txt!"[SYS_INIT]", txt!"a", txt!"[SYS_TRANS]", txt!"! y'"] := by decide
  rw [this]
  refine .header .input (by decide) (.item (by decide) (by decide) (by decide) ?_)
  refine .header .output (by decide) (.item (by decide) (by decide) (by decide) ?_)
  refine .header .sysInit (by decide) (.item (by decide) (by decide) (by decide) ?_)
  exact .header .sysTrans (by decide) (.item (by decide) (by decide) (by decide) .nil)

theorem lucky_reads : ReadsLine txt!"a" (.var txt!"a") := reads_plain (.var txt!"a") (by simp [Fml.Wf]) (by decide) (by decide)

theorem lucky_proper : ProperFile 1000 luckyText := by
  refine ⟨luckyItems, lucky_content, by decide, ?_⟩
  intro before s line after h h1 h2
  rcases before with _ | ⟨p1, _ | ⟨p2, _ | ⟨p3, _ | ⟨p4, before⟩⟩⟩⟩ <;>
    simp only [luckyItems, List.cons_append, List.nil_append, List.cons.injEq, Prod.mk.injEq] at h
  · exact absurd h.1.1.symm h1
  · exact absurd h.2.1.1.symm h2
  · obtain ⟨rfl, rfl, ⟨rfl, rfl⟩, _⟩ := h
    exact ⟨by decide, _, lucky_reads, by simp [Fml.Wf], by decide⟩
  · obtain ⟨rfl, rfl, rfl, ⟨rfl, rfl⟩, _⟩ := h
    exact ⟨by decide, _, calm_reads, by simp [Fml.Wf], by decide⟩
  · simp at h

theorem lucky_denotes : Denotes luckyText lucky :=
  ⟨luckyItems, lucky_content, rfl, rfl, .nil, .cons lucky_reads .nil, .nil, .cons calm_reads .nil, .nil, .nil⟩

theorem lucky_plain : AllPlain luckyText lucky := ⟨luckyItems, lucky_content, rfl, rfl, rfl, rfl, rfl, rfl⟩

theorem lucky_basic : ∀ φ ∈ lucky.constraints, φ.Basic := by
  intro φ hφ
  simp [SpecFile.constraints, lucky] at hφ
  rcases hφ with rfl | rfl <;> trivial

def luckyStates : List PState := [⟨0, 0, [(txt!"a", true), (txt!"y", false)], [0, 1]⟩, ⟨1, 0, [(txt!"a", false), (txt!"y", false)], [0, 1]⟩]

theorem lucky_automaton : Automaton lucky luckyStates := ⟨by decide, by unfold PState.Complete; decide, by decide⟩

theorem lucky_det : Deterministic lucky luckyStates := by
  intro st st1 st2 h1 h2 e
  have e' := congrFun e ⟨txt!"a", by decide⟩
  have m1 := h1.2.1
  have m2 := h2.2.1
  simp only [luckyStates, List.mem_cons, List.not_mem_nil, or_false] at m1 m2
  rcases m1 with rfl | rfl <;> rcases m2 with rfl | rfl <;> first | rfl | (revert e'; decide)

theorem lucky_complete : Complete lucky luckyStates := by
  intro st hst i _
  have hs : st.succ = [0, 1] := by
    simp only [luckyStates, List.mem_cons, List.not_mem_nil, or_false] at hst
    rcases hst with rfl | rfl <;> rfl
  have ext : ∀ b, i ⟨txt!"a", by decide⟩ = b → i = fun _ => b := by
    intro b hb
    funext x
    obtain ⟨x, hx⟩ := x
    have : x = txt!"a" := by simpa [lucky] using hx
    subst this
    exact hb
  cases hb : i ⟨txt!"a", by decide⟩ with
  | false =>
    refine ⟨_, ⟨hst, show ⟨1, 0, [(txt!"a", false), (txt!"y", false)], [0, 1]⟩ ∈ luckyStates by decide, by rw [hs]; decide⟩, ?_⟩
    rw [ext _ hb]
    funext x
    obtain ⟨x, hx⟩ := x
    have : x = txt!"a" := by simpa [lucky] using hx
    subst this
    rfl
  | true =>
    refine ⟨_, ⟨hst, show ⟨0, 0, [(txt!"a", true), (txt!"y", false)], [0, 1]⟩ ∈ luckyStates by decide, by rw [hs]; decide⟩, ?_⟩
    rw [ext _ hb]
    funext x
    obtain ⟨x, hx⟩ := x
    have : x = txt!"a" := by simpa [lucky] using hx
    subst this
    rfl

theorem lucky_safe : SafeRuns lucky luckyStates := by
  intro r n hr k hk
  have hm := (hr.steps k hk).1.2.1
  have look : ∀ p q : Pos lucky.In lucky.Out, lucky.look p q txt!"y'" = q.2 ⟨txt!"y", by decide⟩ := by
    intro p q
    rw [SpecFile.look, if_neg (by decide), SpecFile.now, dif_neg (by decide), dif_pos (by decide)]
    rfl
  have : ((r (k + 1)).pos lucky).2 ⟨txt!"y", by decide⟩ = false := by
    generalize r (k + 1) = st at hm
    simp only [luckyStates, List.mem_cons, List.not_mem_nil, or_false] at hm
    rcases hm with rfl | rfl <;> decide
  intro φ hφ
  have e : φ = .not (.var txt!"y'") := by simpa [lucky] using hφ
  subst e
  rw [SpecFile.holds]
  simp [Fml.eval, look, this]

/-- The hypotheses of `C74_checks_partial` hold, also for the converse; all properties hold for the automaton. -/
theorem lucky_passes : ∃ M : Smv.Module, makeInstance luckyText (luckyStates.map stateText).flatten = some M.text ∧ M.Valid ∧ M.Passes := by
  obtain ⟨M, h1, h2, _, h4⟩ := C74_checks_partial lucky_proper lucky_denotes lucky_plain lucky_basic (by decide) (by decide) lucky_automaton (by decide) lucky_det
  exact ⟨M, h1, h2, (h4 lucky_complete).mpr ⟨lucky_safe, fun r _ _ b hb => absurd (show b ∈ [] from hb) (List.not_mem_nil)⟩⟩

/-- **C74**, defect: it is not checked whether there is an initial state for every initial input, so that all properties hold for an automaton although the specification is
not realizable. -/
theorem C74_initial_not_checked : ∃ M : Smv.Module, makeInstance luckyText (luckyStates.map stateText).flatten = some M.text ∧ M.Valid ∧ M.Passes ∧ ¬ lucky.game.Realizable := by
  obtain ⟨M, h1, h2, h3⟩ := lucky_passes
  refine ⟨M, h1, h2, h3, fun hr => ?_⟩
  obtain ⟨o, h1, _⟩ := hr (fun _ => false) (fun φ hφ => absurd hφ (List.not_mem_nil))
  have look : ∀ p : Pos lucky.In lucky.Out, lucky.look p p txt!"a" = p.1 ⟨txt!"a", by decide⟩ := by
    intro p
    rw [SpecFile.look, if_pos (by decide), SpecFile.now, dif_pos (by decide)]
  have := h1 (.var txt!"a") (by simp [lucky])
  rw [SpecFile.holds, Fml.eval, look] at this
  simp at this

/-! ### Other defects -/

/-- **C74**, defect: the program fails for constraints with exclusive or, which slugs accepts. -/
theorem C74_xor : ∃ text printed, runPrinted ROBDD .standard false false .plain 1000 (fun _ => true) 30 text = some printed ∧ makeInstance text printed = none :=
  ⟨txt!"[OUTPUT]\ny\n[SYS_TRANS]\n^ y y'\n", txt!"State 0 with rank 0 -> <y:0>\n\tWith successors : 1\nState 1 with rank 0 -> <y:1>\n\tWith successors : 0\n", by decide +kernel, by decide +kernel⟩

/-- **C74**, defect: the program fails if there are no variables. -/
theorem C74_no_variables : ∃ text printed, runPrinted ROBDD .standard false false .plain 1000 (fun _ => true) 30 text = some printed ∧ makeInstance text printed = none :=
  ⟨txt!"[ENV_INIT]\n1", txt!"State 0 with rank 0 -> <>\n\tWith successors : 0\n", by decide +kernel, by decide +kernel⟩

/-- **C74**, defect: for names as they are made for integer variables by the translation of structured specifications, the file declares something that is not an identifier. -/
theorem C74_numbers : ∃ text printed file, runPrinted ROBDD .standard false false .plain 1000 (fun _ => true) 30 text = some printed ∧ makeInstance text printed = some file ∧
    txt!"MODULE main\n IVAR\n  i_y@0.0.1 : boolean;\n VAR\n  v_y@0.0.1 : boolean;\n" <+: file ∧ ¬ Identifier txt!"v_y@0.0.1" := by
  refine ⟨txt!"[OUTPUT]\ny@0.0.1\n", txt!"State 0 with rank 0 -> <y@0.0.1:0>\n\tWith successors : 0\nState 1 with rank 0 -> <y@0.0.1:1>\n\tWith successors : 0\n", _, by decide +kernel, rfl, by decide +kernel, ?_⟩
  rintro ⟨_, h, _⟩
  exact absurd (h '@' (by decide)) (by decide)

/-- **C74**, defect: if the strategy has no states, the file has an empty set of next states. -/
theorem C74_no_states : ∃ text printed file, runPrinted ROBDD .standard false false .plain 1000 (fun _ => true) 30 text = some printed ∧ makeInstance text printed = some file ∧
    txt!"    state < 0 : {};\n" <:+: file :=
  ⟨txt!"[INPUT]\na\n[ENV_INIT]\n0\n", [], _, by decide +kernel, rfl, by decide +kernel⟩

/-- Permissive strategies are not read. -/
theorem C74_permissive : ∃ text printed, runPrinted ROBDD .standard false false .permissive 1000 (fun _ => true) 30 text = some printed ∧ makeInstance text printed = none :=
  ⟨calmText, txt!"State 0 with rank 0\ny:0\n0\n\nState 1 with rank 0\ny:1\n0\n\n", by decide +kernel, by decide +kernel⟩

end Slugs.Props
