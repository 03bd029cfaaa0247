import Verif.Lemmas.Graphviz
import Verif.Props.Printing
import Verif.Props.Interactive

/-!
# C67: the graph of an explicit strategy

`runPrinted` is the model of a run of slugs with `--explicitStrategy`, and `graphviz` the one of `tools/explicitStrategyToGraphviz.py`; `Spec/Dot.lean` says
how a strategy is drawn.
-/

namespace Slugs.Props

open Slugs.Spec Slugs.Spec.Structured Slugs.Model Slugs.Model.Structured Slugs.Model.Graphviz

variable {B : Type} [DecidableEq B] [L : BddLib B] {alg : Algorithm}

/-- **C67**, as far as it holds.  Let there be a declared variable, and let the names have no blanks, commas, colons and `<`.  Then the program draws the strategy
that slugs has found, with one node for each state and one edge for each successor, provided that in every state of the strategy the safety assumptions
allow a next input.  (Missing: strategies in which some state has no successor, see `C67_fails`; other names, see `C67_colon`; counterstrategies.) -/
theorem C67_graph_partial {robotics recovery : Bool} {cap : Nat} {order : List Char → Bool} {fuel : Nat} {text printed : List Char}
    (h : runPrinted B alg robotics recovery .plain cap order fuel text = some printed) {sp : SpecFile} (hd : Denotes text sp) (hne : sp.inputs ++ sp.outputs ≠ [])
    (hr : ∀ x ∈ sp.inputs ++ sp.outputs, ∀ c ∈ x, pySpace c = false ∧ c ≠ '<' ∧ c ≠ ',' ∧ c ≠ ':') :
    ∃ names sts, names.Perm (sp.inputs ++ sp.outputs) ∧ runExplicit B alg robotics false recovery cap order fuel text = .strategy sts ∧
      (∀ st ∈ sts, st.label.map Prod.fst = names) ∧ (sts = [] → graphviz printed = some dotEmpty) ∧
      (sts ≠ [] → (∀ st ∈ sts, ∃ i, sp.game.safetyEnv (st.pos sp) i) → graphviz printed = some (dotGraph names sts)) ∧
      (graphviz printed = none ↔ ∃ st ∈ sts, st.succ = []) := by
  obtain ⟨tab, c, sts, h1, h2, rfl⟩ := runPrinted_some h
  simp only [reduceCtorEq, decide_false] at h2
  have hperm := preNames_perm h1 hd
  have hlab := runExplicit_names h1 h2
  obtain ⟨_, hp⟩ := runExplicit_printed h2 hd
  have hnum : (sts.map PState.num).Nodup := by
    rw [hp.wf.numbers]; exact List.nodup_range
  have he := graphviz_eq (names := preNames tab) (fun e => hne (List.nil_perm.mp (e ▸ hperm))) (fun x hx => hr x (hperm.mem_iff.mp hx)) hlab hnum
  have hl : listing (preNames tab) sts .plain = (sts.map stateText).flatten := rfl
  refine ⟨preNames tab, sts, hperm, h2, hlab, fun h0 => ?_, fun h0 hi => ?_, ?_⟩
  · rw [hl, he, if_pos h0]
  · rw [hl, he, if_neg h0, if_neg]
    rintro ⟨st, hst, hs⟩
    obtain ⟨i, hi⟩ := hi st hst
    obtain ⟨st', he', _⟩ := hp.total st hst i hi
    have := he'.2.2
    rw [hs] at this
    cases this
  · rw [hl, he]
    by_cases h0 : sts = []
    · rw [if_pos h0]; simp [h0]
    · rw [if_neg h0]
      split
      · rename_i hex; simpa using hex
      · rename_i hex; simpa using hex

/-! ### A concrete file -/

def echoPrinted : List Char :=
  txt!"State 0 with rank 0 -> <x:0, y:0>\n\tWith successors : 0, 2\nState 1 with rank 0 -> <x:0, y:1>\n\tWith successors : 0, 2\nState 2 with rank 0 -> <x:1, y:0>\n\tWith successors : 1, 3\nState 3 with rank 0 -> <x:1, y:1>\n\tWith successors : 1, 3\n"

theorem echo_printed : runPrinted ROBDD .standard false false .plain 1000 (fun _ => true) 30 echoText = some echoPrinted := by decide +kernel

/-- The hypotheses of `C67_graph_partial` hold for a file in which every input is always allowed. -/
example : ∃ names sts, names.Perm [txt!"x", txt!"y"] ∧ graphviz echoPrinted = some (dotGraph names sts) := by
  obtain ⟨names, sts, h1, _, _, h4, h5, _⟩ := C67_graph_partial echo_printed echo_denotes (by decide) (by decide)
  refine ⟨names, sts, h1, h5 ?_ ?_⟩
  · intro h0
    have : graphviz echoPrinted ≠ some dotEmpty := by decide +kernel
    exact this (h4 h0)
  · intro st _
    exact ⟨(st.pos echo).1, by simp [SpecFile.game, echo]⟩

example : graphviz echoPrinted = some txt!"digraph {\nnode [shape=tab] \"x,y\";\n\"0\" [shape=box,label=\"00/0\"];\n\"1\" [shape=box,label=\"01/0\"];\n\"2\" [shape=box,label=\"10/0\"];\n\"3\" [shape=box,label=\"11/0\"];\n\"0\" -> \"0\";\n\"0\" -> \"2\";\n\"1\" -> \"0\";\n\"1\" -> \"2\";\n\"2\" -> \"1\";\n\"2\" -> \"3\";\n\"3\" -> \"1\";\n\"3\" -> \"3\";\n}\n" := by
  decide +kernel

/-! ### What fails -/

/-- **C67**, defect: the program fails if the environment can reach a state in which the safety assumptions allow no next input. -/
theorem C67_fails : ∃ text printed, runPrinted ROBDD .standard false false .plain 1000 (fun _ => true) 30 text = some printed ∧ graphviz printed = none :=
  ⟨txt!"[INPUT]\na\n[OUTPUT]\nx\n[ENV_TRANS]\n! a", txt!"State 0 with rank 0 -> <a:0, x:0>\n\tWith successors : 0, 2\nState 1 with rank 0 -> <a:0, x:1>\n\tWith successors : 0, 2\nState 2 with rank 0 -> <a:1, x:0>\n\tWith successors : \nState 3 with rank 0 -> <a:1, x:1>\n\tWith successors : \n", by decide +kernel, by decide +kernel⟩

/-- **C67**, defect: the program fails if there are no variables. -/
theorem C67_no_variables : ∃ text printed, runPrinted ROBDD .standard false false .plain 1000 (fun _ => true) 30 text = some printed ∧ graphviz printed = none :=
  ⟨txt!"[ENV_INIT]\n1", txt!"State 0 with rank 0 -> <>\n\tWith successors : 0\n", by decide +kernel, by decide +kernel⟩

/-- **C67**, defect: if a name has a colon, the graph has a part of the name instead of the values. -/
theorem C67_colon : ∃ text printed, runPrinted ROBDD .standard false false .plain 1000 (fun _ => true) 30 text = some printed ∧
    graphviz printed = some txt!"digraph {\nnode [shape=tab] \"a\";\n\"0\" [shape=box,label=\"b/0\"];\n\"1\" [shape=box,label=\"b/0\"];\n\"0\" -> \"0\";\n\"1\" -> \"0\";\n}\n" :=
  ⟨txt!"[OUTPUT]\na:b\n", txt!"State 0 with rank 0 -> <a:b:0>\n\tWith successors : 0\nState 1 with rank 0 -> <a:b:1>\n\tWith successors : 0\n", by decide +kernel, by decide +kernel⟩

end Slugs.Props
