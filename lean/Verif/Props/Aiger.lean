import Verif.Lemmas.AigerText

/-!
C69: the translation of safety specifications to circuits for the reactive synthesis competition (`tools/translateSafetySlugsSpecToSyntCompAIGFormat.py`).
-/

namespace Slugs.Props

open Slugs.Spec Slugs.Spec.Aag Slugs.Model Slugs.Model.Aiger

/-- **C69.** For every proper file without liveness constraints, in which the constraints are written in the plainest way, the program prints a well-formed circuit with
one output.  Its inputs are the variables of the specification, in order, where the outputs are marked as controllable.  The output is true in a round if and only if the
assumptions have been satisfied up to this round, and a guarantee is violated in this round. -/
theorem C69_circuit {cap : Nat} {text : List Char} {sp : SpecFile} (hf : ProperFile cap text) (hd : Denotes text sp) (hp : WrittenPlainly text sp)
    (h1 : sp.envLiveness = []) (h2 : sp.sysLiveness = []) :
    ∃ A : Aag, translate text = some A.text ∧ A.Valid ∧ A.inputNames = sp.inputs ++ sp.outputs.map (txt!"controllable_" ++ ·) ∧ A.outputs.length = 1 ∧
      ∀ inp x, A.Run inp x → ∀ t, ∀ o ∈ A.outputs, (lit (x t) o = true ↔
        sp.game.AssumedUpTo (fun t => sp.values (inp t)) t ∧ ¬ sp.game.Kept (fun t => sp.values (inp t)) t) := by
  obtain ⟨hu, hw, d, d', P, hb, ht⟩ := translate_spec hf hd hp h1 h2
  refine ⟨_, ht, hb.valid hw _, rfl, rfl, fun inp x R t o ho => ?_⟩
  simp only [theAag, List.mem_singleton] at ho
  subst ho
  exact err_iff hb hu R hw t

/-- **C69**, realizability: if no input has a name that starts with `controllable_`, then the circuit is realizable if and only if the specification is.  (Missing: inputs
with such names, see `C69_controllable_input`.) -/
theorem C69_realizable_partial {cap : Nat} {text : List Char} {sp : SpecFile} (hf : ProperFile cap text) (hd : Denotes text sp) (hp : WrittenPlainly text sp)
    (h1 : sp.envLiveness = []) (h2 : sp.sysLiveness = []) (hc : ∀ x ∈ sp.inputs, ¬ txt!"controllable_" <+: x) :
    ∃ A : Aag, translate text = some A.text ∧ A.Valid ∧ (A.Realizable ↔ sp.game.Realizable) := by
  obtain ⟨hu, hw, d, d', P, hb, ht⟩ := translate_spec hf hd hp h1 h2
  exact ⟨_, ht, hb.valid hw _, realizable_iff hb hu hw h2 hc⟩

/-- The verdict of slugs for the file is the answer for the circuit. -/
theorem C69_same_verdict_partial {B : Type} [DecidableEq B] [BddLib B] (alg : Algorithm) (order : List Char → Bool) {cap : Nat} {text : List Char} {sp : SpecFile}
    (hf : ProperFile cap text) (hd : Denotes text sp) (hp : WrittenPlainly text sp) (h1 : sp.envLiveness = []) (h2 : sp.sysLiveness = [])
    (hc : ∀ x ∈ sp.inputs, ¬ txt!"controllable_" <+: x) (fuel : Nat) (hfuel : Nat.card (Pos sp.In sp.Out) + 1 ≤ fuel) :
    ∃ A : Aag, translate text = some A.text ∧ (A.Realizable → runSlugs B alg false cap order fuel text = .result true) ∧
      (¬ A.Realizable → runSlugs B alg false cap order fuel text = .result false) := by
  obtain ⟨A, ht, _, hr⟩ := C69_realizable_partial hf hd hp h1 h2 hc
  obtain ⟨r, hok⟩ := C24_proper_accepted (B := B) cap order text hf
  obtain ⟨a, b, _, _⟩ := C24_text_to_verdict alg (tab := r.1) (c := r.2) hok sp hd fuel hfuel
  exact ⟨A, ht, fun h => a (hr.mp h), fun h => b (fun h' => h (hr.mpr h'))⟩

/-- A circuit that is well-formed has a run for all values of its inputs, so that the statements above are not empty. -/
theorem C69_runs {A : Aag} (h : A.Valid) (inp : Nat → Nat → Bool) : ∃ x, A.Run inp x := exists_run h inp

/-- Files with liveness constraints are not translated. -/
theorem C69_liveness {text : List Char} {items : List (Section × List Char)} (hc : Content none (splitLines text) items)
    (hl : itemsOf .envLiveness items ≠ [] ∨ itemsOf .sysLiveness items ≠ []) : translate text = none := by
  have rd : Core.readLines [] (fun _ => []) (rawLines text) = some fun s => itemsOf s items := by
    rw [readLines_congr (rawLines text) (splitLines text) _ _ (rawLines_trim text []), Core.readLines_content hc [] (fun _ => []) (fun s h => by cases h)]
    simp
  rw [translate]
  simp only [rd, Option.bind_eq_bind, Option.bind_some]
  have : safetyCircuit (fun s => itemsOf s items) = none := by
    rw [safetyCircuit]
    rcases hl with hl | hl
    · rw [if_pos (List.length_pos_iff.mpr hl)]
    · split
      · rfl
      · rw [if_pos (List.length_pos_iff.mpr hl)]
  rw [this]
  rfl

/-! ### Defects -/

theorem reads_plain (φ : Fml) (h1 : φ.Wf 0) (h2 : ∀ x ∈ φ.vars, (x ≠ [] ∧ ∀ c ∈ x, isSpace c = false) ∧ x ∉ reserved) (h3 : φ.text.length < 2 ^ 32) :
    ReadsLine φ.text φ :=
  ⟨[], (Spells.joinWords _ (Fml.words_good φ fun x hx => (h2 x hx).1)).reads φ 0 h3 (by decide) h1 (fun x hx => (h2 x hx).2), by simp⟩

/-- An input with an unlucky name. -/
def unluckyText : List Char := txt!"[INPUT]\ncontrollable_x\n[OUTPUT]\ny\n[SYS_INIT]\ncontrollable_x\n"

def unluckyItems : List (Section × List Char) := [(.input, txt!"controllable_x"), (.output, txt!"y"), (.sysInit, txt!"controllable_x")]

def unlucky : SpecFile := ⟨[txt!"controllable_x"], [txt!"y"], [], [.var txt!"controllable_x"], [], [], [], []⟩

theorem unlucky_content : Content none (splitLines unluckyText) unluckyItems := by
  have : splitLines unluckyText = [txt!"[INPUT]", txt!"controllable_x", txt!"[OUTPUT]", txt!"y", txt!"[SYS_INIT]", txt!"controllable_x"] := by decide
  rw [this]
  refine .header .input (by decide) (.item (by decide) (by decide) (by decide) ?_)
  refine .header .output (by decide) (.item (by decide) (by decide) (by decide) ?_)
  exact .header .sysInit (by decide) (.item (by decide) (by decide) (by decide) .nil)

theorem unlucky_proper : ProperFile 1000 unluckyText := by
  refine ⟨unluckyItems, unlucky_content, by decide, ?_⟩
  intro before s line after h h1 h2
  rcases before with _ | ⟨p1, _ | ⟨p2, _ | ⟨p3, before⟩⟩⟩ <;>
    simp only [unluckyItems, List.cons_append, List.nil_append, List.cons.injEq, Prod.mk.injEq] at h
  · exact absurd h.1.1.symm h1
  · exact absurd h.2.1.1.symm h2
  · obtain ⟨rfl, rfl, ⟨rfl, rfl⟩, _⟩ := h
    exact ⟨by decide, .var txt!"controllable_x", reads_plain (.var txt!"controllable_x") (by simp [Fml.Wf]) (by decide) (by decide), by simp [Fml.Wf], by decide⟩
  · simp at h

theorem unlucky_denotes : Denotes unluckyText unlucky :=
  ⟨unluckyItems, unlucky_content, rfl, rfl, .nil, .cons (reads_plain (.var txt!"controllable_x") (by simp [Fml.Wf]) (by decide) (by decide)) .nil, .nil, .nil, .nil, .nil⟩

theorem unlucky_plain : WrittenPlainly unluckyText unlucky := ⟨unluckyItems, unlucky_content, rfl, rfl, rfl, rfl⟩

/-- The verdict is different for a file in which the name of an input starts with `controllable_`: the controller of the circuit can choose the input. -/
theorem C69_controllable_input : ∃ A : Aag, translate unluckyText = some A.text ∧ A.Valid ∧ A.Realizable ∧ ¬ unlucky.game.Realizable := by
  obtain ⟨A, ht, hv, hn, ho, he⟩ := C69_circuit unlucky_proper unlucky_denotes unlucky_plain rfl rfl
  have look : ∀ p : Pos unlucky.In unlucky.Out, unlucky.look p p txt!"controllable_x" = p.1 ⟨txt!"controllable_x", by decide⟩ := by
    intro p
    rw [SpecFile.look, if_pos (by decide), SpecFile.now, dif_pos (by decide)]
  have sys : ∀ p : Pos unlucky.In unlucky.Out, unlucky.game.initSys p ↔ p.1 ⟨txt!"controllable_x", by decide⟩ = true := by
    intro p
    rw [← look]
    simp [SpecFile.game, unlucky, SpecFile.holds, Fml.eval]
  refine ⟨A, ht, hv, ⟨fun _ _ => true, fun u x R t o hoo => ?_⟩, fun hr => ?_⟩
  · rw [← Bool.not_eq_true, he _ x R t o hoo]
    rintro ⟨_, hk⟩
    refine hk ?_
    cases t with
    | zero =>
      rw [Game.Kept, sys]
      have : A.Controllable 0 := ⟨txt!"controllable_x", by rw [hn]; rfl, List.prefix_append txt!"controllable_" txt!"x"⟩
      simp only [SpecFile.values]
      have e : unlucky.inputs.idxOf txt!"controllable_x" = 0 := by decide
      rw [e, Aag.played, if_pos this]
    | succ t =>
      rw [Game.Kept]
      intro φ hφ
      exact absurd hφ (List.not_mem_nil)
  · obtain ⟨o, h1, _⟩ := hr (fun _ => false) (fun φ hφ => absurd hφ (List.not_mem_nil))
    rw [sys] at h1
    simp at h1

/-- A file that slugs accepts, but that is not translated: there are two blanks between the words of a constraint. -/
theorem C69_two_blanks : (∃ r, initContext (B := ROBDD) 1000 (fun _ => true) txt!"[OUTPUT]\ny\n[SYS_INIT]\n!  y\n" = .ok r) ∧
    translate txt!"[OUTPUT]\ny\n[SYS_INIT]\n!  y\n" = none := by
  refine ⟨?_, by decide +kernel⟩
  have : (match initContext (B := ROBDD) 1000 (fun _ => true) txt!"[OUTPUT]\ny\n[SYS_INIT]\n!  y\n" with | .ok _ => true | _ => false) = true := by decide +kernel
  cases h : initContext (B := ROBDD) 1000 (fun _ => true) txt!"[OUTPUT]\ny\n[SYS_INIT]\n!  y\n" with
  | ok r => exact ⟨r, rfl⟩
  | err e => rw [h] at this; simp at this
  | ub => rw [h] at this; exact absurd this (by decide)
  | stuck => rw [h] at this; exact absurd this (by decide)

/-! ### An example -/

/-- A lock: the door may only be open if the key has been turned. -/
def lockText : List Char := txt!"[INPUT]\nkey\n# the door\n[OUTPUT]\nopen\n\n[ENV_INIT]\n! key\n[SYS_INIT]\n! open\n[ENV_TRANS]\n| ! open key'\n[SYS_TRANS]\n$ 2 ^ open' key ! ? 0\n"

def lockItems : List (Section × List Char) :=
  [(.input, txt!"key"), (.output, txt!"open"), (.envInit, txt!"! key"), (.sysInit, txt!"! open"), (.envTrans, txt!"| ! open key'"),
    (.sysTrans, txt!"$ 2 ^ open' key ! ? 0")]

def lock : SpecFile where
  inputs := [txt!"key"]
  outputs := [txt!"open"]
  envInit := [.not (.var txt!"key")]
  sysInit := [.not (.var txt!"open")]
  envTrans := [.bin .or (.not (.var txt!"open")) (.var txt!"key'")]
  sysTrans := [.buffer [.bin .xor (.var txt!"open'") (.var txt!"key"), .not (.recall 0)]]
  envLiveness := []
  sysLiveness := []

theorem lock_content : Content none (splitLines lockText) lockItems := by
  have : splitLines lockText = [txt!"[INPUT]", txt!"key", txt!"# the door", txt!"[OUTPUT]", txt!"open", [], txt!"[ENV_INIT]", txt!"! key", txt!"[SYS_INIT]", txt!"! open",
    txt!"[ENV_TRANS]", txt!"| ! open key'", txt!"[SYS_TRANS]", txt!"$ 2 ^ open' key ! ? 0"] := by decide
  rw [this]
  refine .header .input (by decide) (.item (by decide) (by decide) (by decide) (.skip (by decide) ?_))
  refine .header .output (by decide) (.item (by decide) (by decide) (by decide) (.skip (by decide) ?_))
  refine .header .envInit (by decide) (.item (by decide) (by decide) (by decide) ?_)
  refine .header .sysInit (by decide) (.item (by decide) (by decide) (by decide) ?_)
  refine .header .envTrans (by decide) (.item (by decide) (by decide) (by decide) ?_)
  exact .header .sysTrans (by decide) (.item (by decide) (by decide) (by decide) .nil)

theorem lock_reads : ∀ φ ∈ lock.envInit ++ lock.sysInit ++ lock.envTrans ++ lock.sysTrans, φ.Wf 0 ∧ ReadsLine φ.text φ := by
  intro φ hφ
  simp only [lock, List.mem_append, List.mem_singleton] at hφ
  rcases hφ with ((rfl | rfl) | rfl) | rfl
  · exact ⟨by simp [Fml.Wf], reads_plain _ (by simp [Fml.Wf]) (by decide) (by decide)⟩
  · exact ⟨by simp [Fml.Wf], reads_plain _ (by simp [Fml.Wf]) (by decide) (by decide)⟩
  · exact ⟨by simp [Fml.Wf], reads_plain _ (by simp [Fml.Wf]) (by decide) (by decide)⟩
  · exact ⟨by simp [Fml.Wf, Fml.WfBuffer], reads_plain _ (by simp [Fml.Wf, Fml.WfBuffer]) (by decide) (by decide)⟩

theorem lock_proper : ProperFile 1000 lockText := by
  refine ⟨lockItems, lock_content, by decide, ?_⟩
  intro before s line after h h1 h2
  rcases before with _ | ⟨p1, _ | ⟨p2, _ | ⟨p3, _ | ⟨p4, _ | ⟨p5, _ | ⟨p6, before⟩⟩⟩⟩⟩⟩ <;>
    simp only [lockItems, List.cons_append, List.nil_append, List.cons.injEq, Prod.mk.injEq] at h
  · exact absurd h.1.1.symm h1
  · exact absurd h.2.1.1.symm h2
  · obtain ⟨rfl, rfl, ⟨rfl, rfl⟩, _⟩ := h
    obtain ⟨w, r⟩ := lock_reads (.not (.var txt!"key")) (by simp [lock])
    exact ⟨by decide, _, r, w, by decide⟩
  · obtain ⟨rfl, rfl, rfl, ⟨rfl, rfl⟩, _⟩ := h
    obtain ⟨w, r⟩ := lock_reads (.not (.var txt!"open")) (by simp [lock])
    exact ⟨by decide, _, r, w, by decide⟩
  · obtain ⟨rfl, rfl, rfl, rfl, ⟨rfl, rfl⟩, _⟩ := h
    obtain ⟨w, r⟩ := lock_reads (.bin .or (.not (.var txt!"open")) (.var txt!"key'")) (by simp [lock])
    exact ⟨by decide, _, r, w, by decide⟩
  · obtain ⟨rfl, rfl, rfl, rfl, rfl, ⟨rfl, rfl⟩, _⟩ := h
    obtain ⟨w, r⟩ := lock_reads (.buffer [.bin .xor (.var txt!"open'") (.var txt!"key"), .not (.recall 0)]) (by simp [lock])
    exact ⟨by decide, _, r, w, by decide⟩
  · simp at h

theorem lock_denotes : Denotes lockText lock :=
  ⟨lockItems, lock_content, rfl, rfl, .cons (lock_reads (.not (.var txt!"key")) (by simp [lock])).2 .nil, .cons (lock_reads (.not (.var txt!"open")) (by simp [lock])).2 .nil,
    .cons (lock_reads (.bin .or (.not (.var txt!"open")) (.var txt!"key'")) (by simp [lock])).2 .nil,
    .cons (lock_reads (.buffer [.bin .xor (.var txt!"open'") (.var txt!"key"), .not (.recall 0)]) (by simp [lock])).2 .nil, .nil, .nil⟩

/-- The hypotheses of the theorems hold for the file. -/
example : ProperFile 1000 lockText ∧ Denotes lockText lock ∧ WrittenPlainly lockText lock ∧ lock.envLiveness = [] ∧ lock.sysLiveness = [] ∧
    ∀ x ∈ lock.inputs, ¬ txt!"controllable_" <+: x :=
  ⟨lock_proper, lock_denotes, ⟨lockItems, lock_content, rfl, rfl, rfl, rfl⟩, rfl, rfl, by decide⟩

/-- What is printed for the file. -/
example : translate lockText = some (txt!"aag 38 2 4 1 12\n6\n8\n4 1\n16 6\n18 8\n10 13\n14\n20 18 7\n12 11 22\n22 25 27\n24 6 5\n26 20 4\n28 9 17\n30 8 16\n32 29 31\n14 12 35\n34 37 39\n36 8 5\n38 32 4\ni0 key\ni1 controllable_open\nl0 IsNotFirstRound\nl1 prev_key\nl2 prev_open\nl3 AssumptionsAlreadyViolated\no0 err\nc\n" ++ note ++
    txt!"\n[INPUT]\nkey\n# the door\n[OUTPUT]\nopen\n[ENV_INIT]\n! key\n[SYS_INIT]\n! open\n[ENV_TRANS]\n| ! open key'\n[SYS_TRANS]\n$ 2 ^ open' key ! ? 0\n\n") := by decide +kernel

/-- A file with a liveness constraint. -/
example : translate txt!"[OUTPUT]\ny\n[SYS_LIVENESS]\ny\n" = none := by decide +kernel

end Slugs.Props
