import Verif.Lemmas.Regroup
import Verif.Props.TextToVerdict
import Verif.Props.CommandLine

/-!
# C65: `tools/findMinimalUnrealizableCore.py`
-/

namespace Slugs.Props

open Slugs.Spec Slugs.Model Slugs.Model.Core

variable (B : Type) [DecidableEq B] [BddLib B]

/-- A call without options gives the verdict. -/
theorem plain_call : ∃ o, runMain ([] ++ [coreFile]) = .run .gr1 coreFile none o := ⟨[], by decide +kernel⟩

theorem good_answer (alg : Algorithm) {cap : Nat} (order : List Char → Bool) {J : Categories} (h : GoodLines cap J) {ss : List Section} (hn : ss.Nodup)
    (hs : ∀ s, s ∈ ss) (hd : DeclFirst ss) {fuel : Nat} (hf : Nat.card (Pos (specLines J).In (specLines J).Out) + 1 ≤ fuel) :
    ((specLines J).game.Realizable → Core.isRealizable [] B alg cap order fuel (writeLines (sectionLines [] ss J)) = some true) ∧
    (¬ (specLines J).game.Realizable → Core.isRealizable [] B alg cap order fuel (writeLines (sectionLines [] ss J)) = some false) := by
  obtain ⟨r, hr⟩ := C24_proper_accepted (B := B) cap order _ (h.properFile (gap := []) (by simp) hn hs hd)
  obtain ⟨tab, c⟩ := r
  obtain ⟨h1, h2, -, -⟩ := C24_text_to_verdict alg hr _ (h.denotes (gap := []) (by simp) hn hs) fuel hf
  obtain ⟨o, ho⟩ := plain_call
  rw [Core.isRealizable, ho]
  dsimp only
  exact ⟨fun g => by rw [h1 g], fun g => by rw [h2 g]⟩

theorem orders : livenessOrder.Nodup ∧ safetyOrder.Nodup ∧ DeclFirst livenessOrder ∧ DeclFirst safetyOrder :=
  ⟨by decide, by decide, ⟨_, rfl, by decide, by decide⟩, ⟨_, rfl, by decide, by decide⟩⟩

/-- **C65**, if `slugs` is called without the option that it does not know: for every proper file, the tool ends and writes a specification.  If the given specification is
unrealizable, it is a minimal unrealizable core of it; if the given specification is realizable, nothing has been left out.

Missing: the tool calls `slugs` with an option that `slugs` does not know, see `C65_tool_fails`. -/
theorem C65_minimal_core_partial (alg : Algorithm) (cap : Nat) (order : List Char → Bool) (text : List Char) (h : ProperFile cap text) (sp : SpecFile)
    (hd : Denotes text sp) (fuel : Nat) (hf : Nat.card (Pos sp.In sp.Out) + 1 ≤ fuel) :
    ∃ out core, findMinimalCore (Core.isRealizable [] B alg cap order fuel) text = some out ∧ ProperFile cap out ∧ Denotes out core ∧
      (¬ sp.game.Realizable → sp.MinimalCore core) ∧ (sp.game.Realizable → core = sp) := by
  obtain ⟨items, hc, hg⟩ := goodLines_of h
  obtain ⟨J, hJ⟩ : ∃ J : Categories, J = fun s => itemsOf s items := ⟨_, rfl⟩
  rw [← hJ] at hg
  have e := Denotes.det hd (hg.denotesItems hc fun s => by rw [hJ])
  subst e
  obtain ⟨n1, n2, d1, d2⟩ := orders
  have hread : readLines [] (fun _ => []) (splitLines text) = some J := by
    rw [readLines_content hc [] _ (by simp), hJ]; simp
  -- the first loop
  have pi : ∀ (J : Categories) {s : Section} (L : List (List Char)) (t : Section), t ≠ s → J.put s L t = J t := fun J s L t ht => if_neg ht
  have ps : ∀ (J : Categories) (s : Section) (L : List (List Char)), J.put s L s = L := fun J s L => if_pos rfl
  have mono1 : ∀ L L' : List (List Char), L.Sublist L' → (specLines (J.put .sysLiveness L')).game.Realizable → (specLines (J.put .sysLiveness L)).game.Realizable :=
    fun L L' hs => part_realizable (specLines_part (fun t => put_sub t hs) fun t _ ht => by rw [pi _ _ _ ht, pi _ _ _ ht])
  have self : ∀ (J : Categories) (s : Section), J.put s (J s) = J := by
    intro J s; funext t; rw [Categories.put]; split
    · rename_i h; rw [h]
    · rfl
  have card : ∀ (J' : Categories), J' .input = J .input → J' .output = J .output → Nat.card (Pos (specLines J').In (specLines J').Out) + 1 ≤ fuel := by
    intro J' h1 h2
    have : Nat.card (Pos (specLines J').In (specLines J').Out) = Nat.card (Pos (specLines J).In (specLines J).Out) := by
      rw [SpecFile.In, SpecFile.Out, SpecFile.In, SpecFile.Out, specLines, specLines]
      simp only
      rw [h1, h2]
    rw [this]; exact hf
  have ans1 : ∀ L : List (List Char), L.Sublist (J .sysLiveness) → _ := fun L hL =>
    good_answer B alg order (hg.put (s := .sysLiveness) (by decide) (by decide) hL) n1 (fun s => (mem_sections s).1) d1
      (card _ (pi _ _ _ (by decide)) (pi _ _ _ (by decide)))
  obtain ⟨R1, s1, sub1, u1, r1, m1⟩ := shrink_spec (order := livenessOrder) (s := .sysLiveness) (c := J) (fun L => (specLines (J.put .sysLiveness L)).game.Realizable) (J .sysLiveness)
    (fun L hL => (ans1 L hL).1) (fun L hL => (ans1 L hL).2) mono1 (J .sysLiveness) [] (.refl _)
  rw [List.nil_append] at s1
  simp only [List.nil_append, self] at u1 r1 m1
  -- the second loop
  obtain ⟨K, hK⟩ : ∃ K, K = J.put .sysLiveness R1 := ⟨_, rfl⟩
  have gK : GoodLines cap K := hK ▸ hg.put (by decide) (by decide) sub1
  have kt : K .sysTrans = J .sysTrans := by rw [hK]; exact pi _ _ _ (by decide)
  have kl : K .sysLiveness = R1 := by rw [hK]; exact ps _ _ _
  have mono2 : ∀ L L' : List (List Char), L.Sublist L' → (specLines (K.put .sysTrans L')).game.Realizable → (specLines (K.put .sysTrans L)).game.Realizable :=
    fun L L' hs => part_realizable (specLines_part (fun t => put_sub t hs) fun t ht _ => by rw [pi _ _ _ ht, pi _ _ _ ht])
  have ki : ∀ t, t ≠ Section.sysLiveness → K t = J t := fun t ht => by rw [hK]; exact pi _ _ _ ht
  have ans2 : ∀ L : List (List Char), L.Sublist (K .sysTrans) → _ := fun L hL =>
    good_answer B alg order (gK.put (s := .sysTrans) (by decide) (by decide) hL) n2 (fun s => (mem_sections s).2) d2
      (card _ ((pi _ _ _ (by decide)).trans (ki _ (by decide))) ((pi _ _ _ (by decide)).trans (ki _ (by decide))))
  obtain ⟨R2, s2, sub2, u2, r2, m2⟩ := shrink_spec (order := safetyOrder) (s := .sysTrans) (c := K) (fun L => (specLines (K.put .sysTrans L)).game.Realizable) (K .sysTrans)
    (fun L hL => (ans2 L hL).1) (fun L hL => (ans2 L hL).2) mono2 (K .sysTrans) [] (.refl _)
  rw [List.nil_append] at s2
  simp only [List.nil_append, self] at u2 r2 m2
  have gM := gK.put (s := .sysTrans) (by decide) (by decide) sub2
  have hpart : (specLines (K.put .sysTrans R2)).PartOf (specLines J) := by
    refine specLines_part (fun t => ?_) fun t h1 h2 => by rw [pi _ _ _ h1, ki _ h2]
    by_cases ht : t = .sysTrans
    · subst ht; rw [ps, ← kt]; exact sub2
    · rw [pi _ _ _ ht]
      by_cases ht' : t = .sysLiveness
      · subst ht'; rw [kl]; exact sub1
      · rw [ki _ ht']
  refine ⟨writeLines (sectionLines [[]] safetyOrder (K.put .sysTrans R2)), specLines (K.put .sysTrans R2), ?_,
    gM.properFile (by simp) n2 (fun s => (mem_sections s).2) d2, gM.denotes (by simp) n2 (fun s => (mem_sections s).2), ?_, ?_⟩
  · rw [findMinimalCore, hread]
    dsimp only
    rw [s1]
    dsimp only
    rw [← hK, s2]
  · intro hu
    refine ⟨hpart, u2 (by rw [hK]; exact u1 hu), fun a φ b e => ?_, fun a φ b e => ?_⟩
    · have e' : (K.put .sysTrans R2 .sysTrans).map rdLine = a ++ φ :: b := e
      rw [ps] at e'
      obtain ⟨a', b', e1, e2, e3⟩ := List.map_eq_append_iff.mp e'
      obtain ⟨l, b'', e4, e5, e6⟩ := List.map_eq_cons_iff.mp e3
      have := m2 a' l b'' (by rw [e1, e4])
      have e7 : specLines (K.put .sysTrans (a' ++ b'')) = { specLines (K.put .sysTrans R2) with sysTrans := a ++ b } := by
        rw [← e2, ← e6, ← List.map_append]; rfl
      rw [← e7]; exact this
    · have e' : (K.put .sysTrans R2 .sysLiveness).map rdLine = a ++ φ :: b := e
      rw [pi _ _ _ (by decide), kl] at e'
      obtain ⟨a', b', e1, e2, e3⟩ := List.map_eq_append_iff.mp e'
      obtain ⟨l, b'', e4, e5, e6⟩ := List.map_eq_cons_iff.mp e3
      have := m1 a' l b'' (by rw [e1, e4])
      refine part_realizable (sp := specLines (J.put .sysLiveness (a' ++ b''))) ⟨hpart.inputs, hpart.outputs, hpart.envInit, hpart.sysInit, hpart.envTrans, hpart.envLiveness,
        hpart.sysTrans, ?_⟩ this
      have : (specLines (J.put .sysLiveness (a' ++ b''))).sysLiveness = a ++ b := by
        rw [← e2, ← e6, ← List.map_append]; rfl
      rw [this]
  · intro hr
    have e1 := r1 hr
    have e2 := r2 (by rw [hK, e1, self]; exact hr)
    rw [e2, self, hK, e1, self]

/-- **C65**, what happens: whenever a file has a safety guarantee or a liveness guarantee, the tool fails, because `slugs` does not know the option
`--onlyRealizability` with which it is called. -/
theorem C65_tool_fails (alg : Algorithm) (cap : Nat) (order : List Char → Bool) (fuel : Nat) (text : List Char) (items : List (Section × List Char))
    (hc : Content none (splitLines text) items) (hg : itemsOf .sysTrans items ≠ [] ∨ itemsOf .sysLiveness items ≠ []) :
    runMain (toolOptions ++ [coreFile]) = .unknownOption txt!"--onlyRealizability" ∧
    findMinimalCore (Core.isRealizable toolOptions B alg cap order fuel) text = none := by
  have hu : runMain (toolOptions ++ [coreFile]) = .unknownOption txt!"--onlyRealizability" := by decide +kernel
  refine ⟨hu, ?_⟩
  have ask : ∀ t, Core.isRealizable toolOptions B alg cap order fuel t = none := fun t => by rw [Core.isRealizable, hu]
  have fails : ∀ order' s c kept l rest, shrink (Core.isRealizable toolOptions B alg cap order fuel) order' s c kept (l :: rest) = none := by
    intros; rw [shrink, ask]
  rw [findMinimalCore, readLines_content hc [] _ (by simp)]
  simp only [List.nil_append]
  cases hl : itemsOf .sysLiveness items with
  | cons l rest => rw [fails]
  | nil =>
    rw [shrink]
    dsimp only
    rw [Categories.put, if_neg (by decide)]
    cases ht : itemsOf .sysTrans items with
    | cons l rest => rw [fails]
    | nil => exact absurd hl (hg.resolve_left (by simp [ht]))

/-! ### An example -/

/-- The file of C24: the environment can refuse all requests; that grants are not repeated plays no role. -/
example : findMinimalCore (Core.isRealizable [] ROBDD .standard 1000 (fun _ => true) 20) demoText =
    some txt!"[INPUT]\nr\n\n[OUTPUT]\ng\n\n[ENV_INIT]\n\n[ENV_LIVENESS]\n\n[ENV_TRANS]\n\n[SYS_INIT]\n\n[SYS_LIVENESS]\ng\n\n[SYS_TRANS]\n| ! g' r'\n\n" := by
  decide +kernel

/-- The hypotheses of `C65_minimal_core_partial` hold for it, and it is unrealizable. -/
example : ProperFile 1000 demoText ∧ ∃ sp, Denotes demoText sp ∧ ¬ sp.game.Realizable := by
  have hrun : runSlugs ROBDD .standard false 1000 (fun _ => true) 20 demoText = .result false := by decide +kernel
  obtain ⟨sp, hd, hv⟩ := C24_printed_is_right hrun
  exact ⟨demoText_proper, sp, hd, fun h => by have := hv.mpr h; simp at this⟩

example : findMinimalCore (Core.isRealizable toolOptions ROBDD .standard 1000 (fun _ => true) 20) demoText = none :=
  (C65_tool_fails ROBDD .standard 1000 (fun _ => true) 20 demoText demoItems demoText_content (.inl (by decide))).2

end Slugs.Props
