import Verif.Lemmas.WeakenText
import Verif.Props.Interaction

/-!
# C44, C45, C46: weakening the safety assumptions

`runWeaken` is the model of a complete run with `--computeWeakenedSafetyAssumptions`.  `Spec/Weaken.lean` says what it means to replace the safety assumptions
of a specification by the clauses that are printed.
-/

namespace Slugs.Props

open Slugs.Spec Slugs.Model

variable {B : Type} [DecidableEq B] [L : BddLib B]

/-- What is known about the clauses `cs` that are printed, in terms of the clauses `G` from which they are obtained by removing literals. -/
structure WeakenedOK (sp : SpecFile) (G cs : List Clause) : Prop where
  inScope : ∀ c ∈ G, ∀ l ∈ c, l.2 ∈ sp.inputs ++ sp.outputs ++ sp.inputs.map prime
  weaker : sp.Implies G
  good : sp.game.Realizable → (sp.assuming G).game.Realizable
  minimal : ∀ d ∈ G, ¬ (sp.assuming (G.filter (· ≠ d))).game.Realizable
  printed : sp.game.Realizable → (sp.assuming cs).game.Realizable
  parts : ∃ fs, List.Forall₂ Clause.Part fs G ∧ (∀ c, c ∈ cs ↔ c ∈ fs) ∧ (∀ init last, fs = init ++ [last] → ∀ c ∈ init, sp.Implies [c]) ∧
    ∀ d, G = [d] → fs = [d]

section
variable {ds : Decls} (F : Section → List Fml)

theorem assuming_env (vs : List (List Int)) (hlen : ∀ v ∈ vs, v.length = (tableOf ds).types.length) (p : Pos (specOf ds F).In (specOf ds F).Out)
    (i : (specOf ds F).In) :
    ((specOf ds F).assuming (vs.map (printedClause (tableOf ds).names))).game.safetyEnv p i ↔ AllHold vs (asgOf F p (i, fun _ => false)) := by
  show (∀ φ ∈ (vs.map (printedClause (tableOf ds).names)).map Clause.fml, (specOf ds F).holds p (i, fun _ => false) φ) ↔ _
  simp only [List.forall_mem_map]
  refine forall₂_congr fun v hv => ?_
  refine printedClause_eval (ρ := (specOf ds F).look p (i, fun _ => false)) (tableOf ds).names v 0 ?_ fun k x hx => ?_
  · rw [hlen v hv]; simp [tableOf]
  · rw [Nat.zero_add, asgOf, List.getD_eq_getElem?_getD, hx]
    rfl

theorem assuming_realizable (vs : List (List Int)) (hlen : ∀ v ∈ vs, v.length = (tableOf ds).types.length) :
    ((specOf ds F).assuming (vs.map (printedClause (tableOf ds).names))).game.Realizable ↔
      (withEnv (specOf ds F).game fun p i => AllHold vs (asgOf F p (i, fun _ => false))).Realizable := by
  have h : ((specOf ds F).assuming (vs.map (printedClause (tableOf ds).names))).game.Realizable ↔
      (withEnv (specOf ds F).game fun p i => ((specOf ds F).assuming (vs.map (printedClause (tableOf ds).names))).game.safetyEnv p i).Realizable := Iff.rfl
  rw [h]
  have e : (fun (p : Pos (specOf ds F).In (specOf ds F).Out) (i : (specOf ds F).In) =>
      ((specOf ds F).assuming (vs.map (printedClause (tableOf ds).names))).game.safetyEnv p i) = fun p i => AllHold vs (asgOf F p (i, fun _ => false)) :=
    funext fun p => funext fun i => propext (assuming_env F vs hlen p i)
  exact iff_of_eq (congrArg (fun E => (withEnv (specOf ds F).game E).Realizable) e)

theorem implies_iff (vs : List (List Int)) (hlen : ∀ v ∈ vs, v.length = (tableOf ds).types.length) :
    (specOf ds F).Implies (vs.map (printedClause (tableOf ds).names)) ↔
      ∀ p i, (specOf ds F).game.safetyEnv p i → AllHold vs (asgOf F p (i, fun _ => false)) :=
  forall_congr' fun p => forall_congr' fun i => imp_congr_right fun _ => assuming_env F vs hlen p i

theorem known_name (hn : (tableOf ds).names.Nodup) {k : Nat} {x : Name} (h : (tableLayout ds hn).Known k) (hx : (tableOf ds).names[k]? = some x) :
    x ∈ inputsOf ds ++ outputsOf ds ++ (inputsOf ds).map prime := by
  obtain ⟨z, rfl, hz⟩ := h
  have h1 : (tableOf ds).names[slotCode z]? = some (slotEntry z).1 := by
    have := (getElem_slotCode hn (z := z)).mpr rfl
    simp [tableOf, this]
  have h2 : (tableLayout ds hn).code z = slotCode z := rfl
  rw [h2, h1] at hx
  cases hx
  cases z with
  | ci y => exact List.mem_append_left _ (List.mem_append_left _ y.2)
  | co y => exact List.mem_append_left _ (List.mem_append_right _ y.2)
  | ni y => exact List.mem_append_right _ (List.mem_map_of_mem y.2)
  | no y => exact absurd rfl (hz y)

theorem weakened_ok (hn : (tableOf ds).names.Nodup) {vs out : List (List Int)}
    (h : VectorsOK (tableLayout ds hn).Known (tableOf ds).types.length
      (fun P => (withEnv (specOf ds F).game fun p i => P (asgOf F p (i, fun _ => false))).Realizable)
      ((tableLayout ds hn).enc B fun p q => (specOf ds F).game.safetyEnv p q.1) vs out) :
    WeakenedOK (specOf ds F) (vs.map (printedClause (tableOf ds).names)) (out.map (printedClause (tableOf ds).names)) := by
  have he : ∀ p i, L.eval ((tableLayout ds hn).enc B fun p q => (specOf ds F).game.safetyEnv p q.1) (asgOf F p (i, fun _ => false)) = true ↔
      (specOf ds F).game.safetyEnv p i := fun p i => eval_asgOf (B := B) F hn (fun p q => (specOf ds F).game.safetyEnv p q.1) p (i, fun _ => false)
  have hreal : (withEnv (specOf ds F).game fun p i => L.eval ((tableLayout ds hn).enc B fun p q => (specOf ds F).game.safetyEnv p q.1)
      (asgOf F p (i, fun _ => false)) = true).Realizable ↔ (specOf ds F).game.Realizable :=
    iff_of_eq (congrArg (fun E => (withEnv (specOf ds F).game E).Realizable) (funext fun p => funext fun i => propext (he p i)))
  obtain ⟨fs, h1, h2, h3, h4⟩ := h.parts
  have hfs : ∀ {fs' vs' : List (List Int)}, List.Forall₂ VecSub fs' vs' → (∀ v ∈ vs', v.length = (tableOf ds).types.length) →
      ∀ f ∈ fs', f.length = (tableOf ds).types.length := by
    intro fs' vs' hF
    induction hF with
    | nil => intro _ f hf; simp at hf
    | cons hs _ ih =>
      intro hl f hf
      rcases List.mem_cons.mp hf with rfl | hf
      · rw [hs.length]; exact hl _ List.mem_cons_self
      · exact ih (fun v hv => hl v (List.mem_cons_of_mem _ hv)) f hf
  have hfl := hfs h1 h.length
  have hol : ∀ f ∈ out, f.length = (tableOf ds).types.length := fun f hf => hfl f ((h2 f).mp hf)
  have hgood : (specOf ds F).game.Realizable → ((specOf ds F).assuming (vs.map (printedClause (tableOf ds).names))).game.Realizable :=
    fun hr => (assuming_realizable F vs h.length).mpr (h.good (hreal.mpr hr))
  refine ⟨?_, ?_, hgood, ?_, fun hr => ?_, fs.map (printedClause (tableOf ds).names), ?_, fun c => ?_, ?_, fun d hd => ?_⟩
  · intro c hc l hl
    obtain ⟨v, hv, rfl⟩ := List.mem_map.mp hc
    obtain ⟨k, hk, hm⟩ := mem_printedClause (i := 0) hl
    rw [Nat.zero_add] at hm
    exact known_name hn (h.support v hv _ hm) hk
  · exact (implies_iff F vs h.length).mpr fun p i hp => h.weaker _ ((he p i).mpr hp)
  · intro d hd
    obtain ⟨v, hv, rfl⟩ := List.mem_map.mp hd
    have e : (vs.map (printedClause (tableOf ds).names)).filter (· ≠ printedClause (tableOf ds).names v) =
        (vs.filter fun u => printedClause (tableOf ds).names u ≠ printedClause (tableOf ds).names v).map (printedClause (tableOf ds).names) := by
      rw [List.filter_map]; rfl
    rw [e, assuming_realizable F _ fun u hu => h.length u (List.mem_of_mem_filter hu)]
    refine fun hr => h.minimal v hv (withEnv_realizable_mono (fun p i hall u hu => ?_) hr)
    rw [List.mem_filter] at hu
    refine hall u (List.mem_filter.mpr ⟨hu.1, ?_⟩)
    simp only [ne_eq, decide_not, Bool.not_eq_eq_eq_not, Bool.not_true, decide_eq_false_iff_not] at hu ⊢
    exact fun huv => hu.2 (congrArg _ huv)
  · rw [assuming_realizable F out hol]
    exact withEnv_realizable_mono (fun p i hall => sub_all h1 fun f hf => hall f ((h2 f).mpr hf)) ((assuming_realizable F vs h.length).mp (hgood hr))
  · rw [List.forall₂_map_left_iff, List.forall₂_map_right_iff]
    exact h1.imp fun _ _ => printedClause_sub
  · simp only [List.mem_map, h2]
  · intro init last e c hc
    obtain ⟨init', last', rfl, rfl, e3⟩ := List.map_eq_append_iff.mp e
    obtain ⟨x, rfl, rfl⟩ := List.map_eq_singleton_iff.mp e3
    obtain ⟨f, hf, rfl⟩ := List.mem_map.mp hc
    have := (implies_iff F [f] fun v hv => by
      rw [List.mem_singleton.mp hv]; exact hfl f (List.mem_append_left _ hf)).mpr fun p i hp v hv => by
        rw [List.mem_singleton.mp hv]; exact h3 init' x rfl f hf _ (h.weaker _ ((he p i).mpr hp))
    exact this
  · obtain ⟨v, rfl, rfl⟩ := List.map_eq_singleton_iff.mp hd
    rw [h4 v rfl]
    rfl

end

theorem runWeaken_sem {cap : Nat} {order : List Char → Bool} {text : List Char} {tab : VarTable} {c : Ctx B}
    (h : initContext (B := B) cap order text = .ok (tab, c)) {sp : SpecFile} (hd : Denotes text sp) (fuel : Nat)
    (hf : Nat.card (Pos sp.In sp.Out) < fuel) (hf' : 2 ^ tab.types.length < fuel) :
    ∃ G cs, runWeaken B cap order fuel text = .clauses cs ∧ WeakenedOK sp G cs := by
  rw [runWeaken, h]
  obtain ⟨ds, F, hn, rfl, hd', _, _, _, rfl⟩ := initContext_spec h
  obtain rfl := Denotes.det hd hd'
  obtain ⟨vs, out, h1, h2⟩ := weakenVectors_spec (B := B) (types := (tableOf ds).types) (K := (tableLayout ds hn).Known)
    (by rintro _ ⟨z, rfl, _⟩; exact (tableLayout ds hn).bound z)
    (Layout.checkWith_ok (B := B) (tableLayout ds hn) (specOf ds F).game (asgOf F) (get_asgOf F hn) hf)
    (Layout.env_depends (B := B) (tableLayout ds hn) (specOf ds F).game) hf'
  refine ⟨_, _, ?_, weakened_ok F hn h2⟩
  exact congrArg (fun r : Res Unit (List (List Int)) => match r with
    | .ok out => WeakenOutcome.clauses (out.map (printedClause (tableOf ds).names))
    | .err _ => .internalError
    | .ub => .ub
    | .stuck => .running) h1

theorem weaken_printed {cap : Nat} {order : List Char → Bool} {text : List Char} {fuel : Nat} {cs : List Clause}
    (h : runWeaken B cap order fuel text = .clauses cs) {sp : SpecFile} (hd : Denotes text sp) : ∃ G, WeakenedOK sp G cs := by
  cases hi : initContext (B := B) cap order text with
  | err _ => rw [runWeaken, hi] at h; cases h
  | ub => rw [runWeaken, hi] at h; cases h
  | stuck => rw [runWeaken, hi] at h; cases h
  | ok q =>
    obtain ⟨G, cs', h1, h2⟩ := runWeaken_sem (tab := q.1) (c := q.2) hi hd (fuel + (Nat.card (Pos sp.In sp.Out) + 2 ^ q.1.types.length + 1))
      (by have := Nat.two_pow_pos q.1.types.length; omega) (by omega)
    rw [runWeaken_more (Nat.le_add_right _ _) h] at h1
    cases h1
    exact ⟨G, h2⟩

/-! ### The theorems -/

/-- **C44.** For every file that slugs accepts, the run ends and prints clauses.
(The number of rounds is bounded by the number of positions and by the number of assignments.) -/
theorem C44_terminates {cap : Nat} {order : List Char → Bool} {text : List Char} {tab : VarTable} {c : Ctx B}
    (h : initContext (B := B) cap order text = .ok (tab, c)) : ∃ n, ∀ fuel, n ≤ fuel → ∃ cs, runWeaken B cap order fuel text = .clauses cs := by
  obtain ⟨ds, F, hn, rfl, hd, _⟩ := initContext_spec h
  refine ⟨Nat.card (Pos (specOf ds F).In (specOf ds F).Out) + 2 ^ (tableOf ds).types.length + 1, fun fuel hf => ?_⟩
  obtain ⟨_, cs, h1, _⟩ := runWeaken_sem h hd fuel (by have := Nat.two_pow_pos (tableOf ds).types.length; omega) (by omega)
  exact ⟨cs, h1⟩

/-- **C44.** If the specification is realizable, then it is realizable with the printed clauses instead of its safety assumptions, and these are
legal safety assumptions: they only use names that are allowed there. -/
theorem C44_realizable {cap : Nat} {order : List Char → Bool} {text : List Char} {fuel : Nat} {cs : List Clause}
    (h : runWeaken B cap order fuel text = .clauses cs) {sp : SpecFile} (hd : Denotes text sp) :
    (sp.game.Realizable → (sp.assuming cs).game.Realizable) ∧ ∀ c ∈ cs, ∀ x ∈ c.fml.vars, x ∈ sp.inputs ++ sp.outputs ++ sp.inputs.map prime := by
  obtain ⟨G, hok⟩ := weaken_printed h hd
  refine ⟨hok.printed, fun c hc x hx => ?_⟩
  obtain ⟨b, hb⟩ := vars_clause hx
  obtain ⟨fs, h1, h2, _⟩ := hok.parts
  have key : ∀ {fs' G' : List Clause}, List.Forall₂ Clause.Part fs' G' → ∀ f ∈ fs', ∃ d ∈ G', Clause.Part f d := by
    intro fs' G' hF
    induction hF with
    | nil => intro f hf; simp at hf
    | cons hs _ ih =>
      intro f hf
      rcases List.mem_cons.mp hf with rfl | hf
      · exact ⟨_, List.mem_cons_self, hs⟩
      · obtain ⟨d, hd, hp⟩ := ih f hf
        exact ⟨d, List.mem_cons_of_mem _ hd, hp⟩
  obtain ⟨d, hdG, hp⟩ := key h1 c ((h2 c).mp hc)
  exact hok.inScope d hdG _ (hp _ hb)

/-- **C45**, partial: all printed clauses except for at most one follow from the safety assumptions of the specification, and if there is only one, it follows as well.
Missing: the remaining clause, for which this does not hold in general (`C45_weaker_violated`). -/
theorem C45_weaker_partial {cap : Nat} {order : List Char → Bool} {text : List Char} {fuel : Nat} {cs : List Clause}
    (h : runWeaken B cap order fuel text = .clauses cs) {sp : SpecFile} (hd : Denotes text sp) :
    (∃ c, sp.Implies (cs.filter (· ≠ c))) ∧ (∀ c, cs = [c] → sp.Implies cs) := by
  obtain ⟨G, hok⟩ := weaken_printed h hd
  obtain ⟨fs, h1, h2, h3, h4⟩ := hok.parts
  have himp : ∀ l : List Clause, (∀ c ∈ l, sp.Implies [c]) → sp.Implies l := by
    intro l hl p i hp φ hφ
    obtain ⟨c, hc, rfl⟩ := List.mem_map.mp hφ
    exact hl c hc p i hp c.fml (List.mem_map_of_mem List.mem_cons_self)
  rcases fs.eq_nil_or_concat with rfl | ⟨init, last, e⟩
  · have hcs : cs = [] := List.eq_nil_iff_forall_not_mem.mpr fun c hc => by simpa using (h2 c).mp hc
    subst hcs
    exact ⟨⟨[], himp _ (by simp)⟩, fun c hc => by cases hc⟩
  · rw [List.concat_eq_append] at e
    have hin := h3 init last e
    refine ⟨⟨last, himp _ fun c hc => ?_⟩, fun c hc => ?_⟩
    · rw [List.mem_filter] at hc
      have hm := (h2 c).mp hc.1
      rw [e, List.mem_append, List.mem_singleton] at hm
      rcases hm with hm | hm
      · exact hin c hm
      · exact absurd hm (by simpa using hc.2)
    · subst hc
      -- all the clauses are the same
      have hall : ∀ f ∈ fs, f = c := fun f hf => by simpa using (h2 f).mpr hf
      cases init with
      | nil =>
        have e' : fs = [last] := e
        obtain ⟨d, hG⟩ : ∃ d, G = [d] := by
          rw [e'] at h1
          cases h1 with
          | cons _ h1 => cases h1; exact ⟨_, rfl⟩
        have := h4 d hG
        have hc : c = d := (hall d (by rw [this]; exact List.mem_cons_self)).symm
        rw [hc, ← hG]
        exact hok.weaker
      | cons a init =>
        have hc : a = c := hall a (by rw [e]; exact List.mem_append_left _ List.mem_cons_self)
        rw [← hc]
        exact hin a List.mem_cons_self

/-- **C46**, partial: the printed clauses are obtained by removing literals from a list of clauses that follows from the safety assumptions, that is sufficient
for realizability if the safety assumptions are, and from which no clause can be left out.
Missing: that no printed clause can be left out, which does not hold in general (`C46_minimal_violated`). -/
theorem C46_minimal_partial {cap : Nat} {order : List Char → Bool} {text : List Char} {fuel : Nat} {cs : List Clause}
    (h : runWeaken B cap order fuel text = .clauses cs) {sp : SpecFile} (hd : Denotes text sp) :
    ∃ G fs : List Clause, List.Forall₂ Clause.Part fs G ∧ (∀ c, c ∈ cs ↔ c ∈ fs) ∧ sp.Implies G ∧
      (sp.game.Realizable → (sp.assuming G).game.Realizable) ∧ ∀ d ∈ G, ¬ (sp.assuming (G.filter (· ≠ d))).game.Realizable := by
  obtain ⟨G, hok⟩ := weaken_printed h hd
  obtain ⟨fs, h1, h2, _⟩ := hok.parts
  exact ⟨G, fs, h1, h2, hok.weaker, hok.good, hok.minimal⟩

/-- **C46.** If nothing is printed, then the specification is realizable without safety assumptions or not at all; and if some clause is printed, then the specification
is not realizable without safety assumptions. -/
theorem C46_needed {cap : Nat} {order : List Char → Bool} {text : List Char} {fuel : Nat} {cs : List Clause}
    (h : runWeaken B cap order fuel text = .clauses cs) {sp : SpecFile} (hd : Denotes text sp) :
    (cs = [] → sp.game.Realizable → (sp.assuming []).game.Realizable) ∧ (cs ≠ [] → ¬ (sp.assuming []).game.Realizable) := by
  obtain ⟨G, hok⟩ := weaken_printed h hd
  obtain ⟨fs, h1, h2, _⟩ := hok.parts
  refine ⟨fun hc => hc ▸ hok.printed, fun hc hr => ?_⟩
  obtain ⟨c, hcm⟩ := List.exists_mem_of_ne_nil _ hc
  obtain ⟨d, hdG⟩ : ∃ d, d ∈ G := by
    have hm := (h2 c).mp hcm
    cases h1 with
    | nil => simp at hm
    | cons _ _ => exact ⟨_, List.mem_cons_self⟩
  refine hok.minimal d hdG ?_
  -- fewer assumptions are harder
  have := withEnv_realizable_mono (g := sp.game) (E := fun p i => (sp.assuming (G.filter (· ≠ d))).game.safetyEnv p i)
    (E' := fun p i => (sp.assuming []).game.safetyEnv p i) (fun p i _ φ hφ => absurd hφ (List.not_mem_nil (a := φ))) hr
  exact this

/-! ### Witnesses -/

/-- The environment keeps `a` false and `b` true, and both are needed. -/
def pairText : List Char := txt!"[INPUT]\na\nb\n[OUTPUT]\nx\n[ENV_TRANS]\n! a'\nb'\n[SYS_TRANS]\n& ! a' b'"

def pair : SpecFile where
  inputs := [txt!"a", txt!"b"]
  outputs := [txt!"x"]
  envInit := []
  sysInit := []
  envTrans := [.not (.var txt!"a'"), .var txt!"b'"]
  sysTrans := [.bin .and (.not (.var txt!"a'")) (.var txt!"b'")]
  envLiveness := []
  sysLiveness := []

theorem pair_denotes : Denotes pairText pair := by
  refine ⟨[(.input, txt!"a"), (.input, txt!"b"), (.output, txt!"x"), (.envTrans, txt!"! a'"), (.envTrans, txt!"b'"), (.sysTrans, txt!"& ! a' b'")], ?_,
    by decide, by decide, ?_, ?_, ?_, ?_, ?_, ?_⟩
  · have : splitLines pairText = [txt!"[INPUT]", txt!"a", txt!"b", txt!"[OUTPUT]", txt!"x", txt!"[ENV_TRANS]", txt!"! a'", txt!"b'",
      txt!"[SYS_TRANS]", txt!"& ! a' b'"] := by decide
    rw [this]
    refine .header .input (by decide) (.item (by decide) (by decide) (by decide) (.item (by decide) (by decide) (by decide) ?_))
    refine .header .output (by decide) (.item (by decide) (by decide) (by decide) ?_)
    refine .header .envTrans (by decide) (.item (by decide) (by decide) (by decide) (.item (by decide) (by decide) (by decide) ?_))
    exact .header .sysTrans (by decide) (.item (by decide) (by decide) (by decide) .nil)
  all_goals
    simp only [pair, itemsOf]
  · exact .nil
  · exact .nil
  · exact .cons (reads_text (.not (.var txt!"a'")) (by simp [Fml.Wf]) (by decide) (by decide))
      (.cons (reads_text (.var txt!"b'") (by simp [Fml.Wf]) (by decide) (by decide)) .nil)
  · exact .cons (reads_text (.bin .and (.not (.var txt!"a'")) (.var txt!"b'")) (by simp [Fml.Wf]) (by decide) (by decide)) .nil
  · exact .nil
  · exact .nil

theorem pair_run : runWeaken ROBDD 1000 (fun _ => true) 100 pairText = .clauses [[(true, txt!"a'"), (true, txt!"b'")], []] := by rfl

theorem pair_realizable : pair.game.Realizable := by
  intro i _
  refine ⟨fun _ => false, fun φ hφ => absurd hφ (List.not_mem_nil (a := φ)), fun _ _ _ => false, fun cur h j _ hj φ hφ => ?_, fun p _ _ b hb =>
    absurd hb List.not_mem_nil⟩
  obtain rfl : φ = .bin .and (.not (.var txt!"a'")) (.var txt!"b'") := List.mem_singleton.mp hφ
  have h1 : some (!(j ⟨txt!"a", by decide⟩)) = some true := hj (.not (.var txt!"a'")) (by simp [pair])
  have h2 : some (j ⟨txt!"b", by decide⟩) = some true := hj (.var txt!"b'") (by simp [pair])
  show some (!(j ⟨txt!"a", by decide⟩) && j ⟨txt!"b", by decide⟩) = some true
  rw [Option.some.injEq] at h1 h2 ⊢
  rw [h1, h2]; rfl

/-- The hypotheses of the theorems are met: here the clauses keep a realizable specification realizable, and without assumptions it is not. -/
example : (pair.assuming [[(true, txt!"a'"), (true, txt!"b'")], []]).game.Realizable ∧ ¬ (pair.assuming []).game.Realizable :=
  ⟨(C44_realizable pair_run pair_denotes).1 pair_realizable, (C46_needed pair_run pair_denotes).2 (by simp)⟩

/-- **C45** does not hold in general: the last printed clause is empty, and with it the environment has no move at all, while it has one in the specification.
In the loop that removes literals (`extensionWeakenSafetyAssumptions.hpp:116-127`) the clauses that are still to come are replaced by copies of the current one, and for the last clause
the entries without a literal are taken to be negated literals (lines 143-148). -/
theorem C45_weaker_violated : ∃ (text : List Char) (sp : SpecFile) (cs : List Clause),
    runWeaken ROBDD 1000 (fun _ => true) 100 text = .clauses cs ∧ Denotes text sp ∧ sp.game.Realizable ∧ (∀ p, ∃ i, sp.game.safetyEnv p i) ∧
    ∀ p i, ¬ (sp.assuming cs).game.safetyEnv p i := by
  refine ⟨pairText, pair, _, pair_run, pair_denotes, pair_realizable, fun p => ⟨fun x => decide (x.1 = txt!"b"), ?_⟩, fun p i h => ?_⟩
  · intro φ hφ
    have : φ = .not (.var txt!"a'") ∨ φ = .var txt!"b'" := by simpa [pair] using hφ
    rcases this with rfl | rfl <;> rfl
  · have := h (.const false) (by simp [SpecFile.assuming, Clause.fml])
    cases this

/-- **C46** does not hold in general: the first printed clause can be left out. -/
theorem C46_minimal_violated : ∃ (text : List Char) (sp : SpecFile) (cs : List Clause) (c : Clause),
    runWeaken ROBDD 1000 (fun _ => true) 100 text = .clauses cs ∧ Denotes text sp ∧ sp.game.Realizable ∧ c ∈ cs ∧
    (sp.assuming (cs.filter (· ≠ c))).game.Realizable := by
  refine ⟨pairText, pair, _, [(true, txt!"a'"), (true, txt!"b'")], pair_run, pair_denotes, pair_realizable, List.mem_cons_self, fun i _ => ?_⟩
  refine ⟨fun _ => false, fun φ hφ => absurd hφ (List.not_mem_nil (a := φ)), fun _ _ _ => false, fun cur h j _ hj => ?_, fun p _ _ b hb =>
    absurd hb List.not_mem_nil⟩
  have := hj (.const false) (List.mem_cons_self)
  cases this

/-- A specification with which the result is as expected: only one of the assumptions is needed. -/
def oneText : List Char := txt!"[INPUT]\na\nb\n[OUTPUT]\nx\n[ENV_TRANS]\na'\nb'\n[SYS_TRANS]\na'"

theorem one_run : runWeaken ROBDD 1000 (fun _ => true) 100 oneText = .clauses [[(false, txt!"a'")]] := by rfl

/-- The hypotheses of the partial theorems are met, and here the printed clauses follow from the assumptions. -/
example : ∃ sp, Denotes oneText sp ∧ sp.Implies [[(false, txt!"a'")]] := by
  obtain ⟨r, hr⟩ : ∃ r, initContext (B := ROBDD) 1000 (fun _ => true) oneText = .ok r := ⟨_, rfl⟩
  obtain ⟨sp, hd, _⟩ := C24_accepted_denotes (tab := r.1) (c := r.2) hr
  exact ⟨sp, hd, (C45_weaker_partial one_run hd).2 _ rfl⟩

end Slugs.Props
