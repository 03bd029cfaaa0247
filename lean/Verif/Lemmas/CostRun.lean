import Verif.Lemmas.CostExplicit
import Verif.Lemmas.CostEnds
import Verif.Lemmas.CostRead
import Verif.Lemmas.Checked

/-! Complete runs with `--twoDimensionalCost`. -/

namespace Slugs.Model

open Slugs.Spec Slugs.Props

variable {B : Type} [DecidableEq B] [L : BddLib B] {D : Type} [LinearOrder D]

theorem mapVals_comp {A C E : Type} {h : A → C} {f : C → E} (l : List (D × A)) : mapVals f (mapVals h l) = mapVals (fun a => f (h a)) l := by
  simp [mapVals, Function.comp_def]

section

variable {ds : Decls} (hn : (tableOf ds).names.Nodup) (m p : Nat) (g : Game (ExtX ds → Bool) ({x // x ∈ outputsOf ds} → Bool))

/-- The search on the game with additional bits. -/
noncomputable def costSearch (B : Type) [DecidableEq B] [BddLib B] (N : Doubles D) (q : Preference D) (l : List (D × T (ExtX ds → Bool) ({x // x ∈ outputsOf ds} → Bool))) (robotics : Bool)
    (fuel : Nat) : Option (ET (ExtX ds) {x // x ∈ outputsOf ds} (Fin (m + 1)) × Dump (ET (ExtX ds) {x // x ∈ outputsOf ds} (Fin (m + 1)))) :=
  costGoals (eMgr (ExtX ds) {x // x ∈ outputsOf ds} (Fin (m + 1))) (eCtx (Fin (m + 1)) g) (semHelpers B ds hn m p) N q
    (mapVals extLift (allCosts (semMgr _ _) N l)) robotics (extLift (pre (nuZ g))) fuel 0
    (eCtx (Fin (m + 1)) g).livenessGuarantees ((eCtx (Fin (m + 1)) g).initSys, [])

theorem enc_goal (G : T (ExtX ds → Bool) ({x // x ∈ outputsOf ds} → Bool)) :
    (bddMgr B (tableOf ds).types).and ((tableLayout ds hn).enc B G)
      ((bddMgr B (tableOf ds).types).swap ((tableLayout ds hn).enc B (pre (nuZ g)))) =
    (extLayout ds hn m p).enc B (extLift fun s t => G s t ∧ t ∈ nuZ g) := by
  have H := (tableLayout ds hn).hom B
  rw [H.swap]
  refine (H.and _ _).trans ?_
  exact enc_ext B hn m p _

theorem extCtx_eq :
    ({ (gameCtx g).map ((tableLayout ds hn).enc B) with
        livenessGuarantees := ((gameCtx g).map ((tableLayout ds hn).enc B)).livenessGuarantees.map fun b =>
          (bddMgr B (tableOf ds).types).and b
            ((bddMgr B (tableOf ds).types).swap ((tableLayout ds hn).enc B (pre (nuZ g)))) } : Ctx B) =
      (eCtx (Fin (m + 1)) g).map ((extLayout ds hn m p).enc B) := by
  simp only [Ctx.map, gameCtx, extGame, List.map_map, Ctx.mk.injEq]
  refine ⟨?_, ?_, ?_, ?_, ?_, ?_⟩
  · exact List.map_congr_left fun A _ => enc_ext B hn m p A
  · exact List.map_congr_left fun G _ => enc_goal hn m p g G
  · exact enc_ext B hn m p _
  · exact enc_ext B hn m p _
  · exact enc_ext B hn m p _
  · exact enc_ext B hn m p _

theorem costStrategy_sem (N : Doubles D) (q : Preference D) (l : List (D × T (ExtX ds → Bool) ({x // x ∈ outputsOf ds} → Bool))) (robotics : Bool) (fuel : Nat) :
    costStrategy (bddMgr B (tableOf ds).types) (bddMgr B (extTypes ds m p)) (helpersOf B (extTypes ds m p)) N q (mapVals ((tableLayout ds hn).enc B) l) robotics
      ((gameCtx g).map ((tableLayout ds hn).enc B)) ((tableLayout ds hn).enc B (pre (nuZ g))) fuel =
    if overlapping (semMgr _ _) l then .err .overlap
    else
      match costSearch hn m p g B N q l robotics fuel with
      | some (i, d) => .ok ((setInit (eCtx (Fin (m + 1)) g) i).map ((extLayout ds hn m p).enc B),
          Dump.map ((extLayout ds hn m p).enc B) d)
      | none => .stuck := by
  rw [costStrategy, extCtx_eq hn m p g]
  have ho : overlapping (bddMgr B (tableOf ds).types) (mapVals ((tableLayout ds hn).enc B) l) = overlapping (semMgr _ _) l :=
    overlapping_hom ((tableLayout ds hn).hom B) l
  rw [ho]
  split
  · rfl
  have hc : allCosts (bddMgr B (tableOf ds).types) N (mapVals ((tableLayout ds hn).enc B) l) =
      mapVals ((extLayout ds hn m p).enc B) (mapVals extLift (allCosts (semMgr _ _) N l)) := by
    refine (allCosts_hom ((tableLayout ds hn).hom B) N l).trans ?_
    rw [mapVals_comp]
    refine congrArg (fun f => mapVals f _) (funext fun f => ?_)
    exact enc_ext B hn m p f
  have hW : (tableLayout ds hn).enc B (pre (nuZ g)) =
      (extLayout ds hn m p).enc B (extLift (pre (nuZ g))) := enc_ext B hn m p _
  rw [hc, hW]
  have := costGoals_hom ((extLayout ds hn m p).hom B) (helpers_hom B hn m p) (eCtx (Fin (m + 1)) g) N q
    (mapVals extLift (allCosts (semMgr _ _) N l)) robotics (extLift (pre (nuZ g))) fuel 0
    (eCtx (Fin (m + 1)) g).livenessGuarantees ((eCtx (Fin (m + 1)) g).initSys, [])
  have e : costGoals (bddMgr B (extTypes ds m p)) ((eCtx (Fin (m + 1)) g).map ((extLayout ds hn m p).enc B)) (helpersOf B (extTypes ds m p)) N q
      (mapVals ((extLayout ds hn m p).enc B) (mapVals extLift (allCosts (semMgr _ _) N l))) robotics
      ((extLayout ds hn m p).enc B (extLift (pre (nuZ g)))) fuel 0
      ((eCtx (Fin (m + 1)) g).map ((extLayout ds hn m p).enc B)).livenessGuarantees
      (((eCtx (Fin (m + 1)) g).map ((extLayout ds hn m p).enc B)).initSys, []) =
      (costSearch hn m p g B N q l robotics fuel).map (Prod.map ((extLayout ds hn m p).enc B) (Dump.map ((extLayout ds hn m p).enc B))) := this
  rw [e]
  cases costSearch hn m p g B N q l robotics fuel with
  | none => rfl
  | some r => rfl

theorem costSearch_ok (hA : g.assumptions ≠ []) {N : Doubles D} {q : Preference D} {l : List (D × T (ExtX ds → Bool) ({x // x ∈ outputsOf ds} → Bool))} {robotics : Bool} {fuel : Nat}
    {i : ET (ExtX ds) {x // x ∈ outputsOf ds} (Fin (m + 1))} {d : Dump (ET (ExtX ds) {x // x ∈ outputsOf ds} (Fin (m + 1)))}
    (h : costSearch hn m p g B N q l robotics fuel = some (i, d)) :
    (PreOnly i ∧ ∀ s t, i s t → g.initSys (basePos s)) ∧ ∀ e ∈ d, GoodT g e.2 := by
  refine costGoals_ok (semHelpers_ok B hn m p) hA (fun _ _ _ => Iff.rfl) 0 _ _ _ ?_ ⟨fun _ _ _ => Iff.rfl, fun _ _ h => h⟩ ?_ h
  · intro b hb
    obtain ⟨G, _, rfl⟩ := List.mem_map.mp hb
    exact ⟨G, rfl⟩
  · intro e he
    exact (List.not_mem_nil he).elim

/-! ### Runs on the game -/

theorem costRun_core (g : Game (ExtX ds → Bool) ({x // x ∈ outputsOf ds} → Bool)) (hA : g.assumptions ≠ []) (N : Doubles D) (robotics : Bool) (explicit : Option (Bool × Bool))
    (fuel : Nat) (q : Preference D) (l : List (D × T (ExtX ds → Bool) ({x // x ∈ outputsOf ds} → Bool))) {v : Verdict} {dump : Dump B}
    (hr : (if robotics = true then checkRealizabilityRobotics .standard (bddMgr B (tableOf ds).types) ((gameCtx g).map ((tableLayout ds hn).enc B)) fuel
      else checkRealizability .standard (bddMgr B (tableOf ds).types) ((gameCtx g).map ((tableLayout ds hn).enc B)) fuel) =
      some (v, (tableLayout ds hn).enc B (pre (nuZ g)), dump)) {p : Nat}
    (hp : (costTable (tableOf ds) g.assumptions.length).types = extTypes ds (counterBits g.assumptions.length 1 g.assumptions.length).length p) :
    costRun B N robotics explicit fuel (tableOf ds) ((gameCtx g).map ((tableLayout ds hn).enc B)) q (mapVals ((tableLayout ds hn).enc B) l) =
    match v with
    | .unrealizable => .unrealizable
    | .internalError => .internalError
    | .realizable =>
      if overlapping (semMgr _ _) l then .error .overlap
      else
        match costSearch hn (counterBits g.assumptions.length 1 g.assumptions.length).length p g B N q l robotics fuel with
        | none => .running
        | some (i, d) =>
          match explicit with
          | none => .realizable
          | some (perm, recovery) =>
            match extractStrategy (semMgr _ _) (gameCtx (withInit g i)) (extVars B hn _ p (costTable (tableOf ds) g.assumptions.length)) perm recovery fuel
                (pre {s | basePos s ∈ nuZ g}) d with
            | some sts => .strategy sts
            | none => .running := by
  have hlen : ((gameCtx g).map ((tableLayout ds hn).enc B)).livenessAssumptions.length = g.assumptions.length := by simp [Ctx.map, gameCtx]
  rw [costRun]
  simp only [hr]
  cases v with
  | unrealizable => rfl
  | internalError => rfl
  | realizable =>
    simp only
    rw [hlen, hp, costStrategy_sem hn _ p g]
    by_cases ho : overlapping (semMgr _ _) l = true
    · rw [if_pos ho, if_pos ho]
    · rw [if_neg ho, if_neg ho]
      cases hcs : costSearch hn (counterBits g.assumptions.length 1 g.assumptions.length).length p g B N q l robotics fuel with
      | none => rfl
      | some id =>
        obtain ⟨i, d⟩ := id
        simp only
        cases explicit with
        | none => rfl
        | some pr =>
          obtain ⟨perm, recovery⟩ := pr
          simp only
          have hW : (tableLayout ds hn).enc B (pre (nuZ g)) =
              (extLayout ds hn (counterBits g.assumptions.length 1 g.assumptions.length).length p).enc B (pre {s | basePos s ∈ nuZ g}) := enc_ext B hn _ p _
          rw [gameCtx_withInit _ (costSearch_ok hn _ p g hA hcs).1.1, hW, extVars_eq B hn _ p _ hp]
          have he := extractStrategy_hom ((extLayout ds hn (counterBits g.assumptions.length 1 g.assumptions.length).length p).hom B) (gameCtx (withInit g i))
            (extVars B hn _ p (costTable (tableOf ds) g.assumptions.length)) perm recovery fuel (pre {s | basePos s ∈ nuZ g}) d
          rw [he]
          rfl

end

/-! ### Runs that end -/

/-- What is known about a run that has read its files. -/
theorem costRun_spec (ds : Decls) (F : Section → List Fml) (hn : (tableOf ds).names.Nodup) (N : Doubles D) (robotics : Bool) (explicit : Option (Bool × Bool)) (fuel : Nat)
    (q : Preference D) {costs : List (D × B)} {entries : List (D × Fml)} (hc : CostInv ds F hn costs entries) {r : CostOutcome}
    (h : costRun B N robotics explicit fuel (tableOf ds) ((gameCtx (padGame (specOf ds F).game)).map ((tableLayout ds hn).enc B)) q costs = r) :
    r = .running ∨ (r = .unrealizable ∧ ¬ Wins robotics (specOf ds F)) ∨
    (r = .error .overlap ∧ Wins robotics (specOf ds F) ∧ (specOf ds F).Overlap entries) ∨
    (r = .realizable ∧ explicit = none ∧ Wins robotics (specOf ds F) ∧ ¬ (specOf ds F).Overlap entries) ∨
    ∃ perm recovery sts, r = .strategy sts ∧ explicit = some (perm, recovery) ∧ Wins robotics (specOf ds F) ∧ ¬ (specOf ds F).Overlap entries ∧
      CostPrinted (specOf ds F) perm recovery sts := by
  obtain ⟨v, dump, hb, hv1, hv2, hfam, hZ⟩ := checked (B := B) .standard ds F hn robotics (fuel + Nat.card (Pos (specOf ds F).In (specOf ds F).Out) + 1) (by omega)
  generalize hr : (if robotics = true then checkRealizabilityRobotics .standard (bddMgr B (tableOf ds).types) ((gameCtx (padGame (specOf ds F).game)).map ((tableLayout ds hn).enc B)) fuel
    else checkRealizability .standard (bddMgr B (tableOf ds).types) ((gameCtx (padGame (specOf ds F).game)).map ((tableLayout ds hn).enc B)) fuel) = rr
  cases rr with
  | none =>
    simp only [costRun, hr] at h
    exact .inl h.symm
  | some vr =>
    have hmore : (if robotics = true then checkRealizabilityRobotics .standard (bddMgr B (tableOf ds).types) ((gameCtx (padGame (specOf ds F).game)).map ((tableLayout ds hn).enc B))
          (fuel + Nat.card (Pos (specOf ds F).In (specOf ds F).Out) + 1)
        else checkRealizability .standard (bddMgr B (tableOf ds).types) ((gameCtx (padGame (specOf ds F).game)).map ((tableLayout ds hn).enc B))
          (fuel + Nat.card (Pos (specOf ds F).In (specOf ds F).Out) + 1)) = some vr := by
      cases robotics
      · exact checkRealizability_more _ _ (by omega) hr
      · exact checkRealizabilityRobotics_more _ _ (by omega) hr
    rw [hmore] at hb
    cases hb
    obtain ⟨l, rfl, hl⟩ := hc.sem
    have hA := padGame_assumptions (specOf ds F).game
    have hG := padGame_guarantees (specOf ds F).game
    obtain ⟨p, hp⟩ := costTable_types ds (padGame (specOf ds F).game).assumptions.length
    have hcore := costRun_core (B := B) hn (padGame (specOf ds F).game) hA N robotics explicit fuel q l hr hp
    have h' := hcore.symm.trans h
    cases v with
    | unrealizable => exact .inr (.inl ⟨h'.symm, hv2.mp rfl⟩)
    | internalError =>
      exfalso
      by_cases hw : Wins robotics (specOf ds F)
      · cases hv1.mpr hw
      · cases hv2.mpr hw
    | realizable =>
      have hw := hv1.mp rfl
      simp only at h'
      have hov : overlapping (semMgr ({x // x ∈ inputsOf ds} → Bool) ({x // x ∈ outputsOf ds} → Bool)) l = true ↔ (specOf ds F).Overlap entries := by
        refine (overlapping_iff hl).trans ?_
        constructor
        · rintro ⟨v, w, hne, s, t, ⟨e, h1, rfl, h2⟩, ⟨e', h3, rfl, h4⟩⟩
          exact ⟨e, h1, e', h3, hne, s, t, h2, h4⟩
        · rintro ⟨e, h1, e', h3, hne, s, t, h2, h4⟩
          exact ⟨e.1, e'.1, hne, s, t, ⟨e, h1, rfl, h2⟩, ⟨e', h3, rfl, h4⟩⟩
      by_cases ho : overlapping (semMgr ({x // x ∈ inputsOf ds} → Bool) ({x // x ∈ outputsOf ds} → Bool)) l = true
      · rw [if_pos ho] at h'
        exact .inr (.inr (.inl ⟨h'.symm, hw, hov.mp ho⟩))
      · rw [if_neg ho] at h'
        have hno := fun h => ho (hov.mpr h)
        generalize hcs : costSearch hn _ p _ B N q l robotics fuel = cs at h'
        cases cs with
        | none => exact .inl h'.symm
        | some id =>
          obtain ⟨i, d⟩ := id
          simp only at h'
          obtain ⟨⟨hi1, hi2⟩, hd⟩ := costSearch_ok hn _ p _ hA hcs
          cases explicit with
          | none => exact .inr (.inr (.inr (.inl ⟨h'.symm, rfl, hw, hno⟩)))
          | some pr =>
            obtain ⟨perm, recovery⟩ := pr
            simp only at h'
            obtain ⟨ns, hns⟩ := costTable_names (tableOf ds) (padGame (specOf ds F).game).assumptions.length
            generalize hx : extractStrategy _ _ _ perm recovery fuel _ d = x at h'
            cases x with
            | none => exact .inl h'.symm
            | some sts =>
              have hg : (withInit (padGame (specOf ds F).game) i).guarantees ≠ [] := fun h => hG (List.map_eq_nil_iff.mp h)
              obtain ⟨ks, sts', h1, h2⟩ := extractStrategy_any (withInit (padGame (specOf ds F).game) i) hg
                (extVars_ok B hn _ p (costTable (tableOf ds) (padGame (specOf ds F).game).assumptions.length)) perm recovery
                (Z := {s | basePos s ∈ nuZ (padGame (specOf ds F).game)}) (dump := d) _
                (Nat.lt_succ_of_le (Nat.le_add_left _ fuel))
              have this := h1.symm.trans (extractStrategy_more (semMgr _ _) _ _ perm recovery (Nat.le_succ_of_le (Nat.le_add_right fuel _)) hx)
              cases this
              exact .inr (.inr (.inr (.inr ⟨perm, recovery, sts, h'.symm, rfl, hw, hno,
                costPrinted F hn _ p _ hns perm recovery hZ hi2 hd h2⟩)))

/-! ### All runs end -/

theorem costSearch_ends {ds : Decls} (hn : (tableOf ds).names.Nodup) (m p : Nat) (g : Game (ExtX ds → Bool) ({x // x ∈ outputsOf ds} → Bool)) (hA : g.assumptions ≠ [])
    {N : Doubles D} (hN : N.Lawful) {q : Preference D} (hq : WeightsOK N q) {l : List (D × T (ExtX ds → Bool) ({x // x ∈ outputsOf ds} → Bool))} (hl : ∀ u ∈ l, N.zero ≤ u.1)
    (robotics : Bool) : ∃ n, ∀ fuel, n ≤ fuel → ∃ r, costSearch hn m p g B N q l robotics fuel = some r := by
  refine ⟨costFuel (ExtX ds) {x // x ∈ outputsOf ds} (Fin (m + 1)) (mapVals (extLift (F := Fin (m + 1))) (allCosts (semMgr _ _) N l)).length, fun fuel hf => ?_⟩
  refine costGoals_ends (semHelpers_ok B hn m p) hA hN hq ?_ hf 0 _ _ ?_ ?_
  · intro u hu
    obtain ⟨u', h1, rfl⟩ := List.mem_map.mp hu
    rcases costInsert_from _ _ _ _ u' h1 with h2 | ⟨u2, h2, h3⟩
    · exact h2.symm.le
    · exact h3 ▸ hl u2 h2
  · intro b hb
    obtain ⟨G, _, rfl⟩ := List.mem_map.mp hb
    exact ⟨G, rfl⟩
  · intro e he
    exact (List.not_mem_nil he).elim

theorem costRun_core_ends {ds : Decls} (hn : (tableOf ds).names.Nodup) (g : Game (ExtX ds → Bool) ({x // x ∈ outputsOf ds} → Bool)) (hA : g.assumptions ≠ [])
    (hG : g.guarantees ≠ []) (N : Doubles D) (robotics : Bool) (explicit : Option (Bool × Bool))
    (fuel : Nat) (q : Preference D) (l : List (D × T (ExtX ds → Bool) ({x // x ∈ outputsOf ds} → Bool))) {v : Verdict} {dump : Dump B}
    (hr : (if robotics = true then checkRealizabilityRobotics .standard (bddMgr B (tableOf ds).types) ((gameCtx g).map ((tableLayout ds hn).enc B)) fuel
      else checkRealizability .standard (bddMgr B (tableOf ds).types) ((gameCtx g).map ((tableLayout ds hn).enc B)) fuel) =
      some (v, (tableLayout ds hn).enc B (pre (nuZ g)), dump)) {p : Nat}
    (hp : (costTable (tableOf ds) g.assumptions.length).types = extTypes ds (counterBits g.assumptions.length 1 g.assumptions.length).length p)
    (hs : ∃ r, costSearch hn (counterBits g.assumptions.length 1 g.assumptions.length).length p g B N q l robotics fuel = some r)
    (hf : Nat.card (EPos (ExtX ds) {x // x ∈ outputsOf ds} (Fin ((counterBits g.assumptions.length 1 g.assumptions.length).length + 1))) * g.guarantees.length < fuel) :
    costRun B N robotics explicit fuel (tableOf ds) ((gameCtx g).map ((tableLayout ds hn).enc B)) q (mapVals ((tableLayout ds hn).enc B) l) ≠ .running := by
  rw [costRun_core hn g hA N robotics explicit fuel q l hr hp]
  cases v with
  | unrealizable => simp
  | internalError => simp
  | realizable =>
    simp only
    split
    · simp
    · obtain ⟨⟨i, d⟩, hs⟩ := hs
      simp only [hs]
      cases explicit with
      | none => simp
      | some pr =>
        obtain ⟨perm, recovery⟩ := pr
        simp only
        have hg : (withInit (F := Fin ((counterBits g.assumptions.length 1 g.assumptions.length).length + 1)) g i).guarantees ≠ [] := fun h => hG (List.map_eq_nil_iff.mp h)
        have hlen : (withInit (F := Fin ((counterBits g.assumptions.length 1 g.assumptions.length).length + 1)) g i).guarantees.length = g.guarantees.length := List.length_map _
        obtain ⟨ks, sts', h1, h2⟩ := extractStrategy_any (withInit g i) hg
          (extVars_ok B hn _ p (costTable (tableOf ds) g.assumptions.length)) perm recovery
          (Z := {s | basePos s ∈ nuZ g}) (dump := d) fuel (by rw [hlen]; exact hf)
        rw [h1]
        simp

theorem costRun_ends (ds : Decls) (F : Section → List Fml) (hn : (tableOf ds).names.Nodup) {N : Doubles D} (hN : N.Lawful) (robotics : Bool) (explicit : Option (Bool × Bool))
    {q : Preference D} (hq : WeightsOK N q) {costs : List (D × B)} {entries : List (D × Fml)} (hc : CostInv ds F hn costs entries) (hpos : ∀ e ∈ entries, N.zero ≤ e.1) :
    ∃ n, ∀ fuel, n ≤ fuel →
      costRun B N robotics explicit fuel (tableOf ds) ((gameCtx (padGame (specOf ds F).game)).map ((tableLayout ds hn).enc B)) q costs ≠ .running := by
  obtain ⟨l, rfl, hl⟩ := hc.sem
  have hA := padGame_assumptions (specOf ds F).game
  have hG := padGame_guarantees (specOf ds F).game
  obtain ⟨p, hp⟩ := costTable_types ds (padGame (specOf ds F).game).assumptions.length
  have hl0 : ∀ u ∈ l, N.zero ≤ u.1 := by
    intro u hu
    obtain ⟨e, h1, h2⟩ := hc.keys (u.1, (tableLayout ds hn).enc B u.2) (List.mem_map.mpr ⟨u, hu, rfl⟩)
    have := hpos e h1
    rw [h2] at this
    exact this
  obtain ⟨n, hn1⟩ := costSearch_ends (B := B) hn
    (counterBits (padGame (specOf ds F).game).assumptions.length 1 (padGame (specOf ds F).game).assumptions.length).length p (padGame (specOf ds F).game) hA hN hq hl0 robotics
  refine ⟨n + Nat.card (Pos (specOf ds F).In (specOf ds F).Out) + 1 +
    Nat.card (EPos (ExtX ds) {x // x ∈ outputsOf ds}
      (Fin ((counterBits (padGame (specOf ds F).game).assumptions.length 1 (padGame (specOf ds F).game).assumptions.length).length + 1))) *
      (padGame (specOf ds F).game).guarantees.length + 1, fun fuel hf => ?_⟩
  obtain ⟨v, dump, hb, hv1, hv2, hfam, hZ⟩ := checked (B := B) .standard ds F hn robotics fuel (by omega)
  exact costRun_core_ends hn (padGame (specOf ds F).game) hA hG N robotics explicit fuel q l hb hp (hn1 fuel (by omega))
    (Nat.lt_of_lt_of_le (Nat.lt_succ_of_le (Nat.le_add_left _ _)) hf)

end Slugs.Model
