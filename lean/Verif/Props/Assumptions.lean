import Verif.Lemmas.Assumptions
import Verif.Props.Core
import Verif.Props.Monotone
import Verif.Props.Counterstrategy

/-!
# C29, C38: analysis of assumptions

`runAssumptions` is the model of a complete run with `--analyzeAssumptions`.  `Spec/Assumptions.lean` says what it means to leave out an assumption.
-/

namespace Slugs.Props

open Slugs.Spec Slugs.Model

variable {B : Type} [DecidableEq B] [L : BddLib B]

/-- What the line about an assumption says: `g` is the game of the specification and `g'` the game without the assumption; `implied` says that the
assumption follows from the others. -/
def Says {I O : Type} (g g' : Game I O) (implied : Prop) : Finding → Prop
  /- the specification is not realizable without the assumption -/
  | .crucial => ¬ g'.Realizable
  /- it is, but there are more winning positions with the assumption; the flag says whether some of them have an initial input -/
  | .morePositions initial => g'.Realizable ∧ (∃ s, g.SysWins s ∧ ¬ g'.SysWins s) ∧
      (initial = true ↔ ∃ s : Pos I O, g.initEnv s.1 ∧ g.SysWins s ∧ ¬ g'.SysWins s)
  /- the assumption follows from the others -/
  | .redundant => g'.Realizable ∧ (∀ s, g.SysWins s ↔ g'.SysWins s) ∧ implied
  /- the assumption makes it possible to reach the listed goals more quickly -/
  | .easier goals => g'.Realizable ∧ (∀ s, g.SysWins s ↔ g'.SysWins s) ∧ ¬ implied ∧ goals ≠ [] ∧ (goals.map Prod.fst).Pairwise (· < ·) ∧
      ∀ j, j ∈ goals.map Prod.fst ↔ ∃ b, g.padded.guarantees[j]? = some b ∧ g.padded.QuickerThan g'.padded b
  /- the assumption is of no use -/
  | .superfluous => g'.Realizable ∧ (∀ s, g.SysWins s ↔ g'.SysWins s) ∧ ¬ implied ∧
      ∀ b ∈ g.padded.guarantees, ¬ g.padded.QuickerThan g'.padded b

theorem padded_eq {I O : Type} (g : Game I O) : g.padded = padGame g := by
  rw [Game.padded, padGame]
  congr 1
  · cases g.assumptions <;> rfl
  · cases g.guarantees <;> rfl

theorem quickerThan_iff {I O : Type} [Finite I] [Finite O] {G G' : Game I O} (hh : Harder (padGame G) (padGame G')) (b : T I O) :
    G.padded.QuickerThan G'.padded b ↔
      ∃ k, approx (padGame G) b (nuZ (padGame G)) k ≠ approx (padGame G') b (nuZ (padGame G')) k := by
  have hw : ∀ g : Game I O, (padGame g).SysWins = fun p => p ∈ nuZ (padGame g) := fun g =>
    funext fun s => propext (nuZ_eq_sysWins _ (padGame_assumptions g) (padGame_guarantees g) s).symm
  rw [padded_eq, padded_eq, Game.QuickerThan]
  refine exists_congr fun k => ?_
  simp only [hw, within_iff]
  constructor
  · rintro ⟨s, h1, h2⟩ e
    exact h2 (e ▸ h1)
  · intro h
    by_contra hn
    push Not at hn
    exact h (Set.Subset.antisymm hn (hh.approx b hh.nuZ k))

theorem says_of_found {I O : Type} [Finite I] [Finite O] {G G' : Game I O} (h1 : G'.initEnv = G.initEnv) (h2 : G'.initSys = G.initSys)
    (hh : Harder (padGame G) (padGame G')) {implied : Prop} {f : Finding} (hf : FoundSem (padGame G) (padGame G') implied f) :
    Says G G' implied f := by
  have hw : ∀ (g : Game I O) s, s ∈ nuZ (padGame g) ↔ g.SysWins s := fun g s =>
    (nuZ_eq_sysWins _ (padGame_assumptions g) (padGame_guarantees g) s).trans (padGame_sysWins g s)
  have hr : (∀ i, (padGame G).initEnv i → ∃ o, (padGame G).initSys (i, o) ∧ (i, o) ∈ nuZ (padGame G')) ↔ G'.Realizable := by
    rw [Game.Realizable, h1, h2]
    simp only [hw]
    rfl
  have he : nuZ (padGame G) = nuZ (padGame G') → ∀ s, G.SysWins s ↔ G'.SysWins s := fun e s => by rw [← hw, ← hw, e]
  cases f with
  | crucial => exact fun h => hf (hr.mpr h)
  | morePositions b =>
    obtain ⟨e1, e2, e3⟩ := hf
    simp only [hw] at e2 e3
    exact ⟨hr.mp e1, e2, e3⟩
  | redundant =>
    obtain ⟨e1, e2, e3⟩ := hf
    exact ⟨hr.mp e1, he e2, e3⟩
  | easier goals =>
    obtain ⟨e1, e2, e3, e4, e5, e6⟩ := hf
    refine ⟨hr.mp e1, he e2, e3, e4, e5, fun j => ?_⟩
    rw [e6 j]
    refine exists_congr fun b => and_congr ?_ (quickerThan_iff hh b).symm
    rw [padded_eq G]
  | superfluous =>
    obtain ⟨e1, e2, e3, e4⟩ := hf
    refine ⟨hr.mp e1, he e2, e3, fun b hb hq => ?_⟩
    obtain ⟨k, hk⟩ := (quickerThan_iff hh b).mp hq
    rw [padded_eq] at hb
    exact hk (e4 b hb k)

/-- What the line about a liveness assumption says.  The computation leaves out all safety assumptions as well. -/
def SaysLiveness (sp : SpecFile) (i : Nat) (f : Finding) : Prop :=
  (2 ≤ sp.envLiveness.length → Says sp.game (sp.dropLiveness i).dropAllSafety.game False f) ∧
  (sp.envLiveness.length < 2 → (f = .crucial ↔ ∃ x, sp.game.initEnv x))

theorem nuZ_no_assumptions {I O : Type} (g : Game I O) (ha : g.assumptions = []) (hg : g.guarantees ≠ []) : nuZ g = ∅ := by
  obtain ⟨G, hG⟩ := List.exists_mem_of_ne_nil _ hg
  refine Set.eq_empty_of_subset_empty (Set.Subset.trans (nuZ_sub_muY g hG) (muY_le g G fun A hA => ?_))
  rw [ha] at hA
  cases hA

theorem analyzed (sp : SpecFile) (fuel : Nat) (hf : Nat.card (Pos sp.In sp.Out) < fuel) :
    (analyzeAssumptions (semMgr sp.In sp.Out) (gameCtx (padGame sp.game)) (sp.envTrans.map fun φ s t => sp.holds s (t.1, fun _ => false) φ) fuel =
        some .unrealizable ∧ ¬ sp.game.Realizable) ∨
    (sp.game.Realizable ∧
      ∃ S L, analyzeAssumptions (semMgr sp.In sp.Out) (gameCtx (padGame sp.game))
          (sp.envTrans.map fun φ s t => sp.holds s (t.1, fun _ => false) φ) fuel = some (.findings S L) ∧
        List.Forall₂ (fun i f => Says sp.game (sp.dropSafety i).game
          (∀ s x, (sp.dropSafety i).game.safetyEnv s x → sp.game.safetyEnv s x) f) (List.range sp.envTrans.length) S ∧
        List.Forall₂ (fun i f => SaysLiveness sp i f) (List.range (padGame sp.game).assumptions.length) L) := by
  let ps : List (Pos sp.In sp.Out → sp.In → Prop) := sp.envTrans.map fun φ s x => sp.holds s (x, fun _ => false) φ
  have hparts : (sp.envTrans.map fun φ (s t : Pos sp.In sp.Out) => sp.holds s (t.1, fun _ => false) φ) = ps.map fun p s t => p s t.1 := by
    rw [List.map_map]; rfl
  have hr : (∀ i, (padGame sp.game).initEnv i → ∃ o, (padGame sp.game).initSys (i, o) ∧ (i, o) ∈ nuZ (padGame sp.game)) ↔ sp.game.Realizable := by
    simp only [nuZ_eq_sysWins _ (padGame_assumptions sp.game) (padGame_guarantees sp.game), padGame_sysWins]
    rfl
  have h := analyzeAssumptions_eq (padGame sp.game) ps
    (fun s x => by
      show (∀ φ ∈ sp.envTrans, sp.holds s (x, fun _ => false) φ) ↔ _
      simp [ps]) fuel hf
  rw [hr, ← hparts] at h
  refine h.imp id (And.imp id ?_)
  rintro ⟨S, Lf, e, h1, h2⟩
  refine ⟨S, Lf, e, ?_, ?_⟩
  · rw [show sp.envTrans.length = ps.length by simp [ps]]
    refine h1.imp fun i f hif => ?_
    have hg : withoutSafety (padGame sp.game) ps i = padGame (sp.dropSafety i).game := by
      have : (fun (s : Pos sp.In sp.Out) (x : sp.In) => ∀ p ∈ ps.eraseIdx i, p s x) = (sp.dropSafety i).game.safetyEnv := by
        funext s x
        show _ = ∀ φ ∈ sp.envTrans.eraseIdx i, sp.holds s (x, fun _ => false) φ
        simp only [ps, List.eraseIdx_map, List.mem_map, forall_exists_index, and_imp, forall_apply_eq_imp_iff₂]
      rw [withoutSafety, this]
      rfl
    rw [hg] at hif
    refine says_of_found (G := sp.game) (G' := (sp.dropSafety i).game) rfl rfl ⟨?_, rfl, fun _ h => h, rfl⟩ hif
    intro s x hs φ hφ
    exact hs φ (List.mem_of_mem_eraseIdx hφ)
  · refine (List.forall₂_iff_get.mpr ⟨h2.length_eq, fun k hk hk' => ?_⟩)
    have hif := (List.forall₂_iff_get.mp h2).2 k hk hk'
    have hki : (List.range (padGame sp.game).assumptions.length).get ⟨k, hk⟩ = k := by simp
    rw [hki] at hif ⊢
    rw [List.length_range] at hk
    generalize Lf.get ⟨k, hk'⟩ = f at hif ⊢
    constructor
    · intro hlen
      have hne : sp.envLiveness.eraseIdx k ≠ [] := by
        intro hz
        have := congrArg List.length hz
        rw [List.length_eraseIdx] at this
        simp only [List.length_nil] at this
        split at this <;> omega
      have hpad : ∀ l : List Fml, l ≠ [] → padLive (l.map fun φ (p q : Pos sp.In sp.Out) => sp.holds p q φ) = l.map fun φ p q => sp.holds p q φ := by
        intro l hl
        cases l with
        | nil => exact absurd rfl hl
        | cons a l => rfl
      have hne0 : sp.envLiveness ≠ [] := by rintro hz; rw [hz] at hlen; simp at hlen
      have ha : (padGame sp.game).assumptions = sp.envLiveness.map fun φ p q => sp.holds p q φ := hpad _ hne0
      have hg : withoutLiveness (padGame sp.game) k = padGame (sp.dropLiveness k).dropAllSafety.game := by
        have e1 : (fun (_ : Pos sp.In sp.Out) (_ : sp.In) => True) = (sp.dropLiveness k).dropAllSafety.game.safetyEnv := by
          funext s x
          exact propext ⟨fun _ φ hφ => absurd hφ (by simp [SpecFile.dropAllSafety]), fun _ => trivial⟩
        have e2 : (padGame sp.game).assumptions.eraseIdx k = (padGame (sp.dropLiveness k).dropAllSafety.game).assumptions := by
          rw [ha, List.eraseIdx_map]
          exact (hpad _ hne).symm
        rw [withoutLiveness, e1, e2]
        rfl
      rw [hg] at hif
      refine says_of_found (G := sp.game) (G' := (sp.dropLiveness k).dropAllSafety.game) rfl rfl ⟨?_, rfl, ?_, rfl⟩ hif
      · intro s x _ φ hφ
        exact absurd hφ (by simp [SpecFile.dropAllSafety])
      · have hsub : ∀ a ∈ (withoutLiveness (padGame sp.game) k).assumptions, a ∈ (padGame sp.game).assumptions :=
          fun a h => List.mem_of_mem_eraseIdx h
        exact fun a h => hsub a ((congrArg (fun g => a ∈ Game.assumptions g) hg).mpr h)
    · intro hlen
      have hl1 : (padGame sp.game).assumptions.length = 1 := by
        show (padLive (sp.envLiveness.map _)).length = 1
        match hl : sp.envLiveness, hlen with
        | [], _ => rfl
        | [a], _ => rfl
        | _ :: _ :: _, h => simp at h
      have hz : nuZ (withoutLiveness (padGame sp.game) k) = ∅ := by
        refine nuZ_no_assumptions _ ?_ (padGame_guarantees sp.game)
        show (padGame sp.game).assumptions.eraseIdx k = []
        rw [← List.length_eq_zero_iff, List.length_eraseIdx, if_pos hk, hl1]
      have hno : (∀ i, (padGame sp.game).initEnv i → ∃ o, (padGame sp.game).initSys (i, o) ∧ (i, o) ∈ nuZ (withoutLiveness (padGame sp.game) k)) ↔
          ¬ ∃ x, sp.game.initEnv x := by
        rw [hz, not_exists]
        refine forall_congr' fun x => imp_congr_right fun _ => ?_
        simp
      constructor
      · rintro rfl
        by_contra hc
        exact hif (hno.mpr hc)
      · intro hx
        cases f with
        | crucial => rfl
        | morePositions b => exact absurd hx (hno.mp hif.1)
        | redundant => exact absurd hx (hno.mp hif.1)
        | easier l => exact absurd hx (hno.mp hif.1)
        | superfluous => exact absurd hx (hno.mp hif.1)

/-- What the lines of a report say. -/
structure RightReport (text : List Char) (sp : SpecFile) (S Lf : List (List Char × Finding)) : Prop where
  /-- one line for each safety assumption, in the order and with the names of the file -/
  safetyNames : S.map Prod.fst = namesIn .envTrans txt!"Safety Assumption " text
  safetyLength : S.length = sp.envTrans.length
  safety : ∀ (i : Nat) (n : List Char) (f : Finding), S[i]? = some (n, f) → Says sp.game (sp.dropSafety i).game
    (∀ s x, (sp.dropSafety i).game.safetyEnv s x → sp.game.safetyEnv s x) f
  livenessNames : Lf.map Prod.fst = if sp.envLiveness = [] then [txt!"Automatically added TRUE liveness assumption"]
    else namesIn .envLiveness txt!"Liveness Assumption " text
  livenessLength : Lf.length = max 1 sp.envLiveness.length
  liveness : ∀ (i : Nat) (n : List Char) (f : Finding), Lf[i]? = some (n, f) → SaysLiveness sp i f

theorem forall₂_range {α : Type} {P : Nat → α → Prop} {n : Nat} {l : List α} (h : List.Forall₂ P (List.range n) l) :
    l.length = n ∧ ∀ (i : Nat) (a : α), l[i]? = some a → P i a := by
  have hl := h.length_eq
  rw [List.length_range] at hl
  refine ⟨hl.symm, fun i a hi => ?_⟩
  obtain ⟨hlt, rfl⟩ := List.getElem?_eq_some_iff.mp hi
  have := (List.forall₂_iff_get.mp h).2 i (by simpa [hl] using hlt) hlt
  simpa using this

/-- The run on an accepted file. -/
theorem runAssumptions_sem {cap : Nat} {order : List Char → Bool} {text : List Char} {ld : Loaded B}
    (h : initContextParts (B := B) cap order text = .ok ld) : ∃ sp, Denotes text sp ∧
    ∀ fuel, Nat.card (Pos sp.In sp.Out) < fuel →
      (¬ sp.game.Realizable ∧ runAssumptions B cap order fuel text = .unrealizable) ∨
      (sp.game.Realizable ∧ ∃ S Lf, runAssumptions B cap order fuel text = .report S Lf ∧ RightReport text sp S Lf) := by
  obtain ⟨_, ds, F, hn, ht, hd, hc, hp, h1, h2, h3, h4⟩ := initContextParts_spec h
  refine ⟨specOf ds F, hd, fun fuel hf => ?_⟩
  have e := analyzeAssumptions_hom ((tableLayout ds hn).hom B) (gameCtx (padGame (specOf ds F).game))
    ((specOf ds F).envTrans.map fun φ (s t : Pos (specOf ds F).In (specOf ds F).Out) => (specOf ds F).holds s (t.1, fun _ => false) φ) fuel
  have e := (congrArg₂ (fun c l => analyzeAssumptions (bddMgr B (tableOf ds).types) c l fuel) hc hp).trans e
  rw [runAssumptions, h]
  simp only
  rw [ht]
  rcases analyzed (specOf ds F) fuel hf with ⟨g1, g2⟩ | ⟨g1, S, Lf, g2, g3, g4⟩
  · rw [e.trans g1]
    exact .inl ⟨g2, rfl⟩
  · rw [e.trans g2]
    refine .inr ⟨g1, _, _, rfl, ?_⟩
    obtain ⟨l1, s1⟩ := forall₂_range g3
    obtain ⟨l2, s2⟩ := forall₂_range g4
    have hpl : ld.parts.length = (specOf ds F).envTrans.length := by
      rw [hp]; exact (List.length_map ..).trans (List.length_map ..)
    have hll : ld.ctx.livenessAssumptions.length = (padGame (specOf ds F).game).assumptions.length := by
      rw [hc]; exact List.length_map ..
    have hpad : (padGame (specOf ds F).game).assumptions.length = max 1 (specOf ds F).envLiveness.length := by
      show (padLive ((specOf ds F).envLiveness.map _)).length = _
      cases (specOf ds F).envLiveness with
      | nil => rfl
      | cons a l => simp [padLive]
    refine ⟨?_, ?_, ?_, ?_, ?_, ?_⟩
    · rw [List.map_fst_zip (by omega), h1]
    · rw [List.length_zip]; omega
    · intro i n f hi
      exact s1 i f (List.getElem?_zip_eq_some.mp hi).2
    · rw [List.map_fst_zip (by omega), h2]
    · rw [List.length_zip]; omega
    · intro i n f hi
      exact s2 i f (List.getElem?_zip_eq_some.mp hi).2

theorem runAssumptions_more {cap : Nat} {order : List Char → Bool} {n n' : Nat} {text : List Char} (hn : n ≤ n')
    (h : runAssumptions B cap order n text ≠ .running) : runAssumptions B cap order n' text = runAssumptions B cap order n text := by
  rw [runAssumptions] at h
  rw [runAssumptions, runAssumptions]
  cases hi : initContextParts (B := B) cap order text with
  | err e => rfl
  | ub => rfl
  | stuck => rfl
  | ok ld =>
    rw [hi] at h
    simp only at h ⊢
    cases ha : analyzeAssumptions (bddMgr B ld.table.types) ld.ctx ld.parts n with
    | none => rw [ha] at h; exact absurd rfl h
    | some r => rw [analyzeAssumptions_more _ _ hn ha]

/-- Whatever is printed is right. -/
theorem runAssumptions_printed {cap : Nat} {order : List Char → Bool} {fuel : Nat} {text : List Char} :
    (runAssumptions B cap order fuel text = .unrealizable → ∃ sp, Denotes text sp ∧ ¬ sp.game.Realizable) ∧
    ∀ S Lf, runAssumptions B cap order fuel text = .report S Lf → ∃ sp, Denotes text sp ∧ sp.game.Realizable ∧ RightReport text sp S Lf := by
  cases hi : initContextParts (B := B) cap order text with
  | err e => rw [runAssumptions, hi]; exact ⟨nofun, nofun⟩
  | ub => rw [runAssumptions, hi]; exact ⟨nofun, nofun⟩
  | stuck => rw [runAssumptions, hi]; exact ⟨nofun, nofun⟩
  | ok ld =>
    obtain ⟨sp, hd, hs⟩ := runAssumptions_sem hi
    have hs := hs (fuel + Nat.card (Pos sp.In sp.Out)).succ (by omega)
    constructor
    · intro hr
      have := runAssumptions_more (n := fuel) (n' := (fuel + Nat.card (Pos sp.In sp.Out)).succ) (by omega) (by rw [hr]; exact nofun)
      rw [this, hr] at hs
      rcases hs with ⟨h1, _⟩ | ⟨_, _, _, h2, _⟩
      · exact ⟨sp, hd, h1⟩
      · cases h2
    · intro S Lf hr
      have := runAssumptions_more (n := fuel) (n' := (fuel + Nat.card (Pos sp.In sp.Out)).succ) (by omega) (by rw [hr]; exact nofun)
      rw [this, hr] at hs
      rcases hs with ⟨_, h2⟩ | ⟨h1, _, _, h2, h3⟩
      · cases h2
      · cases h2
        exact ⟨sp, hd, h1, h3⟩

/-! ### The theorems -/

/-- **C38**, first line and termination.  On every accepted file the analysis terminates; it is carried out if and only if the specification is
realizable. -/
theorem C38_analysis_terminates {cap : Nat} {order : List Char → Bool} {text : List Char} {tab : VarTable} {c : Ctx B}
    (h : initContext cap order text = .ok (tab, c)) {sp : SpecFile} (hd : Denotes text sp)
    (fuel : Nat) (hf : Nat.card (Pos sp.In sp.Out) + 1 ≤ fuel) :
    (¬ sp.game.Realizable → runAssumptions B cap order fuel text = .unrealizable) ∧
    (sp.game.Realizable → ∃ S Lf, runAssumptions B cap order fuel text = .report S Lf) := by
  obtain ⟨ld, hl⟩ := initContextParts_total h
  obtain ⟨sp', hd', hs⟩ := runAssumptions_sem hl
  cases Denotes.det hd hd'
  rcases hs fuel hf with ⟨h1, h2⟩ | ⟨h1, S, Lf, h2, _⟩
  · exact ⟨fun _ => h2, fun hr => absurd hr h1⟩
  · exact ⟨fun hr => absurd h1 hr, fun _ => ⟨S, Lf, h2⟩⟩

/-- **C38**, the lines about safety assumptions.  There is one line for each safety assumption of the file, in the order of the file, with the name given
in the file; and whatever the line says about the specification without just that assumption is right. -/
theorem C38_safety_assumptions_right {cap : Nat} {order : List Char → Bool} {fuel : Nat} {text : List Char} {S Lf : List (List Char × Finding)}
    (h : runAssumptions B cap order fuel text = .report S Lf) {sp : SpecFile} (hd : Denotes text sp) :
    S.map Prod.fst = namesIn .envTrans txt!"Safety Assumption " text ∧ S.length = sp.envTrans.length ∧
    ∀ (i : Nat) (n : List Char) (f : Finding), S[i]? = some (n, f) → Says sp.game (sp.dropSafety i).game
      (∀ s x, (sp.dropSafety i).game.safetyEnv s x → sp.game.safetyEnv s x) f := by
  obtain ⟨sp', hd', _, hr⟩ := (runAssumptions_printed (B := B)).2 S Lf h
  cases Denotes.det hd hd'
  exact ⟨hr.safetyNames, hr.safetyLength, hr.safety⟩

/-- The lines about liveness assumptions have the right names and order. -/
theorem C29_lines {cap : Nat} {order : List Char → Bool} {fuel : Nat} {text : List Char} {S Lf : List (List Char × Finding)}
    (h : runAssumptions B cap order fuel text = .report S Lf) {sp : SpecFile} (hd : Denotes text sp) :
    Lf.map Prod.fst = (if sp.envLiveness = [] then [txt!"Automatically added TRUE liveness assumption"]
      else namesIn .envLiveness txt!"Liveness Assumption " text) ∧ Lf.length = max 1 sp.envLiveness.length ∧
    ∀ (i : Nat) (n : List Char) (f : Finding), Lf[i]? = some (n, f) → SaysLiveness sp i f := by
  obtain ⟨sp', hd', _, hr⟩ := (runAssumptions_printed (B := B)).2 S Lf h
  cases Denotes.det hd hd'
  exact ⟨hr.livenessNames, hr.livenessLength, hr.liveness⟩

/-- Leaving out assumptions makes it harder to realize a specification. -/
theorem dropLiveness_of_dropAllSafety (sp : SpecFile) (i : Nat) (h : (sp.dropLiveness i).dropAllSafety.game.Realizable) :
    (sp.dropLiveness i).game.Realizable := by
  intro x hx
  obtain ⟨o, h1, h2⟩ := h x hx
  refine ⟨o, h1, ?_⟩
  refine relaxes_sysWins (g := (sp.dropLiveness i).dropAllSafety.game) (g' := (sp.dropLiveness i).game) ?_ h2
  exact ⟨fun _ _ _ φ hφ => absurd hφ (List.not_mem_nil (a := φ)), fun _ _ h => h, fun a h => ⟨a, h, fun _ _ h => h⟩, fun b h => ⟨b, h, fun _ _ h => h⟩⟩

/-- **C29**, the converse: a liveness assumption without which the specification is not realizable is reported as crucial. -/
theorem C29_needed_is_reported {cap : Nat} {order : List Char → Bool} {fuel : Nat} {text : List Char} {S Lf : List (List Char × Finding)}
    (h : runAssumptions B cap order fuel text = .report S Lf) {sp : SpecFile} (hd : Denotes text sp) {i : Nat} {n : List Char} {f : Finding}
    (hi : Lf[i]? = some (n, f)) (hn : ¬ (sp.dropLiveness i).game.Realizable) : f = .crucial := by
  obtain ⟨_, _, hl⟩ := C29_lines h hd
  obtain ⟨h1, h2⟩ := hl i n f hi
  by_cases hlen : 2 ≤ sp.envLiveness.length
  · have hs := h1 hlen
    cases f with
    | crucial => rfl
    | morePositions b => exact absurd (dropLiveness_of_dropAllSafety sp i hs.1) hn
    | redundant => exact absurd (dropLiveness_of_dropAllSafety sp i hs.1) hn
    | easier l => exact absurd (dropLiveness_of_dropAllSafety sp i hs.1) hn
    | superfluous => exact absurd (dropLiveness_of_dropAllSafety sp i hs.1) hn
  · refine (h2 (by omega)).mpr ?_
    by_contra hx
    push Not at hx
    exact hn fun x hix => absurd hix (hx x)

/-- **C29**, for files without safety assumptions and with at least two liveness assumptions: what the lines about the liveness assumptions say about the
specification without just that assumption is right; in particular it is reported as crucial only if the specification is not realizable without it.
Missing: other files, see `C29_crucial_violated` and `C29_crucial_violated_single`. -/
theorem C29_liveness_assumptions_right_partial {cap : Nat} {order : List Char → Bool} {fuel : Nat} {text : List Char}
    {S Lf : List (List Char × Finding)} (h : runAssumptions B cap order fuel text = .report S Lf) {sp : SpecFile} (hd : Denotes text sp)
    (h1 : sp.envTrans = []) (h2 : 2 ≤ sp.envLiveness.length) {i : Nat} {n : List Char} {f : Finding} (hi : Lf[i]? = some (n, f)) :
    Says sp.game (sp.dropLiveness i).game False f ∧ (f = .crucial ↔ ¬ (sp.dropLiveness i).game.Realizable) := by
  obtain ⟨_, _, hl⟩ := C29_lines h hd
  have hs := (hl i n f hi).1 h2
  have he : (sp.dropLiveness i).dropAllSafety = sp.dropLiveness i := by
    rw [SpecFile.dropAllSafety, SpecFile.dropLiveness, h1]
  have hs' : Says sp.game (sp.dropLiveness i).game False f := by
    have key : ∀ sq : SpecFile, sq.envTrans = [] → sq.dropAllSafety.game = sq.game := by
      intro sq hq
      have : sq.dropAllSafety.game.safetyEnv = sq.game.safetyEnv := by
        funext s x
        refine propext ⟨fun _ φ hφ => ?_, fun _ φ hφ => ?_⟩
        · rw [hq] at hφ; cases hφ
        · cases hφ
      show ({ sq.game with safetyEnv := sq.dropAllSafety.game.safetyEnv } : Game sq.In sq.Out) = sq.game
      rw [this]
    have e := key (sp.dropLiveness i) h1
    exact (congrArg (fun g => Says sp.game g False f) e).mp hs
  refine ⟨hs', ⟨?_, fun hn => C29_needed_is_reported h hd hi hn⟩⟩
  rintro rfl
  exact hs'

/-! ### Concrete files -/

/-- The environment keeps `a` true, and the system may rely on it.  The second liveness assumption is of no use. -/
def keepsText : List Char := txt!"[INPUT]\na\n[OUTPUT]\nx\n[ENV_TRANS]\na'\n[SYS_TRANS]\na'\n[ENV_LIVENESS]\na\nx"

def keeps : SpecFile where
  inputs := [txt!"a"]
  outputs := [txt!"x"]
  envInit := []
  sysInit := []
  envTrans := [.var txt!"a'"]
  sysTrans := [.var txt!"a'"]
  envLiveness := [.var txt!"a", .var txt!"x"]
  sysLiveness := []

theorem keeps_denotes : Denotes keepsText keeps := by
  refine ⟨[(.input, txt!"a"), (.output, txt!"x"), (.envTrans, txt!"a'"), (.sysTrans, txt!"a'"), (.envLiveness, txt!"a"), (.envLiveness, txt!"x")],
    ?_, by decide, by decide, ?_, ?_, ?_, ?_, ?_, ?_⟩
  · have : splitLines keepsText = [txt!"[INPUT]", txt!"a", txt!"[OUTPUT]", txt!"x", txt!"[ENV_TRANS]", txt!"a'", txt!"[SYS_TRANS]", txt!"a'",
      txt!"[ENV_LIVENESS]", txt!"a", txt!"x"] := by decide
    rw [this]
    refine .header .input (by decide) (.item (by decide) (by decide) (by decide) ?_)
    refine .header .output (by decide) (.item (by decide) (by decide) (by decide) ?_)
    refine .header .envTrans (by decide) (.item (by decide) (by decide) (by decide) ?_)
    refine .header .sysTrans (by decide) (.item (by decide) (by decide) (by decide) ?_)
    exact .header .envLiveness (by decide) (.item (by decide) (by decide) (by decide) (.item (by decide) (by decide) (by decide) .nil))
  all_goals
    simp only [keeps, itemsOf]
  · exact .nil
  · exact .nil
  · exact .cons (reads_text (.var txt!"a'") (by simp [Fml.Wf]) (by decide) (by decide)) .nil
  · exact .cons (reads_text (.var txt!"a'") (by simp [Fml.Wf]) (by decide) (by decide)) .nil
  · exact .cons (reads_text (.var txt!"a") (by simp [Fml.Wf]) (by decide) (by decide))
      (.cons (reads_text (.var txt!"x") (by simp [Fml.Wf]) (by decide) (by decide)) .nil)
  · exact .nil

theorem keeps_run : runAssumptions ROBDD 1000 (fun _ => true) 30 keepsText = .report [(txt!"Safety Assumption 1", .crucial)]
    [(txt!"Liveness Assumption 1", .crucial), (txt!"Liveness Assumption 2", .crucial)] := by rfl

/-- The system does not need any liveness assumption. -/
theorem keeps_realizable (i : Nat) : (keeps.dropLiveness i).game.Realizable := by
  intro x _
  refine ⟨fun _ => false, fun φ hφ => absurd hφ (List.not_mem_nil (a := φ)), fun _ _ => fun _ => false, ?_, ?_⟩
  · intro cur h y _ hy φ hφ
    have he := hy φ hφ
    obtain rfl : φ = .var txt!"a'" := List.mem_singleton.mp hφ
    exact he
  · intro p _ _ b hb
    exact absurd hb (List.not_mem_nil (a := b))

/-- **C29** does not hold: the safety assumptions are left out together with the liveness assumption (`extensionAnalyzeAssumptions.hpp:379`), so that
liveness assumptions are reported as crucial although the specification is realizable without them. -/
theorem C29_crucial_violated : ∃ (text : List Char) (sp : SpecFile) (S Lf : List (List Char × Finding)) (i : Nat) (n : List Char),
    runAssumptions ROBDD 1000 (fun _ => true) 30 text = .report S Lf ∧ Denotes text sp ∧ 2 ≤ sp.envLiveness.length ∧ Lf[i]? = some (n, .crucial) ∧
    (sp.dropLiveness i).game.Realizable :=
  ⟨keepsText, keeps, _, _, 1, _, keeps_run, keeps_denotes, by decide, rfl, keeps_realizable 1⟩

/-- A single liveness assumption, of no use. -/
def singleText : List Char := txt!"[INPUT]\na\n[OUTPUT]\nx\n[ENV_LIVENESS]\na"

def single : SpecFile where
  inputs := [txt!"a"]
  outputs := [txt!"x"]
  envInit := []
  sysInit := []
  envTrans := []
  sysTrans := []
  envLiveness := [.var txt!"a"]
  sysLiveness := []

theorem single_denotes : Denotes singleText single := by
  refine ⟨[(.input, txt!"a"), (.output, txt!"x"), (.envLiveness, txt!"a")], ?_, by decide, by decide, ?_, ?_, ?_, ?_, ?_, ?_⟩
  · have : splitLines singleText = [txt!"[INPUT]", txt!"a", txt!"[OUTPUT]", txt!"x", txt!"[ENV_LIVENESS]", txt!"a"] := by decide
    rw [this]
    refine .header .input (by decide) (.item (by decide) (by decide) (by decide) ?_)
    refine .header .output (by decide) (.item (by decide) (by decide) (by decide) ?_)
    exact .header .envLiveness (by decide) (.item (by decide) (by decide) (by decide) .nil)
  all_goals
    simp only [single, itemsOf]
  · exact .nil
  · exact .nil
  · exact .nil
  · exact .nil
  · exact .cons (reads_text (.var txt!"a") (by simp [Fml.Wf]) (by decide) (by decide)) .nil
  · exact .nil

theorem single_run : runAssumptions ROBDD 1000 (fun _ => true) 30 singleText = .report [] [(txt!"Liveness Assumption 1", .crucial)] := by rfl

/-- **C29** does not hold for single liveness assumptions either, even without safety assumptions: the constraint `true` is not added when the last
liveness assumption is left out, so that no position is winning. -/
theorem C29_crucial_violated_single : ∃ (text : List Char) (sp : SpecFile) (S Lf : List (List Char × Finding)) (i : Nat) (n : List Char),
    runAssumptions ROBDD 1000 (fun _ => true) 30 text = .report S Lf ∧ Denotes text sp ∧ sp.envTrans = [] ∧ Lf[i]? = some (n, .crucial) ∧
    (sp.dropLiveness i).game.Realizable := by
  refine ⟨singleText, single, _, _, 0, _, single_run, single_denotes, rfl, rfl, fun x _ => ?_⟩
  refine ⟨fun _ => false, fun φ hφ => absurd hφ (List.not_mem_nil (a := φ)), fun _ _ => fun _ => false, ?_, ?_⟩
  · exact fun cur h y _ _ φ hφ => absurd hφ (List.not_mem_nil (a := φ))
  · exact fun p _ _ b hb => absurd hb (List.not_mem_nil (a := b))

/-- The hypotheses of `C38_safety_assumptions_right` hold for a file with named and repeated assumptions, one of which makes a goal easier to reach. -/
example : runAssumptions ROBDD 1000 (fun _ => true) 30
    txt!"[INPUT]\na\nb\n[OUTPUT]\nx\n[ENV_TRANS]\n## keeps\n| ! a a'\n## again\n| a ! b'\n\n| ! a a'\n[SYS_TRANS]\n| ! x' a'\n[ENV_LIVENESS]\n## often\na\n\nb\n[SYS_LIVENESS]\nx\n" =
    .report [(txt!"keeps", .redundant), (txt!"again", .superfluous), (txt!"Safety Assumption 3", .redundant)]
      [(txt!"often", .crucial), (txt!"Liveness Assumption 2", .easier [(0, true)])] := by rfl

/-- The hypotheses of `C29_liveness_assumptions_right_partial` hold: one assumption is needed, the other is not. -/
def oftenText : List Char :=
  txt!"[INPUT]\na\nb\n[OUTPUT]\nx\n[SYS_TRANS]\n| ! x' a'\n[ENV_LIVENESS]\n## often\na\nb\n[SYS_LIVENESS]\nx\n"

example : (runAssumptions ROBDD 1000 (fun _ => true) 30 oftenText = .report []
      [(txt!"often", .crucial), (txt!"Liveness Assumption 2", .superfluous)]) ∧
    ∃ sp, Denotes oftenText sp ∧ sp.envTrans = [] ∧ 2 ≤ sp.envLiveness.length := by
  have h : runAssumptions ROBDD 1000 (fun _ => true) 30 oftenText = .report []
      [(txt!"often", .crucial), (txt!"Liveness Assumption 2", .superfluous)] := by rfl
  refine ⟨h, ?_⟩
  obtain ⟨sp, hd, _, hr⟩ := (runAssumptions_printed (B := ROBDD)).2 _ _ h
  refine ⟨sp, hd, ?_, ?_⟩
  · exact List.length_eq_zero_iff.mp hr.safetyLength.symm
  · have := hr.livenessLength
    simp only [List.length_cons, List.length_nil] at this
    omega

/-- An unrealizable specification. -/
example : runAssumptions ROBDD 1000 (fun _ => true) 30 txt!"[INPUT]\na\n[OUTPUT]\nx\n[SYS_LIVENESS]\na" = .unrealizable := by rfl

end Slugs.Props
