import Verif.Spec.Relax
import Verif.Props.Explicit

/-!
# C28: strengthening assumptions and weakening guarantees never hurts the system
-/

namespace Slugs.Props

open Slugs.Spec Slugs.Model

theorem relaxes_live {I O : Type} {g g' : Game I O} (h : g.Relaxes g') (p : Nat → Pos I O) (hl : g.Live p) : g'.Live p := by
  intro ha b' hb'
  obtain ⟨b, hb, himp⟩ := h.guarantees b' hb'
  have hab : ∀ a ∈ g.assumptions, InfOften a p := by
    intro a hma n
    obtain ⟨a', ha', himp'⟩ := h.assumptions a hma
    obtain ⟨m, h1, h2⟩ := ha a' ha' n
    exact ⟨m, h1, himp' _ _ h2⟩
  intro n
  obtain ⟨m, h1, h2⟩ := hl hab b hb n
  exact ⟨m, h1, himp _ _ h2⟩

/-- The same strategy still wins. -/
theorem relaxes_sysWins {I O : Type} {g g' : Game I O} (h : g.Relaxes g') {s : Pos I O} (hs : g.SysWins s) : g'.SysWins s := by
  obtain ⟨σ, h1, h2⟩ := hs
  have hh : ∀ l, g'.SysHist σ s l → g.SysHist σ s l := by
    intro l hl
    induction hl with
    | start => exact .start
    | step _ hi ih => exact .step ih (h.safetyEnv _ _ hi)
  exact ⟨σ, fun cur l i hc hi => h.safetySys _ _ (h1 cur l i (hh _ hc) (h.safetyEnv _ _ hi)),
    fun p hp => relaxes_live h p (h2 p fun n => hh _ (hp n))⟩

/-- **C28**, for the computed positions: every position in the set computed for `g` is in the set computed for the relaxed game. -/
theorem C28_positions {I O : Type} [Finite I] [Finite O] {g g' : Game I O} (h : g.Relaxes g')
    (hg : g.guarantees ≠ []) (ha' : g'.assumptions ≠ []) (fuel : Nat) (hf : Nat.card (Pos I O) + 1 ≤ fuel) :
    ∃ W W' dump dump', computeWinningPositions (semMgr I O) (gameCtx g) fuel = some (W, dump) ∧
      computeWinningPositions (semMgr I O) (gameCtx g') fuel = some (W', dump') ∧ ∀ s t, W s t → W' s t := by
  obtain ⟨W, dump, e1, h1⟩ := C01_winning_positions_sound g hg fuel hf
  obtain ⟨W', dump', e2, h2⟩ := C02_losing_positions_complete g' ha' fuel hf
  exact ⟨W, W', dump, dump', e1, e2, fun s t hs => by_contra fun hn => (h2 s t hn).2 (relaxes_sysWins h (h1 s t hs))⟩

theorem relaxes_wins {sp sp' : SpecFile} (h : sp.Relaxes sp') :
    ((∀ φ ∈ sp'.sysInit, φ ∈ sp.sysInit) → sp.game.Realizable → sp'.game.Realizable) ∧
    ((∀ φ ∈ sp.sysInit, φ ∈ sp'.sysInit) → sp.game.RoboticsRealizable → sp'.game.RoboticsRealizable) := by
  obtain ⟨i1, o1, a1, b1, c1, d1, e1, f1⟩ := sp
  obtain ⟨i2, o2, a2, b2, c2, d2, e2, f2⟩ := sp'
  obtain ⟨h1, h2, h3, h4, h5, h6, h7⟩ := h
  simp only at *
  subst h1 h2
  have hr : Game.Relaxes (SpecFile.game ⟨i2, o2, a1, b1, c1, d1, e1, f1⟩) (SpecFile.game ⟨i2, o2, a2, b2, c2, d2, e2, f2⟩) := by
    refine ⟨fun s i hs φ hφ => hs φ (h4 φ hφ), fun s t hs φ hφ => hs φ (h6 φ hφ), fun a ha => ?_, fun b hb => ?_⟩
    · obtain ⟨φ, hφ, rfl⟩ := List.mem_map.mp ha
      exact ⟨_, List.mem_map.mpr ⟨φ, h5 φ hφ, rfl⟩, fun _ _ h => h⟩
    · obtain ⟨φ, hφ, rfl⟩ := List.mem_map.mp hb
      exact ⟨_, List.mem_map.mpr ⟨φ, h7 φ hφ, rfl⟩, fun _ _ h => h⟩
  constructor
  · intro hi hw i hinit
    obtain ⟨o, ho, hwin⟩ := hw i fun φ hφ => hinit φ (h3 φ hφ)
    exact ⟨o, fun φ hφ => ho φ (hi φ hφ), relaxes_sysWins hr hwin⟩
  · intro hi hw i o h1 h2
    exact relaxes_sysWins hr (hw i o (fun φ hφ => h1 φ (h3 φ hφ)) fun φ hφ => h2 φ (hi φ hφ))

/-- **C28**, for the printed verdict.  If the first file is reported to be realizable, then the relaxed file is not reported to be
unrealizable (whatever the numbers of rounds), with whichever versions of the algorithm.  In the standard semantics the initialisation guarantees count
as guarantees; in the robotics semantics they restrict the initial positions and therefore count as assumptions. -/
theorem C28_verdict {B B' : Type} [DecidableEq B] [BddLib B] [DecidableEq B'] [BddLib B'] (alg alg' : Algorithm) (robotics : Bool) {cap cap' : Nat}
    {order order' : List Char → Bool} {fuel fuel' : Nat} {text text' : List Char} {sp sp' : SpecFile} (hd : Denotes text sp) (hd' : Denotes text' sp')
    (hr : sp.Relaxes sp')
    (hi : if robotics then ∀ φ ∈ sp.sysInit, φ ∈ sp'.sysInit else ∀ φ ∈ sp'.sysInit, φ ∈ sp.sysInit)
    (h : runSlugs B alg robotics cap order fuel text = .result true) :
    runSlugs B' alg' robotics cap' order' fuel' text' ≠ .result false := by
  intro h'
  obtain ⟨s1, d1, w1⟩ := C24_printed_is_right h
  obtain ⟨s2, d2, w2⟩ := C24_printed_is_right h'
  obtain rfl := Denotes.det hd d1
  obtain rfl := Denotes.det hd' d2
  obtain ⟨m1, m2⟩ := relaxes_wins hr
  cases robotics
  · have := w2.mpr (m1 hi (w1.mp rfl))
    cases this
  · have := w2.mpr (m2 hi (w1.mp rfl))
    cases this

/-! ### Concrete cases -/

/-- `strategyText` without one of its guarantees. -/
def relaxedText : List Char :=
  txt!"[INPUT]\nr\n[OUTPUT]\ng\n[SYS_TRANS]\n| ! g' r'\n[ENV_LIVENESS]\nr\n[SYS_LIVENESS]\ng"

/-- The hypotheses of `C28_verdict` hold for these files. -/
example : ∃ sp sp', Denotes strategyText sp ∧ Denotes relaxedText sp' ∧ sp.Relaxes sp' ∧ (∀ φ ∈ sp'.sysInit, φ ∈ sp.sysInit) ∧
    runSlugs ROBDD .standard false 1000 (fun _ => true) 20 strategyText = .result true := by
  have rd : ∀ φ : Fml, φ.Wf 0 → (∀ x ∈ φ.vars, (x ≠ [] ∧ ∀ c ∈ x, isSpace c = false) ∧ x ∉ reserved) →
      φ.text.length < 2 ^ 32 → ReadsLine φ.text φ := fun φ h1 h2 h3 =>
    ⟨[], (Spells.joinWords _ (Fml.words_good φ fun x hx => (h2 x hx).1)).reads φ 0 h3 (by decide) h1
      (fun x hx => (h2 x hx).2), by simp⟩
  have r1 := rd (.bin .or (.not (.var txt!"g'")) (.var txt!"r'")) (by simp [Fml.Wf]) (by decide) (by decide)
  have r2 := rd (.var txt!"r") (by simp [Fml.Wf]) (by decide) (by decide)
  have r3 := rd (.var txt!"g") (by simp [Fml.Wf]) (by decide) (by decide)
  have r4 := rd (.not (.var txt!"g")) (by simp [Fml.Wf]) (by decide) (by decide)
  refine ⟨⟨[txt!"r"], [txt!"g"], [], [], [], [.bin .or (.not (.var txt!"g'")) (.var txt!"r'")], [.var txt!"r"], [.var txt!"g", .not (.var txt!"g")]⟩,
    ⟨[txt!"r"], [txt!"g"], [], [], [], [.bin .or (.not (.var txt!"g'")) (.var txt!"r'")], [.var txt!"r"], [.var txt!"g"]⟩, ?_, ?_, ?_, ?_, by rfl⟩
  · refine ⟨[(.input, txt!"r"), (.output, txt!"g"), (.sysTrans, txt!"| ! g' r'"), (.envLiveness, txt!"r"), (.sysLiveness, txt!"g"),
      (.sysLiveness, txt!"! g")], ?_, rfl, rfl, .nil, .nil, .nil, .cons r1 .nil, .cons r2 .nil, .cons r3 (.cons r4 .nil)⟩
    have : splitLines strategyText = [txt!"[INPUT]", txt!"r", txt!"[OUTPUT]", txt!"g", txt!"[SYS_TRANS]", txt!"| ! g' r'",
      txt!"[ENV_LIVENESS]", txt!"r", txt!"[SYS_LIVENESS]", txt!"g", txt!"! g"] := by decide
    rw [this]
    refine .header .input (by decide) (.item (by decide) (by decide) (by decide) ?_)
    refine .header .output (by decide) (.item (by decide) (by decide) (by decide) ?_)
    refine .header .sysTrans (by decide) (.item (by decide) (by decide) (by decide) ?_)
    refine .header .envLiveness (by decide) (.item (by decide) (by decide) (by decide) ?_)
    exact .header .sysLiveness (by decide) (.item (by decide) (by decide) (by decide) (.item (by decide) (by decide) (by decide) .nil))
  · refine ⟨[(.input, txt!"r"), (.output, txt!"g"), (.sysTrans, txt!"| ! g' r'"), (.envLiveness, txt!"r"), (.sysLiveness, txt!"g")],
      ?_, rfl, rfl, .nil, .nil, .nil, .cons r1 .nil, .cons r2 .nil, .cons r3 .nil⟩
    have : splitLines relaxedText = [txt!"[INPUT]", txt!"r", txt!"[OUTPUT]", txt!"g", txt!"[SYS_TRANS]", txt!"| ! g' r'",
      txt!"[ENV_LIVENESS]", txt!"r", txt!"[SYS_LIVENESS]", txt!"g"] := by decide
    rw [this]
    refine .header .input (by decide) (.item (by decide) (by decide) (by decide) ?_)
    refine .header .output (by decide) (.item (by decide) (by decide) (by decide) ?_)
    refine .header .sysTrans (by decide) (.item (by decide) (by decide) (by decide) ?_)
    refine .header .envLiveness (by decide) (.item (by decide) (by decide) (by decide) ?_)
    exact .header .sysLiveness (by decide) (.item (by decide) (by decide) (by decide) .nil)
  · exact ⟨rfl, rfl, fun _ h => h, fun _ h => h, fun _ h => h, fun _ h => h, fun _ h => List.mem_cons.mpr (.inl (List.mem_singleton.mp h))⟩
  · exact fun _ h => h

/-- The hypotheses of `C28_positions` hold: dropping one of two guarantees. -/
example : Game.Relaxes (I := Bool) (O := Bool)
    { initEnv := fun _ => True, initSys := fun _ => True, safetyEnv := fun _ _ => True, safetySys := fun s t => s.2 = true → t.1 = t.2,
      assumptions := [fun s _ => s.1 = true], guarantees := [fun s _ => s.2 = true, fun s _ => s.2 = false] }
    { initEnv := fun _ => True, initSys := fun _ => True, safetyEnv := fun s i => s.1 = i, safetySys := fun s t => s.2 = true → t.1 = true → t.1 = t.2,
      assumptions := [fun s _ => s.1 = true ∧ s.2 = true], guarantees := [fun s _ => s.2 = true] } where
  safetyEnv _ _ _ := trivial
  safetySys _ _ h h1 _ := h h1
  assumptions a ha := by
    simp only [List.mem_singleton] at ha; subst ha
    exact ⟨_, List.mem_singleton.mpr rfl, fun _ _ h => h.1⟩
  guarantees b hb := by
    simp only [List.mem_singleton] at hb; subst hb
    exact ⟨_, List.mem_cons_self, fun _ _ h => h⟩

end Slugs.Props
