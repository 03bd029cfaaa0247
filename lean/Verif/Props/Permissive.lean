import Verif.Lemmas.Permissive
import Verif.Props.Explicit
import Verif.Props.Counterstrategy

/-!
# C79: what the permissive strategy allows

The comment in `extensionPermissiveExplicitStrategy.hpp:10-12` says that the computed strategy "is also maximal when no liveness assumptions and
guarantees are given".  C14 says that all that is listed is right; here it is shown that what can be listed is listed.
-/

namespace Slugs.Props

open Slugs.Spec Slugs.Model

variable {B : Type} [DecidableEq B] [L : BddLib B] {alg : Algorithm}

/-- What is listed by a permissive strategy, in terms of the guarantees with the trivial one added if there is none. -/
theorem runExplicit_full {robotics recovery : Bool} {cap : Nat} {order : List Char → Bool} {fuel : Nat} {text : List Char}
    {sts : List PState} (h : runExplicit B alg robotics true recovery cap order fuel text = .strategy sts) {sp : SpecFile}
    (hd : Denotes text sp) {st : PState} (hst : st ∈ sts) {t : Pos sp.In sp.Out} (he : sp.game.safetyEnv (st.pos sp) t.1)
    (hs : sp.game.safetySys (st.pos sp) t) (hw : sp.game.SysWins t) :
    st.rank < max 1 sp.game.guarantees.length ∧
    ((∀ G, (padLive sp.game.guarantees)[st.rank]? = some G → G (st.pos sp) t) → ∃ st', Edge sts st st' ∧ st'.pos sp = t) := by
  cases hi : initContext (B := B) cap order text with
  | err e => rw [runExplicit, hi] at h; cases h
  | ub => rw [runExplicit, hi] at h; cases h
  | stuck => rw [runExplicit, hi] at h; cases h
  | ok r =>
    obtain ⟨tab, c⟩ := r
    obtain ⟨ds, F, hn, rfl, hd', _, _, _, hc⟩ := initContext_spec hi
    have := Denotes.det hd hd'
    subst this
    have hlen : (padGame (specOf ds F).game).guarantees.length = max 1 (specOf ds F).game.guarantees.length := by
      simp only [padGame]
      cases (specOf ds F).game.guarantees <;> simp [padLive]
    have hg := padGame_guarantees (specOf ds F).game
    generalize hbig : (fuel + Nat.card (Pos (specOf ds F).In (specOf ds F).Out) * max 1 (specOf ds F).game.guarantees.length).succ = N
    have hmore := runExplicit_more (n' := N) (by omega) h
    have hfuel : Nat.card (Pos (specOf ds F).In (specOf ds F).Out) * max 1 (specOf ds F).game.guarantees.length < N := by omega
    have hcard : Nat.card (Pos (specOf ds F).In (specOf ds F).Out) < N := lt_of_le_of_lt (Nat.le_mul_of_pos_right _ (by omega)) hfuel
    obtain ⟨v, dump, hb, hv1, hv2, hfam, hZ, hsolve⟩ := checked_full (B := B) alg ds F hn robotics N hcard
    rw [← hc] at hb
    rw [runExplicit, hi] at hmore
    simp only at hmore
    rw [hb] at hmore
    have hv : v = .realizable := by
      cases v with
      | realizable => rfl
      | unrealizable => simp only at hmore; cases hmore
      | internalError => simp only at hmore; cases hmore
    rw [hv] at hmore
    simp only at hmore
    obtain ⟨ks, sts', h1, h2⟩ := extractStrategy_spec (padGame (specOf ds F).game) hg (semVars_ok hn) true recovery hfam N
      (by rw [hlen]; exact hfuel)
    have e := extractStrategy_hom ((tableLayout ds hn).hom B) (gameCtx (padGame (specOf ds F).game)) (semVars ds) true recovery N
      (pre (nuZ (padGame (specOf ds F).game))) dump
    have e' : extractStrategy (bddMgr B (tableOf ds).types) c (tableVars B (tableOf ds)) true recovery N
        ((tableLayout ds hn).enc B (pre (nuZ (padGame (specOf ds F).game)))) (Dump.map ((tableLayout ds hn).enc B) dump) =
        some sts' := by
      rw [hc, tableVars_eq B hn]
      exact e.trans h1
    rw [e'] at hmore
    cases hmore
    have hrank := (follows_of_extracted F hn true recovery hfam h2).rank st hst
    refine ⟨hlen ▸ hrank, fun hG => ?_⟩
    have hrich := solve_rich alg (padGame_assumptions _) hcard hsolve
    have hget := List.getElem?_eq_getElem hrank
    exact extracted_full F hn h2 hst (rich_perm hrich hget hs (hG _ hget) ((hZ t).mpr hw)) he

/-- **C79.** From a state of a printed permissive strategy that pursues the liveness guarantee with number `st.rank`, every step that obeys the safety
assumptions and guarantees, fulfils this liveness guarantee and leads to a position from which the system wins is listed. -/
theorem C79_goal_steps_listed {robotics recovery : Bool} {cap : Nat} {order : List Char → Bool} {fuel : Nat} {text : List Char}
    {sts : List PState} (h : runExplicit B alg robotics true recovery cap order fuel text = .strategy sts) {sp : SpecFile}
    (hd : Denotes text sp) {st : PState} (hst : st ∈ sts) {t : Pos sp.In sp.Out} (he : sp.game.safetyEnv (st.pos sp) t.1)
    (hs : sp.game.safetySys (st.pos sp) t) (hw : sp.game.SysWins t) {G : Pos sp.In sp.Out → Pos sp.In sp.Out → Prop}
    (hG : sp.game.guarantees[st.rank]? = some G) (hgoal : G (st.pos sp) t) : ∃ st', Edge sts st st' ∧ st'.pos sp = t := by
  refine (runExplicit_full h hd hst he hs hw).2 fun G' hG' => ?_
  cases hl : sp.game.guarantees with
  | nil => rw [hl] at hG; simp at hG
  | cons a l =>
    rw [hl] at hG hG'
    rw [padLive, hG] at hG'
    cases hG'
    exact hgoal

/-- **C79**, maximality.  If there is no liveness guarantee, the steps that a printed permissive strategy lists (without recovery) are exactly those
that obey the safety assumptions and guarantees and lead to a position from which the system wins. -/
theorem C79_maximal {robotics : Bool} {cap : Nat} {order : List Char → Bool} {fuel : Nat} {text : List Char}
    {sts : List PState} (h : runExplicit B alg robotics true false cap order fuel text = .strategy sts) {sp : SpecFile}
    (hd : Denotes text sp) (hno : sp.sysLiveness = []) {st : PState} (hst : st ∈ sts) (t : Pos sp.In sp.Out) :
    (∃ st', Edge sts st st' ∧ st'.pos sp = t) ↔
      sp.game.safetyEnv (st.pos sp) t.1 ∧ sp.game.safetySys (st.pos sp) t ∧ sp.game.SysWins t := by
  constructor
  · rintro ⟨st', he, rfl⟩
    obtain ⟨_, hp⟩ := runExplicit_printed h hd
    exact ⟨hp.strict rfl _ _ he, hp.safe _ _ he, hp.win _ he.2.1⟩
  · rintro ⟨h1, h2, h3⟩
    obtain ⟨hr, hf⟩ := runExplicit_full h hd hst h1 h2 h3
    have hg : sp.game.guarantees = [] := by simp [SpecFile.game, hno]
    refine hf fun G hG => ?_
    rw [hg] at hG hr
    have h0 : st.rank = 0 := by simpa using hr
    rw [h0, padLive] at hG
    cases hG
    trivial

/-- Wherever a winning strategy can lead, the system still wins, if only safety matters. -/
theorem sysWins_along {I O : Type} {g : Game I O} (hno : g.guarantees = []) {σ : SysStrategy I O} {s cur : Pos I O} {h : History I O}
    (hw : g.SysWinning σ s) (hh : g.SysHist σ s (cur :: h)) : g.SysWins cur := by
  have key : ∀ H, g.SysHist (fun H i => σ (H ++ h) i) cur H → g.SysHist σ s (H ++ h) := by
    intro H hH
    induction hH with
    | start => exact hh
    | step _ he ih => exact .step ih he
  refine ⟨fun H i => σ (H ++ h) i, fun c H i hH he => hw.1 c (H ++ h) i (key _ hH) he, fun p _ _ b hb => ?_⟩
  rw [hno] at hb
  cases hb

/-- **C79**, no strategy does more.  If there is no liveness guarantee, whatever strategy `σ` is winning from whatever position, each of its plays in
which the safety assumptions are obeyed is a run through the listing. -/
theorem C79_every_winning_strategy_included {robotics : Bool} {cap : Nat} {order : List Char → Bool} {fuel : Nat} {text : List Char}
    {sts : List PState} (h : runExplicit B alg robotics true false cap order fuel text = .strategy sts) {sp : SpecFile}
    (hd : Denotes text sp) (hno : sp.sysLiveness = []) {σ : SysStrategy sp.In sp.Out} {s : Pos sp.In sp.Out} (hσ : sp.game.SysWinning σ s)
    {p : Nat → Pos sp.In sp.Out} (hp : ∀ n, sp.game.SysHist σ s (prefixHist p n)) :
    ∃ r : Nat → PState, (∀ n, Edge sts (r n) (r (n + 1))) ∧ ∀ n, (r n).pos sp = p n := by
  classical
  have hg : sp.game.guarantees = [] := by simp [SpecFile.game, hno]
  have hpre : ∀ n, ∃ l, prefixHist p n = p n :: l := fun n => by cases n <;> exact ⟨_, rfl⟩
  have hwin : ∀ n, sp.game.SysWins (p n) := fun n => by
    obtain ⟨l, hl⟩ := hpre n
    have := hp n
    rw [hl] at this
    exact sysWins_along hg hσ this
  have hsafe : ∀ n, sp.game.safetyEnv (p n) (p (n + 1)).1 ∧ sp.game.safetySys (p n) (p (n + 1)) := fun n => by
    obtain ⟨l, hl⟩ := hpre n
    have h1 := hp n
    have h2 := hp (n + 1)
    rw [prefixHist, hl] at h2
    rw [hl] at h1
    generalize hq : p (n + 1) = q at h2
    cases h2 with
    | step _ he => exact ⟨he, hσ.1 _ _ _ h1 he⟩
  have hnext : ∀ n (x : {st : PState // st ∈ sts ∧ st.pos sp = p n}), ∃ y : PState, Edge sts x.1 y ∧ y.pos sp = p (n + 1) := by
    rintro n ⟨st, h1, h2⟩
    exact (C79_maximal h hd hno h1 _).mpr ⟨h2 ▸ (hsafe n).1, h2 ▸ (hsafe n).2, hwin (n + 1)⟩
  obtain ⟨st0, h0, _, h0'⟩ := ((C14_permissive h hd).2.2.2 (p 0)).mp (hwin 0)
  let r : ∀ n, {st : PState // st ∈ sts ∧ st.pos sp = p n} := fun n => Nat.rec ⟨st0, h0, h0'⟩
    (fun n x => ⟨(hnext n x).choose, (hnext n x).choose_spec.1.2.1, (hnext n x).choose_spec.2⟩) n
  exact ⟨fun n => (r n).1, fun n => (hnext n (r n)).choose_spec.1, fun n => (r n).2.2⟩

/-! ### Concrete files -/

/-- The system may not grant twice in a row; nothing has to happen infinitely often. -/
def maximalText : List Char := txt!"[INPUT]\nr\n[OUTPUT]\ng\n[SYS_TRANS]\n! & g g'\n"

def limited : SpecFile where
  inputs := [txt!"r"]
  outputs := [txt!"g"]
  envInit := []
  sysInit := []
  envTrans := []
  sysTrans := [.not (.bin .and (.var txt!"g") (.var txt!"g'"))]
  envLiveness := []
  sysLiveness := []

theorem limited_denotes : Denotes maximalText limited := by
  refine ⟨[(.input, txt!"r"), (.output, txt!"g"), (.sysTrans, txt!"! & g g'")], ?_, by decide, by decide, ?_, ?_, ?_, ?_, ?_, ?_⟩
  · have : splitLines maximalText = [txt!"[INPUT]", txt!"r", txt!"[OUTPUT]", txt!"g", txt!"[SYS_TRANS]", txt!"! & g g'"] := by decide
    rw [this]
    refine .header .input (by decide) (.item (by decide) (by decide) (by decide) ?_)
    refine .header .output (by decide) (.item (by decide) (by decide) (by decide) ?_)
    exact .header .sysTrans (by decide) (.item (by decide) (by decide) (by decide) .nil)
  all_goals
    simp only [limited, itemsOf]
  · exact .nil
  · exact .nil
  · exact .nil
  · exact .cons (reads_text (.not (.bin .and (.var txt!"g") (.var txt!"g'"))) (by simp [Fml.Wf]) (by decide) (by decide)) .nil
  · exact .nil
  · exact .nil

theorem maximalText_run : runExplicit ROBDD .standard false true false 1000 (fun _ => true) 20 maximalText = .strategy
    [{ num := 0, rank := 0, label := [(['r'], false), (['g'], false)], succ := [0, 1, 2, 3] },
     { num := 1, rank := 0, label := [(['r'], false), (['g'], true)], succ := [0, 2] },
     { num := 2, rank := 0, label := [(['r'], true), (['g'], false)], succ := [0, 1, 2, 3] },
     { num := 3, rank := 0, label := [(['r'], true), (['g'], true)], succ := [0, 2] }] := by rfl

/-- The hypotheses of `C79_maximal` hold. -/
example : ∃ sts, runExplicit ROBDD .standard false true false 1000 (fun _ => true) 20 maximalText = .strategy sts ∧
    Denotes maximalText limited ∧ limited.sysLiveness = [] ∧ sts.length = 4 := ⟨_, maximalText_run, limited_denotes, rfl, rfl⟩

/-- The strategy that never grants is winning, as `C79_every_winning_strategy_included` asks for; there are infinite plays. -/
example : ∃ (σ : SysStrategy limited.In limited.Out) (s : Pos limited.In limited.Out) (p : Nat → Pos limited.In limited.Out),
    limited.game.SysWinning σ s ∧ ∀ n, limited.game.SysHist σ s (prefixHist p n) := by
  refine ⟨fun _ _ _ => false, (fun _ => true, fun _ => false), fun _ => (fun _ => true, fun _ => false), ⟨fun cur h i hh _ => ?_, ?_⟩, fun n => ?_⟩
  · intro φ hφ
    simp only [limited, List.mem_singleton] at hφ
    subst hφ
    show limited.holds _ _ _
    rw [SpecFile.holds]
    simp [Fml.eval, SpecFile.look, SpecFile.now, limited, BinOp.apply]
  · exact fun p _ _ b hb => absurd hb (List.not_mem_nil (a := b))
  · have key : ∀ n, limited.game.SysHist (fun _ _ _ => false) (fun _ => true, fun _ => false)
        (prefixHist (fun _ => ((fun _ => true, fun _ => false) : Pos limited.In limited.Out)) n) := by
      intro n
      induction n with
      | zero => exact .start
      | succ n ih =>
        rw [prefixHist]
        cases n <;> exact .step ih fun φ hφ => absurd hφ (List.not_mem_nil (a := φ))
    exact key n

/-- The hypotheses of `C79_goal_steps_listed` hold: with two goals, both ranks occur. -/
example : ∃ sts sp, runExplicit ROBDD .standard false true false 1000 (fun _ => true) 20 strategyText = .strategy sts ∧
    Denotes strategyText sp ∧ ∃ st ∈ sts, ∃ st' ∈ sts, st.rank = 0 ∧ st'.rank = 1 := by
  obtain ⟨sp, h⟩ := runExplicit_denotes strategyText_run
  exact ⟨_, sp, rfl, h, by decide +kernel⟩

/-- With a goal. -/
def pulseText : List Char := txt!"[OUTPUT]\ng\n[SYS_LIVENESS]\ng"

def pulse : SpecFile where
  inputs := []
  outputs := [txt!"g"]
  envInit := []
  sysInit := []
  envTrans := []
  sysTrans := []
  envLiveness := []
  sysLiveness := [.var txt!"g"]

theorem pulse_denotes : Denotes pulseText pulse := by
  refine ⟨[(.output, txt!"g"), (.sysLiveness, txt!"g")], ?_, by decide, by decide, ?_, ?_, ?_, ?_, ?_, ?_⟩
  · have : splitLines pulseText = [txt!"[OUTPUT]", txt!"g", txt!"[SYS_LIVENESS]", txt!"g"] := by decide
    rw [this]
    refine .header .output (by decide) (.item (by decide) (by decide) (by decide) ?_)
    exact .header .sysLiveness (by decide) (.item (by decide) (by decide) (by decide) .nil)
  all_goals
    simp only [pulse, itemsOf]
  · exact .nil
  · exact .nil
  · exact .nil
  · exact .nil
  · exact .nil
  · exact .cons (reads_text (.var txt!"g") (by simp [Fml.Wf]) (by decide) (by decide)) .nil

theorem pulseText_run : runExplicit ROBDD .standard false true false 1000 (fun _ => true) 20 pulseText = .strategy
    [{ num := 0, rank := 0, label := [(['g'], false)], succ := [1] },
     { num := 1, rank := 0, label := [(['g'], true)], succ := [0, 1] }] := by rfl

/-- The condition of `C79_maximal` is needed: with the goal `g`, staying at `¬ g` for one step is safe and loses nothing, but is not listed. -/
theorem C79_not_maximal_with_goals : ∃ (sts : List PState) (st : PState) (t : Pos pulse.In pulse.Out),
    runExplicit ROBDD .standard false true false 1000 (fun _ => true) 20 pulseText = .strategy sts ∧ Denotes pulseText pulse ∧ st ∈ sts ∧
    pulse.game.safetyEnv (st.pos pulse) t.1 ∧ pulse.game.safetySys (st.pos pulse) t ∧ pulse.game.SysWins t ∧
    ¬ ∃ st', Edge sts st st' ∧ st'.pos pulse = t := by
  refine ⟨_, _, (fun _ => false, fun _ => false), pulseText_run, pulse_denotes, List.mem_cons_self,
    fun φ hφ => absurd hφ (List.not_mem_nil (a := φ)), fun φ hφ => absurd hφ (List.not_mem_nil (a := φ)), ?_, ?_⟩
  · refine ((C14_permissive pulseText_run pulse_denotes).2.2.2 _).mpr ⟨_, List.mem_cons_self, rfl, ?_⟩
    refine Prod.ext (funext fun x => absurd x.2 (List.not_mem_nil (a := x.1))) (funext fun x => ?_)
    obtain ⟨x, hx⟩ := x
    simp only [pulse, List.mem_singleton] at hx
    subst hx
    rfl
  · rintro ⟨st', ⟨_, hm, hn⟩, hp⟩
    simp only [List.mem_cons, List.not_mem_nil, or_false] at hm
    rcases hm with rfl | rfl
    · simp at hn
    · have := congrFun (congrArg Prod.snd hp) ⟨txt!"g", by simp [pulse]⟩
      revert this
      decide

end Slugs.Props
