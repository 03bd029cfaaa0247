import Verif.Lemmas.EstimatorText
import Verif.Lemmas.StructuredLines
import Verif.Props.Counterstrategy

/-!
# C63: estimators for incomplete information

`runEstimator` is the model of a complete run with `--computeIncompleteInformationEstimator`.  `Spec/Estimator.lean` says what the input text denotes and
what an estimator is.
-/

namespace Slugs.Props

open Slugs.Spec Slugs.Model

variable {B : Type} [DecidableEq B] [L : BddLib B] [BddTop B]

/-! ### The computation on an accepted file -/

/-- What a report says. -/
structure EstimatorSays (sp : SpecFile) (unobs ctrl : List Word) (r : EstimatorReport) (φ ψ : Fml) : Prop where
  out : r.out = estimatorHeader ++ txt!"[SYS_TRANS]\n" ++ φ.text ++ txt!"\n[ENV_TRANS]\n" ++ ψ.text ++ txt!"\n"
  buf1 : ∃ fs, φ = .buffer fs
  buf2 : ∃ fs, ψ = .buffer fs
  wf1 : φ.Wf 0
  wf2 : ψ.Wf 0
  vars1 : ∀ x ∈ φ.vars, ∃ y, (x = y ∨ x = prime y) ∧ (y ∈ sp.inputs ∧ y ∉ unobs ∨ y ∈ sp.outputs)
  vars2 : ∀ x ∈ ψ.vars, (x ∈ sp.inputs ∧ x ∉ unobs ∨ x ∈ sp.outputs) ∨ ∃ y ∈ sp.inputs, y ∉ unobs ∧ y ∉ ctrl ∧ x = prime y
  holds1 : ∀ p q, sp.holds p q φ ↔ sp.Estimates unobs p q
  holds2 : ∀ p q, sp.holds p q ψ ↔ sp.Observable unobs ctrl p q
  noInitial : r.noInitial = true ↔ ∀ p, ¬ sp.Possible p
  envDeadEnds : r.envDeadEnds = true ↔ ∃ p, sp.EnvStuck unobs ctrl p
  sysDeadEnds : r.sysDeadEnds = true ↔ ∃ p i, sp.EstimatorStuck unobs ctrl p i

theorem enc_ne_ff {ds : Decls} (hn : (tableOf ds).names.Nodup) (f : T ({x // x ∈ inputsOf ds} → Bool) ({x // x ∈ outputsOf ds} → Bool)) :
    (tableLayout ds hn).enc B f = L.ff ↔ ∀ p q, ¬ f p q := by
  have hff : (tableLayout ds hn).enc B (fun _ _ => False) = L.ff := ((tableLayout ds hn).hom B).ff.symm
  rw [← hff]
  constructor
  · intro h p q hf
    have := (tableLayout ds hn).enc_inj B h
    rw [this] at hf
    exact hf
  · intro h
    congr 1
    funext p q
    exact propext ⟨fun hf => h p q hf, False.elim⟩

theorem estimator_core {ds : Decls} {F : Section → List Fml} {unobs ctrl : List Word} (hn : (tableOf ds).names.Nodup)
    (cap : Nat) (order : List Char → Bool) {text : List Char} {c : Ctx B}
    (hi : eInit cap order text = .ok (eTable ds (inSet unobs) (inSet ctrl), c))
    (hc : { c with
        livenessAssumptions := if c.livenessAssumptions = [] then [L.tt] else c.livenessAssumptions
        livenessGuarantees := if c.livenessGuarantees = [] then [L.tt] else c.livenessGuarantees } =
        (gameCtx (padGame (specOf ds F).game)).map ((tableLayout ds hn).enc B)) {fuel : Nat}
    (hf : Fintype.card (DPos ds) < fuel) (hf' : (tableOf ds).names.length < fuel) :
    ∃ r φ ψ, runEstimator B cap order fuel text = .report r ∧ EstimatorSays (specOf ds F) unobs ctrl r φ ψ := by
  have e1 : c.initEnv = (tableLayout ds hn).enc B fun p _ => (specOf ds F).game.initEnv p.1 := congrArg Ctx.initEnv hc
  have e2 : c.initSys = (tableLayout ds hn).enc B fun p _ => (specOf ds F).game.initSys p := congrArg Ctx.initSys hc
  have e3 : c.safetyEnv = (tableLayout ds hn).enc B fun p q => (specOf ds F).game.safetyEnv p q.1 := congrArg Ctx.safetyEnv hc
  have e4 : c.safetySys = (tableLayout ds hn).enc B (specOf ds F).game.safetySys := congrArg Ctx.safetySys hc
  have hb := estimatorBdds_ok B hn (F := F) (unobs := unobs) (ctrl := ctrl) e1 e2 e3 e4 hf
  obtain ⟨fs, t1, w1, v1, s1⟩ := printFormula_enc B hn (F := F) ((specOf ds F).Estimates unobs) hf'
  obtain ⟨gs, t2, w2, v2, s2⟩ := printFormula_enc B hn (F := F) ((specOf ds F).Observable unobs ctrl) hf'
  have run : runEstimator B cap order fuel text = .report
      ⟨estimatorHeader ++ txt!"[SYS_TRANS]\n" ++ (Fml.buffer fs).text ++ txt!"\n[ENV_TRANS]\n" ++ (Fml.buffer gs).text ++ txt!"\n",
        decide (((tableLayout ds hn).enc B fun p _ => (specOf ds F).Possible p) = L.ff),
        decide (((tableLayout ds hn).enc B fun p _ => (specOf ds F).EnvStuck unobs ctrl p) ≠ L.ff),
        decide (((tableLayout ds hn).enc B fun p q => (specOf ds F).EstimatorStuck unobs ctrl p q.1) ≠ L.ff)⟩ := by
    rw [runEstimator, hi]
    dsimp only
    rw [hb]
    dsimp only
    rw [show (eTable ds (inSet unobs) (inSet ctrl)).names = (tableOf ds).names from rfl]
    rw [t1, t2]
  refine ⟨_, .buffer fs, .buffer gs, run, rfl, ⟨_, rfl⟩, ⟨_, rfl⟩, w1, w2, ?_, ?_, s1, s2, ?_, ?_, ?_⟩
  · intro x hx
    obtain ⟨z, rfl, u, u', hu, hp, hq⟩ := v1 x hx
    have key : ∀ y : {x // x ∈ inputsOf ds}, (z = .ci y ∨ z = .ni y) → y.1 ∉ unobs := by
      intro y hy hmem
      refine hq (SpecFile.Estimates.congr (sp := specOf ds F) ⟨?_, ?_⟩ ⟨?_, ?_⟩ hp)
      · funext y'; exact (hu (.co y') (by rintro rfl; rcases hy with h | h <;> cases h)).symm
      · intro y' hy'; exact (hu (.ci y') (by rintro rfl; rcases hy with h | h <;> cases h; exact hy' hmem)).symm
      · funext y'; exact (hu (.no y') (by rintro rfl; rcases hy with h | h <;> cases h)).symm
      · intro y' hy'; exact (hu (.ni y') (by rintro rfl; rcases hy with h | h <;> cases h; exact hy' hmem)).symm
    rcases z with y | y | y | y
    · exact ⟨y.1, .inl rfl, .inl ⟨y.2, key y (.inl rfl)⟩⟩
    · exact ⟨y.1, .inl rfl, .inr y.2⟩
    · exact ⟨y.1, .inr rfl, .inl ⟨y.2, key y (.inr rfl)⟩⟩
    · exact ⟨y.1, .inr rfl, .inr y.2⟩
  · intro x hx
    obtain ⟨z, rfl, u, u', hu, hp, hq⟩ := v2 x hx
    rcases z with y | y | y | y
    · refine .inl (.inl ⟨y.2, fun hmem => hq (SpecFile.Observable.congr (sp := specOf ds F) ⟨?_, ?_⟩ ?_ hp)⟩)
      · funext y'; exact (hu (.co y') (by rintro ⟨⟩)).symm
      · intro y' hy'; exact (hu (.ci y') (by rintro ⟨⟩; exact hy' hmem)).symm
      · intro y' _ _; exact (hu (.ni y') (by rintro ⟨⟩)).symm
    · exact .inl (.inr y.2)
    · refine .inr ⟨y.1, y.2, fun hmem => hq (SpecFile.Observable.congr (sp := specOf ds F) ⟨?_, ?_⟩ ?_ hp),
        fun hmem => hq (SpecFile.Observable.congr (sp := specOf ds F) ⟨?_, ?_⟩ ?_ hp), rfl⟩
      · funext y'; exact (hu (.co y') (by rintro ⟨⟩)).symm
      · intro y' hy'; exact (hu (.ci y') (by rintro ⟨⟩)).symm
      · intro y' hy' _; exact (hu (.ni y') (by rintro ⟨⟩; exact hy' hmem)).symm
      · funext y'; exact (hu (.co y') (by rintro ⟨⟩)).symm
      · intro y' hy'; exact (hu (.ci y') (by rintro ⟨⟩)).symm
      · intro y' _ hy'; exact (hu (.ni y') (by rintro ⟨⟩; exact hy' hmem)).symm
    · refine absurd (SpecFile.Observable.congr (sp := specOf ds F) ⟨?_, ?_⟩ ?_ hp) hq
      · funext y'; exact (hu (.co y') (by rintro ⟨⟩)).symm
      · intro y' _; exact (hu (.ci y') (by rintro ⟨⟩)).symm
      · intro y' _ _; exact (hu (.ni y') (by rintro ⟨⟩)).symm
  · rw [decide_eq_true_eq, enc_ne_ff]
    exact ⟨fun h p => h p p, fun h p _ => h p⟩
  · rw [decide_eq_true_eq, ne_eq, enc_ne_ff]
    constructor
    · intro h
      by_contra hno
      exact h fun p _ hp => hno ⟨p, hp⟩
    · rintro ⟨p, hp⟩ h
      exact h p p hp
  · rw [decide_eq_true_eq, ne_eq, enc_ne_ff]
    constructor
    · intro h
      by_contra hno
      exact h fun p q hp => hno ⟨p, q.1, hp⟩
    · rintro ⟨p, i, hp⟩ h
      exact h p (i, p.2) hp

/-- Every report is that of the file. -/
theorem estimator_says {cap : Nat} {order : List Char → Bool} {fuel : Nat} {text : List Char} {r : EstimatorReport}
    (h : runEstimator B cap order fuel text = .report r) {sp : SpecFile} {unobs ctrl : List Word} (hd : EDenotes text sp unobs ctrl) :
    ∃ φ ψ, EstimatorSays sp unobs ctrl r φ ψ := by
  cases hi : eInit (B := B) cap order text with
  | err e => rw [runEstimator, hi] at h; cases h
  | ub => rw [runEstimator, hi] at h; cases h
  | stuck => rw [runEstimator, hi] at h; cases h
  | ok tc =>
    obtain ⟨tab, c⟩ := tc
    obtain ⟨ds, F, unobs', ctrl', hn, rfl, hd', -, hc⟩ := eInit_ok hi
    obtain ⟨rfl, rfl, rfl⟩ := EDenotes.det hd hd'
    have hm := runEstimator_more B (k := Fintype.card (DPos ds) + (tableOf ds).names.length + 1) h
    obtain ⟨r', φ, ψ, h1, h2⟩ := estimator_core hn cap order hi hc
      (fuel := fuel + (Fintype.card (DPos ds) + (tableOf ds).names.length + 1)) (by omega) (by omega)
    rw [hm] at h1
    cases h1
    exact ⟨φ, ψ, h2⟩

/-- The declared names can be used in formulas. -/
def NamesUsable (sp : SpecFile) : Prop := ∀ x ∈ sp.inputs ++ sp.outputs, (x ≠ [] ∧ ∀ c ∈ x, isSpace c = false) ∧ x ∉ reserved

theorem prime_usable {x : Word} (h : (x ≠ [] ∧ ∀ c ∈ x, isSpace c = false) ∧ x ∉ reserved) :
    (prime x ≠ [] ∧ ∀ c ∈ prime x, isSpace c = false) ∧ prime x ∉ reserved := by
  refine ⟨⟨by simp [prime], fun c hc => ?_⟩, fun hm => ?_⟩
  · simp only [prime, List.mem_append, List.mem_singleton] at hc
    rcases hc with hc | rfl
    · exact h.1.2 c hc
    · decide
  · have hl : ∀ w ∈ reserved, w.getLast? ≠ some '\'' := by decide
    exact hl _ hm (by simp [prime])

theorem joinWords_clean : ∀ ws : List Word, (∀ w ∈ ws, w ≠ [] ∧ ∀ c ∈ w, isSpace c = false) →
    (∀ c, (joinWords ws).getLast? = some c → isSpace c = false) ∧ '\n' ∉ joinWords ws
  | [], _ => ⟨by simp [joinWords], by simp [joinWords]⟩
  | [w], h => ⟨fun c hc => (h w (by simp)).2 c (List.mem_of_getLast? hc), fun hc => absurd ((h w (by simp)).2 _ hc) (by decide)⟩
  | w :: w' :: ws, h => by
    obtain ⟨i1, i2⟩ := joinWords_clean (w' :: ws) (fun x hx => h x (List.mem_cons_of_mem _ hx))
    have hne : joinWords (w' :: ws) ≠ [] := by
      have := (h w' (by simp)).1
      cases ws <;> simp [joinWords, this]
    rw [joinWords.eq_def]
    dsimp only
    constructor
    · intro c hc
      rw [List.getLast?_append_of_ne_nil _ (by simp), List.getLast?_cons_of_ne_nil hne] at hc
      exact i1 c hc
    · intro hc
      rw [List.mem_append, List.mem_cons] at hc
      rcases hc with hc | hc | hc
      · exact absurd ((h w (by simp)).2 _ hc) (by decide)
      · cases hc
      · exact i2 hc

set_option maxRecDepth 10000 in
/-- C63: the printed text is a piece of a specification file with one safety guarantee and one safety assumption.  The guarantee says exactly which estimates
are optimal; it is about observable inputs and estimates only.  The assumption says exactly what can be observed. -/
theorem C63_printed_estimator {cap : Nat} {order : List Char → Bool} {fuel : Nat} {text : List Char} {r : EstimatorReport}
    (h : runEstimator B cap order fuel text = .report r) {sp : SpecFile} {unobs ctrl : List Word} (hd : EDenotes text sp unobs ctrl)
    (hnames : NamesUsable sp) (hlen : r.out.length < 2 ^ 32) :
    ∃ t1 t2 φ ψ, Content none (splitLines r.out) [(.sysTrans, t1), (.envTrans, t2)] ∧ ReadsLine t1 φ ∧ ReadsLine t2 ψ ∧
      (∀ p q, sp.holds p q φ ↔ sp.Estimates unobs p q) ∧ (∀ p q, sp.holds p q ψ ↔ sp.Observable unobs ctrl p q) ∧
      (∀ x ∈ φ.vars, ∃ y, (x = y ∨ x = prime y) ∧ (y ∈ sp.inputs ∧ y ∉ unobs ∨ y ∈ sp.outputs)) ∧
      (∀ x ∈ ψ.vars, (x ∈ sp.inputs ∧ x ∉ unobs ∨ x ∈ sp.outputs) ∨ ∃ y ∈ sp.inputs, y ∉ unobs ∧ y ∉ ctrl ∧ x = prime y) := by
  obtain ⟨φ, ψ, S⟩ := estimator_says h hd
  have u1 : ∀ x ∈ φ.vars, (x ≠ [] ∧ ∀ c ∈ x, isSpace c = false) ∧ x ∉ reserved := by
    intro x hx
    obtain ⟨y, hxy, hy⟩ := S.vars1 x hx
    have hu := hnames y (by rcases hy with hy | hy <;> simp [hy])
    rcases hxy with rfl | rfl
    · exact hu
    · exact prime_usable hu
  have u2 : ∀ x ∈ ψ.vars, (x ≠ [] ∧ ∀ c ∈ x, isSpace c = false) ∧ x ∉ reserved := by
    intro x hx
    rcases S.vars2 x hx with hy | ⟨y, hy, -, -, rfl⟩
    · exact hnames x (by rcases hy with hy | hy <;> simp [hy])
    · exact prime_usable (hnames y (by simp [hy]))
  have len : φ.text.length < 2 ^ 32 ∧ ψ.text.length < 2 ^ 32 := by
    rw [S.out] at hlen
    simp only [List.length_append] at hlen
    exact ⟨by omega, by omega⟩
  have line : ∀ χ : Fml, (∃ fs, χ = .buffer fs) → (∀ x ∈ χ.vars, (x ≠ [] ∧ ∀ c ∈ x, isSpace c = false) ∧ x ∉ reserved) →
      trim χ.text = χ.text ∧ χ.text.head? = some '$' ∧ '\n' ∉ χ.text := by
    rintro χ ⟨fs, rfl⟩ hx
    obtain ⟨i1, i2⟩ := joinWords_clean _ (Fml.words_good (.buffer fs) fun x hx' => (hx x hx').1)
    have hh : (Fml.buffer fs).text.head? = some '$' := rfl
    exact ⟨Structured.trim_self (fun c hc => by rw [hh] at hc; cases hc; decide) i1, hh, i2⟩
  obtain ⟨a1, a2, a3⟩ := line φ S.buf1 u1
  obtain ⟨b1, b2, b3⟩ := line ψ S.buf2 u2
  refine ⟨φ.text, ψ.text, φ, ψ, ?_, reads_text φ S.wf1 u1 len.1, reads_text ψ S.wf2 u2 len.2, S.holds1, S.holds2, S.vars1, S.vars2⟩
  have hout : r.out = Structured.printLines [txt!"#=======================================================",
      txt!"#= Belief Space Abstraction                            =", txt!"#=======================================================",
      txt!"# --- End of the specification for the report", txt!"[SYS_TRANS]", φ.text, txt!"[ENV_TRANS]", ψ.text] := by
    rw [S.out]
    simp only [Structured.printLines, List.flatMap_cons, List.flatMap_nil, List.append_assoc]
    rfl
  rw [hout, Structured.splitLines_printLines _ (by
    intro l hl
    simp only [List.mem_cons, List.not_mem_nil, or_false] at hl
    rcases hl with rfl | rfl | rfl | rfl | rfl | rfl | rfl | rfl <;> first | assumption | decide)]
  refine .skip (by decide) (.skip (by decide) (.skip (by decide) (.skip (by decide) (.header .sysTrans (by decide) ?_))))
  have i1 := Content.item (s := .sysTrans) (l := φ.text) (by rw [a1]; intro e; rw [e] at a2; cases a2) (by rw [a1, a2]; decide) (by rw [a1, a2]; decide)
    (Content.header (l := txt!"[ENV_TRANS]") .envTrans (by decide)
      (Content.item (s := .envTrans) (l := ψ.text) (by rw [b1]; intro e; rw [e] at b2; cases b2) (by rw [b1, b2]; decide) (by rw [b1, b2]; decide) .nil))
  rwa [a1, b1] at i1

/-- C63: the warnings are right. -/
theorem C63_warnings {cap : Nat} {order : List Char → Bool} {fuel : Nat} {text : List Char} {r : EstimatorReport}
    (h : runEstimator B cap order fuel text = .report r) {sp : SpecFile} {unobs ctrl : List Word} (hd : EDenotes text sp unobs ctrl) :
    (r.noInitial = true ↔ ¬ ∃ p, sp.game.initEnv p.1 ∧ sp.game.initSys p) ∧
      (r.envDeadEnds = true ↔ ∃ p, sp.EnvStuck unobs ctrl p) ∧ (r.sysDeadEnds = true ↔ ∃ p i, sp.EstimatorStuck unobs ctrl p i) := by
  obtain ⟨φ, ψ, S⟩ := estimator_says h hd
  refine ⟨S.noInitial.trans ⟨?_, ?_⟩, S.envDeadEnds, S.sysDeadEnds⟩
  · rintro h1 ⟨p, h2, h3⟩
    exact h1 p (.start h2 h3)
  · intro h1 p hp
    induction hp with
    | start h2 h3 => exact h1 ⟨_, h2, h3⟩
    | step _ _ ih => exact ih

/-- C63: proper files are accepted, and the program ends. -/
theorem C63_proper_reports {cap : Nat} (order : List Char → Bool) {text : List Char} (hp : EProperFile cap text) :
    ∃ N r, ∀ fuel, N ≤ fuel → runEstimator B cap order fuel text = .report r := by
  obtain ⟨⟨tab, c⟩, hi⟩ := eInit_complete (B := B) order hp
  obtain ⟨ds, F, unobs, ctrl, hn, rfl, -, -, hc⟩ := eInit_ok hi
  obtain ⟨r, φ, ψ, h1, -⟩ := estimator_core hn cap order hi hc
    (fuel := Fintype.card (DPos ds) + (tableOf ds).names.length + 1) (by omega) (by omega)
  refine ⟨Fintype.card (DPos ds) + (tableOf ds).names.length + 1, r, fun fuel hf => ?_⟩
  obtain ⟨k, rfl⟩ := Nat.exists_eq_add_of_le hf
  exact runEstimator_more B h1

/-- C63: only texts that denote a specification are accepted. -/
theorem C63_reports_denote {cap : Nat} {order : List Char → Bool} {fuel : Nat} {text : List Char} {r : EstimatorReport}
    (h : runEstimator B cap order fuel text = .report r) : ∃ sp unobs ctrl, EDenotes text sp unobs ctrl ∧ ∀ x ∈ unobs, x ∉ ctrl := by
  cases hi : eInit (B := B) cap order text with
  | err e => rw [runEstimator, hi] at h; cases h
  | ub => rw [runEstimator, hi] at h; cases h
  | stuck => rw [runEstimator, hi] at h; cases h
  | ok tc =>
    obtain ⟨tab, c⟩ := tc
    obtain ⟨ds, F, unobs, ctrl, hn, -, hd, hx, -⟩ := eInit_ok hi
    exact ⟨_, _, _, hd, hx⟩

/-! ### What an estimator is good for -/

/-- C63: if the environment obeys its assumptions and the estimates are updated as printed, then all guarantees hold and all printed assumptions hold,
whatever the unobservable inputs do. -/
theorem C63_guarantees_hold {sp : SpecFile} {unobs ctrl : List Word} (p : Nat → Pos sp.In sp.Out)
    (h0 : sp.game.initEnv (p 0).1) (h0' : sp.game.initSys (p 0)) (he : ∀ n, sp.game.safetyEnv (p n) (p (n + 1)).1)
    (hs : ∀ n, sp.Estimates unobs (p n) (p (n + 1))) (n : Nat) :
    sp.game.safetySys (p n) (p (n + 1)) ∧ sp.Observable unobs ctrl (p n) (p (n + 1)) := by
  have hr : ∀ n, sp.Estimated unobs (p n) := by
    intro n
    induction n with
    | zero => exact .start h0 h0'
    | succ n ih => exact .step ih ⟨he n, hs n⟩
  exact ⟨(hs n).1.safe (hr n).possible (he n), p n, (p (n + 1)).1, .refl _, fun _ _ _ => rfl, hr n, he n⟩

/-- C63: the printed update is determined by what can be observed. -/
theorem C63_needs_observations_only {sp : SpecFile} {unobs : List Word} {p p' q q' : Pos sp.In sp.Out}
    (hp : sp.SameObs unobs p p') (hq : sp.SameObs unobs q q') : sp.Estimates unobs p q ↔ sp.Estimates unobs p' q' :=
  ⟨fun h => h.congr hp hq, fun h => h.congr hp.symm hq.symm⟩

/-- C63: every update of the estimates that is determined by what can be observed and keeps the guarantees in all positions that are possible is
among those from which the best ones are printed. -/
theorem C63_most_permissive {sp : SpecFile} {unobs : List Word} (R : Pos sp.In sp.Out → Pos sp.In sp.Out → Prop)
    (hobs : ∀ p q p' q', sp.SameObs unobs p p' → sp.SameObs unobs q q' → R p q → R p' q')
    (hsafe : ∀ p q, sp.Possible p → sp.game.safetyEnv p q.1 → R p q → sp.game.safetySys p q) {p q : Pos sp.In sp.Out} (h : R p q) :
    sp.Sound unobs p q :=
  fun p' q' hp hq h1 h2 => hsafe p' q' h1 h2 (hobs p q p' q' hp hq h)

/-- C63: whenever there is any right update of the estimates, there is an optimal one. -/
theorem C63_optimal_exists {cap : Nat} {order : List Char → Bool} {fuel : Nat} {text : List Char} {r : EstimatorReport}
    (h : runEstimator B cap order fuel text = .report r) {sp : SpecFile} {unobs ctrl : List Word} (hd : EDenotes text sp unobs ctrl)
    (p : Pos sp.In sp.Out) (i : sp.In) (hex : ∃ o, sp.Sound unobs p (i, o)) : ∃ o, sp.Estimates unobs p (i, o) := by
  cases hi : eInit (B := B) cap order text with
  | err e => rw [runEstimator, hi] at h; cases h
  | ub => rw [runEstimator, hi] at h; cases h
  | stuck => rw [runEstimator, hi] at h; cases h
  | ok tc =>
    obtain ⟨tab, c⟩ := tc
    obtain ⟨ds, F, unobs', ctrl', hn, rfl, hd', -, hc⟩ := eInit_ok hi
    obtain ⟨rfl, rfl, rfl⟩ := EDenotes.det hd hd'
    obtain ⟨o, ho⟩ := prefAll_exists (ds := ds) (outputsOf ds).reverse ((specOf ds F).Sound unobs) p i hex
    exact ⟨o, (prefAll_estimates (F := F) (outputs_nodup hn) (fun _ _ => Iff.rfl) p (i, o)).mp ho⟩

/-- C63: the values of the outputs that are bounds are determined.  (This is what the program checks when it is compiled with assertions.) -/
theorem C63_bounds_determined {sp : SpecFile} {unobs : List Word} {p : Pos sp.In sp.Out} {i : sp.In} {o o' : sp.Out}
    (h : sp.Estimates unobs p (i, o)) (h' : sp.Estimates unobs p (i, o')) (x : {x // x ∈ sp.outputs}) (hx : preferred x.1 ≠ none) : o x = o' x := by
  have main : ∀ (r l : List Word), sp.outputs = l ++ r → ∀ y ∈ r, preferred y ≠ none → ∀ hy : y ∈ sp.outputs, o ⟨y, hy⟩ = o' ⟨y, hy⟩ := by
    intro r
    induction r with
    | nil => intro l _ y hy; cases hy
    | cons z r ih =>
      intro l hl y hy hpy hy'
      have hr := ih (l ++ [z]) (by rw [hl]; simp)
      rcases List.mem_cons.mp hy with rfl | hy
      · by_contra hne
        obtain ⟨b, hb⟩ := Option.ne_none_iff_exists'.mp hpy
        by_cases hob : o ⟨y, hy'⟩ = b
        · exact h'.2 o h.1 ⟨l, r, y, b, hl, hb, fun _ => ⟨hob, fun e => hne (hob.trans e.symm)⟩, hr⟩
        · refine h.2 o' h'.1 ⟨l, r, y, b, hl, hb, fun _ => ⟨?_, hob⟩, fun w hw hpw hw' => (hr w hw hpw hw').symm⟩
          revert hne hob
          cases o ⟨y, hy'⟩ <;> cases o' ⟨y, hy'⟩ <;> cases b <;> simp
      · exact hr y hy hpy hy'
  exact main sp.outputs [] rfl x.1 x.2 hx x.2

/-- C63: without a warning about the estimator, there is always an update of the estimates. -/
theorem C63_never_stuck {cap : Nat} {order : List Char → Bool} {fuel : Nat} {text : List Char} {r : EstimatorReport}
    (h : runEstimator B cap order fuel text = .report r) {sp : SpecFile} {unobs ctrl : List Word} (hd : EDenotes text sp unobs ctrl)
    (hw : r.sysDeadEnds = false) {p : Pos sp.In sp.Out} (hp : sp.Estimated unobs p) {i : sp.In} (hi : sp.game.safetyEnv p i) :
    ∃ o, sp.Estimates unobs p (i, o) := by
  by_contra hno
  have := (C63_warnings h hd).2.2.mpr ⟨p, i, hp, ⟨(i, p.2), p, i, .refl _, fun _ _ _ => rfl, hp, hi⟩, fun o ho => hno ⟨o, ho⟩⟩
  rw [hw] at this
  cases this

/-- C63: without a warning about the environment, something can always be observed. -/
theorem C63_environment_never_stuck {cap : Nat} {order : List Char → Bool} {fuel : Nat} {text : List Char} {r : EstimatorReport}
    (h : runEstimator B cap order fuel text = .report r) {sp : SpecFile} {unobs ctrl : List Word} (hd : EDenotes text sp unobs ctrl)
    (hw : r.envDeadEnds = false) {p : Pos sp.In sp.Out} (hp : sp.Estimated unobs p) :
    ∃ q, sp.Observable unobs ctrl p q := by
  by_contra hno
  have := (C63_warnings h hd).2.1.mpr ⟨p, hp, fun q hq => hno ⟨q, hq⟩⟩
  rw [hw] at this
  cases this

/-! ### A file -/

/-- A door can be closed for good; this cannot be observed, only a sensor that never fires when the door is open. The estimate `min_e` is a lower bound. -/
def doorText : List Char := txt!"[OBSERVABLE_INPUT]\ns\n[UNOBSERVABLE_INPUT]\nm\n[OUTPUT]\nmin_e\n[SYS_INIT]\n! min_e\n[ENV_TRANS]\n| ! m m'\n| ! s' m'\n[SYS_TRANS]\n| ! min_e' m'\n"

def door : SpecFile where
  inputs := [txt!"s", txt!"m"]
  outputs := [txt!"min_e"]
  envInit := []
  sysInit := [.not (.var txt!"min_e")]
  envTrans := [.bin .or (.not (.var txt!"m")) (.var txt!"m'"), .bin .or (.not (.var txt!"s'")) (.var txt!"m'")]
  sysTrans := [.bin .or (.not (.var txt!"min_e'")) (.var txt!"m'")]
  envLiveness := []
  sysLiveness := []

def doorReport : EstimatorReport where
  out := estimatorHeader ++ txt!"[SYS_TRANS]\n$ 6 1 0 | & min_e' ? 0 & ! min_e' ? 1 | & min_e' ? 1 & ! min_e' ? 0 | & min_e ? 2 & ! min_e ? 3 | & s' ? 2 & ! s' ? 4\n[ENV_TRANS]\n$ 1 1\n"
  noInitial := false
  envDeadEnds := false
  sysDeadEnds := false

theorem door_run : runEstimator ROBDD 1000 (fun _ => true) 20 doorText = .report doorReport := by decide +kernel

def doorItems : List (ESection × List Char) :=
  [(.observable, txt!"s"), (.unobservable, txt!"m"), (.output, txt!"min_e"), (.sysInit, txt!"! min_e"), (.envTrans, txt!"| ! m m'"),
    (.envTrans, txt!"| ! s' m'"), (.sysTrans, txt!"| ! min_e' m'")]

theorem door_content : EContent none (splitLines doorText) doorItems := by
  have : splitLines doorText = [txt!"[OBSERVABLE_INPUT]", txt!"s", txt!"[UNOBSERVABLE_INPUT]", txt!"m", txt!"[OUTPUT]", txt!"min_e", txt!"[SYS_INIT]",
    txt!"! min_e", txt!"[ENV_TRANS]", txt!"| ! m m'", txt!"| ! s' m'", txt!"[SYS_TRANS]", txt!"| ! min_e' m'"] := by decide
  rw [this]
  refine .header .observable (by decide) (.item (by decide) (by decide) (by decide) ?_)
  refine .header .unobservable (by decide) (.item (by decide) (by decide) (by decide) ?_)
  refine .header .output (by decide) (.item (by decide) (by decide) (by decide) ?_)
  refine .header .sysInit (by decide) (.item (by decide) (by decide) (by decide) ?_)
  refine .header .envTrans (by decide) (.item (by decide) (by decide) (by decide) (.item (by decide) (by decide) (by decide) ?_))
  exact .header .sysTrans (by decide) (.item (by decide) (by decide) (by decide) .nil)

theorem door_reads1 : ReadsLine (txt!"! min_e") (.not (.var txt!"min_e")) :=
  reads_text (.not (.var txt!"min_e")) (by simp [Fml.Wf]) (by decide) (by decide)

theorem door_reads2 : ReadsLine (txt!"| ! m m'") (.bin .or (.not (.var txt!"m")) (.var txt!"m'")) :=
  reads_text (.bin .or (.not (.var txt!"m")) (.var txt!"m'")) (by simp [Fml.Wf]) (by decide) (by decide)

theorem door_reads3 : ReadsLine (txt!"| ! s' m'") (.bin .or (.not (.var txt!"s'")) (.var txt!"m'")) :=
  reads_text (.bin .or (.not (.var txt!"s'")) (.var txt!"m'")) (by simp [Fml.Wf]) (by decide) (by decide)

theorem door_reads4 : ReadsLine (txt!"| ! min_e' m'") (.bin .or (.not (.var txt!"min_e'")) (.var txt!"m'")) :=
  reads_text (.bin .or (.not (.var txt!"min_e'")) (.var txt!"m'")) (by simp [Fml.Wf]) (by decide) (by decide)

theorem door_denotes : EDenotes doorText door [txt!"m"] [] := by
  refine ⟨doorItems, door_content, by decide, by decide, by decide, by decide, ?_, ?_, ?_, ?_, rfl, rfl⟩
  all_goals
    simp only [door, doorItems, eItemsOf]
  · exact .nil
  · exact .cons door_reads1 .nil
  · exact .cons door_reads2 (.cons door_reads3 .nil)
  · exact .cons door_reads4 .nil

/-- The hypothesis of `C63_proper_reports` holds for the file. -/
theorem door_proper : EProperFile 1000 doorText := by
  refine ⟨doorItems, door_content, by decide, ?_⟩
  intro before s line after h h1 h2 h3 h4
  rcases before with _ | ⟨p1, _ | ⟨p2, _ | ⟨p3, _ | ⟨p4, _ | ⟨p5, _ | ⟨p6, _ | ⟨p7, before⟩⟩⟩⟩⟩⟩⟩ <;>
    simp only [doorItems, List.cons_append, List.nil_append, List.cons.injEq, Prod.mk.injEq] at h
  · exact absurd h.1.1.symm h1
  · exact absurd h.2.1.1.symm h2
  · exact absurd h.2.2.1.1.symm h4
  · obtain ⟨rfl, rfl, rfl, ⟨rfl, rfl⟩, _⟩ := h
    exact ⟨by decide, _, door_reads1, by simp [Fml.Wf], by decide⟩
  · obtain ⟨rfl, rfl, rfl, rfl, ⟨rfl, rfl⟩, _⟩ := h
    exact ⟨by decide, _, door_reads2, by simp [Fml.Wf], by decide⟩
  · obtain ⟨rfl, rfl, rfl, rfl, rfl, ⟨rfl, rfl⟩, _⟩ := h
    exact ⟨by decide, _, door_reads3, by simp [Fml.Wf], by decide⟩
  · obtain ⟨rfl, rfl, rfl, rfl, rfl, rfl, ⟨rfl, rfl⟩, _⟩ := h
    exact ⟨by decide, _, door_reads4, by simp [Fml.Wf], by decide⟩
  · simp at h

theorem door_names : NamesUsable door := by
  intro x hx
  have : ∀ x ∈ door.inputs ++ door.outputs, (x ≠ [] ∧ ∀ c ∈ x, isSpace c = false) ∧ x ∉ reserved := by decide
  exact this x hx

/-- The hypotheses of the theorems for C63 are met. -/
example : ∃ t1 t2 φ ψ, Content none (splitLines doorReport.out) [(.sysTrans, t1), (.envTrans, t2)] ∧ ReadsLine t1 φ ∧ ReadsLine t2 ψ ∧
    (∀ p q, door.holds p q φ ↔ door.Estimates [txt!"m"] p q) ∧ (∀ p q, door.holds p q ψ ↔ door.Observable [txt!"m"] [] p q) := by
  obtain ⟨t1, t2, φ, ψ, h1, h2, h3, h4, h5, _⟩ := C63_printed_estimator door_run door_denotes door_names (by decide +kernel)
  exact ⟨t1, t2, φ, ψ, h1, h2, h3, h4, h5⟩

example : (∃ p, door.game.initEnv p.1 ∧ door.game.initSys p) ∧ (¬ ∃ p, door.EnvStuck [txt!"m"] [] p) ∧ ¬ ∃ p i, door.EstimatorStuck [txt!"m"] [] p i := by
  obtain ⟨h1, h2, h3⟩ := C63_warnings door_run door_denotes
  refine ⟨?_, fun h => absurd (h2.mpr h) (by decide), fun h => absurd (h3.mpr h) (by decide)⟩
  by_contra h
  exact absurd (h1.mpr h) (by decide)

example {p : Pos door.In door.Out} (hp : door.Estimated [txt!"m"] p) {i : door.In} (hi : door.game.safetyEnv p i) :
    ∃ o, door.Estimates [txt!"m"] p (i, o) := C63_never_stuck door_run door_denotes rfl hp hi

/-- Warnings do occur: an estimate that cannot be known. -/
example : ∃ out, runEstimator ROBDD 1000 (fun _ => true) 20
    (txt!"[UNOBSERVABLE_INPUT]\nm\n[OUTPUT]\ne\n[SYS_TRANS]\n! ^ e' m'\n") = .report ⟨out, false, false, true⟩ := by
  refine ⟨?_, ?_⟩
  · exact estimatorHeader ++ txt!"[SYS_TRANS]\n$ 1 0\n[ENV_TRANS]\n$ 1 1\n"
  · decide +kernel

/-- An environment that cannot start, and one that has no second move. -/
example : ∃ out, runEstimator ROBDD 1000 (fun _ => true) 20
    (txt!"[UNOBSERVABLE_INPUT]\nm\n[OUTPUT]\ne\n[ENV_INIT]\n0\n") = .report ⟨out, true, false, false⟩ := by
  refine ⟨?_, ?_⟩
  · exact estimatorHeader ++ txt!"[SYS_TRANS]\n$ 1 1\n[ENV_TRANS]\n$ 1 0\n"
  · decide +kernel

example : ∃ out, runEstimator ROBDD 1000 (fun _ => true) 20
    (txt!"[UNOBSERVABLE_INPUT]\nm\n[OUTPUT]\ne\n[ENV_TRANS]\n0\n") = .report ⟨out, false, true, false⟩ := by
  refine ⟨?_, ?_⟩
  · exact estimatorHeader ++ txt!"[SYS_TRANS]\n$ 1 1\n[ENV_TRANS]\n$ 1 0\n"
  · decide +kernel

end Slugs.Props
