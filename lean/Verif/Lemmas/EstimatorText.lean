import Verif.Lemmas.Estimator

/-! `--computeIncompleteInformationEstimator` on an accepted file: what is computed and printed. -/

namespace Slugs.Spec

variable {sp : SpecFile} {unobs ctrl : List Word}

theorem SpecFile.ReachBy.mono {s1 s2 : Pos sp.In sp.Out → Pos sp.In sp.Out → Prop} (h : ∀ p q, sp.ReachBy s1 p → sp.ReachBy s2 p → s1 p q → s2 p q)
    {p : Pos sp.In sp.Out} (hp : sp.ReachBy s1 p) : sp.ReachBy s2 p := by
  induction hp with
  | start h1 h2 => exact .start h1 h2
  | step hp hs ih => exact .step ih (h _ _ hp ih hs)

theorem SpecFile.SameObs.refl (p : Pos sp.In sp.Out) : sp.SameObs unobs p p := ⟨rfl, fun _ _ => rfl⟩

theorem SpecFile.SameObs.symm {p q : Pos sp.In sp.Out} (h : sp.SameObs unobs p q) : sp.SameObs unobs q p :=
  ⟨h.1.symm, fun x hx => (h.2 x hx).symm⟩

theorem SpecFile.SameObs.trans {p q r : Pos sp.In sp.Out} (h : sp.SameObs unobs p q) (h' : sp.SameObs unobs q r) : sp.SameObs unobs p r :=
  ⟨h'.1.trans h.1, fun x hx => (h'.2 x hx).trans (h.2 x hx)⟩

theorem SpecFile.Sound.safe {p q : Pos sp.In sp.Out} (h : sp.Sound unobs p q) (hp : sp.Possible p) (he : sp.game.safetyEnv p q.1) :
    sp.game.safetySys p q := h p q (.refl p) (.refl q) hp he

theorem SpecFile.Estimated.possible {p : Pos sp.In sp.Out} (h : sp.Estimated unobs p) : sp.Possible p :=
  SpecFile.ReachBy.mono (fun _ _ _ hp ⟨h1, h2⟩ => ⟨h1, h2.1.safe hp h1⟩) h

theorem SpecFile.Sound.congr {p p' q q' : Pos sp.In sp.Out} (hp : sp.SameObs unobs p p') (hq : sp.SameObs unobs q q') (h : sp.Sound unobs p q) :
    sp.Sound unobs p' q' := fun a b ha hb => h a b (hp.trans ha) (hq.trans hb)

theorem SpecFile.Estimates.congr {p p' q q' : Pos sp.In sp.Out} (hp : sp.SameObs unobs p p') (hq : sp.SameObs unobs q q')
    (h : sp.Estimates unobs p q) : sp.Estimates unobs p' q' := by
  refine ⟨h.1.congr hp hq, fun o ho => ?_⟩
  rw [hq.1]
  have hq' : sp.SameObs unobs (q'.1, o) (q.1, o) := ⟨rfl, fun x hx => (hq.2 x hx).symm⟩
  exact h.2 o (ho.congr hp.symm hq')

theorem SpecFile.Observable.congr {p p' q q' : Pos sp.In sp.Out} (hp : sp.SameObs unobs p p')
    (hq : ∀ x, x.1 ∉ unobs → x.1 ∉ ctrl → q'.1 x = q.1 x) (h : sp.Observable unobs ctrl p q) : sp.Observable unobs ctrl p' q' := by
  obtain ⟨a, i, h1, h2, h3, h4⟩ := h
  exact ⟨a, i, hp.symm.trans h1, fun x hx hx' => (h2 x hx hx').trans (hq x hx hx').symm, h3, h4⟩

end Slugs.Spec

namespace Slugs.Model

open Slugs.Spec

theorem clo_reach {sp : SpecFile} {s1 s2 : Pos sp.In sp.Out → Pos sp.In sp.Out → Prop} {init : Pos sp.In sp.Out → Prop}
    (hi : ∀ p, init p ↔ sp.game.initSys p ∧ sp.game.initEnv p.1)
    (h12 : ∀ p q, Clo init s1 p → s1 p q → s2 p q) (h21 : ∀ p q, sp.ReachBy s2 p → s2 p q → s1 p q) {p : Pos sp.In sp.Out} :
    Clo init s1 p ↔ sp.ReachBy s2 p := by
  constructor
  · intro h
    induction h with
    | start h => exact .start ((hi _).mp h).2 ((hi _).mp h).1
    | step hp hs ih => exact .step ih (h12 _ _ hp hs)
  · intro h
    induction h with
    | start h h' => exact .start ((hi _).mpr ⟨h', h⟩)
    | step hp hs ih => exact .step ih (h21 _ _ hp hs)

section
variable {ds : Decls} {F : Section → List Fml} {unobs ctrl : List Word}

def inSet (l : List Word) : Name → Bool := fun x => decide (x ∈ l)

theorem sameObs_iff {p p' : DPos ds} : sameObs (inSet unobs) p p' ↔ (specOf ds F).SameObs unobs p p' := by
  simp only [sameObs, SpecFile.SameObs, inSet, ne_eq, decide_eq_true_eq]
  rfl

theorem betterL_iff (hn : (outputsOf ds).Nodup) {o' o : {x // x ∈ outputsOf ds} → Bool} :
    BetterL (outputsOf ds).reverse o' o ↔ (specOf ds F).Better o' o := by
  rw [BetterL_iff]
  have hv : ∀ (o : {x // x ∈ outputsOf ds} → Bool) (x : Name) (h : x ∈ outputsOf ds), valOf o x = o ⟨x, h⟩ := fun o x h => by simp [valOf, h]
  constructor
  · rintro ⟨l1, x, l2, b, e, h1, h2, h3, h4⟩
    have e' : outputsOf ds = l2.reverse ++ x :: l1.reverse := by
      have := congrArg List.reverse e
      simpa using this
    refine ⟨l2.reverse, l1.reverse, x, b, e', h1, fun h => ?_, fun y hy hne h => ?_⟩
    · rw [hv o' x h] at h2
      rw [hv o x h] at h3
      exact ⟨h2, h3⟩
    · have := h4 y (by simpa using hy) hne
      rwa [hv o' y h, hv o y h] at this
  · rintro ⟨l, r, x, b, e, h1, h2, h3⟩
    change outputsOf ds = l ++ x :: r at e
    have hx : x ∈ outputsOf ds := by rw [e]; simp
    refine ⟨r.reverse, x, l.reverse, b, by rw [e]; simp, h1, ?_, ?_, ?_⟩
    · rw [hv o' x hx]; exact (h2 hx).1
    · rw [hv o x hx]; exact (h2 hx).2
    · intro y hy hne
      have hy' : y ∈ r := by simpa using hy
      have hy2 : y ∈ outputsOf ds := by rw [e]; simp [hy']
      rw [hv o' y hy2, hv o y hy2]
      exact h3 y hy' hne hy2

theorem prefAll_estimates (hn : (outputsOf ds).Nodup) {S : DPos ds → DPos ds → Prop} (hS : ∀ p q, S p q ↔ (specOf ds F).Sound unobs p q) (p q : DPos ds) :
    prefAll (outputsOf ds).reverse S p q ↔ (specOf ds F).Estimates unobs p q := by
  rw [prefAll_iff, hS]
  refine and_congr Iff.rfl (forall_congr' fun o => ?_)
  rw [hS, betterL_iff (F := F) hn]
  exact Iff.rfl

variable (B : Type) [DecidableEq B] [L : BddLib B] (hn : (tableOf ds).names.Nodup)

theorem estimatorBdds_gen {unobs ctrl : List Word} {c : Ctx B} {ie is Poss Estd : DPos ds → Prop} {se ss Est Obs : DPos ds → DPos ds → Prop}
    (h1 : c.initEnv = (tableLayout ds hn).enc B fun p _ => ie p)
    (h2 : c.initSys = (tableLayout ds hn).enc B fun p _ => is p)
    (h3 : c.safetyEnv = (tableLayout ds hn).enc B se)
    (h4 : c.safetySys = (tableLayout ds hn).enc B ss)
    (p1 : ∀ p, Clo (fun p => is p ∧ ie p) (fun p q => se p q ∧ ss p q) p ↔ Poss p)
    (p2 : ∀ p q, prefAll (outputsOf ds).reverse (fun p q => ¬ ∃ p' q', sameObs (inSet unobs) p p' ∧ sameObs (inSet unobs) q q' ∧
      (Poss p' ∧ se p' q') ∧ ¬ ss p' q') p q ↔ Est p q)
    (p3 : ∀ p, Clo (fun p => is p ∧ ie p) (fun p q => (se p q ∧ ss p q) ∧ Est p q) p ↔ Estd p)
    (p4 : ∀ p q, (∃ p' q', sameObs (inSet unobs) p p' ∧ (∀ x, inSet unobs x.1 ≠ true → inSet ctrl x.1 ≠ true → q'.1 x = q.1 x) ∧
      Estd p' ∧ se p' q') ↔ Obs p q)
    (p5 : ∀ p, Clo (fun p => is p ∧ ie p) (fun p q => (se p q ∧ Obs p q) ∧ Est p q) p ↔ Estd p)
    {fuel : Nat} (hf : Fintype.card (DPos ds) < fuel) :
    estimatorBdds (eTable ds (inSet unobs) (inSet ctrl)) c fuel = some
      ⟨(tableLayout ds hn).enc B fun p _ => Poss p, (tableLayout ds hn).enc B Est, (tableLayout ds hn).enc B Obs,
       (tableLayout ds hn).enc B fun p _ => Estd p ∧ ∀ q, ¬ Obs p q,
       (tableLayout ds hn).enc B fun p q => Estd p ∧ (∃ q, Obs p q) ∧ ∀ o, ¬ Est p (q.1, o)⟩ := by
  have H := (tableLayout ds hn).hom B
  have hand : ∀ f g, (bddMgr B (tableOf ds).types).and ((tableLayout ds hn).enc B f) ((tableLayout ds hn).enc B g) =
    (tableLayout ds hn).enc B fun p q => f p q ∧ g p q := H.and
  have hnot : ∀ f, (bddMgr B (tableOf ds).types).not ((tableLayout ds hn).enc B f) = (tableLayout ds hn).enc B fun p q => ¬ f p q := H.not
  have hmgr : bddMgr B (eTable ds (inSet unobs) (inSet ctrl)).types = bddMgr B (tableOf ds).types := bddMgr_e B ds _ _
  have r1 := eReachLoop_start H (fun p => is p ∧ ie p) (fun p q => se p q ∧ ss p q) hf
  simp only [p1] at r1
  have s1 := exist_unobs B hn (inSet unobs) (inSet ctrl) (fun p q => (Poss p ∧ se p q) ∧ ¬ ss p q)
  have s2 := preferLoop_enc B hn (inSet unobs) (inSet ctrl) ds.length (fun p q => ¬ ∃ p' q', sameObs (inSet unobs) p p' ∧ sameObs (inSet unobs) q q' ∧
      (Poss p' ∧ se p' q') ∧ ¬ ss p' q') (Nat.le_refl _)
  rw [List.take_length, show prefAll (outputsOf ds).reverse (fun p q => ¬ ∃ p' q', sameObs (inSet unobs) p p' ∧ sameObs (inSet unobs) q q' ∧
      (Poss p' ∧ se p' q') ∧ ¬ ss p' q') = Est from funext fun p => funext fun q => propext (p2 p q)] at s2
  have r2 := eReachLoop_start H (fun p => is p ∧ ie p) (fun p q => (se p q ∧ ss p q) ∧ Est p q) hf
  simp only [p3] at r2
  have a1 := exist_hidden B hn (inSet unobs) (inSet ctrl) (fun p q => Estd p ∧ se p q)
  rw [show (fun p q => ∃ p' q', sameObs (inSet unobs) p p' ∧ (∀ x, inSet unobs x.1 ≠ true → inSet ctrl x.1 ≠ true → q'.1 x = q.1 x) ∧
      Estd p' ∧ se p' q') = Obs from funext fun p => funext fun q => propext (p4 p q)] at a1
  have r3 := eReachLoop_start H (fun p => is p ∧ ie p) (fun p q => (se p q ∧ Obs p q) ∧ Est p q) hf
  simp only [p5] at r3
  have d1 : (bddMgr B (tableOf ds).types).exPost ((tableLayout ds hn).enc B Obs) =
      (tableLayout ds hn).enc B fun p _ => ∃ q, Obs p q := H.exPost _
  have d2 := univ_estPost B hn (inSet unobs) (inSet ctrl) (fun p q => ¬ Est p q)
  rw [estimatorBdds]
  dsimp only
  rw [hmgr, h1, h2, h3, h4, hand, hand, r1]
  dsimp only
  rw [hand, hnot, hand]
  rw [show (eTable ds (inSet unobs) (inSet ctrl)).types = eTypes ds (inSet unobs) (inSet ctrl) from rfl, s1, hnot]
  rw [eTable_length, s2, hand, r2]
  dsimp only
  rw [hand, a1, hand, hand, r3]
  dsimp only
  rw [d1, hnot, hand, hnot, hnot, d2, hand, hand]
  congr 2
  · congr 1
    funext p _
    refine propext ⟨fun ⟨h5, h6⟩ => ⟨h6, fun q hq => h5 ⟨q, hq⟩⟩, fun ⟨h5, h6⟩ => ⟨fun ⟨q, hq⟩ => h6 q hq, h5⟩⟩
  · congr 1
    funext p q
    refine propext ⟨?_, ?_⟩
    · rintro ⟨⟨h5, h6⟩, h7⟩
      refine ⟨h7, ?_, h6⟩
      by_contra h8
      exact h5 ⟨h8, h7⟩
    · rintro ⟨h5, h6, h7⟩
      exact ⟨⟨fun h8 => h8.1 h6, h7⟩, h5⟩

/-- What is computed. -/
theorem estimatorBdds_ok {c : Ctx B}
    (h1 : c.initEnv = (tableLayout ds hn).enc B fun p _ => (specOf ds F).game.initEnv p.1)
    (h2 : c.initSys = (tableLayout ds hn).enc B fun p _ => (specOf ds F).game.initSys p)
    (h3 : c.safetyEnv = (tableLayout ds hn).enc B fun p q => (specOf ds F).game.safetyEnv p q.1)
    (h4 : c.safetySys = (tableLayout ds hn).enc B (specOf ds F).game.safetySys) {fuel : Nat} (hf : Fintype.card (DPos ds) < fuel) :
    estimatorBdds (eTable ds (inSet unobs) (inSet ctrl)) c fuel = some
      ⟨(tableLayout ds hn).enc B fun p _ => (specOf ds F).Possible p,
       (tableLayout ds hn).enc B ((specOf ds F).Estimates unobs),
       (tableLayout ds hn).enc B ((specOf ds F).Observable unobs ctrl),
       (tableLayout ds hn).enc B fun p _ => (specOf ds F).EnvStuck unobs ctrl p,
       (tableLayout ds hn).enc B fun p q => (specOf ds F).EstimatorStuck unobs ctrl p q.1⟩ := by
  refine estimatorBdds_gen B hn (unobs := unobs) (ctrl := ctrl) (Poss := (specOf ds F).Possible) (Estd := (specOf ds F).Estimated unobs)
    (Est := (specOf ds F).Estimates unobs) (Obs := (specOf ds F).Observable unobs ctrl) h1 h2 h3 h4 ?_ ?_ ?_ ?_ ?_ hf
  · intro p
    exact clo_reach (sp := specOf ds F) (fun _ => Iff.rfl) (fun _ _ _ h => h) (fun _ _ _ h => h)
  · refine prefAll_estimates (outputs_nodup hn) fun p q => ⟨?_, ?_⟩
    · intro h p' q' hp hq h5 h6
      by_contra h7
      exact h ⟨p', q', sameObs_iff.mpr hp, sameObs_iff.mpr hq, ⟨h5, h6⟩, h7⟩
    · rintro h ⟨p', q', hp, hq, ⟨h5, h6⟩, h7⟩
      exact h7 (h p' q' (sameObs_iff.mp hp) (sameObs_iff.mp hq) h5 h6)
  · intro p
    refine clo_reach (sp := specOf ds F) (fun _ => Iff.rfl) (fun _ _ _ h => ⟨h.1.1, h.2⟩) (fun p q hp h => ⟨⟨h.1, ?_⟩, h.2⟩)
    exact h.2.1.safe (SpecFile.Estimated.possible hp) h.1
  · intro p q
    constructor
    · rintro ⟨p', q', hp, hq, h5, h6⟩
      exact ⟨p', q'.1, sameObs_iff.mp hp, fun x hx hx' => hq x (by simpa [inSet] using hx) (by simpa [inSet] using hx'), h5, h6⟩
    · rintro ⟨p', i, hp, hq, h5, h6⟩
      exact ⟨p', (i, p'.2), sameObs_iff.mpr hp, fun x hx hx' => hq x (by simpa [inSet] using hx) (by simpa [inSet] using hx'), h5, h6⟩
  · intro p
    refine clo_reach (sp := specOf ds F) (fun _ => Iff.rfl) (fun _ _ _ h => ⟨h.1.1, h.2⟩) (fun p q hp h => ⟨⟨h.1, ?_⟩, h.2⟩)
    exact ⟨p, q.1, .refl p, fun _ _ _ => rfl, hp, h.1⟩

/-! ### More fuel -/

theorem estimatorBdds_more {tab : VarTable} {c : Ctx B} {fuel k : Nat} {r : EstimatorBdds B} (h : estimatorBdds tab c fuel = some r) :
    estimatorBdds tab c (fuel + k) = some r := by
  rw [estimatorBdds] at h ⊢
  dsimp only at h ⊢
  split at h
  · cases h
  · rename_i r1 e1
    rw [eReachLoop_more e1]
    dsimp only
    split at h
    · cases h
    · rename_i r2 e2
      rw [eReachLoop_more e2]
      dsimp only
      split at h
      · cases h
      · rename_i r3 e3
        rw [eReachLoop_more e3]
        exact h

theorem printRec_more [BddTop B] {names : List Name} : ∀ (n : Nat) {k : Nat} {b : B} {st : PState B} {r : Nat × PState B},
    printRec names n b st = .ok r → printRec names (n + k) b st = .ok r := by
  intro n
  induction n with
  | zero => intro k b st r h; cases h
  | succ n ih =>
    intro k b st r h
    rw [Nat.succ_add]
    rw [printRec] at h ⊢
    cases hf : findNode b st.nodes with
    | some i => rw [hf] at h; exact h
    | none =>
      rw [hf] at h
      dsimp only at h ⊢
      by_cases h0 : b = L.ff
      · rwa [if_pos h0] at h ⊢
      · rw [if_neg h0] at h ⊢
        by_cases h1 : b = L.tt
        · rwa [if_pos h1] at h ⊢
        · rw [if_neg h1] at h ⊢
          cases hnm : names[BddTop.top b]? with
          | none => rw [hnm] at h; cases h
          | some name =>
            rw [hnm] at h
            dsimp only at h ⊢
            cases e1 : printRec names n (L.exist [BddTop.top b] (L.and b (L.var (BddTop.top b)))) st with
            | err e => rw [e1] at h; cases h
            | ub => rw [e1] at h; cases h
            | stuck => rw [e1] at h; cases h
            | ok r1 =>
              obtain ⟨q1, st1⟩ := r1
              rw [e1] at h
              rw [ih e1]
              dsimp only at h ⊢
              cases e2 : printRec names n (L.exist [BddTop.top b] (L.and b (L.not (L.var (BddTop.top b))))) st1 with
              | err e => rw [e2] at h; cases h
              | ub => rw [e2] at h; cases h
              | stuck => rw [e2] at h; cases h
              | ok r2 =>
                rw [e2] at h
                rw [ih e2]
                exact h

theorem printFormula_more [BddTop B] {names : List Name} {n k : Nat} {b : B} {t : List Char} (h : printFormula names n b = .ok t) :
    printFormula names (n + k) b = .ok t := by
  rw [printFormula] at h ⊢
  cases e : printRec names n b ⟨[], []⟩ with
  | ok r => rw [e] at h; rw [printRec_more B n e]; exact h
  | err e' => rw [e] at h; cases h
  | ub => rw [e] at h; cases h
  | stuck => rw [e] at h; cases h

theorem runEstimator_more [BddTop B] {cap : Nat} {order : List Char → Bool} {fuel k : Nat} {text : List Char} {r : EstimatorReport}
    (h : runEstimator B cap order fuel text = .report r) : runEstimator B cap order (fuel + k) text = .report r := by
  rw [runEstimator] at h ⊢
  cases hi : eInit (B := B) cap order text with
  | err e => rw [hi] at h; cases h
  | ub => rw [hi] at h; cases h
  | stuck => rw [hi] at h; cases h
  | ok tc =>
    obtain ⟨tab, c⟩ := tc
    rw [hi] at h
    dsimp only at h ⊢
    cases he : estimatorBdds tab c fuel with
    | none => rw [he] at h; cases h
    | some x =>
      rw [he] at h
      rw [estimatorBdds_more B he]
      dsimp only at h ⊢
      cases e1 : printFormula tab.names fuel x.strategy with
      | ok t1 =>
        cases e2 : printFormula tab.names fuel x.assumption with
        | ok t2 =>
          rw [e1, e2] at h
          rw [printFormula_more B e1, printFormula_more B e2]
          exact h
        | err e => rw [e1, e2] at h; cases h
        | ub => rw [e1, e2] at h; cases h
        | stuck => rw [e1, e2] at h; cases h
      | err e => rw [e1] at h; cases e2 : printFormula tab.names fuel x.assumption <;> rw [e2] at h <;> cases h
      | ub => rw [e1] at h; cases e2 : printFormula tab.names fuel x.assumption <;> rw [e2] at h <;> cases h
      | stuck => rw [e1] at h; cases h

/-! ### Printing -/

theorem depends_enc {f : T ({x // x ∈ inputsOf ds} → Bool) ({x // x ∈ outputsOf ds} → Bool)} {k : Nat}
    (h : Depends ((tableLayout ds hn).enc B f) k) :
    ∃ z : DSlot ds, slotCode z = k ∧ ∃ u u' : DSlot ds → Bool, (∀ z', z' ≠ z → u z' = u' z') ∧ f (curPos u) (nxtPos u) ∧ ¬ f (curPos u') (nxtPos u') := by
  obtain ⟨a, ha⟩ := h
  have hget : ∀ x z, slotCode (ds := ds) z ≠ k → (tableLayout ds hn).get (eSetVar a k x) z = (tableLayout ds hn).get a z := by
    intro x z hz
    change eSetVar a k x (slotCode z) = a (slotCode z)
    simp [eSetVar, hz]
  obtain ⟨z, hz⟩ : ∃ z : DSlot ds, slotCode z = k := by
    by_contra hno
    push Not at hno
    apply ha
    rw [Bool.eq_iff_iff, Layout.eval_enc, Layout.eval_enc,
      show (tableLayout ds hn).get (eSetVar a k true) = (tableLayout ds hn).get a from funext fun z => hget _ z (hno z),
      show (tableLayout ds hn).get (eSetVar a k false) = (tableLayout ds hn).get a from funext fun z => hget _ z (hno z)]
  have hoff : ∀ x x' z', z' ≠ z → (tableLayout ds hn).get (eSetVar a k x) z' = (tableLayout ds hn).get (eSetVar a k x') z' := by
    intro x x' z' hne
    have : slotCode z' ≠ k := fun e => hne (slotCode_inj hn (e.trans hz.symm))
    rw [hget _ _ this, hget _ _ this]
  refine ⟨z, hz, ?_⟩
  have hiff := fun x => Layout.eval_enc (tableLayout ds hn) B f (eSetVar a k x)
  cases e : L.eval ((tableLayout ds hn).enc B f) (eSetVar a k true) with
  | true =>
    refine ⟨_, _, hoff true false, (hiff true).mp e, fun hf => ?_⟩
    rw [e, (hiff false).mpr hf] at ha
    exact ha rfl
  | false =>
    refine ⟨_, _, hoff false true, (hiff false).mp ?_, fun hf => ?_⟩
    · cases e' : L.eval ((tableLayout ds hn).enc B f) (eSetVar a k false) with
      | true => rfl
      | false => rw [e, e'] at ha; exact absurd rfl ha
    · rw [(hiff true).mpr hf] at e; cases e

theorem eval_look (f : T ({x // x ∈ inputsOf ds} → Bool) ({x // x ∈ outputsOf ds} → Bool)) (p q : DPos ds) :
    L.eval ((tableLayout ds hn).enc B f) (eAsgOf (tableOf ds).names ((specOf ds F).look p q)) = true ↔ f p q := by
  rw [Layout.eval_enc]
  have : (tableLayout ds hn).get (eAsgOf (tableOf ds).names ((specOf ds F).look p q)) = slots p q := by
    funext z
    change eAsgOf (tableOf ds).names ((specOf ds F).look p q) (slotCode z) = _
    have h := (getElem_slotCode hn (z := z)).mpr rfl
    simp only [eAsgOf, tableOf, List.getElem?_map, h, Option.map_some]
    exact look_slot F hn p q z
  rw [this]
  exact Iff.rfl

/-- The printed formula of an encoded predicate. -/
theorem printFormula_enc [BddTop B] {fuel : Nat} (f : T ({x // x ∈ inputsOf ds} → Bool) ({x // x ∈ outputsOf ds} → Bool))
    (hf : (tableOf ds).names.length < fuel) :
    ∃ fs, printFormula (tableOf ds).names fuel ((tableLayout ds hn).enc B f) = .ok (Fml.buffer fs).text ∧ (Fml.buffer fs).Wf 0 ∧
      (∀ x ∈ (Fml.buffer fs).vars, ∃ z : DSlot ds, (slotEntry z).1 = x ∧ ∃ u u' : DSlot ds → Bool, (∀ z', z' ≠ z → u z' = u' z') ∧
        f (curPos u) (nxtPos u) ∧ ¬ f (curPos u') (nxtPos u')) ∧
      ∀ p q, (specOf ds F).holds p q (Fml.buffer fs) ↔ f p q := by
  obtain ⟨fs, h1, h2, h3, h4⟩ := printFormula_ok (names := (tableOf ds).names) (fuel := fuel) ((tableLayout ds hn).enc B f)
    (by
      intro k hk
      obtain ⟨z, rfl, -⟩ := depends_enc B hn hk
      exact List.idxOf_lt_length_of_mem (slotName_mem z)) hf
  refine ⟨fs, h1, h2, fun x hx => ?_, fun p q => ?_⟩
  · obtain ⟨k, hk, hx'⟩ := h3 x hx
    obtain ⟨z, rfl, hz⟩ := depends_enc B hn hk
    refine ⟨z, ?_, hz⟩
    have h := (getElem_slotCode hn (z := z)).mpr rfl
    simp only [tableOf, List.getElem?_map, h, Option.map_some, Option.some.injEq] at hx'
    exact hx'
  · rw [SpecFile.holds, h4, Option.some.injEq]
    exact eval_look B hn f p q

end

end Slugs.Model
