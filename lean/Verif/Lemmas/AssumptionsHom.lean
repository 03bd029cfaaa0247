import Verif.Lemmas.Distances

/-! The analysis of assumptions commutes with maps that respect the BF operations, and does not depend on the number of rounds allowed. -/

namespace Slugs.Model

section hom
variable {A B : Type} [DecidableEq A] [DecidableEq B] {M : Mgr A} {N : Mgr B} {h : A → B} (H : MgrHom M N h)
include H

theorem assumptionLoopD_hom (c : Ctx A) (fuel : Nat) (lt : A) : ∀ (as : List A) (good all : A),
    assumptionLoopD N (c.map h) fuel (h lt) (as.map h) (h good, h all) =
      (assumptionLoopD M c fuel lt as (good, all)).map (Prod.map h h) := by
  intro as
  induction as with
  | nil => intro good all; rfl
  | cons a as ih =>
    intro good all
    simp only [List.map_cons, assumptionLoopD]
    rw [nu0Loop_hom H]
    cases nu0Loop M c fuel lt a with
    | none => rfl
    | some r =>
      obtain ⟨nu0, fp⟩ := r
      simp only [Option.map_some, Prod.map_apply, H.or]
      rw [← ih]

theorem mu1LoopD_hom (c : Ctx A) (fuel : Nat) (nu2 goal : A) :
    mu1LoopD N (c.map h) fuel (h nu2) (h goal) =
      (mu1LoopD M c fuel nu2 goal).map (Prod.map h (Prod.map h (Prod.map (List.map h) (List.map h)))) := by
  rw [mu1LoopD, mu1LoopD, H.ff, H.swap, H.and]
  refine fixLoop_hom H.inj (g := Prod.map h (Prod.map (List.map h) (List.map h))) (fun x s => ?_) fuel M.ff (_, ([], []))
  obtain ⟨lt, d, st⟩ := s
  simp only [mu1StepD, Prod.map_apply, H.swap, H.or, H.ff]
  rw [show (c.map h).livenessAssumptions = c.livenessAssumptions.map h from rfl, assumptionLoopD_hom H]
  cases assumptionLoopD M c fuel (M.or lt (M.swap x)) c.livenessAssumptions (x, M.ff) with
  | none => rfl
  | some r => simp

theorem goalLoopD_hom (c : Ctx A) (fuel : Nat) (nu2 : A) : ∀ (gs : List A) (next : A) (D St : List (List A)),
    goalLoopD N (c.map h) fuel (h nu2) (gs.map h) (h next, (D.map (List.map h), St.map (List.map h))) =
      (goalLoopD M c fuel nu2 gs (next, (D, St))).map (Prod.map h (Prod.map (List.map (List.map h)) (List.map (List.map h)))) := by
  intro gs
  induction gs with
  | nil => intro next D St; rfl
  | cons g gs ih =>
    intro next D St
    simp only [List.map_cons, goalLoopD]
    rw [mu1LoopD_hom H]
    cases mu1LoopD M c fuel nu2 g with
    | none => rfl
    | some r =>
      obtain ⟨mu1, lt, d, st⟩ := r
      simp only [Option.map_some, Prod.map_apply, H.and]
      rw [← ih]
      simp

theorem reactiveDistances_hom (c : Ctx A) (fuel : Nat) :
    reactiveDistances N (c.map h) fuel =
      (reactiveDistances M c fuel).map (Prod.map h (Prod.map (List.map (List.map h)) (List.map (List.map h)))) := by
  rw [reactiveDistances, reactiveDistances, H.tt]
  refine fixLoop_hom H.inj (g := Prod.map (List.map (List.map h)) (List.map (List.map h))) (fun x s => ?_) fuel M.tt ([], [])
  exact goalLoopD_hom H c fuel x c.livenessGuarantees M.tt [] []

omit [DecidableEq A] [DecidableEq B] in
theorem goalStrategy_hom (l : List A) : goalStrategy N (l.map h) = h (goalStrategy M l) := by
  have key : ∀ (l : List A) (x y : A),
      (l.map h).foldl (fun (st : B × B) f => (N.or st.1 (N.and (N.exPostOutput f) (N.not st.1)),
        N.or st.2 (N.and (N.and (N.exPostOutput f) (N.not st.1)) f))) (h x, h y) =
      Prod.map h h (l.foldl (fun (st : A × A) f => (M.or st.1 (M.and (M.exPostOutput f) (M.not st.1)),
        M.or st.2 (M.and (M.and (M.exPostOutput f) (M.not st.1)) f))) (x, y)) := by
    intro l
    induction l with
    | nil => intro x y; rfl
    | cons a l ih =>
      intro x y
      rw [List.map_cons, List.foldl_cons, List.foldl_cons, ← ih]
      simp only [H.and, H.or, H.not, H.exPostOutput]
  rw [goalStrategy, goalStrategy, H.ff]
  exact congrArg Prod.snd (key l M.ff M.ff)

theorem reachInner_hom (s g : A) (fuel : Nat) (tp : A) :
    reachInner N (h s) (h g) fuel (h tp) = (reachInner M s g fuel tp).map (Prod.map h h) := by
  rw [reachInner, reachInner]
  refine fixLoop_hom H.inj (fun x t => ?_) fuel tp tp
  simp [H.and, H.or, H.swap, H.exPre]

theorem reachGoals_hom (fuel : Nat) : ∀ (l : List (A × A)) (all tp : A),
    reachGoals N fuel (l.map (Prod.map h h)) (h all, h tp) = (reachGoals M fuel l (all, tp)).map (Prod.map h h) := by
  intro l
  induction l with
  | nil => intro all tp; rfl
  | cons p l ih =>
    intro all tp
    obtain ⟨s, g⟩ := p
    simp only [List.map_cons, Prod.map_apply, reachGoals]
    rw [reachInner_hom H]
    cases reachInner M s g fuel tp with
    | none => rfl
    | some r =>
      obtain ⟨x, tp⟩ := r
      simp only [Option.map_some, Prod.map_apply, H.or]
      rw [← ih]

theorem reachableInGeneral_hom (c : Ctx A) (fuel : Nat) (st : List (List A)) :
    reachableInGeneral N (c.map h) fuel (st.map (List.map h)) = (reachableInGeneral M c fuel st).map h := by
  rw [reachableInGeneral, reachableInGeneral]
  have e : ((st.map (List.map h)).map (goalStrategy N)).zip (c.map h).livenessGuarantees =
      ((st.map (goalStrategy M)).zip c.livenessGuarantees).map (Prod.map h h) := by
    rw [show (c.map h).livenessGuarantees = c.livenessGuarantees.map h from rfl, List.map_map]
    have : (goalStrategy N ∘ List.map h) = h ∘ goalStrategy M := funext fun l => goalStrategy_hom H l
    rw [this, ← List.map_map, List.zip_map]
  rw [e, show N.and (c.map h).initEnv (c.map h).initSys = h (M.and c.initEnv c.initSys) from H.and _ _]
  rw [fixLoop_hom H.inj (fun x t => reachGoals_hom H fuel _ x t) fuel]
  cases fixLoop (fun x t => reachGoals M fuel ((st.map (goalStrategy M)).zip c.livenessGuarantees) (x, t)) fuel (M.and c.initEnv c.initSys)
    (M.and c.initEnv c.initSys) <;> rfl

theorem compareGoal_hom (ref new : List A) (R : A) : compareGoal N (ref.map h) (new.map h) (h R) = compareGoal M ref new R := by
  have e : (((new.map h).zipIdx.map fun p => ((ref.map h).getD (min ((ref.map h).length - 1) p.2) N.ff, p.1)).filter fun p => p.1 ≠ p.2) =
      ((new.zipIdx.map fun p => (ref.getD (min (ref.length - 1) p.2) M.ff, p.1)).filter fun p => p.1 ≠ p.2).map (Prod.map h h) := by
    rw [List.zipIdx_map, List.map_map, List.filter_map, List.filter_map, List.map_map]
    have h1 : (fun p : B × Nat => ((ref.map h).getD (min ((ref.map h).length - 1) p.2) N.ff, p.1)) ∘ Prod.map h id =
        Prod.map h h ∘ fun p : A × Nat => (ref.getD (min (ref.length - 1) p.2) M.ff, p.1) := by
      funext p
      simp only [Function.comp, Prod.map_apply, List.length_map, Prod.mk.injEq]
      refine ⟨?_, rfl⟩
      rw [H.ff, List.getD_eq_getElem?_getD, List.getD_eq_getElem?_getD, List.getElem?_map, Option.getD_map]
      rfl
    rw [h1]
    congr 1
    refine List.filter_congr fun p _ => ?_
    simp [H.inj.eq_iff]
  rw [compareGoal, compareGoal, e]
  simp only [List.map_eq_nil_iff]
  split
  · rfl
  · rw [List.any_map]
    congr 2
    funext p
    simp [H.and, H.not, H.ff, H.inj.eq_iff]

theorem compareDistances_hom (ref new : List (List A)) (R : A) :
    compareDistances N (ref.map (List.map h)) (new.map (List.map h)) (h R) = compareDistances M ref new R := by
  have e : (((ref.map (List.map h)).zip (new.map (List.map h))).zipIdx.filterMap fun p =>
      (compareGoal N p.1.1 p.1.2 (h R)).map fun b => (p.2, b)) =
      ((ref.zip new).zipIdx.filterMap fun p => (compareGoal M p.1.1 p.1.2 R).map fun b => (p.2, b)) := by
    rw [List.zip_map, List.zipIdx_map, List.filterMap_map]
    congr 1
    funext p
    simp only [Function.comp, Prod.map_fst, Prod.map_snd, id]
    rw [compareGoal_hom H]
  rw [compareDistances, compareDistances, e]

omit [DecidableEq A] [DecidableEq B] in
theorem lt_hom (a b : A) : N.lt (h a) (h b) ↔ M.lt a b := by
  rw [Mgr.lt, Mgr.lt, H.imp, H.tt, H.inj.eq_iff, ne_eq, H.inj.eq_iff]

omit [DecidableEq A] [DecidableEq B] in
theorem passes_hom (c : Ctx A) (w : A) : passes N (c.map h) (h w) ↔ passes M c w := by
  rw [passes, passes]
  simp only [Ctx.map, H.and, H.exPreOutput, H.imp, H.allPreInput, H.tt, H.inj.eq_iff]

theorem finding_hom (c : Ctx A) (refW : A) (refD : List (List A)) (R : A) (red red' : Prop) [Decidable red] [Decidable red'] (hr : red' ↔ red)
    (newW : A) (newD : List (List A)) :
    finding N (c.map h) (h refW) (refD.map (List.map h)) (h R) red' (h newW) (newD.map (List.map h)) = finding M c refW refD R red newW newD := by
  rw [finding, finding]
  simp only [passes_hom H, lt_hom H, hr, compareDistances_hom H]
  rw [show (c.map h).initEnv = h c.initEnv from rfl, H.and, H.and]
  simp only [lt_hom H]

omit [DecidableEq A] [DecidableEq B] in
theorem safetyWithout_hom (parts : List A) (i : Nat) : safetyWithout N (parts.map h) i = h (safetyWithout M parts i) := by
  have key : ∀ (l : List A) (n : Nat) (x : A), ((l.map h).zipIdx n).foldl (fun acc p => if i ≠ p.2 then N.and acc p.1 else acc) (h x) =
      h ((l.zipIdx n).foldl (fun acc p => if i ≠ p.2 then M.and acc p.1 else acc) x) := by
    intro l
    induction l with
    | nil => intro n x; rfl
    | cons a l ih =>
      intro n x
      rw [List.map_cons, List.zipIdx_cons, List.zipIdx_cons, List.foldl_cons, List.foldl_cons, ← ih]
      simp only
      split
      · rw [H.and]
      · rfl
  rw [safetyWithout, safetyWithout, H.tt]
  exact key parts 0 M.tt

omit H [DecidableEq A] [DecidableEq B] in
theorem livenessWithout_map (l : List A) (i : Nat) : livenessWithout (l.map h) i = (livenessWithout l i).map h := by
  rw [livenessWithout, livenessWithout, List.zipIdx_map, List.filterMap_map, List.map_filterMap]
  congr 1
  funext p
  simp only [Function.comp, Prod.map_fst, Prod.map_snd, id]
  split <;> rfl

omit H [DecidableEq A] [DecidableEq B] in
theorem mapM_congr {α β : Type} {f g : α → Option β} : ∀ {l : List α}, (∀ a ∈ l, f a = g a) → l.mapM f = l.mapM g := by
  intro l
  induction l with
  | nil => intro _; rfl
  | cons a l ih => intro h; rw [List.mapM_cons, List.mapM_cons, h a (by simp), ih fun a ha => h a (by simp [ha])]

theorem findings_hom (c : Ctx A) (parts : List A) (fuel : Nat) (refW : A) (refD : List (List A)) (R : A) :
    findings N (c.map h) (parts.map h) fuel (h refW) (refD.map (List.map h)) (h R) = findings M c parts fuel refW refD R := by
  have e1 : ((List.range (parts.map h).length).mapM fun i =>
      (reactiveDistances N { c.map h with safetyEnv := safetyWithout N (parts.map h) i } fuel).map fun r =>
        finding N (c.map h) (h refW) (refD.map (List.map h)) (h R) ((c.map h).safetyEnv = safetyWithout N (parts.map h) i) r.1 r.2.1) =
      (List.range parts.length).mapM fun i =>
      (reactiveDistances M { c with safetyEnv := safetyWithout M parts i } fuel).map fun r =>
        finding M c refW refD R (c.safetyEnv = safetyWithout M parts i) r.1 r.2.1 := by
    rw [List.length_map]
    refine mapM_congr fun i _ => ?_
    have e := reactiveDistances_hom H { c with safetyEnv := safetyWithout M parts i } fuel
    rw [show ({ c.map h with safetyEnv := safetyWithout N (parts.map h) i } : Ctx B) =
      ({ c with safetyEnv := safetyWithout M parts i } : Ctx A).map h by rw [safetyWithout_hom H]; rfl, e]
    cases reactiveDistances M { c with safetyEnv := safetyWithout M parts i } fuel with
    | none => rfl
    | some r =>
      refine congrArg some (finding_hom H c refW refD R _ _ ?_ r.1 r.2.1)
      rw [safetyWithout_hom H]
      exact H.inj.eq_iff
  have e2 : ((List.range (c.map h).livenessAssumptions.length).mapM fun i =>
      (reactiveDistances N { c.map h with safetyEnv := N.tt, livenessAssumptions := livenessWithout (c.map h).livenessAssumptions i } fuel).map fun r =>
        finding N (c.map h) (h refW) (refD.map (List.map h)) (h R) False r.1 r.2.1) =
      (List.range c.livenessAssumptions.length).mapM fun i =>
      (reactiveDistances M { c with safetyEnv := M.tt, livenessAssumptions := livenessWithout c.livenessAssumptions i } fuel).map fun r =>
        finding M c refW refD R False r.1 r.2.1 := by
    rw [show (c.map h).livenessAssumptions = c.livenessAssumptions.map h from rfl, List.length_map]
    refine mapM_congr fun i _ => ?_
    have e := reactiveDistances_hom H { c with safetyEnv := M.tt, livenessAssumptions := livenessWithout c.livenessAssumptions i } fuel
    rw [show ({ c.map h with safetyEnv := N.tt, livenessAssumptions := livenessWithout (c.livenessAssumptions.map h) i } : Ctx B) =
      ({ c with safetyEnv := M.tt, livenessAssumptions := livenessWithout c.livenessAssumptions i } : Ctx A).map h by
        rw [livenessWithout_map, H.tt]; rfl, e]
    cases reactiveDistances M { c with safetyEnv := M.tt, livenessAssumptions := livenessWithout c.livenessAssumptions i } fuel with
    | none => rfl
    | some r => exact congrArg some (finding_hom H c refW refD R _ _ Iff.rfl r.1 r.2.1)
  rw [findings, findings, e1, e2]

theorem analyzeAssumptions_hom (c : Ctx A) (parts : List A) (fuel : Nat) :
    analyzeAssumptions N (c.map h) (parts.map h) fuel = analyzeAssumptions M c parts fuel := by
  rw [analyzeAssumptions, analyzeAssumptions, reactiveDistances_hom H]
  cases reactiveDistances M c fuel with
  | none => rfl
  | some r =>
    obtain ⟨refW, refD, st⟩ := r
    simp only [Option.map_some, Prod.map_apply, passes_hom H, reachableInGeneral_hom H]
    cases reachableInGeneral M c fuel st with
    | none => rfl
    | some R => simp only [Option.map_some, findings_hom H]
end hom

section more
variable {B : Type} [DecidableEq B]

theorem assumptionLoopD_more (M : Mgr B) (c : Ctx B) {n n' : Nat} (hn : n ≤ n') {live : B} {as : List B}
    {st r : B × B} (h : assumptionLoopD M c n live as st = some r) : assumptionLoopD M c n' live as st = some r := by
  induction as generalizing st with
  | nil => exact h
  | cons a as ih =>
    obtain ⟨good, all⟩ := st
    rw [assumptionLoopD] at h ⊢
    cases hs : nu0Loop M c n live a with
    | none => rw [hs] at h; cases h
    | some q =>
      obtain ⟨x, f⟩ := q
      rw [hs] at h
      have : nu0Loop M c n' live a = some (x, f) := fixLoop_more (fun _ _ _ h => h) hn hs
      rw [this]
      exact ih h

theorem mu1LoopD_more (M : Mgr B) (c : Ctx B) {n n' : Nat} (hn : n ≤ n') {nu2 goal : B}
    {r : B × (B × (List B × List B))} (h : mu1LoopD M c n nu2 goal = some r) : mu1LoopD M c n' nu2 goal = some r := by
  refine fixLoop_more ?_ hn h
  intro x s r hr
  rw [mu1StepD] at hr ⊢
  cases hs : assumptionLoopD M c n (M.or s.1 (M.swap x)) c.livenessAssumptions (x, M.ff) with
  | none => rw [hs] at hr; cases hr
  | some q => rw [hs] at hr; rw [assumptionLoopD_more M c hn hs]; exact hr

theorem goalLoopD_more (M : Mgr B) (c : Ctx B) {n n' : Nat} (hn : n ≤ n') {nu2 : B} {goals : List B}
    {st r : B × (List (List B) × List (List B))} (h : goalLoopD M c n nu2 goals st = some r) : goalLoopD M c n' nu2 goals st = some r := by
  induction goals generalizing st with
  | nil => exact h
  | cons a as ih =>
    obtain ⟨next, D, St⟩ := st
    rw [goalLoopD] at h ⊢
    cases hs : mu1LoopD M c n nu2 a with
    | none => rw [hs] at h; cases h
    | some q =>
      rw [hs] at h
      rw [mu1LoopD_more M c hn hs]
      exact ih h

theorem reactiveDistances_more (M : Mgr B) (c : Ctx B) {n n' : Nat} (hn : n ≤ n') {r : B × (List (List B) × List (List B))}
    (h : reactiveDistances M c n = some r) : reactiveDistances M c n' = some r :=
  fixLoop_more (fun _ _ _ h => goalLoopD_more M c hn h) hn h

theorem reachGoals_more (M : Mgr B) {n n' : Nat} (hn : n ≤ n') {l : List (B × B)} {st r : B × B} (h : reachGoals M n l st = some r) :
    reachGoals M n' l st = some r := by
  induction l generalizing st with
  | nil => exact h
  | cons p l ih =>
    obtain ⟨s, g⟩ := p
    obtain ⟨all, tp⟩ := st
    rw [reachGoals] at h ⊢
    cases hs : reachInner M s g n tp with
    | none => rw [hs] at h; cases h
    | some q =>
      rw [hs] at h
      have : reachInner M s g n' tp = some q := fixLoop_more (fun _ _ _ h => h) hn hs
      rw [this]
      exact ih h

theorem reachableInGeneral_more (M : Mgr B) (c : Ctx B) {n n' : Nat} (hn : n ≤ n') {st : List (List B)} {r : B}
    (h : reachableInGeneral M c n st = some r) : reachableInGeneral M c n' st = some r := by
  rw [reachableInGeneral, Option.map_eq_some_iff] at h ⊢
  obtain ⟨q, h1, h2⟩ := h
  exact ⟨q, fixLoop_more (fun _ _ _ h => reachGoals_more M hn h) hn h1, h2⟩

theorem mapM_more {α β : Type} {f g : α → Option β} (h : ∀ a b, f a = some b → g a = some b) :
    ∀ {l : List α} {r : List β}, l.mapM f = some r → l.mapM g = some r := by
  intro l
  induction l with
  | nil => intro r hr; exact hr
  | cons a l ih =>
    intro r hr
    rw [List.mapM_cons] at hr ⊢
    cases hf : f a with
    | none => rw [hf] at hr; cases hr
    | some b =>
      rw [hf] at hr
      rw [h a b hf]
      cases hl : l.mapM f with
      | none => rw [hl] at hr; cases hr
      | some bs => rw [hl] at hr; rw [ih hl]; exact hr

theorem findings_more (M : Mgr B) (c : Ctx B) {n n' : Nat} (hn : n ≤ n') {parts : List B} {refW : B} {refD : List (List B)} {R : B}
    {r : List Finding × List Finding} (h : findings M c parts n refW refD R = some r) : findings M c parts n' refW refD R = some r := by
  have key : ∀ (c' : Ctx B) (f : B × (List (List B) × List (List B)) → Finding) (b : Finding),
      (reactiveDistances M c' n).map f = some b → (reactiveDistances M c' n').map f = some b := by
    intro c' f b hb
    rw [Option.map_eq_some_iff] at hb ⊢
    obtain ⟨q, h1, h2⟩ := hb
    exact ⟨q, reactiveDistances_more M c' hn h1, h2⟩
  rw [findings] at h ⊢
  split at h
  · cases h
  · rename_i safety hs
    rw [mapM_more (fun a b => key _ _ b) hs]
    simp only
    split at h
    · cases h
    · rename_i liveness hl
      rw [mapM_more (fun a b => key _ _ b) hl]
      exact h

theorem analyzeAssumptions_more (M : Mgr B) (c : Ctx B) {n n' : Nat} (hn : n ≤ n') {parts : List B} {r : Report}
    (h : analyzeAssumptions M c parts n = some r) : analyzeAssumptions M c parts n' = some r := by
  rw [analyzeAssumptions] at h ⊢
  cases hr : reactiveDistances M c n with
  | none => rw [hr] at h; cases h
  | some q =>
    rw [reactiveDistances_more M c hn hr]
    obtain ⟨refW, refD, st⟩ := q
    rw [hr] at h
    simp only at h ⊢
    split
    · rename_i hp
      rw [if_pos hp] at h
      cases hg : reachableInGeneral M c n st with
      | none => rw [hg] at h; cases h
      | some R =>
        rw [hg] at h
        rw [reachableInGeneral_more M c hn hg]
        simp only at h ⊢
        rw [Option.map_eq_some_iff] at h ⊢
        obtain ⟨q, h1, h2⟩ := h
        exact ⟨q, findings_more M c hn h1, h2⟩
    · rename_i hp
      rw [if_neg hp] at h
      exact h
end more

end Slugs.Model
