import Verif.Lemmas.CostHelpers

/-!
The search for a cost-optimal strategy commutes with injective maps that respect the BF operations.
-/

namespace Slugs.Model

open Slugs.Spec

variable {A B : Type} [DecidableEq A] [DecidableEq B] {D : Type} [LinearOrder D]

/-- Mapping the state of the inner loops. -/
def Found.map (h : A → B) (f : Found A) : Found B := ⟨h f.trans, h f.pos, f.dump.map h⟩

/-- Mapping entries. -/
def mapVals {K : Type} (h : A → B) (l : List (K × A)) : List (K × B) := l.map fun e => (e.1, h e.2)

/-- Mapping the state of the search. -/
def Search.map (h : A → B) (s : Search A D) : Search B D := ⟨s.todo, mapVals h s.transAt, mapVals h s.posAt, s.found.map h⟩

theorem mapSet_hom (h : A → B) (pref : Bool) (t : CostTuple D) (b : A) : ∀ l : List (CostTuple D × A),
    mapSet pref (mapVals h l) t (h b) = mapVals h (mapSet pref l t b)
  | [] => rfl
  | (u, a) :: us => by
    rw [mapVals, List.map_cons, mapSet, mapSet]
    split
    · rfl
    · split
      · have := mapSet_hom h pref t b us
        rw [mapVals] at this
        rw [this]; rfl
      · rfl

theorem mapFloor_hom (h : A → B) (pref : Bool) (t : CostTuple D) (l : List (CostTuple D × A)) :
    mapFloor pref (mapVals h l) t = (mapFloor pref l t).map h := by
  simp only [mapFloor, mapVals, List.takeWhile_map, List.getLast?_map, Option.map_map]
  rfl

theorem dump_append (h : A → B) (d : Dump A) (g : Nat) (a : A) : d.map h ++ [(g, h a)] = Dump.map h (d ++ [(g, a)]) := by
  simp [Dump.map]

variable {M : Mgr A} {N : Mgr B} {h : A → B} (H : MgrHom M N h) {E : Helpers A} {F : Helpers B} (HE : HelpersHom h E F)
include H

theorem costInsert_hom (v : D) (f : A) : ∀ l : List (D × A), costInsert N (mapVals h l) v (h f) = mapVals h (costInsert M l v f)
  | [] => rfl
  | (w, g) :: us => by
    rw [mapVals, List.map_cons, costInsert, costInsert]
    split
    · rfl
    · split
      · have := costInsert_hom v f us
        rw [mapVals] at this
        rw [this]; rfl
      · rw [H.or]; rfl

theorem allCosts_hom (DD : Doubles D) (l : List (D × A)) : allCosts N DD (mapVals h l) = mapVals h (allCosts M DD l) := by
  rw [allCosts, allCosts, ← costInsert_hom H]
  congr 1
  rw [mapVals, List.foldl_map, H.tt]
  exact List.foldl_hom h (g₁ := fun b (u : D × A) => M.and b (M.not u.2)) (fun b u => by rw [H.not, H.and])

theorem overlapping_hom : ∀ l : List (D × A), overlapping N (mapVals h l) = overlapping M l
  | [] => rfl
  | (_, f) :: us => by
    have ih := overlapping_hom us
    rw [mapVals] at ih
    rw [mapVals, List.map_cons, overlapping, overlapping, ih, List.any_map]
    congr 2
    funext u
    simp only [Function.comp, H.and, H.ff, ne_eq, H.inj.eq_iff]

theorem costOf_hom (l : List (D × A)) (v : D) : costOf N (mapVals h l) v = h (costOf M l v) := by
  rw [costOf, costOf, mapVals, List.find?_map]
  cases hf : List.find? (fun u : D × A => decide (u.1 = v)) l with
  | none =>
    have : List.find? ((fun u : D × B => decide (u.1 = v)) ∘ fun e : D × A => (e.1, h e.2)) l = none := hf
    rw [this]; exact H.ff
  | some u =>
    have : List.find? ((fun u : D × B => decide (u.1 = v)) ∘ fun e : D × A => (e.1, h e.2)) l = some u := hf
    rw [this]; rfl

theorem whileLoop_hom {σ τ : Type} {g : σ → τ} {step : A → σ → Option (A × σ)} {step' : B → τ → Option (B × τ)}
    (hs : ∀ x s, step' (h x) (g s) = (step x s).map (Prod.map h g)) (n : Nat) (x y : A) (s : σ) :
    whileLoop step' n (h x) (h y) (g s) = (whileLoop step n x y s).map (Prod.map h g) := by
  rw [whileLoop, whileLoop]
  simp only [H.inj.eq_iff]
  split
  · rfl
  · exact fixLoop_hom H.inj hs n x s

theorem enforce_hom (c : Ctx A) (t : A) : enforce N (c.map h) (h t) = h (enforce M c t) := by
  simp only [enforce, Ctx.map, H.not, H.exPostOutput, H.or, H.allPostInput]

include HE

theorem reachStep_hom (c : Ctx A) (goal : Nat) (top : Bool) (mask ending cheap x : A) (st : Found A) :
    reachStep N (c.map h) F goal top (h mask) (h ending) (h cheap) (h x) (st.map h) =
      (reachStep M c E goal top mask ending cheap x st).map (Prod.map h (Found.map h)) := by
  have e : N.and (N.and (h mask) (c.map h).safetySys) (N.or (h ending) (N.and (h cheap) (N.swap (h x)))) =
      h (M.and (M.and mask c.safetySys) (M.or ending (M.and cheap (M.swap x)))) := by
    simp only [Ctx.map, H.and, H.or, H.swap]
  unfold reachStep
  simp only [e, enforce_hom H, HE.zeroPre, H.and, Option.map_some, Prod.map, Found.map]
  cases top <;> simp only [if_true, if_false, H.or, dump_append, Bool.false_eq_true]

theorem sccTransitions_hom (c : Ctx A) (i : Nat) (as pr po es ch scc : A) :
    sccTransitions N (c.map h) F i (h as) (h pr) (h po) (h es) (h ch) (h scc) = h (sccTransitions M c E i as pr po es ch scc) := by
  simp only [sccTransitions, Ctx.map, HE.nonPre, HE.nonPost, H.and, H.or, H.not, H.swap]

theorem sccStep_hom (c : Ctx A) (i : Nat) (as pr po es ch scc : A) (u : Unit) :
    sccStep N (c.map h) F i (h as) (h pr) (h po) (h es) (h ch) (h scc) (id u) = (sccStep M c E i as pr po es ch scc u).map (Prod.map h id) := by
  simp only [sccStep, sccTransitions_hom H HE, H.exPostOutput, H.allPostInput, H.and, Option.map_some, Prod.map, id]

theorem closureStep_hom (r : A) (u : Unit) : closureStep N F (h r) (id u) = (closureStep M E r u).map (Prod.map h id) := by
  simp only [closureStep, HE.compose, H.or, Option.map_some, Prod.map, id]

theorem internal_hom (c : Ctx A) (i : Nat) (as pr po ch ex scc : A) :
    internal N (c.map h) F i (h as) (h pr) (h po) (h ch) (h ex) (h scc) = h (internal M c E i as pr po ch ex scc) := by
  simp only [internal, Ctx.map, HE.nonPre, HE.nonPost, H.and, H.or, H.not, H.swap]

theorem finalTransitions_hom (c : Ctx A) (i : Nat) (as pr po es ch go scc re : A) :
    finalTransitions N (c.map h) F i (h as) (h pr) (h po) (h es) (h ch) (h go) (h scc) (h re) = h (finalTransitions M c E i as pr po es ch go scc re) := by
  simp only [finalTransitions, Ctx.map, HE.nonPre, HE.nonPost, H.and, H.or, H.not, H.swap]

theorem sccLoop_hom (c : Ctx A) (fuel goalNum : Nat) (go : A) (inf : Bool) (es ch : A) : ∀ (i : Nat) (as : List A) (st : Found A),
    sccLoop N (c.map h) F fuel goalNum (h go) inf (h es) (h ch) i (as.map h) (st.map h) =
      (sccLoop M c E fuel goalNum go inf es ch i as st).map (Found.map h)
  | _, [], _ => rfl
  | i, a :: as, st => by
    have epr : (if inf = true then F.infPre else N.not F.infPre) = h (if inf = true then E.infPre else M.not E.infPre) := by
      rw [HE.infPre, H.not]; split <;> rfl
    have epo : (if inf = true then F.infPost else N.not F.infPost) = h (if inf = true then E.infPost else M.not E.infPost) := by
      rw [HE.infPost, H.not]; split <;> rfl
    have eex : (if inf = true then N.ff else (st.map h).pos) = h (if inf = true then M.ff else st.pos) := by
      rw [H.ff, Found.map]; split <;> rfl
    rw [List.map_cons, sccLoop, sccLoop]
    simp only [epr, epo, eex]
    have e0 : N.not (st.map h).pos = h (M.not st.pos) := H.not _
    rw [e0, H.ff]
    have w1 := whileLoop_hom H (g := id) (step := sccStep M c E i a (if inf = true then E.infPre else M.not E.infPre) (if inf = true then E.infPost else M.not E.infPost) es ch)
      (step' := sccStep N (c.map h) F i (h a) (h (if inf = true then E.infPre else M.not E.infPre)) (h (if inf = true then E.infPost else M.not E.infPost)) (h es) (h ch))
      (fun x s => sccStep_hom H HE c i a _ _ es ch x s) fuel (M.not st.pos) M.ff ()
    simp only [id] at w1
    rw [w1]
    cases h1 : whileLoop (sccStep M c E i a (if inf = true then E.infPre else M.not E.infPre) (if inf = true then E.infPost else M.not E.infPost) es ch) fuel (M.not st.pos) M.ff () with
    | none => rfl
    | some r =>
      obtain ⟨scc, u⟩ := r
      simp only [Option.map_some, Prod.map]
      rw [internal_hom H HE]
      have w2 := whileLoop_hom H (g := id) (step := closureStep M E) (step' := closureStep N F) (fun x s => closureStep_hom H HE x s) fuel
        (internal M c E i a (if inf = true then E.infPre else M.not E.infPre) (if inf = true then E.infPost else M.not E.infPost) ch (if inf = true then M.ff else st.pos) scc) M.ff ()
      simp only [id] at w2
      rw [w2]
      cases h2 : whileLoop (closureStep M E) fuel
        (internal M c E i a (if inf = true then E.infPre else M.not E.infPre) (if inf = true then E.infPost else M.not E.infPost) ch (if inf = true then M.ff else st.pos) scc) M.ff () with
      | none => rfl
      | some r =>
        obtain ⟨cl, u'⟩ := r
        simp only [Option.map_some, Prod.map, H.swap, H.and, finalTransitions_hom H HE, H.exPostOutput, H.allPostInput]
        rw [← sccLoop_hom c fuel goalNum go inf es ch (i + 1) as]
        simp only [Found.map, H.or, dump_append]

theorem orForgotten_hom (es : A) (o : Option A) : orForgotten N F (h es) (o.map h) = h (orForgotten M E es o) := by
  cases o with
  | none => rfl
  | some t => simp only [orForgotten, Option.map_some, HE.forget, H.or]

omit HE in
theorem orReach_hom (c : Ctx A) (cost b : A) (o : Option A) : orReach N (c.map h) (h cost) (h b) (o.map h) = h (orReach M c cost b o) := by
  cases o with
  | none => rfl
  | some t => simp only [orReach, Option.map_some, Ctx.map, H.swap, H.and, H.or]

/-- Mapping what stays the same during the search. -/
def SearchIn.map (N : Mgr B) (F : Helpers B) (h : A → B) (S : SearchIn A D) : SearchIn B D :=
  { M := N, c := S.c.map h, E := F, N := S.N, p := S.p, costs := mapVals h S.costs, goalNum := S.goalNum, goal := h S.goal }

variable (S : SearchIn A D) (hM : S.M = M) (hE : S.E = E)

omit HE in
theorem before_hom (l : List (CostTuple D × A)) :
    (((mapVals h l).getLast?.map Prod.snd).getD N.ff) = h ((l.getLast?.map Prod.snd).getD M.ff) := by
  rw [mapVals, List.getLast?_map]
  cases l.getLast? with
  | none => exact H.ff
  | some e => rfl

include hM hE in
theorem infiniteCase_hom (fuel : Nat) (cur : CostTuple D) (st : Search A D) :
    infiniteCase (S.map N F h) fuel cur (st.map h) = (infiniteCase S fuel cur st).map (Search.map h) := by
  subst hM hE
  unfold infiniteCase
  simp only [SearchIn.map, Search.map]
  rw [show N.and (S.c.map h).safetySys (h S.goal) = h (S.M.and S.c.safetySys S.goal) from H.and _ _, mapFloor_hom, orForgotten_hom H HE, H.tt, show (S.c.map h).livenessAssumptions = S.c.livenessAssumptions.map h from rfl, sccLoop_hom H HE]
  cases sccLoop S.M S.c S.E fuel S.goalNum S.goal true (orForgotten S.M S.E (S.M.and S.c.safetySys S.goal)
      (mapFloor S.p.waitingPreferred st.transAt (mkTuple S.N S.p (cur.waiting - 1) cur.action))) S.M.tt 0 S.c.livenessAssumptions st.found with
  | none => rfl
  | some f =>
    simp only [Option.map_some]
    have w := whileLoop_hom H (fun x s => reachStep_hom H HE S.c S.goalNum true S.E.infPre f.trans S.M.tt x s) fuel S.M.ff S.M.tt f
    simp only [HE.infPre, H.ff, show (f.map h).trans = h f.trans from rfl]
    rw [w]
    cases whileLoop (reachStep S.M S.c S.E S.goalNum true S.E.infPre f.trans S.M.tt) fuel S.M.ff S.M.tt f with
    | none => rfl
    | some r =>
      obtain ⟨x, f'⟩ := r
      simp only [Option.map_some, Prod.map, Option.some.injEq, Search.map]
      have eb := before_hom H st.posAt
      rw [H.ff] at eb
      rw [eb]
      simp only [Found.map, mapSet_hom, ne_eq, H.inj.eq_iff]

include hM in
omit HE in
theorem goalsWithin_hom (cur : CostTuple D) (w : Nat) : goalsWithin (S.map N F h) cur w = h (goalsWithin S cur w) := by
  subst hM
  unfold goalsWithin
  rw [show (S.map N F h).costs = S.costs.map fun e => (e.1, h e.2) from rfl, List.foldl_map, show (S.map N F h).M.ff = h S.M.ff from H.ff]
  refine List.foldl_hom h (fun b u => ?_)
  simp only [SearchIn.map, Ctx.map, H.and, H.or]
  split <;> rfl

include hM in
omit HE in
theorem endingTransitions_hom (cur : CostTuple D) (l : List (CostTuple D × A)) :
    endingTransitions (S.map N F h) cur (mapVals h l) = h (endingTransitions S cur l) := by
  have e1 := goalsWithin_hom (F := F) H S hM cur 0
  subst hM
  unfold endingTransitions
  rw [e1, show (S.map N F h).costs = S.costs.map fun e => (e.1, h e.2) from rfl, List.foldl_map]
  refine List.foldl_hom h (fun b u => ?_)
  rw [mapFloor_hom]
  exact orReach_hom H S.c u.2 b _

omit H HE in
theorem moreTuples_hom (cur : CostTuple D) (todo : List (CostTuple D)) : moreTuples (S.map N F h) cur todo = moreTuples S cur todo := by
  unfold moreTuples
  rw [show (S.map N F h).costs = S.costs.map fun e => (e.1, h e.2) from rfl, List.foldl_map]
  rfl

include hM hE in
theorem finiteCase_hom (fuel : Nat) (cur : CostTuple D) (st : Search A D) :
    finiteCase (S.map N F h) fuel cur (st.map h) = (finiteCase S fuel cur st).map (Search.map h) := by
  have hend := endingTransitions_hom (F := F) H S hM cur st.posAt
  have hmore := fun todo => moreTuples_hom (N := N) (F := F) (h := h) S cur todo
  subst hM hE
  have hcheap := costOf_hom H S.costs S.N.zero
  have hbef := before_hom H st.posAt
  rw [H.ff] at hbef
  unfold finiteCase
  rw [show (st.map h).posAt = mapVals h st.posAt from rfl, hend]
  have hgo := goalsWithin_hom (F := F) H S rfl cur (cur.waiting - 1)
  simp only [hmore, hgo]
  simp only [SearchIn.map, Search.map, hcheap, HE.zeroPre, HE.infPre, H.not, H.and, H.ff, H.tt, hbef]
  have w := whileLoop_hom H (fun x s => reachStep_hom H HE S.c S.goalNum false (S.M.and S.E.zeroPre (S.M.not S.E.infPre)) (endingTransitions S cur st.posAt)
    (costOf S.M S.costs S.N.zero) x s) fuel S.M.ff S.M.tt st.found
  rw [w]
  cases whileLoop (reachStep S.M S.c S.E S.goalNum false (S.M.and S.E.zeroPre (S.M.not S.E.infPre)) (endingTransitions S cur st.posAt)
    (costOf S.M S.costs S.N.zero)) fuel S.M.ff S.M.tt st.found with
  | none => rfl
  | some r =>
    obtain ⟨x, f⟩ := r
    simp only [Option.map_some, Prod.map]
    split
    · have etr : (f.map h).trans = h f.trans := rfl
      have eps : (f.map h).pos = h f.pos := rfl
      rw [etr, mapSet_hom, mapFloor_hom, orForgotten_hom H HE]
      generalize orForgotten S.M S.E (goalsWithin S cur (cur.waiting - 1)) (mapFloor S.p.waitingPreferred (mapSet S.p.waitingPreferred st.transAt cur f.trans)
        (mkTuple S.N S.p (cur.waiting - 1) cur.action)) = es
      rw [show (S.c.map h).livenessAssumptions = S.c.livenessAssumptions.map h from rfl, sccLoop_hom H HE]
      cases sccLoop S.M S.c S.E fuel S.goalNum S.goal false es (costOf S.M S.costs S.N.zero) 0 S.c.livenessAssumptions f with
      | none => rfl
      | some f' =>
        simp only [Option.map_some]
        have w' := whileLoop_hom H (fun x s => reachStep_hom H HE S.c S.goalNum true (S.M.not S.E.infPre) f'.trans (costOf S.M S.costs S.N.zero) x s)
          fuel f'.pos S.M.tt f'
        rw [show (f'.map h).trans = h f'.trans from rfl, show (f'.map h).pos = h f'.pos from rfl, w']
        cases whileLoop (reachStep S.M S.c S.E S.goalNum true (S.M.not S.E.infPre) f'.trans (costOf S.M S.costs S.N.zero)) fuel f'.pos S.M.tt f' with
        | none => rfl
        | some r =>
          obtain ⟨y, f2⟩ := r
          simp only [Option.map_some, Prod.map, Option.some.injEq, Search.map]
          simp only [Found.map, mapSet_hom, ne_eq, H.inj.eq_iff]
    · simp only [Option.map_some, Option.some.injEq, Search.map]
      simp only [Found.map, mapSet_hom, ne_eq, H.inj.eq_iff]

include hM hE in
theorem todoLoop_hom (fuel : Nat) : ∀ (n : Nat) (st : Search A D), todoLoop (S.map N F h) fuel n (st.map h) = (todoLoop S fuel n st).map (Search.map h)
  | 0, _ => rfl
  | n + 1, st => by
    rw [todoLoop, todoLoop, show (st.map h).todo = st.todo from rfl]
    cases st.todo with
    | nil => rfl
    | cons cur rest =>
      simp only
      have e : ({ st.map h with todo := rest } : Search B D) = ({ st with todo := rest } : Search A D).map h := rfl
      have es : tupleStep (S.map N F h) fuel cur (({ st with todo := rest } : Search A D).map h) = (tupleStep S fuel cur { st with todo := rest }).map (Search.map h) := by
        unfold tupleStep
        rw [show (S.map N F h).N = S.N from rfl]
        split
        · split
          · rfl
          · exact infiniteCase_hom H HE S hM hE fuel cur _
        · exact finiteCase_hom H HE S hM hE fuel cur _
      rw [e, es]
      cases tupleStep S fuel cur { st with todo := rest } with
      | none => rfl
      | some st' => exact todoLoop_hom fuel n st'

include hM hE in
theorem searchGoal_hom (fuel : Nat) (dump : Dump A) : searchGoal (S.map N F h) fuel (dump.map h) = (searchGoal S fuel dump).map (Search.map h) := by
  unfold searchGoal
  simp only
  rw [← todoLoop_hom H HE S hM hE]
  subst hM
  simp only [SearchIn.map, Search.map, Found.map, mapVals, List.foldl_map, List.map_nil, H.ff]

omit HE in
theorem fixBits_hom : ∀ (l : List (A × (A → A))) (l' : List (B × (B → B))),
    List.Forall₂ (fun (e : A × (A → A)) (f : B × (B → B)) => f.1 = h e.1 ∧ ∀ a, f.2 (h a) = h (e.2 a)) l l' → ∀ a, fixBits N l' (h a) = h (fixBits M l a)
  | _, _, .nil, _ => rfl
  | (v, ex) :: l, (v', ex') :: l', .cons h1 h2, a => by
    obtain ⟨hv, he⟩ := h1
    simp only at hv he
    subst hv
    rw [fixBits, fixBits, ← fixBits_hom l l' h2]
    simp only [H.not, H.and, he, H.or]

theorem bestInit_hom (c : Ctx A) (robotics : Bool) (W : A) (l : List (CostTuple D × A)) :
    bestInit N (c.map h) F robotics (h W) (mapVals h l) = h (bestInit M c E robotics W l) := by
  unfold bestInit
  simp only
  have e : (mapVals h l).foldl (fun (st : B × B) (e : CostTuple D × B) =>
      (N.or st.1 (N.and (N.and (h W) (fixBits N F.bits e.2)) (N.not st.2)),
        N.or st.2 (if robotics = true then F.forgetAll (N.and (h W) (fixBits N F.bits e.2))
          else N.exPreOutput (N.and (N.and (h W) (fixBits N F.bits e.2)) (c.map h).initSys)))) (N.ff, N.ff) =
      Prod.map h h (l.foldl (fun (st : A × A) (e : CostTuple D × A) =>
      (M.or st.1 (M.and (M.and W (fixBits M E.bits e.2)) (M.not st.2)),
        M.or st.2 (if robotics = true then E.forgetAll (M.and W (fixBits M E.bits e.2))
          else M.exPreOutput (M.and (M.and W (fixBits M E.bits e.2)) c.initSys)))) (M.ff, M.ff)) := by
    rw [mapVals, List.foldl_map, H.ff, show ((h M.ff, h M.ff) : B × B) = Prod.map h h (M.ff, M.ff) from rfl]
    refine List.foldl_hom (Prod.map h h) (fun st e => ?_)
    simp only [Prod.map, fixBits_hom H _ _ HE.bits, H.and, H.not, H.or, HE.forgetAll, Ctx.map, H.exPreOutput]
    cases robotics <;> simp only [if_true, if_false, Bool.false_eq_true, H.or]
  rw [e]
  simp only [Prod.map, Ctx.map, H.and]

theorem costGoals_hom (c : Ctx A) (DD : Doubles D) (p : Preference D) (costs : List (D × A)) (robotics : Bool) (W : A) (fuel : Nat) :
    ∀ (j : Nat) (goals : List A) (st : A × Dump A),
      costGoals N (c.map h) F DD p (mapVals h costs) robotics (h W) fuel j (goals.map h) (h st.1, st.2.map h) =
        (costGoals M c E DD p costs robotics W fuel j goals st).map (Prod.map h (Dump.map h))
  | _, [], _ => rfl
  | j, go :: goals, (i, dump) => by
    rw [List.map_cons, costGoals, costGoals]
    have hs := searchGoal_hom H HE { M := M, c := c, E := E, N := DD, p := p, costs := costs, goalNum := j, goal := go } rfl rfl fuel dump
    simp only [SearchIn.map] at hs
    simp only [hs]
    cases searchGoal { M := M, c := c, E := E, N := DD, p := p, costs := costs, goalNum := j, goal := go } fuel dump with
    | none => rfl
    | some s =>
      simp only [Option.map_some]
      rw [← costGoals_hom c DD p costs robotics W fuel (j + 1) goals]
      simp only [Search.map, bestInit_hom H HE, Found.map]
      split <;> rfl

end Slugs.Model
