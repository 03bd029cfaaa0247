import Verif.Lemmas.CostHom

/-!
Invariants of the search for a cost-optimal strategy: all transitions that are found obey the safety guarantees and lead to winning positions.
-/

namespace Slugs.Model

open Slugs.Spec

/-! ### Rules for `whileLoop` -/

section Rules

variable {B : Type} [DecidableEq B] {σ : Type}

theorem fixLoop_inv {step : B → σ → Option (B × σ)} (Inv : B → σ → Prop)
    (hstep : ∀ x s x' s', Inv x s → step x s = some (x', s') → Inv x' s') :
    ∀ (n : Nat) (x : B) (s : σ) (z : B) (t : σ), fixLoop step n x s = some (z, t) → Inv x s → Inv z t ∧ ∃ s', Inv z s' ∧ step z s' = some (z, t)
  | 0, _, _, _, _, h, _ => by cases h
  | n + 1, x, s, z, t, h, hi => by
    rw [fixLoop] at h
    cases hs : step x s with
    | none => rw [hs] at h; cases h
    | some r =>
      obtain ⟨x', s'⟩ := r
      rw [hs] at h
      simp only at h
      have hi' := hstep x s x' s' hi hs
      split at h
      · rename_i he
        subst he
        cases h
        exact ⟨hi', s, hi, hs⟩
      · exact fixLoop_inv Inv hstep n x' s' z t h hi'

theorem whileLoop_inv {step : B → σ → Option (B × σ)} (Inv : B → σ → Prop)
    (hstep : ∀ x s x' s', Inv x s → step x s = some (x', s') → Inv x' s') {n : Nat} {x y : B} {s : σ} {z : B} {t : σ}
    (h : whileLoop step n x y s = some (z, t)) (hi : Inv x s) : Inv z t ∧ (z = y ∨ ∃ s', Inv z s' ∧ step z s' = some (z, t)) := by
  rw [whileLoop] at h
  split at h
  · rename_i he
    cases h
    exact ⟨hi, .inl he⟩
  · obtain ⟨h1, h2⟩ := fixLoop_inv Inv hstep n x s z t h hi
    exact ⟨h1, .inr h2⟩

end Rules

/-! ### Winning positions -/

theorem mem_nuZ_iff {I O : Type} (g : Game I O) (s : Pos I O) : s ∈ nuZ g ↔ ∀ G ∈ g.guarantees, s ∈ muY g G (nuZ g) := by
  have := nuZ_fix g
  constructor
  · intro h
    rw [this] at h
    exact h
  · intro h
    rw [this]
    exact h

/-- A set of positions from which the system can force that a winning position is reached, or else an assumption is violated forever. -/
theorem sub_nuZ {I O : Type} (g : Game I O) {A : T I O} (hA : A ∈ g.assumptions) {X : Set (Pos I O)}
    (h : ∀ s ∈ X, ∀ i, g.safetyEnv s i → ∃ o, g.safetySys s (i, o) ∧ ((i, o) ∈ nuZ g ∨ ((i, o) ∈ X ∧ ¬ A s (i, o)))) : X ⊆ nuZ g := by
  intro s hs
  rw [mem_nuZ_iff]
  intro G hG
  refine nuX_sub_muY g G A (nuZ g) hA (le_nuX g G A (X := X) ?_ hs)
  intro u hu i hi
  obtain ⟨o, h1, h2⟩ := h u hu i hi
  exact ⟨o, .inr (h2.imp (fun h => (mem_nuZ_iff g _).mp h G hG) id), h1⟩

/-- A position from which the system can force that a winning position is reached. -/
theorem force_nuZ {I O : Type} (g : Game I O) (hA : g.assumptions ≠ []) {s : Pos I O}
    (h : ∀ i, g.safetyEnv s i → ∃ o, g.safetySys s (i, o) ∧ (i, o) ∈ nuZ g) : s ∈ nuZ g := by
  obtain ⟨A, as, e⟩ := List.exists_cons_of_ne_nil hA
  refine sub_nuZ g (A := A) (by rw [e]; simp) (X := {s}) ?_ rfl
  rintro u rfl i hi
  obtain ⟨o, h1, h2⟩ := h i hi
  exact ⟨o, h1, .inl h2⟩

/-! ### The game with the additional bits -/

section Ext

variable {X Y F : Type}

/-- The game with additional outputs that do not matter, and goals that have to be reached in winning positions. -/
def extGame (g : Game (X → Bool) (Y → Bool)) : Game (X → Bool) (Y ⊕ F → Bool) where
  initEnv := g.initEnv
  initSys s := g.initSys (basePos s)
  safetyEnv s i := g.safetyEnv (basePos s) i
  safetySys s t := g.safetySys (basePos s) (basePos t)
  assumptions := g.assumptions.map extLift
  guarantees := g.guarantees.map fun G => extLift fun s t => G s t ∧ t ∈ nuZ g

/-- Positions of the game with additional bits. -/
abbrev EPos (X Y F : Type) := Pos (X → Bool) (Y ⊕ F → Bool)

/-- Predicates of the game with additional bits. -/
abbrev ET (X Y F : Type) := T (X → Bool) (Y ⊕ F → Bool)

/-- The predicate depends only on the current position. -/
def PreOnly (f : ET X Y F) : Prop := ∀ s t t', f s t ↔ f s t'

variable (g : Game (X → Bool) (Y → Bool))

/-- The transitions obey the safety guarantees and lead to winning positions. -/
def GoodT (f : ET X Y F) : Prop := ∀ s t, f s t → g.safetyEnv (basePos s) t.1 → g.safetySys (basePos s) (basePos t) ∧ basePos t ∈ nuZ g

/-- The positions are winning. -/
def GoodP (f : ET X Y F) : Prop := ∀ s t, f s t → basePos s ∈ nuZ g

/-- The system can enforce a transition. -/
def Enforced (pos trans : ET X Y F) : Prop := ∀ s t, pos s t → ∀ i, g.safetyEnv (basePos s) i → ∃ o, trans s (i, o)

/-- The invariant of the inner loops. -/
structure FoundOK (f : Found (ET X Y F)) : Prop where
  trans : GoodT g f.trans
  pos : GoodP g f.pos
  preOnly : PreOnly f.pos
  enforced : Enforced g f.pos f.trans
  dump : ∀ e ∈ f.dump, GoodT g e.2

abbrev eMgr (X Y F : Type) : Mgr (ET X Y F) := semMgr (X → Bool) (Y ⊕ F → Bool)
abbrev eCtx (F : Type) (g : Game (X → Bool) (Y → Bool)) : Ctx (ET X Y F) := gameCtx (extGame (F := F) g)

variable {g}

theorem GoodT.or {f f' : ET X Y F} (h : GoodT g f) (h' : GoodT g f') : GoodT g ((eMgr X Y F).or f f') :=
  fun s t hs => hs.elim (h s t) (h' s t)

theorem GoodT.sub {f f' : ET X Y F} (h : GoodT g f) (hs : ∀ s t, f' s t → f s t) : GoodT g f' := fun s t hf => h s t (hs s t hf)

theorem enforce_iff (f : ET X Y F) (s t : EPos X Y F) :
    enforce (eMgr X Y F) (eCtx F g) f s t ↔ ∀ i, g.safetyEnv (basePos s) i → ∃ o, f s (i, o) := by
  simp only [enforce, semMgr, gameCtx, extGame]
  exact forall_congr' fun i => imp_iff_not_or.symm

variable {E : Helpers (ET X Y F)} (hE : HelpersOK E) (hA : g.assumptions ≠ [])
include hE hA

/-- One round of a reachability game. -/
theorem reachStep_ok {goal : Nat} {top : Bool} {mask ending cheap : ET X Y F} (hend : GoodT g ending) {x x' : ET X Y F} {st st' : Found (ET X Y F)}
    (hx : GoodP g x) (hst : FoundOK g st) (h : reachStep (eMgr X Y F) (eCtx F g) E goal top mask ending cheap x st = some (x', st')) :
    GoodP g x' ∧ FoundOK g st' := by
  simp only [reachStep, Option.some.injEq, Prod.mk.injEq] at h
  obtain ⟨rfl, rfl⟩ := h
  set newT : ET X Y F := (eMgr X Y F).and ((eMgr X Y F).and mask (eCtx F g).safetySys) ((eMgr X Y F).or ending ((eMgr X Y F).and cheap ((eMgr X Y F).swap x))) with hnewT
  have hT : GoodT g newT := by
    rintro s t ⟨⟨_, h1⟩, h2 | ⟨_, h2⟩⟩ hs
    · exact ⟨h1, (hend s t h2 hs).2⟩
    · exact ⟨h1, hx t s h2⟩
  have hP : GoodP g (enforce (eMgr X Y F) (eCtx F g) newT) := by
    intro s t hs
    rw [enforce_iff] at hs
    refine force_nuZ g hA fun i hi => ?_
    obtain ⟨o, ho⟩ := hs i hi
    exact ⟨fun y => o (.inl y), hT s (i, o) ho hi⟩
  refine ⟨hP, ?_⟩
  cases top
  · refine ⟨hst.trans.or hT, fun s t hs => hs.elim (hst.pos s t) (hP s t), ?_, ?_, ?_⟩
    · intro s t t'
      refine or_congr (hst.preOnly s t t') ?_
      simp only [Bool.false_eq_true, if_false]
      rw [enforce_iff, enforce_iff]
    · rintro s t (hs | hs) i hi
      · obtain ⟨o, ho⟩ := hst.enforced s t hs i hi
        exact ⟨o, .inl ho⟩
      · simp only [Bool.false_eq_true, if_false] at hs
        rw [enforce_iff] at hs
        obtain ⟨o, ho⟩ := hs i hi
        exact ⟨o, .inr ho⟩
    · intro e he
      rcases List.mem_append.mp he with he | he
      · exact hst.dump e he
      · rw [List.mem_singleton] at he
        subst he
        exact hT
  · have hT' : GoodT g ((eMgr X Y F).and ((eMgr X Y F).and newT (enforce (eMgr X Y F) (eCtx F g) newT)) E.zeroPre) := hT.sub fun s t h => h.1.1
    refine ⟨hst.trans.or hT', fun s t hs => hs.elim (hst.pos s t) fun h => hP s t h.1, ?_, ?_, ?_⟩
    · intro s t t'
      refine or_congr (hst.preOnly s t t') ?_
      simp only [if_true]
      refine and_congr ?_ (hE.zeroPre s t t')
      rw [enforce_iff, enforce_iff]
    · rintro s t (hs | hs) i hi
      · obtain ⟨o, ho⟩ := hst.enforced s t hs i hi
        exact ⟨o, .inl ho⟩
      · simp only [if_true] at hs ⊢
        obtain ⟨h1, h2⟩ := hs
        obtain ⟨o, ho⟩ := (enforce_iff newT s t).mp h1 i hi
        exact ⟨o, .inr ⟨⟨ho, (enforce_iff newT s _).mpr ((enforce_iff newT s t).mp h1)⟩, (hE.zeroPre s _ _).mp h2⟩⟩
    · intro e he
      rcases List.mem_append.mp he with he | he
      · exact hst.dump e he
      · rw [List.mem_singleton] at he
        subst he
        exact hT'

theorem reachLoop_ok {goal n : Nat} {top : Bool} {mask ending cheap : ET X Y F} (hend : GoodT g ending) {x y z : ET X Y F} {st st' : Found (ET X Y F)}
    (hx : GoodP g x) (hst : FoundOK g st)
    (h : whileLoop (reachStep (eMgr X Y F) (eCtx F g) E goal top mask ending cheap) n x y st = some (z, st')) : FoundOK g st' :=
  (whileLoop_inv (fun x st => GoodP g x ∧ FoundOK g st) (fun _ _ _ _ hi hs => reachStep_ok hE hA hend hi.1 hi.2 hs) h ⟨hx, hst⟩).1.2

/-- The loop over the assumptions. -/
theorem sccLoop_ok {fuel goalNum : Nat} {goal : ET X Y F} {inf : Bool} {escape cheap : ET X Y F} (hesc : GoodT g escape) :
    ∀ (i : Nat) (as : List (ET X Y F)) (st st' : Found (ET X Y F)), (∀ a ∈ as, ∃ A ∈ g.assumptions, a = extLift A) → FoundOK g st →
      sccLoop (eMgr X Y F) (eCtx F g) E fuel goalNum goal inf escape cheap i as st = some st' → FoundOK g st'
  | _, [], st, st', _, hst, h => by cases h; exact hst
  | i, a :: as, st, st', has, hst, h => by
    rw [sccLoop] at h
    simp only at h
    set pr : ET X Y F := if inf = true then E.infPre else (eMgr X Y F).not E.infPre
    set po : ET X Y F := if inf = true then E.infPost else (eMgr X Y F).not E.infPost
    cases h1 : whileLoop (sccStep (eMgr X Y F) (eCtx F g) E i a pr po escape cheap) fuel ((eMgr X Y F).not st.pos) (eMgr X Y F).ff () with
    | none => rw [h1] at h; cases h
    | some r =>
      obtain ⟨scc, u⟩ := r
      rw [h1] at h
      simp only at h
      cases h2 : whileLoop (closureStep (eMgr X Y F) E) fuel
          (internal (eMgr X Y F) (eCtx F g) E i a pr po cheap (if inf = true then (eMgr X Y F).ff else st.pos) scc) (eMgr X Y F).ff () with
      | none => rw [h2] at h; cases h
      | some r =>
        obtain ⟨cl, u'⟩ := r
        rw [h2] at h
        simp only at h
        refine sccLoop_ok hesc (i + 1) as _ st' (fun a ha => has a (List.mem_cons_of_mem _ ha)) ?_ h
        obtain ⟨A, hAm, rfl⟩ := has a (by simp)
        -- the positions of the loop
        obtain ⟨hpre, hfix⟩ := whileLoop_inv (fun x _ => PreOnly x) (by
          intro x s x' s' hx hs
          simp only [sccStep, Option.some.injEq, Prod.mk.injEq] at hs
          obtain ⟨rfl, -⟩ := hs
          intro s t t'
          exact and_congr (hx s t t') Iff.rfl) h1 (fun s t t' => not_congr (hst.preOnly s t t'))
        have hstep : ∀ s t, scc s t → ∀ i', ∃ o, sccTransitions (eMgr X Y F) (eCtx F g) E i (extLift A) pr po escape cheap scc s (i', o) := by
          intro s t hs
          rcases hfix with rfl | ⟨_, _, hf⟩
          · exact hs.elim
          · simp only [sccStep, Option.some.injEq, Prod.mk.injEq] at hf
            rw [← hf.1] at hs
            exact hs.2
        have hW : ∀ s t, scc s t → basePos s ∈ nuZ g := by
          have : {b | ∃ s t, basePos s = b ∧ scc s t} ⊆ nuZ g := by
            refine sub_nuZ g hAm ?_
            rintro _ ⟨s, t, rfl, hs⟩ i' hi'
            obtain ⟨o, _, ho⟩ := hstep s t hs i'
            rcases ho with ho | ⟨ho, h3 | h3⟩
            · exact absurd hi' ho
            · exact ⟨fun y => o (.inl y), ho, .inl (hesc s (i', o) h3 hi').2⟩
            · exact ⟨fun y => o (.inl y), ho, .inr ⟨⟨(i', o), s, rfl, h3.1.1.1.2⟩, h3.1.1.1.1⟩⟩
          exact fun s t hs => this ⟨s, t, rfl, hs⟩
        have hT : GoodT g (finalTransitions (eMgr X Y F) (eCtx F g) E i (extLift A) pr po escape cheap goal scc ((eMgr X Y F).and cl ((eMgr X Y F).swap cl))) := by
          rintro s t ⟨_, h3 | ⟨h4, h5 | h5⟩⟩ hs
          · exact absurd hs h3
          · exact ⟨h4, (hesc s t h5.1 hs).2⟩
          · exact ⟨h4, hW t s h5.1.1.1.2⟩
        refine ⟨hst.trans.or hT, fun s t hs => hs.elim (hst.pos s t) fun h => hW s t h.1, ?_, ?_, ?_⟩
        · intro s t t'
          exact or_congr (hst.preOnly s t t') (and_congr (hpre s t t') Iff.rfl)
        · rintro s t (hs | hs) i' hi'
          · obtain ⟨o, ho⟩ := hst.enforced s t hs i' hi'
            exact ⟨o, .inl ho⟩
          · obtain ⟨o, ho⟩ := hs.2 i'
            exact ⟨o, .inr ho⟩
        · intro e he
          rcases List.mem_append.mp he with he | he
          · exact hst.dump e he
          · rw [List.mem_singleton] at he
            subst he
            exact hT

/-! ### The search for one goal -/

variable {D : Type} [LinearOrder D]

omit hE hA in
theorem mapFloor_mem {pref : Bool} {l : List (CostTuple D × ET X Y F)} {t : CostTuple D} {b : ET X Y F} (h : mapFloor pref l t = some b) : ∃ e ∈ l, e.2 = b := by
  rw [mapFloor] at h
  cases h1 : (l.takeWhile fun e => !t.lt pref e.1).getLast? with
  | none => rw [h1] at h; cases h
  | some e =>
    rw [h1] at h
    cases h
    exact ⟨e, (List.takeWhile_prefix _).subset (List.mem_of_getLast? h1), rfl⟩

omit hE hA in
theorem mapSet_mem {pref : Bool} {t : CostTuple D} {b : ET X Y F} : ∀ {l : List (CostTuple D × ET X Y F)} {e}, e ∈ mapSet pref l t b → e ∈ l ∨ e.2 = b
  | [], e, h => by
    rw [mapSet, List.mem_singleton] at h
    exact .inr (by rw [h])
  | (u, a) :: us, e, h => by
    rw [mapSet] at h
    split at h
    · rcases List.mem_cons.mp h with rfl | h
      · exact .inr rfl
      · exact .inl h
    · split at h
      · rcases List.mem_cons.mp h with rfl | h
        · exact .inl (by simp)
        · exact (mapSet_mem h).imp (List.mem_cons_of_mem _) id
      · rcases List.mem_cons.mp h with rfl | h
        · exact .inr rfl
        · exact .inl (List.mem_cons_of_mem _ h)

variable (g) in
/-- The invariant of the search. -/
structure SearchOK (st : Search (ET X Y F) D) : Prop where
  found : FoundOK g st.found
  transAt : ∀ e ∈ st.transAt, GoodT g e.2
  posAt : ∀ e ∈ st.posAt, GoodP g e.2 ∧ PreOnly e.2

variable {S : SearchIn (ET X Y F) D} (hM : S.M = eMgr X Y F) (hc : S.c = eCtx F g) (hSE : S.E = E)
  (hG : ∃ G : T (X → Bool) (Y → Bool), S.goal = extLift fun s t => G s t ∧ t ∈ nuZ g)

omit hA in
theorem orForgotten_ok {es : ET X Y F} (he : GoodT g es) {o : Option (ET X Y F)} (ho : ∀ t, o = some t → GoodT g t) : GoodT g (orForgotten (eMgr X Y F) E es o) := by
  cases o with
  | none => exact he
  | some t =>
    refine he.or fun s u hs hi => ?_
    obtain ⟨s', h1, h2⟩ := hE.forget t s u hs
    rw [← h1] at hi ⊢
    exact ho t rfl s' u h2 hi

include hM hc hG in
omit hE hA in
theorem goalsWithin_ok (cur : CostTuple D) (w : Nat) : GoodT g (goalsWithin S cur w) := by
  obtain ⟨G, hG⟩ := hG
  unfold goalsWithin
  rw [hM, hc, hG]
  have key : ∀ (l : List (D × ET X Y F)) (b : ET X Y F), GoodT g b →
      GoodT g (l.foldl (fun b u => if (mkTuple S.N S.p w u.1).le S.p.waitingPreferred cur = true then
        (eMgr X Y F).or b ((eMgr X Y F).and ((eMgr X Y F).and u.2 (eCtx F g).safetySys) (extLift fun s t => G s t ∧ t ∈ nuZ g)) else b) b) := by
    intro l
    induction l with
    | nil => exact fun b hb => hb
    | cons u l ih =>
      intro b hb
      refine ih _ ?_
      beta_reduce
      split
      · exact hb.or fun s t hs _ => ⟨hs.1.2, hs.2.2⟩
      · exact hb
  exact key _ _ fun _ _ h => h.elim

include hM hc hG in
omit hE hA in
theorem endingTransitions_ok (cur : CostTuple D) {l : List (CostTuple D × ET X Y F)} (hl : ∀ e ∈ l, GoodP g e.2) : GoodT g (endingTransitions S cur l) := by
  have h0 := goalsWithin_ok hM hc hG cur 0
  unfold endingTransitions
  simp only [hM, hc]
  have key : ∀ (cs : List (D × ET X Y F)) (b : ET X Y F), GoodT g b →
      GoodT g (cs.foldl (fun b u => orReach (eMgr X Y F) (eCtx F g) u.2 b
        (mapFloor S.p.waitingPreferred l (mkTuple S.N S.p cur.waiting (S.N.next (S.N.sub cur.action u.1))))) b) := by
    intro cs
    induction cs with
    | nil => exact fun b hb => hb
    | cons u cs ih =>
      intro b hb
      refine ih _ ?_
      beta_reduce
      cases hm : mapFloor S.p.waitingPreferred l (mkTuple S.N S.p cur.waiting (S.N.next (S.N.sub cur.action u.1))) with
      | none => exact hb
      | some w =>
        obtain ⟨e, he, rfl⟩ := mapFloor_mem hm
        exact hb.or fun s t hs _ => ⟨hs.1.1, hl e he t s hs.1.2⟩
  exact key _ _ h0

omit hE hA in
theorem eCtx_assumptions : ∀ a ∈ (eCtx F g).livenessAssumptions, ∃ A ∈ g.assumptions, a = extLift A := by
  intro a ha
  obtain ⟨A, h1, h2⟩ := List.mem_map.mp ha
  exact ⟨A, h1, h2.symm⟩

include hM hc hSE hG in
theorem tupleStep_ok {fuel : Nat} {cur : CostTuple D} {st st' : Search (ET X Y F) D} (hst : SearchOK g st) (h : tupleStep S fuel cur st = some st') :
    SearchOK g st' := by
  rw [tupleStep] at h
  have hff : GoodP g (eMgr X Y F).ff := fun _ _ h => h.elim
  split at h
  · split at h
    · cases h; exact hst
    · -- infinite
      unfold infiniteCase at h
      simp only at h
      rw [hM, hc, hSE] at h
      have hesc : GoodT g (orForgotten (eMgr X Y F) E ((eMgr X Y F).and (eCtx F g).safetySys S.goal)
          (mapFloor S.p.waitingPreferred st.transAt (mkTuple S.N S.p (cur.waiting - 1) cur.action))) := by
        refine orForgotten_ok hE ?_ fun t ht => ?_
        · obtain ⟨G, hG⟩ := hG
          rw [hG]
          exact fun s t hs _ => ⟨hs.1, hs.2.2⟩
        · obtain ⟨e, he, rfl⟩ := mapFloor_mem ht
          exact hst.transAt e he
      cases h1 : sccLoop (eMgr X Y F) (eCtx F g) E fuel S.goalNum S.goal true (orForgotten (eMgr X Y F) E ((eMgr X Y F).and (eCtx F g).safetySys S.goal)
          (mapFloor S.p.waitingPreferred st.transAt (mkTuple S.N S.p (cur.waiting - 1) cur.action))) (eMgr X Y F).tt 0 (eCtx F g).livenessAssumptions st.found with
      | none => rw [h1] at h; cases h
      | some f =>
        rw [h1] at h
        simp only at h
        have hf := sccLoop_ok hE hA hesc 0 _ _ _ eCtx_assumptions hst.found h1
        cases h2 : whileLoop (reachStep (eMgr X Y F) (eCtx F g) E S.goalNum true E.infPre f.trans (eMgr X Y F).tt) fuel (eMgr X Y F).ff (eMgr X Y F).tt f with
        | none => rw [h2] at h; cases h
        | some r =>
          obtain ⟨x, f'⟩ := r
          rw [h2] at h
          simp only [Option.some.injEq] at h
          have hf' := reachLoop_ok hE hA hf.trans hff hf h2
          subst h
          exact ⟨hf', fun e he => (mapSet_mem he).elim (hst.transAt e) fun h => h ▸ hf'.trans,
            fun e he => (mapSet_mem he).elim (hst.posAt e) fun h => h ▸ ⟨hf'.pos, hf'.preOnly⟩⟩
  · unfold finiteCase at h
    simp only at h
    have hend := endingTransitions_ok hM hc hG cur (fun e he => (hst.posAt e he).1)
    have hgo := goalsWithin_ok hM hc hG cur (cur.waiting - 1)
    rw [hM, hc, hSE] at h
    cases h1 : whileLoop (reachStep (eMgr X Y F) (eCtx F g) E S.goalNum false ((eMgr X Y F).and E.zeroPre ((eMgr X Y F).not E.infPre))
        (endingTransitions S cur st.posAt) (costOf (eMgr X Y F) S.costs S.N.zero)) fuel (eMgr X Y F).ff (eMgr X Y F).tt st.found with
    | none => rw [h1] at h; cases h
    | some r =>
      obtain ⟨x, f⟩ := r
      rw [h1] at h
      simp only at h
      have hf := reachLoop_ok hE hA hend hff hst.found h1
      have htr : ∀ e ∈ mapSet S.p.waitingPreferred st.transAt cur f.trans, GoodT g e.2 := fun e he => (mapSet_mem he).elim (hst.transAt e) fun h => h ▸ hf.trans
      have hps : ∀ e ∈ mapSet S.p.waitingPreferred st.posAt cur f.pos, GoodP g e.2 ∧ PreOnly e.2 := fun e he =>
        (mapSet_mem he).elim (hst.posAt e) fun h => h ▸ ⟨hf.pos, hf.preOnly⟩
      split at h
      · have hesc : GoodT g (orForgotten (eMgr X Y F) E (goalsWithin S cur (cur.waiting - 1))
            (mapFloor S.p.waitingPreferred (mapSet S.p.waitingPreferred st.transAt cur f.trans) (mkTuple S.N S.p (cur.waiting - 1) cur.action))) := by
          refine orForgotten_ok hE hgo fun t ht => ?_
          obtain ⟨e, he, rfl⟩ := mapFloor_mem ht
          exact htr e he
        cases h2 : sccLoop (eMgr X Y F) (eCtx F g) E fuel S.goalNum S.goal false (orForgotten (eMgr X Y F) E (goalsWithin S cur (cur.waiting - 1))
            (mapFloor S.p.waitingPreferred (mapSet S.p.waitingPreferred st.transAt cur f.trans) (mkTuple S.N S.p (cur.waiting - 1) cur.action)))
            (costOf (eMgr X Y F) S.costs S.N.zero) 0 (eCtx F g).livenessAssumptions f with
        | none => rw [h2] at h; cases h
        | some f2 =>
          rw [h2] at h
          simp only at h
          have hf2 := sccLoop_ok hE hA hesc 0 _ _ _ eCtx_assumptions hf h2
          cases h3 : whileLoop (reachStep (eMgr X Y F) (eCtx F g) E S.goalNum true ((eMgr X Y F).not E.infPre) f2.trans (costOf (eMgr X Y F) S.costs S.N.zero))
              fuel f2.pos (eMgr X Y F).tt f2 with
          | none => rw [h3] at h; cases h
          | some r =>
            obtain ⟨y, f3⟩ := r
            rw [h3] at h
            simp only [Option.some.injEq] at h
            have hf3 := reachLoop_ok hE hA hf2.trans hf2.pos hf2 h3
            subst h
            exact ⟨hf3, fun e he => (mapSet_mem he).elim (htr e) fun h => h ▸ hf3.trans,
              fun e he => (mapSet_mem he).elim (hps e) fun h => h ▸ ⟨hf3.pos, hf3.preOnly⟩⟩
      · cases h
        exact ⟨hf, htr, hps⟩

include hM hc hSE hG in
theorem todoLoop_ok {fuel : Nat} : ∀ (n : Nat) {st st' : Search (ET X Y F) D}, SearchOK g st → todoLoop S fuel n st = some st' → SearchOK g st'
  | 0, _, _, _, h => by cases h
  | n + 1, st, st', hst, h => by
    rw [todoLoop] at h
    cases ht : st.todo with
    | nil => rw [ht] at h; cases h; exact hst
    | cons cur rest =>
      rw [ht] at h
      simp only at h
      cases h1 : tupleStep S fuel cur { st with todo := rest } with
      | none => rw [h1] at h; cases h
      | some st1 =>
        rw [h1] at h
        have h2 : SearchOK g ({ st with todo := rest } : Search (ET X Y F) D) := ⟨hst.found, hst.transAt, hst.posAt⟩
        exact todoLoop_ok n (tupleStep_ok hE hA hM hc hSE hG h2 h1) h

include hM hc hSE hG in
theorem searchGoal_ok {fuel : Nat} {dump : Dump (ET X Y F)} (hd : ∀ e ∈ dump, GoodT g e.2) {st : Search (ET X Y F) D} (h : searchGoal S fuel dump = some st) :
    SearchOK g st := by
  refine todoLoop_ok hE hA hM hc hSE hG _ ?_ h
  rw [hM]
  exact ⟨⟨fun _ _ h => h.elim, fun _ _ h => h.elim, fun _ _ _ => Iff.rfl, fun _ _ h => h.elim, hd⟩, fun _ h => (List.not_mem_nil h).elim, fun _ h => (List.not_mem_nil h).elim⟩

/-! ### All goals -/

omit hE hA in
theorem fixBits_preOnly : ∀ (l : List (ET X Y F × (ET X Y F → ET X Y F))),
    (∀ e ∈ l, PreOnly e.1 ∧ ∀ f, PreOnly f → PreOnly (e.2 f)) → ∀ f, PreOnly f → PreOnly (fixBits (eMgr X Y F) l f)
  | [], _, _, hf => hf
  | (v, ex) :: l, h, f, hf => by
    rw [fixBits]
    refine fixBits_preOnly l (fun e he => h e (List.mem_cons_of_mem _ he)) _ ?_
    obtain ⟨hv, hex⟩ := h (v, ex) (by simp)
    have h1 : PreOnly ((eMgr X Y F).and f ((eMgr X Y F).not v)) := fun s t t' => and_congr (hf s t t') (not_congr (hv s t t'))
    have h2 := hex _ h1
    exact fun s t t' => and_congr (hf s t t') (or_congr (not_congr (hv s t t')) (and_congr (hv s t t') (not_congr (h2 s t t'))))

omit hA in
theorem bestInit_ok {W : ET X Y F} (hW : PreOnly W) {l : List (CostTuple D × ET X Y F)} (hl : ∀ e ∈ l, PreOnly e.2) (robotics : Bool) :
    PreOnly (bestInit (eMgr X Y F) (eCtx F g) E robotics W l) ∧
    ∀ s t, bestInit (eMgr X Y F) (eCtx F g) E robotics W l s t → g.initSys (basePos s) := by
  unfold bestInit
  simp only
  refine ⟨?_, fun s t h => h.1⟩
  have key : ∀ (l : List (CostTuple D × ET X Y F)) (st : ET X Y F × ET X Y F), (∀ e ∈ l, PreOnly e.2) → PreOnly st.1 ∧ PreOnly st.2 →
      PreOnly (l.foldl (fun (st : ET X Y F × ET X Y F) e =>
        ((eMgr X Y F).or st.1 ((eMgr X Y F).and ((eMgr X Y F).and W (fixBits (eMgr X Y F) E.bits e.2)) ((eMgr X Y F).not st.2)),
          (eMgr X Y F).or st.2 (if robotics = true then E.forgetAll ((eMgr X Y F).and W (fixBits (eMgr X Y F) E.bits e.2))
            else (eMgr X Y F).exPreOutput ((eMgr X Y F).and ((eMgr X Y F).and W (fixBits (eMgr X Y F) E.bits e.2)) (eCtx F g).initSys)))) st).1 := by
    intro l
    induction l with
    | nil => exact fun st _ h => h.1
    | cons e l ih =>
      intro st hl hst
      have hn : PreOnly ((eMgr X Y F).and W (fixBits (eMgr X Y F) E.bits e.2)) := fun s t t' =>
        and_congr (hW s t t') (fixBits_preOnly E.bits (fun e he => hE.bits e he) _ (hl e (by simp)) s t t')
      refine ih _ (fun e he => hl e (List.mem_cons_of_mem _ he)) ⟨?_, ?_⟩
      · exact fun s t t' => or_congr (hst.1 s t t') (and_congr (hn s t t') (not_congr (hst.2 s t t')))
      · intro s t t'
        refine or_congr (hst.2 s t t') ?_
        split
        · exact hE.forgetAll _ hn s t t'
        · refine exists_congr fun o => and_congr (hn _ t t') Iff.rfl
  exact fun s t t' => and_congr Iff.rfl (key l _ hl ⟨fun _ _ _ => Iff.rfl, fun _ _ _ => Iff.rfl⟩ s t t')

/-- What the search leaves behind. -/
theorem costGoals_ok {N : Doubles D} {p : Preference D} {costs : List (D × ET X Y F)} {robotics : Bool} {W : ET X Y F} (hW : PreOnly W) {fuel : Nat} :
    ∀ (j : Nat) (goals : List (ET X Y F)) (st r : ET X Y F × Dump (ET X Y F)),
      (∀ b ∈ goals, ∃ G : T (X → Bool) (Y → Bool), b = extLift fun s t => G s t ∧ t ∈ nuZ g) →
      (PreOnly st.1 ∧ ∀ s t, st.1 s t → g.initSys (basePos s)) → (∀ e ∈ st.2, GoodT g e.2) →
      costGoals (eMgr X Y F) (eCtx F g) E N p costs robotics W fuel j goals st = some r →
      (PreOnly r.1 ∧ ∀ s t, r.1 s t → g.initSys (basePos s)) ∧ ∀ e ∈ r.2, GoodT g e.2
  | _, [], _, _, _, h1, h2, h => by cases h; exact ⟨h1, h2⟩
  | j, b :: goals, (i, dump), r, hb, h1, h2, h => by
    rw [costGoals] at h
    cases hs : searchGoal { M := eMgr X Y F, c := eCtx F g, E := E, N := N, p := p, costs := costs, goalNum := j, goal := b } fuel dump with
    | none => rw [hs] at h; cases h
    | some s =>
      rw [hs] at h
      have hok := searchGoal_ok hE hA (S := { M := eMgr X Y F, c := eCtx F g, E := E, N := N, p := p, costs := costs, goalNum := j, goal := b })
        rfl rfl rfl (hb b (by simp)) h2 hs
      refine costGoals_ok hW (j + 1) goals _ r (fun b' hb' => hb b' (List.mem_cons_of_mem _ hb')) ?_ hok.found.dump h
      simp only
      split
      · exact bestInit_ok hE hW (fun e he => (hok.posAt e he).2) robotics
      · exact h1

end Ext

end Slugs.Model
