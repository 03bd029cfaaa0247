import Verif.Lemmas.CostSound
import Verif.Lemmas.FixLoop
import Mathlib.Data.Prod.Lex
import Mathlib.Data.Finite.Prod
import Mathlib.Data.Finite.Sum

/-! The search for a cost-optimal strategy ends. -/

namespace Slugs.Model

open Slugs.Spec

section Loops

variable {X Y F : Type} [Finite X] [Finite Y] [Finite F]

open Classical in
/-- The number of pairs of positions that are not in the set. -/
noncomputable def outside (f : ET X Y F) : Nat := {q : EPos X Y F × EPos X Y F | ¬ f q.1 q.2}.ncard

theorem outside_le (f : ET X Y F) : outside f ≤ Nat.card (EPos X Y F × EPos X Y F) := by
  rw [outside, ← Set.ncard_univ]
  exact Set.ncard_le_ncard (Set.subset_univ _) (Set.toFinite _)

theorem outside_lt {f f' : ET X Y F} (h : ∀ s t, f s t → f' s t) (hne : f ≠ f') : outside f' < outside f := by
  refine Set.ncard_lt_ncard ?_ (Set.toFinite _)
  refine Set.ssubset_iff_subset_ne.mpr ⟨fun q hq hf => hq (h _ _ hf), fun he => hne ?_⟩
  funext s t
  have := Set.ext_iff.mp he (s, t)
  simp only [Set.mem_setOf_eq] at this
  exact propext (not_iff_not.mp this.symm)

theorem outside_mono {f f' : ET X Y F} (h : ∀ s t, f s t → f' s t) : outside f' ≤ outside f :=
  Set.ncard_le_ncard (fun _ hq hf => hq (h _ _ hf)) (Set.toFinite _)

open Classical in
/-- A loop in which the set grows. -/
theorem whileLoop_up {σ : Type} {step : ET X Y F → σ → Option (ET X Y F × σ)} (Inv : ET X Y F → Prop)
    (hstep : ∀ x s, Inv x → ∃ x' s', step x s = some (x', s') ∧ Inv x' ∧ ∀ a b, x a b → x' a b) {n : Nat} (hn : Nat.card (EPos X Y F × EPos X Y F) < n)
    {x y : ET X Y F} {s : σ} (hx : Inv x) : ∃ z t, whileLoop step n x y s = some (z, t) := by
  rw [whileLoop]
  split
  · exact ⟨_, _, rfl⟩
  · obtain ⟨z, _, t', h, _⟩ := fixLoop_rule (step := step) (fun x _ => Inv x) outside (by
      intro x s hx
      obtain ⟨x', s', h1, h2, h3⟩ := hstep x s hx
      exact ⟨x', s', h1, fun hne => ⟨h2, outside_lt h3 hne⟩⟩) n x s hx (lt_of_le_of_lt (outside_le x) hn)
    exact ⟨z, t', h⟩

open Classical in
/-- A loop in which the set shrinks. -/
theorem whileLoop_down {σ : Type} {step : ET X Y F → σ → Option (ET X Y F × σ)}
    (hstep : ∀ x s, ∃ x' s', step x s = some (x', s') ∧ ∀ a b, x' a b → x a b) {n : Nat} (hn : Nat.card (EPos X Y F × EPos X Y F) < n)
    {x y : ET X Y F} {s : σ} : ∃ z t, whileLoop step n x y s = some (z, t) := by
  rw [whileLoop]
  split
  · exact ⟨_, _, rfl⟩
  · obtain ⟨z, _, t', h, _⟩ := fixLoop_rule (step := step) (fun _ _ => True) (fun x => outside fun s t => ¬ x s t) (by
      intro x s _
      obtain ⟨x', s', h1, h3⟩ := hstep x s
      refine ⟨x', s', h1, fun hne => ⟨trivial, outside_lt (fun s t h hx => h (h3 s t hx)) fun he => hne ?_⟩⟩
      funext s t
      exact propext (not_iff_not.mp (iff_of_eq (congrFun (congrFun he s) t)))) n x s trivial (lt_of_le_of_lt (outside_le _) hn)
    exact ⟨z, t', h⟩

variable {g : Game (X → Bool) (Y → Bool)} {E : Helpers (ET X Y F)}

/-- The transitions do not start in positions with infinite cost. -/
def NoInf (g : Game (X → Bool) (Y → Bool)) (E : Helpers (ET X Y F)) (f : ET X Y F) : Prop := ∀ s t, f s t → g.safetyEnv (basePos s) t.1 → ¬ E.infPre s t

omit [Finite X] [Finite Y] [Finite F] in
theorem enforce_mono {f f' : ET X Y F} (h : ∀ s t, f s t → f' s t) (s t) (hf : enforce (eMgr X Y F) (eCtx F g) f s t) :
    enforce (eMgr X Y F) (eCtx F g) f' s t := by
  rw [enforce_iff] at hf ⊢
  intro i hi
  obtain ⟨o, ho⟩ := hf i hi
  exact ⟨o, h _ _ ho⟩

/-- A reachability game ends if it starts with positions from which they can be enforced. -/
theorem reachLoop_ends {goal n : Nat} {top : Bool} {mask ending cheap : ET X Y F} (hn : Nat.card (EPos X Y F × EPos X Y F) < n) {x y : ET X Y F} {st : Found (ET X Y F)}
    (hx : ∀ s t, x s t → enforce (eMgr X Y F) (eCtx F g)
      ((eMgr X Y F).and ((eMgr X Y F).and mask (eCtx F g).safetySys) ((eMgr X Y F).or ending ((eMgr X Y F).and cheap ((eMgr X Y F).swap x)))) s t) :
    ∃ z st', whileLoop (reachStep (eMgr X Y F) (eCtx F g) E goal top mask ending cheap) n x y st = some (z, st') := by
  refine whileLoop_up (fun x => ∀ s t, x s t → enforce (eMgr X Y F) (eCtx F g)
      ((eMgr X Y F).and ((eMgr X Y F).and mask (eCtx F g).safetySys) ((eMgr X Y F).or ending ((eMgr X Y F).and cheap ((eMgr X Y F).swap x)))) s t) ?_ hn hx
  intro x st hx
  refine ⟨_, _, rfl, ?_, hx⟩
  refine enforce_mono fun s t h => ?_
  exact ⟨h.1, h.2.imp id fun h => ⟨h.1, hx t s h.2⟩⟩

omit [Finite X] [Finite Y] [Finite F] in
theorem reachLoop_facts {goal n : Nat} {top : Bool} {mask ending cheap : ET X Y F} {x y z : ET X Y F} {st st' : Found (ET X Y F)}
    (h : whileLoop (reachStep (eMgr X Y F) (eCtx F g) E goal top mask ending cheap) n x y st = some (z, st')) :
    (∀ s t, st.pos s t → st'.pos s t) ∧ ((∀ s t, mask s t → ¬ E.infPre s t) → NoInf g E st.trans → NoInf g E st'.trans) := by
  refine (whileLoop_inv (fun _ st' => (∀ s t, st.pos s t → st'.pos s t) ∧ ((∀ s t, mask s t → ¬ E.infPre s t) → NoInf g E st.trans → NoInf g E st'.trans)) ?_ h
    ⟨fun _ _ h => h, fun _ h => h⟩).1
  intro x s1 x' s1' hi hs
  simp only [reachStep, Option.some.injEq, Prod.mk.injEq] at hs
  obtain ⟨-, rfl⟩ := hs
  refine ⟨fun s t h => .inl (hi.1 s t h), fun hm hst s t h hs => ?_⟩
  rcases h with h | h
  · exact hi.2 hm hst s t h hs
  · cases top
    · exact hm s t h.1.1
    · exact hm s t h.1.1.1.1

/-- The loop over the assumptions ends. -/
theorem sccLoop_ends {fuel : Nat} (hn : Nat.card (EPos X Y F × EPos X Y F) < fuel) {goalNum : Nat} {goal : ET X Y F} {inf : Bool} {escape cheap : ET X Y F} :
    ∀ (i : Nat) (as : List (ET X Y F)) (st : Found (ET X Y F)),
      ∃ st', sccLoop (eMgr X Y F) (eCtx F g) E fuel goalNum goal inf escape cheap i as st = some st' ∧ (∀ s t, st.pos s t → st'.pos s t) ∧
        (inf = false → NoInf g E st.trans → NoInf g E st'.trans)
  | _, [], st => ⟨st, rfl, fun _ _ h => h, fun _ h => h⟩
  | i, a :: as, st => by
    rw [sccLoop]
    simp only
    set pr : ET X Y F := if inf = true then E.infPre else (eMgr X Y F).not E.infPre with hpr
    set po : ET X Y F := if inf = true then E.infPost else (eMgr X Y F).not E.infPost
    obtain ⟨scc, u, h1⟩ := whileLoop_down (step := sccStep (eMgr X Y F) (eCtx F g) E i a pr po escape cheap)
      (fun x s => ⟨_, _, rfl, fun a b h => h.1⟩) hn (x := (eMgr X Y F).not st.pos) (y := (eMgr X Y F).ff) (s := ())
    rw [h1]
    simp only
    obtain ⟨cl, u', h2⟩ := whileLoop_up (step := closureStep (eMgr X Y F) E) (fun _ => True) (fun x s _ => ⟨_, _, rfl, trivial, fun a b h => .inl h⟩) hn
      (x := internal (eMgr X Y F) (eCtx F g) E i a pr po cheap (if inf = true then (eMgr X Y F).ff else st.pos) scc) (y := (eMgr X Y F).ff) (s := ()) trivial
    rw [h2]
    simp only
    obtain ⟨st', h3, h4, h5⟩ := sccLoop_ends hn (goalNum := goalNum) (goal := goal) (inf := inf) (escape := escape) (cheap := cheap) (i + 1) as
      { trans := (eMgr X Y F).or st.trans (finalTransitions (eMgr X Y F) (eCtx F g) E i a pr po escape cheap goal scc ((eMgr X Y F).and cl ((eMgr X Y F).swap cl)))
        pos := (eMgr X Y F).or st.pos ((eMgr X Y F).and scc ((eMgr X Y F).allPostInput ((eMgr X Y F).exPostOutput
          (finalTransitions (eMgr X Y F) (eCtx F g) E i a pr po escape cheap goal scc ((eMgr X Y F).and cl ((eMgr X Y F).swap cl))))))
        dump := st.dump ++ [(goalNum, finalTransitions (eMgr X Y F) (eCtx F g) E i a pr po escape cheap goal scc ((eMgr X Y F).and cl ((eMgr X Y F).swap cl)))] }
    refine ⟨st', h3, fun s t h => h4 s t (.inl h), fun hi hst => h5 hi ?_⟩
    rintro s t (h | h) hs
    · exact hst s t h hs
    · subst hi
      exact h.1.2

end Loops

/-! ### Tuples -/

section Tuples

variable {D : Type} [LinearOrder D]

theorem CostTuple.lt_true (s t : CostTuple D) : s.lt true t = true ↔
    toLex (s.combined, toLex (s.waiting, s.action)) < toLex (t.combined, toLex (t.waiting, t.action)) := by
  simp only [CostTuple.lt, Prod.Lex.toLex_lt_toLex]
  rcases lt_trichotomy s.combined t.combined with h | h | h
  · simp [h]
  · rcases lt_trichotomy s.waiting t.waiting with h' | h' | h'
    · simp [h, h']
    · simp [h, h']
    · simp [h, h', h'.not_gt, h'.ne']
  · simp [h, h.not_gt, h.ne']

theorem CostTuple.lt_false (s t : CostTuple D) : s.lt false t = true ↔
    toLex (s.combined, toLex (s.action, s.waiting)) < toLex (t.combined, toLex (t.action, t.waiting)) := by
  simp only [CostTuple.lt, Prod.Lex.toLex_lt_toLex]
  rcases lt_trichotomy s.combined t.combined with h | h | h
  · simp [h]
  · rcases lt_trichotomy s.action t.action with h' | h' | h'
    · simp [h, h']
    · simp [h, h']
    · simp [h, h', h'.not_gt, h'.ne']
  · simp [h, h.not_gt, h.ne']

theorem CostTuple.lt_trans {pref : Bool} {a b c : CostTuple D} (h : a.lt pref b = true) (h' : b.lt pref c = true) : a.lt pref c = true := by
  cases pref
  · rw [CostTuple.lt_false] at *; exact _root_.lt_trans h h'
  · rw [CostTuple.lt_true] at *; exact _root_.lt_trans h h'

theorem CostTuple.lt_asymm {pref : Bool} {a b : CostTuple D} (h : a.lt pref b = true) : ¬ b.lt pref a = true := by
  cases pref
  · rw [CostTuple.lt_false] at *; exact _root_.lt_asymm h
  · rw [CostTuple.lt_true] at *; exact _root_.lt_asymm h

theorem CostTuple.lt_cotrans {pref : Bool} {a b c : CostTuple D} (h : a.lt pref c = true) : a.lt pref b = true ∨ b.lt pref c = true := by
  cases pref
  · rw [CostTuple.lt_false] at *
    rw [CostTuple.lt_false]
    exact (lt_or_ge _ _).imp id fun h' => lt_of_le_of_lt h' h
  · rw [CostTuple.lt_true] at *
    rw [CostTuple.lt_true]
    exact (lt_or_ge _ _).imp id fun h' => lt_of_le_of_lt h' h

/-- Ordered lists of tuples. -/
abbrev Ordered (pref : Bool) (l : List (CostTuple D)) : Prop := l.Pairwise fun a b => a.lt pref b = true

theorem tupleInsert_mem {pref : Bool} {t : CostTuple D} : ∀ {l : List (CostTuple D)} {u}, u ∈ tupleInsert pref l t → u = t ∨ u ∈ l
  | [], u, h => .inl (by simpa [tupleInsert] using h)
  | v :: l, u, h => by
    rw [tupleInsert] at h
    split at h
    · simpa using h
    · split at h
      · rcases List.mem_cons.mp h with rfl | h
        · simp
        · exact (tupleInsert_mem h).imp id (List.mem_cons_of_mem _)
      · exact .inr h

theorem tupleInsert_length {pref : Bool} {t : CostTuple D} : ∀ (l : List (CostTuple D)), (tupleInsert pref l t).length ≤ l.length + 1
  | [] => by simp [tupleInsert]
  | v :: l => by
    rw [tupleInsert]
    split
    · simp
    · split
      · simpa using tupleInsert_length l
      · simp

theorem tupleInsert_ordered {pref : Bool} {t : CostTuple D} : ∀ {l : List (CostTuple D)}, Ordered pref l → Ordered pref (tupleInsert pref l t)
  | [], _ => by simp [tupleInsert, Ordered]
  | v :: l, h => by
    rw [tupleInsert]
    have h' := List.pairwise_cons.mp h
    split
    · rename_i hv
      refine List.pairwise_cons.mpr ⟨fun u hu => ?_, h⟩
      rcases List.mem_cons.mp hu with rfl | hu
      · exact hv
      · exact CostTuple.lt_trans hv (h'.1 u hu)
    · split
      · rename_i hv
        refine List.pairwise_cons.mpr ⟨fun u hu => ?_, tupleInsert_ordered h'.2⟩
        rcases tupleInsert_mem hu with rfl | hu
        · exact hv
        · exact h'.1 u hu
      · exact h

theorem mapSet_facts {B : Type} {pref : Bool} {cur : CostTuple D} {b : B} : ∀ {l : List (CostTuple D × B)}, Ordered pref (l.map Prod.fst) → (∀ e ∈ l, ¬ cur.lt pref e.1 = true) →
    Ordered pref ((mapSet pref l cur b).map Prod.fst) ∧ (∀ e ∈ mapSet pref l cur b, ¬ cur.lt pref e.1 = true ∧ (e.1 = cur ∨ ∃ e' ∈ l, e'.1 = e.1)) ∧
    (mapSet pref l cur b).getLast?.map Prod.snd = some b
  | [], _, _ => by
    refine ⟨by simp [mapSet, Ordered], fun e he => ?_, by simp [mapSet]⟩
    simp only [mapSet, List.mem_singleton] at he
    subst he
    exact ⟨fun h => CostTuple.lt_asymm h h, .inl rfl⟩
  | (u, a) :: l, ho, hk => by
    have ho' := List.pairwise_cons.mp ho
    have hu := hk (u, a) (by simp)
    rw [mapSet, if_neg hu]
    split
    · rename_i hlt
      obtain ⟨h1, h2, h3⟩ := mapSet_facts (b := b) ho'.2 fun e he => hk e (List.mem_cons_of_mem _ he)
      refine ⟨?_, ?_, ?_⟩
      · refine List.pairwise_cons.mpr ⟨fun v hv => ?_, h1⟩
        obtain ⟨e, he, rfl⟩ := List.mem_map.mp hv
        rcases (h2 e he).2 with h | ⟨e', he', h⟩
        · rw [h]; exact hlt
        · rw [← h]; exact ho'.1 _ (List.mem_map.mpr ⟨e', he', rfl⟩)
      · intro e he
        rcases List.mem_cons.mp he with rfl | he
        · exact ⟨hu, .inr ⟨_, List.mem_cons_self, rfl⟩⟩
        · exact ⟨(h2 e he).1, (h2 e he).2.imp id fun ⟨e', h, h'⟩ => ⟨e', List.mem_cons_of_mem _ h, h'⟩⟩
      · cases hm : mapSet pref l cur b with
        | nil => rw [hm] at h3; cases h3
        | cons x xs => rw [hm] at h3; rw [List.getLast?_cons_cons]; exact h3
    · rename_i hlt
      have hl : l = [] := by
        cases l with
        | nil => rfl
        | cons e l =>
          exfalso
          have h1 := ho'.1 e.1 (by simp)
          rcases CostTuple.lt_cotrans (b := cur) h1 with h | h
          · exact hlt h
          · exact hk e (by simp) h
      subst hl
      refine ⟨by simp [Ordered], fun e he => ?_, by simp⟩
      rw [List.mem_singleton] at he
      subst he
      exact ⟨hu, .inr ⟨_, List.mem_cons_self, rfl⟩⟩

/-- Laws of the arithmetic: it is monotone, and does not overflow. -/
structure Doubles.Lawful (N : Doubles D) : Prop where
  zero_lt : N.zero < N.infinity
  le_infinity : ∀ x, x ≤ N.infinity
  add_lt : ∀ x y, x < N.infinity → y < N.infinity → N.add x y < N.infinity
  mul_lt : ∀ x y, x < N.infinity → y < N.infinity → N.mul x y < N.infinity
  ofNat_lt : ∀ n, N.ofNat n < N.infinity
  add_mono : ∀ x x' y y', x ≤ x' → y ≤ y' → N.add x y ≤ N.add x' y'
  le_add : ∀ x y, N.zero ≤ x → y ≤ N.add x y
  mul_mono : ∀ x y y', N.zero ≤ x → y ≤ y' → y' < N.infinity → N.mul x y ≤ N.mul x y'
  ofNat_mono : ∀ m n, m ≤ n → N.ofNat m ≤ N.ofNat n

/-- The weights: the one of waiting costs is not negative, the one of action costs is positive, and both are finite. -/
structure WeightsOK (N : Doubles D) (p : Preference D) : Prop where
  waiting : N.zero ≤ p.waiting
  waiting_lt : p.waiting < N.infinity
  action : N.zero < p.action
  action_lt : p.action < N.infinity

variable {N : Doubles D} {p : Preference D}

theorem combined_mono (hN : N.Lawful) (hp : WeightsOK N p) {w w' : Nat} {a a' : D} (hw : w ≤ w') (ha : a ≤ a') :
    (mkTuple N p w a).combined ≤ (mkTuple N p w' a').combined := by
  simp only [mkTuple, if_pos hp.action]
  by_cases h' : a' = N.infinity
  · rw [if_pos h']
    exact hN.le_infinity _
  · have hlt' := lt_of_le_of_ne (hN.le_infinity a') h'
    have hlt := lt_of_le_of_lt ha hlt'
    rw [if_neg h', if_neg hlt.ne]
    exact hN.add_mono _ _ _ _ (hN.mul_mono _ _ _ hp.waiting (hN.ofNat_mono _ _ hw) (hN.ofNat_lt _)) (hN.mul_mono _ _ _ hp.action.le ha hlt')

theorem mkTuple_not_lt (hN : N.Lawful) (hp : WeightsOK N p) (pref : Bool) {w w' : Nat} {a a' : D} (hw : w ≤ w') (ha : a ≤ a') :
    ¬ (mkTuple N p w' a').lt pref (mkTuple N p w a) = true := by
  have hc := combined_mono hN hp hw ha
  cases pref
  · rw [CostTuple.lt_false, not_lt, Prod.Lex.toLex_le_toLex]
    rcases hc.lt_or_eq with h | h
    · exact .inl h
    · refine .inr ⟨h, ?_⟩
      simp only [Prod.Lex.toLex_le_toLex]
      rcases ha.lt_or_eq with h | h
      · exact .inl h
      · exact .inr ⟨h, hw⟩
  · rw [CostTuple.lt_true, not_lt, Prod.Lex.toLex_le_toLex]
    rcases hc.lt_or_eq with h | h
    · exact .inl h
    · refine .inr ⟨h, ?_⟩
      simp only [Prod.Lex.toLex_le_toLex]
      rcases hw.lt_or_eq with h | h
      · exact .inl h
      · exact .inr ⟨h, ha⟩

theorem finite_lt_infinite (hN : N.Lawful) (hp : WeightsOK N p) (pref : Bool) {w w' : Nat} {a : D} (ha : a ≠ N.infinity) :
    (mkTuple N p w a).lt pref (mkTuple N p w' N.infinity) = true := by
  have hlt := lt_of_le_of_ne (hN.le_infinity a) ha
  have hc : (mkTuple N p w a).combined < (mkTuple N p w' N.infinity).combined := by
    simp only [mkTuple, if_pos hp.action, if_neg ha, if_true]
    exact hN.add_lt _ _ (hN.mul_lt _ _ hp.waiting_lt (hN.ofNat_lt _)) (hN.mul_lt _ _ hp.action_lt hlt)
  simp [CostTuple.lt, hc]

end Tuples

/-! ### The list of tuples -/

section Search

variable {X Y F : Type} {g : Game (X → Bool) (Y → Bool)} {E : Helpers (ET X Y F)} (hE : HelpersOK E) (hA : g.assumptions ≠ []) {D : Type} [LinearOrder D]
  {S : SearchIn (ET X Y F) D} (hM : S.M = eMgr X Y F) (hc : S.c = eCtx F g) (hSE : S.E = E)
  (hG : ∃ G : T (X → Bool) (Y → Bool), S.goal = extLift fun s t => G s t ∧ t ∈ nuZ g)
  (hN : S.N.Lawful) (hp : WeightsOK S.N S.p) (hcosts : ∀ u ∈ S.costs, S.N.zero ≤ u.1)

/-- The value of the last entry. -/
def lastPos (l : List (CostTuple D × ET X Y F)) : ET X Y F := (l.getLast?.map Prod.snd).getD (eMgr X Y F).ff

/-- The invariant of the loop over the tuples. -/
structure TodoOK (g : Game (X → Bool) (Y → Bool)) (E : Helpers (ET X Y F)) (S : SearchIn (ET X Y F) D) (st : Search (ET X Y F) D) : Prop where
  ordered : Ordered S.p.waitingPreferred st.todo
  made : ∀ t ∈ st.todo, ∃ w a, t = mkTuple S.N S.p w a
  keysOrdered : Ordered S.p.waitingPreferred (st.posAt.map Prod.fst)
  keys : ∀ e ∈ st.posAt, ∀ t ∈ st.todo, ¬ t.lt S.p.waitingPreferred e.1 = true
  last : lastPos st.posAt = st.found.pos
  phase : NoInf g E st.found.trans ∨ ∀ t ∈ st.todo, t.action = S.N.infinity

/-- A list of tuples that can follow `cur`. -/
structure TupleFollows (S : SearchIn (ET X Y F) D) (cur : CostTuple D) (l : List (CostTuple D)) : Prop where
  ordered : Ordered S.p.waitingPreferred l
  made : ∀ t ∈ l, ∃ w a, t = mkTuple S.N S.p w a
  after : ∀ t ∈ l, ¬ t.lt S.p.waitingPreferred cur = true

include hN hp in
theorem TupleFollows.insert {w w' : Nat} {a a' : D} {l : List (CostTuple D)} (h : TupleFollows S (mkTuple S.N S.p w a) l) (hw : w ≤ w') (ha : a ≤ a') :
    TupleFollows S (mkTuple S.N S.p w a) (tupleInsert S.p.waitingPreferred l (mkTuple S.N S.p w' a')) := by
  refine ⟨tupleInsert_ordered h.ordered, fun t ht => ?_, fun t ht => ?_⟩
  · rcases tupleInsert_mem ht with rfl | ht
    · exact ⟨_, _, rfl⟩
    · exact h.made t ht
  · rcases tupleInsert_mem ht with rfl | ht
    · exact mkTuple_not_lt hN hp _ hw ha
    · exact h.after t ht

include hN hp hcosts in
theorem moreTuples_follows {w : Nat} {a : D} {l : List (CostTuple D)} (h : TupleFollows S (mkTuple S.N S.p w a) l) :
    TupleFollows S (mkTuple S.N S.p w a) (moreTuples S (mkTuple S.N S.p w a) l) ∧ (moreTuples S (mkTuple S.N S.p w a) l).length ≤ l.length + 1 + 2 * S.costs.length := by
  rw [moreTuples]
  have h0 := h.insert hN hp (w' := w + 1) (a' := a) (by omega) (le_refl _)
  have hl := tupleInsert_length (pref := S.p.waitingPreferred) (t := mkTuple S.N S.p (w + 1) a) l
  revert h0 hl
  change TupleFollows S _ (tupleInsert S.p.waitingPreferred l (mkTuple S.N S.p (w + 1) a)) → _
  have key : ∀ (cs : List (D × ET X Y F)) (td : List (CostTuple D)), (∀ u ∈ cs, S.N.zero ≤ u.1) → TupleFollows S (mkTuple S.N S.p w a) td →
      TupleFollows S (mkTuple S.N S.p w a) (cs.foldl (fun td u => if u.1 ≠ S.N.zero then
        tupleInsert S.p.waitingPreferred (tupleInsert S.p.waitingPreferred td (mkTuple S.N S.p (mkTuple S.N S.p w a).waiting (S.N.add u.1 (mkTuple S.N S.p w a).action)))
          (mkTuple S.N S.p ((mkTuple S.N S.p w a).waiting + 1) (S.N.add u.1 (mkTuple S.N S.p w a).action)) else td) td) ∧
      (cs.foldl (fun td u => if u.1 ≠ S.N.zero then
        tupleInsert S.p.waitingPreferred (tupleInsert S.p.waitingPreferred td (mkTuple S.N S.p (mkTuple S.N S.p w a).waiting (S.N.add u.1 (mkTuple S.N S.p w a).action)))
          (mkTuple S.N S.p ((mkTuple S.N S.p w a).waiting + 1) (S.N.add u.1 (mkTuple S.N S.p w a).action)) else td) td).length ≤ td.length + 2 * cs.length := by
    intro cs
    induction cs with
    | nil => exact fun td _ h => ⟨h, by simp⟩
    | cons u cs ih =>
      intro td hu h
      simp only [List.foldl_cons]
      by_cases h0 : u.1 ≠ S.N.zero
      · rw [if_pos h0]
        have ha : a ≤ S.N.add u.1 a := hN.le_add _ _ (hu u (by simp))
        obtain ⟨h1, h2⟩ := ih _ (fun u hu' => hu u (List.mem_cons_of_mem _ hu')) ((h.insert hN hp (w' := w) (le_refl _) ha).insert hN hp (w' := w + 1) (by omega) ha)
        refine ⟨h1, le_trans h2 ?_⟩
        have e1 := tupleInsert_length (pref := S.p.waitingPreferred) (t := mkTuple S.N S.p (w + 1) (S.N.add u.1 a))
          (tupleInsert S.p.waitingPreferred td (mkTuple S.N S.p w (S.N.add u.1 a)))
        have e2 := tupleInsert_length (pref := S.p.waitingPreferred) (t := mkTuple S.N S.p w (S.N.add u.1 a)) td
        simp only [List.length_cons]
        omega
      · rw [if_neg h0]
        obtain ⟨h1, h2⟩ := ih td (fun u hu' => hu u (List.mem_cons_of_mem _ hu')) h
        exact ⟨h1, le_trans h2 (by simp only [List.length_cons]; omega)⟩
  intro h0 hl
  obtain ⟨h1, h2⟩ := key S.costs _ hcosts h0
  exact ⟨h1, le_trans h2 (by omega)⟩

/-- What decreases: the positions that are not found to be winning, and the tuples. -/
noncomputable def tupleMeasure (S : SearchIn (ET X Y F) D) (st : Search (ET X Y F) D) : Nat := outside st.found.pos * (2 * S.costs.length + 2) + st.todo.length

/-- The invariant after a step, and the measure decreases. -/
theorem step_done [Finite X] [Finite Y] [Finite F] {cur : CostTuple D} {rest : List (CostTuple D)} {st st' : Search (ET X Y F) D} (ht : st.todo = cur :: rest)
    (hinv : TodoOK g E S st) (hpos : ∀ s t, st.found.pos s t → st'.found.pos s t)
    (hkeys : Ordered S.p.waitingPreferred (st'.posAt.map Prod.fst) ∧ (∀ e ∈ st'.posAt, ¬ cur.lt S.p.waitingPreferred e.1 = true) ∧ lastPos st'.posAt = st'.found.pos)
    (hsame : st.found.pos = st'.found.pos → st'.todo = rest)
    (htodo : TupleFollows S cur st'.todo) (hlen : st'.todo.length ≤ rest.length + 1 + 2 * S.costs.length)
    (hphase : NoInf g E st'.found.trans ∨ ∀ t ∈ st'.todo, t.action = S.N.infinity) :
    TodoOK g E S st' ∧ tupleMeasure S st' < tupleMeasure S st := by
  refine ⟨⟨htodo.ordered, htodo.made, hkeys.1, fun e he t ht' hlt => ?_, hkeys.2.2, hphase⟩, ?_⟩
  · rcases CostTuple.lt_cotrans (b := cur) hlt with h | h
    · exact htodo.after t ht' h
    · exact hkeys.2.1 e he h
  · rw [tupleMeasure, tupleMeasure, ht]
    by_cases he : st.found.pos = st'.found.pos
    · rw [hsame he, ← he]
      simp
    · have h1 := outside_lt hpos he
      have h2 : (outside st'.found.pos + 1) * (2 * S.costs.length + 2) ≤ outside st.found.pos * (2 * S.costs.length + 2) := Nat.mul_le_mul_right _ h1
      rw [Nat.add_mul] at h2
      simp only [List.length_cons]
      omega

include hE hA hM hc hSE hG hN hp hcosts in
theorem tupleStep_ends [Finite X] [Finite Y] [Finite F] {fuel : Nat} (hn : Nat.card (EPos X Y F × EPos X Y F) < fuel) {cur : CostTuple D} {rest : List (CostTuple D)}
    {st : Search (ET X Y F) D} (ht : st.todo = cur :: rest) (hinv : TodoOK g E S st) (hok : SearchOK g st) :
    ∃ st', tupleStep S fuel cur { st with todo := rest } = some st' ∧ TodoOK g E S st' ∧ tupleMeasure S st' < tupleMeasure S st := by
  have hord := List.pairwise_cons.mp (ht ▸ hinv.ordered)
  have hfol : TupleFollows S cur rest := ⟨hord.2, fun t h => hinv.made t (by rw [ht]; exact List.mem_cons_of_mem _ h), fun t h => CostTuple.lt_asymm (hord.1 t h)⟩
  have hkeys : ∀ e ∈ st.posAt, ¬ cur.lt S.p.waitingPreferred e.1 = true := fun e he => hinv.keys e he cur (by rw [ht]; simp)
  obtain ⟨w, a, hcur⟩ := hinv.made cur (by rw [ht]; simp)
  have hend : ∀ {l : List (CostTuple D × ET X Y F)} {b : ET X Y F}, l.getLast?.map Prod.snd = some b → lastPos l = b := by
    intro l b h
    rw [lastPos, h]
    rfl
  rw [tupleStep]
  split
  · rename_i hinf
    split
    · refine ⟨_, rfl, ?_⟩
      refine step_done ht hinv (fun _ _ h => h) ⟨hinv.keysOrdered, hkeys, hinv.last⟩ (fun _ => rfl) hfol (by simp only; omega) ?_
      exact hinv.phase.imp id fun h t ht' => h t (by rw [ht]; exact List.mem_cons_of_mem _ ht')
    · unfold infiniteCase
      simp only
      rw [hM, hc, hSE]
      obtain ⟨f, h1, h2, _⟩ := sccLoop_ends (g := g) (E := E) hn (goalNum := S.goalNum) (goal := S.goal) (inf := true)
        (escape := orForgotten (eMgr X Y F) E ((eMgr X Y F).and (eCtx F g).safetySys S.goal)
          (mapFloor S.p.waitingPreferred st.transAt (mkTuple S.N S.p (cur.waiting - 1) cur.action))) (cheap := (eMgr X Y F).tt) 0 (eCtx F g).livenessAssumptions st.found
      rw [h1]
      simp only
      obtain ⟨z, f', h3⟩ := reachLoop_ends (g := g) (E := E) (goal := S.goalNum) (top := true) (mask := E.infPre) (ending := f.trans) (cheap := (eMgr X Y F).tt) hn
        (x := (eMgr X Y F).ff) (y := (eMgr X Y F).tt) (st := f) fun _ _ h => h.elim
      rw [h3]
      simp only
      have h4 := (reachLoop_facts h3).1
      obtain ⟨k1, k2, k3⟩ := mapSet_facts (cur := cur) (b := f'.pos) hinv.keysOrdered hkeys
      rw [hcur] at hinf
      have hinf' : a = S.N.infinity := hinf
      have hins : TupleFollows S cur (tupleInsert S.p.waitingPreferred rest (mkTuple S.N S.p (cur.waiting + 1) cur.action)) := by
        subst hcur
        exact hfol.insert hN hp (w' := w + 1) (a' := a) (by omega) (le_refl _)
      have hrest : ∀ t ∈ rest, t.action = S.N.infinity := by
        intro t ht'
        obtain ⟨w', a', rfl⟩ := hfol.made t ht'
        by_contra hne
        have := finite_lt_infinite hN hp S.p.waitingPreferred (w := w') (w' := w) (a := a') hne
        refine hfol.after _ ht' ?_
        rw [hcur, hinf']
        exact this
      have hbef : ((st.posAt.getLast?.map Prod.snd).getD (eMgr X Y F).ff) = st.found.pos := hinv.last
      refine ⟨_, rfl, ?_⟩
      refine step_done ht hinv (fun s t h => h4 s t (h2 s t h)) ⟨k1, fun e he => (k2 e he).1, hend k3⟩ ?_ ?_ ?_ (.inr ?_)
      · intro he
        simp only at he ⊢
        rw [hbef, if_neg (not_not.mpr he)]
      · simp only
        split
        · exact hins
        · exact hfol
      · simp only
        split
        · have := tupleInsert_length (pref := S.p.waitingPreferred) (t := mkTuple S.N S.p (cur.waiting + 1) cur.action) rest
          omega
        · omega
      · simp only
        split
        · intro t ht'
          rcases tupleInsert_mem ht' with rfl | ht'
          · rw [hcur]; exact hinf'
          · exact hrest t ht'
        · exact hrest
  · rename_i hfin
    have hno : NoInf g E st.found.trans := hinv.phase.resolve_right fun h => hfin (h cur (by rw [ht]; simp))
    unfold finiteCase
    simp only
    have hendT := endingTransitions_ok hM hc hG cur (fun e he => (hok.posAt e he).1)
    have hgo := goalsWithin_ok hM hc hG cur (cur.waiting - 1)
    have hff : GoodP g (eMgr X Y F).ff := fun _ _ h => h.elim
    rw [hM, hc, hSE]
    obtain ⟨z, f, h1⟩ := reachLoop_ends (g := g) (E := E) (goal := S.goalNum) (top := false) (mask := (eMgr X Y F).and E.zeroPre ((eMgr X Y F).not E.infPre))
      (ending := endingTransitions S cur st.posAt) (cheap := costOf (eMgr X Y F) S.costs S.N.zero) hn (x := (eMgr X Y F).ff) (y := (eMgr X Y F).tt) (st := st.found)
      fun _ _ h => h.elim
    have hf := reachLoop_ok hE hA hendT hff hok.found h1
    obtain ⟨h2, h3⟩ := reachLoop_facts h1
    have h3 := h3 (fun _ _ h => h.2) hno
    rw [h1]
    simp only
    obtain ⟨k1, k2, k3⟩ := mapSet_facts (cur := cur) (b := f.pos) hinv.keysOrdered hkeys
    have hmore := moreTuples_follows hN hp hcosts (w := w) (a := a) (l := rest) (by rw [← hcur]; exact hfol)
    rw [← hcur] at hmore
    have hbef : ((st.posAt.getLast?.map Prod.snd).getD (eMgr X Y F).ff) = st.found.pos := hinv.last
    split
    · have hesc : GoodT g (orForgotten (eMgr X Y F) E (goalsWithin S cur (cur.waiting - 1))
          (mapFloor S.p.waitingPreferred (mapSet S.p.waitingPreferred st.transAt cur f.trans) (mkTuple S.N S.p (cur.waiting - 1) cur.action))) := by
        refine orForgotten_ok hE hgo fun t ht => ?_
        obtain ⟨e, he, rfl⟩ := mapFloor_mem ht
        exact (mapSet_mem he).elim (hok.transAt e) fun h => h ▸ hf.trans
      obtain ⟨f2, h4, h5, h6⟩ := sccLoop_ends (g := g) (E := E) hn (goalNum := S.goalNum) (goal := S.goal) (inf := false)
        (escape := orForgotten (eMgr X Y F) E (goalsWithin S cur (cur.waiting - 1))
          (mapFloor S.p.waitingPreferred (mapSet S.p.waitingPreferred st.transAt cur f.trans) (mkTuple S.N S.p (cur.waiting - 1) cur.action)))
        (cheap := costOf (eMgr X Y F) S.costs S.N.zero) 0 (eCtx F g).livenessAssumptions f
      have hf2 := sccLoop_ok hE hA hesc 0 _ _ _ eCtx_assumptions hf h4
      have h6 := h6 rfl h3
      rw [h4]
      simp only
      obtain ⟨z', f3, h7⟩ := reachLoop_ends (g := g) (E := E) (goal := S.goalNum) (top := true) (mask := (eMgr X Y F).not E.infPre) (ending := f2.trans)
        (cheap := costOf (eMgr X Y F) S.costs S.N.zero) hn (x := f2.pos) (y := (eMgr X Y F).tt) (st := f2) (by
          intro s t hs
          rw [enforce_iff]
          intro i hi
          obtain ⟨o, ho⟩ := hf2.enforced s t hs i hi
          exact ⟨o, ⟨h6 s (i, o) ho hi, (hf2.trans s (i, o) ho hi).1⟩, .inl ho⟩)
      obtain ⟨h8, h9⟩ := reachLoop_facts h7
      have h9 := h9 (fun _ _ h => h) h6
      rw [h7]
      simp only
      obtain ⟨l1, l2, l3⟩ := mapSet_facts (cur := cur) (b := f3.pos) k1 fun e he => (k2 e he).1
      refine ⟨_, rfl, ?_⟩
      refine step_done ht hinv (fun s t h => h8 s t (h5 s t (h2 s t h))) ⟨l1, fun e he => (l2 e he).1, hend l3⟩ ?_ ?_ ?_ (.inl h9)
      · intro he
        simp only at he ⊢
        rw [hbef, if_neg (not_not.mpr he)]
      · simp only
        split
        · exact hmore.1
        · exact hfol
      · simp only
        split
        · exact hmore.2
        · omega
    · refine ⟨_, rfl, ?_⟩
      refine step_done ht hinv h2 ⟨k1, fun e he => (k2 e he).1, hend k3⟩ ?_ ?_ ?_ (.inl h3)
      · intro he
        simp only at he ⊢
        rw [hbef, if_neg (not_not.mpr he)]
      · simp only
        split
        · exact hmore.1
        · exact hfol
      · simp only
        split
        · exact hmore.2
        · omega

include hE hA hM hc hSE hG hN hp hcosts in
theorem todoLoop_ends [Finite X] [Finite Y] [Finite F] {fuel : Nat} (hn : Nat.card (EPos X Y F × EPos X Y F) < fuel) :
    ∀ (n : Nat) (st : Search (ET X Y F) D), TodoOK g E S st → SearchOK g st → tupleMeasure S st < n → ∃ st', todoLoop S fuel n st = some st'
  | 0, _, _, _, h => absurd h (Nat.not_lt_zero _)
  | n + 1, st, hinv, hok, h => by
    rw [todoLoop]
    cases ht : st.todo with
    | nil => exact ⟨st, rfl⟩
    | cons cur rest =>
      simp only
      obtain ⟨st1, h1, h2, h3⟩ := tupleStep_ends hE hA hM hc hSE hG hN hp hcosts hn ht hinv hok
      rw [h1]
      have hok' : SearchOK g ({ st with todo := rest } : Search (ET X Y F) D) := ⟨hok.found, hok.transAt, hok.posAt⟩
      exact todoLoop_ends hn n st1 h2 (tupleStep_ok hE hA hM hc hSE hG hok' h1) (by omega)

/-- A number of rounds that is sufficient. -/
noncomputable def costFuel (X Y F : Type) (k : Nat) : Nat := Nat.card (EPos X Y F × EPos X Y F) * (2 * k + 2) + k + 2

include hE hA hM hc hSE hG hN hp hcosts in
theorem searchGoal_ends [Finite X] [Finite Y] [Finite F] {fuel : Nat} (hn : costFuel X Y F S.costs.length ≤ fuel) {dump : Dump (ET X Y F)} (hd : ∀ e ∈ dump, GoodT g e.2) :
    ∃ st, searchGoal S fuel dump = some st := by
  rw [searchGoal]
  have hcard : Nat.card (EPos X Y F × EPos X Y F) < fuel := by
    have := Nat.le_mul_of_pos_right (Nat.card (EPos X Y F × EPos X Y F)) (show 0 < 2 * S.costs.length + 2 by omega)
    rw [costFuel] at hn
    omega
  have key : ∀ (cs : List (D × ET X Y F)) (td : List (CostTuple D)), Ordered S.p.waitingPreferred td → (∀ t ∈ td, ∃ w a, t = mkTuple S.N S.p w a) →
      Ordered S.p.waitingPreferred (cs.foldl (fun td u => tupleInsert S.p.waitingPreferred td (mkTuple S.N S.p 0 u.1)) td) ∧
      (∀ t ∈ cs.foldl (fun td u => tupleInsert S.p.waitingPreferred td (mkTuple S.N S.p 0 u.1)) td, ∃ w a, t = mkTuple S.N S.p w a) ∧
      (cs.foldl (fun td u => tupleInsert S.p.waitingPreferred td (mkTuple S.N S.p 0 u.1)) td).length ≤ td.length + cs.length := by
    intro cs
    induction cs with
    | nil => exact fun td h1 h2 => ⟨h1, h2, by simp⟩
    | cons u cs ih =>
      intro td h1 h2
      obtain ⟨h3, h4, h5⟩ := ih (tupleInsert S.p.waitingPreferred td (mkTuple S.N S.p 0 u.1)) (tupleInsert_ordered h1) fun t ht => by
        rcases tupleInsert_mem ht with rfl | ht
        · exact ⟨_, _, rfl⟩
        · exact h2 t ht
      refine ⟨h3, h4, le_trans h5 ?_⟩
      have := tupleInsert_length (pref := S.p.waitingPreferred) (t := mkTuple S.N S.p 0 u.1) td
      simp only [List.length_cons]
      omega
  obtain ⟨k1, k2, k3⟩ := key S.costs [] (by simp [Ordered]) (by simp)
  refine todoLoop_ends hE hA hM hc hSE hG hN hp hcosts hcard _ _ ?_ ?_ ?_
  · refine ⟨tupleInsert_ordered k1, fun t ht => ?_, by simp [Ordered], fun e he => (List.not_mem_nil he).elim, ?_, .inl ?_⟩
    · rcases tupleInsert_mem ht with rfl | ht
      · exact ⟨_, _, rfl⟩
      · exact k2 t ht
    · rw [hM]; rfl
    · rw [hM]; exact fun _ _ h => h.elim
  · rw [hM]
    exact ⟨⟨fun _ _ h => h.elim, fun _ _ h => h.elim, fun _ _ _ => Iff.rfl, fun _ _ h => h.elim, hd⟩, fun _ h => (List.not_mem_nil h).elim, fun _ h => (List.not_mem_nil h).elim⟩
  · rw [tupleMeasure]
    simp only
    have h1 := tupleInsert_length (pref := S.p.waitingPreferred) (t := mkTuple S.N S.p 1 S.N.infinity)
      (S.costs.foldl (fun td u => tupleInsert S.p.waitingPreferred td (mkTuple S.N S.p 0 u.1)) [])
    have h2 := Nat.mul_le_mul_right (2 * S.costs.length + 2) (outside_le (S.M.ff : ET X Y F))
    rw [costFuel] at hn
    simp only [List.length_nil] at k3
    omega

end Search

/-- The search for all goals ends. -/
theorem costGoals_ends {X Y F : Type} [Finite X] [Finite Y] [Finite F] {g : Game (X → Bool) (Y → Bool)} {E : Helpers (ET X Y F)} (hE : HelpersOK E) (hA : g.assumptions ≠ [])
    {D : Type} [LinearOrder D] {N : Doubles D} (hN : N.Lawful) {p : Preference D} (hp : WeightsOK N p) {costs : List (D × ET X Y F)} (hcosts : ∀ u ∈ costs, N.zero ≤ u.1)
    {robotics : Bool} {W : ET X Y F} {fuel : Nat} (hn : costFuel X Y F costs.length ≤ fuel) :
    ∀ (j : Nat) (goals : List (ET X Y F)) (st : ET X Y F × Dump (ET X Y F)),
      (∀ b ∈ goals, ∃ G : T (X → Bool) (Y → Bool), b = extLift fun s t => G s t ∧ t ∈ nuZ g) → (∀ e ∈ st.2, GoodT g e.2) →
      ∃ r, costGoals (eMgr X Y F) (eCtx F g) E N p costs robotics W fuel j goals st = some r
  | _, [], st, _, _ => ⟨st, rfl⟩
  | j, b :: goals, (i, dump), hb, hd => by
    rw [costGoals]
    obtain ⟨s, hs⟩ := searchGoal_ends hE hA (S := { M := eMgr X Y F, c := eCtx F g, E := E, N := N, p := p, costs := costs, goalNum := j, goal := b })
      rfl rfl rfl (hb b (by simp)) hN hp hcosts hn hd
    have hok := searchGoal_ok hE hA (S := { M := eMgr X Y F, c := eCtx F g, E := E, N := N, p := p, costs := costs, goalNum := j, goal := b })
      rfl rfl rfl (hb b (by simp)) hd hs
    rw [hs]
    exact costGoals_ends hE hA hN hp hcosts hn (j + 1) goals _ (fun b' hb' => hb b' (List.mem_cons_of_mem _ hb')) hok.found.dump

end Slugs.Model
