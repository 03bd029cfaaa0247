import Verif.Lemmas.Explicit

/-! The work list of the extraction of explicit strategies. -/

namespace Slugs.Model

open Slugs.Spec

variable {I O : Type}

/-! ### The tables -/

/-- The key of a position and a goal. -/
def keyOf (k : Pos I O × Nat) : T I O × Nat := (pre {k.1}, k.2)

theorem keyOf_inj : Function.Injective (keyOf (I := I) (O := O)) := by
  rintro ⟨p, j⟩ ⟨p', j'⟩ h
  simp only [keyOf, Prod.mk.injEq, pre_inj] at h
  rw [Set.singleton_eq_singleton_iff.mp h.1, h.2]

open Classical in
/-- The tables contain exactly the pairs in `ks`, numbered in this order; those from number `d` on are still to be done. -/
structure WorkInv (ks : List (Pos I O × Nat)) (d : Nat) (w : Work (T I O)) : Prop where
  nodup : ks.Nodup
  le : d ≤ ks.length
  lookup : ∀ k, w.keys.lookup (keyOf k) = if k ∈ ks then some (ks.idxOf k) else none
  bfs : w.bfs = ks.map fun k => pre {k.1}
  todo : w.todo = (ks.drop d).map keyOf

open Classical in
theorem WorkInv.enter {ks : List (Pos I O × Nat)} {d : Nat} {w : Work (T I O)} (h : WorkInv ks d w) {k : Pos I O × Nat}
    (hk : k ∉ ks) : WorkInv (ks ++ [k]) d (w.enter (keyOf k)) where
  nodup := by
    rw [List.nodup_append]
    exact ⟨h.nodup, by simp, by rintro a ha b hb rfl; simp at hb; subst hb; exact hk ha⟩
  le := by have := h.le; simp; omega
  lookup k' := by
    rw [Work.enter]
    simp only [List.lookup_cons]
    by_cases e : k' = k
    · subst e
      rw [show (keyOf k' == keyOf k') = true by simp]
      simp [List.idxOf_append, hk, h.bfs]
    · rw [show (keyOf k' == keyOf k) = false by simpa using fun h => e (keyOf_inj h)]
      dsimp only
      rw [h.lookup]
      by_cases hm : k' ∈ ks
      · simp [hm, List.idxOf_append]
      · simp [hm, e]
  bfs := by simp [Work.enter, h.bfs, keyOf]
  todo := by
    rw [Work.enter]
    simp only [h.todo]
    rw [List.drop_append_of_le_length h.le, List.map_append]
    rfl

open Classical in
theorem WorkInv.num {ks : List (Pos I O × Nat)} {d : Nat} {w : Work (T I O)} (h : WorkInv ks d w) {k : Pos I O × Nat}
    (hk : k ∈ ks) : w.num (keyOf k) = ks.idxOf k := by
  rw [Work.num, h.lookup, if_pos hk]; rfl

theorem WorkInv.nil : WorkInv (I := I) (O := O) [] 0 { keys := [], bfs := [], todo := [] } where
  nodup := List.nodup_nil
  le := Nat.le_refl _
  lookup k := by simp
  bfs := rfl
  todo := rfl

/-! ### Initial states -/

theorem initLoop_spec [Finite I] [Finite O] {vs : Vars (T I O)} (hv : VarsOK vs) :
    ∀ (fuel : Nat) (S : Set (Pos I O)) (ks : List (Pos I O × Nat)) (w : Work (T I O)), S.ncard < fuel →
      WorkInv ks 0 w → (∀ s ∈ S, (s, 0) ∉ ks) →
      ∃ ks' w', initLoop (semMgr I O) vs fuel (pre S) w = some w' ∧ WorkInv (ks ++ ks') 0 w' ∧
        ∀ k, k ∈ ks' ↔ k.1 ∈ S ∧ k.2 = 0 := by
  intro fuel
  induction fuel with
  | zero => intro S ks w h; omega
  | succ fuel ih =>
    intro S ks w hS hw hdis
    rw [initLoop]
    by_cases he : S = ∅
    · rw [if_pos (by subst he; funext s t; simp [pre, semMgr])]
      refine ⟨[], w, rfl, by simpa using hw, ?_⟩
      rintro ⟨k, j⟩
      simp [he]
    · have hne : S.Nonempty := Set.nonempty_iff_ne_empty.mpr he
      rw [if_neg (fun h => by
        obtain ⟨s, hs⟩ := hne
        exact (iff_of_eq (congrFun (congrFun h s) s)).mp hs)]
      obtain ⟨s, hs, hdet⟩ := det_pre hv hne
      dsimp only
      rw [hdet]
      have e : (semMgr I O).and (pre S) ((semMgr I O).not (pre {s})) = pre (S \ {s}) := rfl
      rw [e]
      obtain ⟨ks', w', h1, h2, h3⟩ := ih (S \ {s}) (ks ++ [(s, 0)]) (w.enter (keyOf (s, 0)))
        (by have := Set.ncard_sdiff_singleton_lt_of_mem hs (Set.toFinite S); omega)
        (hw.enter (hdis s hs))
        (by
          intro s' hs' hm
          rcases List.mem_append.mp hm with hm | hm
          · exact hdis s' hs'.1 hm
          · simp at hm; exact hs'.2 hm)
      refine ⟨(s, 0) :: ks', w', h1, by simpa using h2, ?_⟩
      rintro ⟨k, j⟩
      rw [List.mem_cons, h3]
      simp only [Prod.mk.injEq, Set.mem_sdiff, Set.mem_singleton_iff]
      constructor
      · rintro (⟨rfl, rfl⟩ | ⟨⟨h, _⟩, rfl⟩)
        · exact ⟨hs, rfl⟩
        · exact ⟨h, rfl⟩
      · rintro ⟨h, rfl⟩
        by_cases hk : k = s
        · exact .inl ⟨hk, rfl⟩
        · exact .inr ⟨⟨h, hk⟩, rfl⟩

/-! ### Successors -/

/-- Which transitions are done once the one to `t` has been listed. -/
def captured (perm : Bool) (t t' : Pos I O) : Prop := if perm then t' = t else t'.1 = t.1

open Classical in
/-- What the loop over the successors of `(s, rank)` yields, when `R` are the positions that the strategy allows next: the table has grown from
`ks` to `ks'`, and the listed numbers are those of `ts`. -/
structure SuccOK (g : Game I O) (perm : Bool) (s : Pos I O) (rank : Nat) (R : Set (Pos I O)) (ts : List (Pos I O × Nat)) : Prop where
  mem : ∀ t ∈ ts, t.1 ∈ R
  step : ∀ t ∈ ts, GoalStep g s t.1 rank t.2
  rank : ∀ t ∈ ts, t.2 < g.guarantees.length
  all : ∀ t' ∈ R, ∃ t ∈ ts, captured perm t.1 t'
  once : ts.Pairwise fun t t' => ¬ captured perm t.1 t'.1

open Classical in
theorem succLoop_spec [Finite I] [Finite O] (g : Game I O) {vs : Vars (T I O)} (hv : VarsOK vs) (perm : Bool)
    {rank : Nat} (hrank : rank < g.guarantees.length) (s : Pos I O) :
    ∀ (fuel : Nat) (R : Set (Pos I O)) (ks : List (Pos I O × Nat)) (d : Nat) (w : Work (T I O)) (printed : List Nat),
      R.ncard < fuel → WorkInv ks d w →
      ∃ ks' ts w', succLoop (semMgr I O) (gameCtx g) vs perm rank fuel (from1 s R) w printed =
          some (w', printed ++ ts.map fun t => (ks ++ ks').idxOf t) ∧
        WorkInv (ks ++ ks') d w' ∧ (∀ k ∈ ks', k ∈ ts) ∧ (∀ t ∈ ts, t ∈ ks ++ ks') ∧ SuccOK g perm s rank R ts := by
  intro fuel
  induction fuel with
  | zero => intro R ks d w printed h; omega
  | succ fuel ih =>
    intro R ks d w printed hR hw
    rw [succLoop]
    by_cases he : R = ∅
    · rw [if_pos (by subst he; funext s t; simp [from1, semMgr])]
      exact ⟨[], [], w, by simp, by simpa using hw, by simp, by simp,
        ⟨by simp, by simp, by simp, by simp [he], List.Pairwise.nil⟩⟩
    · have hne : R.Nonempty := Set.nonempty_iff_ne_empty.mpr he
      rw [if_neg (fun h => by
        obtain ⟨t, ht⟩ := hne
        exact (iff_of_eq (congrFun (congrFun h s) t)).mp ⟨rfl, ht⟩)]
      obtain ⟨t, ht, hdet⟩ := det_post hv s hne
      obtain ⟨next, hnext, hstep, hlt⟩ := goalJump_eq g hrank (s := s) (t := t)
      dsimp only
      rw [hdet, show (gameCtx g).livenessGuarantees = g.guarantees from rfl, hnext]
      dsimp only
      have etarget : ((semMgr I O).swap ((semMgr I O).exPre (from1 s {t})), next) = keyOf (t, next) := by
        refine Prod.ext ?_ rfl
        funext s' t'
        simp [semMgr, from1, keyOf, pre]
      have erem : (semMgr I O).and (from1 s R) ((semMgr I O).not
          (if perm = true then from1 s {t} else (semMgr I O).exPostOutput (from1 s {t}))) =
          from1 s {t' | t' ∈ R ∧ ¬ captured perm t t'} := by
        funext s' t'
        cases perm <;> simp only [Bool.false_eq_true, if_false, if_true, captured, semMgr, from1, eq_iff_iff,
          Set.mem_singleton_iff, Set.mem_ofPred_eq]
        · constructor
          · rintro ⟨⟨rfl, h⟩, h'⟩
            exact ⟨rfl, h, fun e => h' ⟨t.2, rfl, by rw [e]⟩⟩
          · rintro ⟨rfl, h, h'⟩
            exact ⟨⟨rfl, h⟩, fun ⟨o, _, e⟩ => h' (by rw [← e])⟩
        · constructor
          · rintro ⟨⟨rfl, h⟩, h'⟩
            exact ⟨rfl, h, fun e => h' ⟨rfl, e⟩⟩
          · rintro ⟨rfl, h, h'⟩
            exact ⟨⟨rfl, h⟩, fun ⟨_, e⟩ => h' e⟩
      rw [etarget, erem]
      have hcapself : captured perm t t := by cases perm <;> simp [captured]
      have hcard : {t' | t' ∈ R ∧ ¬ captured perm t t'}.ncard < R.ncard := by
        apply Set.ncard_lt_ncard _ (Set.toFinite R)
        rw [Set.ssubset_iff_subset_ne]
        refine ⟨fun x hx => hx.1, fun h => ?_⟩
        rw [← h] at ht
        exact ht.2 hcapself
      -- the table after looking for the target
      obtain ⟨k1, hw1, hk1, hin⟩ : ∃ k1 : List (Pos I O × Nat), WorkInv (ks ++ k1) d
          (if w.keys.lookup (keyOf (t, next)) = none then w.enter (keyOf (t, next)) else w) ∧
          (∀ k ∈ k1, k = (t, next)) ∧ (t, next) ∈ ks ++ k1 := by
        rw [hw.lookup]
        by_cases hm : (t, next) ∈ ks
        · rw [if_pos hm, if_neg (by simp)]
          exact ⟨[], by simpa using hw, by simp, by simpa using hm⟩
        · rw [if_neg hm, if_pos rfl]
          exact ⟨[(t, next)], hw.enter hm, by simp, by simp⟩
      rw [hw1.num hin]
      obtain ⟨k2, ts, w', h1, h2, h3, h4, h5⟩ := ih {t' | t' ∈ R ∧ ¬ captured perm t t'} (ks ++ k1) d _ (printed ++ [(ks ++ k1).idxOf (t, next)])
        (by omega) hw1
      refine ⟨k1 ++ k2, (t, next) :: ts, w', ?_, by rw [← List.append_assoc]; exact h2, ?_, ?_, ?_⟩
      · rw [h1, List.map_cons, ← List.append_assoc ks, List.append_assoc printed]
        rw [List.idxOf_append_of_mem hin]
        rfl
      · intro k hk
        rcases List.mem_append.mp hk with hk | hk
        · rw [hk1 k hk]; exact List.mem_cons_self
        · exact List.mem_cons_of_mem _ (h3 k hk)
      · intro t' ht'
        rw [← List.append_assoc]
        rcases List.mem_cons.mp ht' with rfl | ht'
        · exact List.mem_append_left _ hin
        · exact h4 t' ht'
      · constructor
        · intro t' ht'
          rcases List.mem_cons.mp ht' with rfl | ht'
          · exact ht
          · exact (h5.mem t' ht').1
        · intro t' ht'
          rcases List.mem_cons.mp ht' with rfl | ht'
          · exact hstep
          · exact h5.step t' ht'
        · intro t' ht'
          rcases List.mem_cons.mp ht' with rfl | ht'
          · exact hlt
          · exact h5.rank t' ht'
        · intro t' ht'
          by_cases hc : captured perm t t'
          · exact ⟨_, List.mem_cons_self, hc⟩
          · obtain ⟨t'', h6, h7⟩ := h5.all t' ⟨ht', hc⟩
            exact ⟨t'', List.mem_cons_of_mem _ h6, h7⟩
        · exact List.Pairwise.cons (fun t' ht' => (h5.mem t' ht').2) h5.once

/-! ### The main loop -/

/-- The values printed for a position. -/
noncomputable def labelAt (vs : Vars (T I O)) (s : Pos I O) : List (Name × Bool) :=
  vs.labels.map fun v => (v.1, by classical exact decide (v.2 s s))

theorem labelOf_eq {vs : Vars (T I O)} (hv : VarsOK vs) (s : Pos I O) :
    labelOf (semMgr I O) vs (pre {s}) = labelAt vs s := by
  classical
  rw [labelOf, labelAt]
  refine List.map_congr_left fun v hvm => ?_
  refine Prod.ext rfl ?_
  have hi := hv.label_indep v hvm
  by_cases h : v.2 s s
  · rw [if_neg (fun e => by
      have := congrFun (congrFun e s) s
      simp only [semMgr, pre, Set.mem_singleton_iff, true_and, eq_iff_iff] at this
      exact this.mp h)]
    simp [h]
  · rw [if_pos (by
      funext s' t'
      simp only [semMgr, pre, Set.mem_singleton_iff, eq_iff_iff, iff_false, not_and]
      rintro rfl h'
      exact h ((hi _ _ _).mp h'))]
    simp [h]

open Classical in
/-- What is printed for the pair with number `n`. -/
def StateOK (g : Game I O) (vs : Vars (T I O)) (perm : Bool) (R : Nat → Pos I O → Set (Pos I O))
    (ks : List (Pos I O × Nat)) (n : Nat) (st : PState) : Prop :=
  ∃ k ts, ks[n]? = some k ∧ st.num = n ∧ st.rank = k.2 ∧ st.label = labelAt vs k.1 ∧
    st.succ = ts.map (fun t => ks.idxOf t) ∧ (∀ t ∈ ts, t ∈ ks) ∧ SuccOK g perm k.1 k.2 (R k.2 k.1) ts

theorem StateOK.append {g : Game I O} {vs : Vars (T I O)} {perm : Bool} {R : Nat → Pos I O → Set (Pos I O)}
    {ks : List (Pos I O × Nat)} {n : Nat} {st : PState} (h : StateOK g vs perm R ks n st) (ks' : List (Pos I O × Nat)) :
    StateOK g vs perm R (ks ++ ks') n st := by
  classical
  obtain ⟨k, ts, h1, h2, h3, h4, h5, h6, h7⟩ := h
  refine ⟨k, ts, ?_, h2, h3, h4, ?_, fun t ht => List.mem_append_left _ (h6 t ht), h7⟩
  · have hn : n < ks.length := by
      by_contra hn; rw [List.getElem?_eq_none (by omega)] at h1; cases h1
    rw [List.getElem?_append_left hn, h1]
  · rw [h5]
    refine List.map_congr_left fun t ht => ?_
    rw [List.idxOf_append_of_mem (h6 t ht)]

theorem length_le_of_nodup [Finite I] [Finite O] {ks : List (Pos I O × Nat)} (h : ks.Nodup) {n : Nat} (hr : ∀ k ∈ ks, k.2 < n) :
    ks.length ≤ Nat.card (Pos I O) * n := by
  classical
  have : Fintype (Pos I O) := Fintype.ofFinite _
  have h1 : ks.toFinset ⊆ Finset.univ ×ˢ Finset.range n := by
    intro k hk
    simp only [List.mem_toFinset] at hk
    simp [hr k hk]
  have h2 := Finset.card_le_card h1
  rw [List.toFinset_card_of_nodup h, Finset.card_product, Finset.card_range, Finset.card_univ] at h2
  rw [Nat.card_eq_fintype_card]
  exact h2

open Classical in
theorem extractLoop_spec [Finite I] [Finite O] (g : Game I O) {vs : Vars (T I O)} (hv : VarsOK vs) (perm recovery : Bool)
    (strategy : Nat → T I O) (P : Pos I O × Nat → Prop)
    (hP : ∀ k, P k → k.2 < g.guarantees.length)
    (hPs : ∀ k, P k → ∀ t j, strategy k.2 k.1 t → j < g.guarantees.length → P (t, j))
    (fuel : Nat) (hfuel : Nat.card (Pos I O) < fuel) :
    ∀ (n : Nat) (ks : List (Pos I O × Nat)) (w : Work (T I O)) (out : List PState),
      Nat.card (Pos I O) * g.guarantees.length - out.length < n →
      WorkInv ks out.length w → (∀ k ∈ ks, P k) →
      (∀ m st, out[m]? = some st → StateOK g vs perm
        (fun j s => {t | strategy j s t ∧ (recovery = true ∨ g.safetyEnv s t.1)}) ks m st) →
      ∃ ks' sts, extractLoop (semMgr I O) (gameCtx g) vs perm recovery strategy fuel n w out = some sts ∧
        (ks ++ ks').Nodup ∧ (∀ k ∈ ks ++ ks', P k) ∧ sts.length = (ks ++ ks').length ∧
        (∀ m st, sts[m]? = some st → StateOK g vs perm
          (fun j s => {t | strategy j s t ∧ (recovery = true ∨ g.safetyEnv s t.1)}) (ks ++ ks') m st) ∧
        (∀ st ∈ out, st ∈ sts) ∧ ∀ k ∈ ks', ∃ st ∈ sts, (ks ++ ks').idxOf k ∈ st.succ ∧ st.num < (ks ++ ks').idxOf k := by
  intro n
  induction n with
  | zero => intro ks w out h; omega
  | succ n ih =>
    intro ks w out hn hw hks hout
    rw [extractLoop, hw.todo]
    have hlen : ks.length ≤ Nat.card (Pos I O) * g.guarantees.length :=
      length_le_of_nodup hw.nodup fun k hk => hP k (hks k hk)
    by_cases hd : out.length = ks.length
    · rw [hd, List.drop_length]
      exact ⟨[], out, rfl, by simpa using hw.nodup, by simpa using hks, by simpa using hd, by simpa using hout, fun st h => h, by simp⟩
    · have hlt : out.length < ks.length := by have := hw.le; omega
      rw [List.drop_eq_getElem_cons hlt, List.map_cons]
      dsimp only
      have hmem : ks[out.length] ∈ ks := List.getElem_mem hlt
      have hidx : ks.idxOf ks[out.length] = out.length := List.Nodup.idxOf_getElem hw.nodup _ hlt
      have hw' : WorkInv ks (out.length + 1) { w with todo := (ks.drop (out.length + 1)).map keyOf } :=
        ⟨hw.nodup, by omega, hw.lookup, hw.bfs, rfl⟩
      rw [hw'.num hmem, hidx]
      generalize hk : ks[out.length] = k at hmem
      have hget : w.bfs[out.length]? = some (pre {k.1}) := by
        rw [hw.bfs, List.getElem?_map, List.getElem?_eq_getElem hlt, hk]; rfl
      rw [hget]
      dsimp only
      have erem : (if recovery = true then (semMgr I O).and (pre {k.1}) (strategy (keyOf k).2) else
          (semMgr I O).and ((semMgr I O).and (pre {k.1}) (strategy (keyOf k).2)) (gameCtx g).safetyEnv) =
          from1 k.1 {t | strategy k.2 k.1 t ∧ (recovery = true ∨ g.safetyEnv k.1 t.1)} := by
        cases recovery
        · rw [if_neg (by simp)]
          funext s t
          simp only [semMgr, pre, from1, gameCtx, keyOf, Set.mem_singleton_iff, Set.mem_ofPred_eq, eq_iff_iff]
          constructor
          · rintro ⟨⟨rfl, h⟩, h'⟩; exact ⟨rfl, h, .inr h'⟩
          · rintro ⟨rfl, h, h'⟩
            exact ⟨⟨rfl, h⟩, h'.elim (fun h => by cases h) id⟩
        · rw [if_pos rfl]
          funext s t
          simp only [semMgr, pre, from1, keyOf, Set.mem_singleton_iff, Set.mem_ofPred_eq, eq_iff_iff]
          constructor
          · rintro ⟨rfl, h⟩; exact ⟨rfl, h, .inl trivial⟩
          · rintro ⟨rfl, h, _⟩; exact ⟨rfl, h⟩
      rw [erem]
      have hPk := hks k hmem
      obtain ⟨k1, ts, w1, h1, h2, h3, h4, h5⟩ := succLoop_spec g hv perm (hP k hPk) k.1 fuel
        {t | strategy k.2 k.1 t ∧ (recovery = true ∨ g.safetyEnv k.1 t.1)} ks (out.length + 1) _ []
        (lt_of_le_of_lt (Set.ncard_le_card _) hfuel) hw'
      rw [show (keyOf k).2 = k.2 from rfl, h1]
      dsimp only
      obtain ⟨k2, sts, h6, h7, h8, h9, h10, h11, h12⟩ := ih (ks ++ k1) w1
        (out ++ [{ num := out.length, rank := k.2, label := labelOf (semMgr I O) vs (pre {k.1}),
                   succ := [] ++ ts.map fun t => (ks ++ k1).idxOf t }])
        (by simp only [List.length_append, List.length_singleton]; omega)
        (by simpa using h2)
        (by
          intro k' hk'
          rcases List.mem_append.mp hk' with hk' | hk'
          · exact hks k' hk'
          · have ht := h3 k' hk'
            exact hPs k hPk k'.1 k'.2 (h5.mem _ ht).1 (h5.rank _ ht))
        (by
          intro m st hm
          by_cases hml : m < out.length
          · rw [List.getElem?_append_left hml] at hm
            exact (hout m st hm).append k1
          · have hml : m = out.length := by
              by_contra hne
              rw [List.getElem?_eq_none (by simp; omega)] at hm; cases hm
            subst hml
            simp only [List.getElem?_append_right (Nat.le_refl _), Nat.sub_self, List.getElem?_cons_zero,
              Option.some.injEq] at hm
            subst hm
            refine ⟨k, ts, ?_, rfl, rfl, labelOf_eq hv k.1, rfl, h4, h5⟩
            rw [List.getElem?_append_left hlt, List.getElem?_eq_getElem hlt, hk])
      rw [List.append_assoc] at h7 h8 h9 h10 h12
      refine ⟨k1 ++ k2, sts, h6, h7, h8, h9, h10, fun st hst => h11 st (List.mem_append_left _ hst), fun k' hk' => ?_⟩
      rcases List.mem_append.mp hk' with hk' | hk'
      · refine ⟨_, h11 _ (List.mem_append_right _ (List.mem_singleton_self _)), ?_, ?_⟩
        · dsimp only
          rw [← List.append_assoc, List.idxOf_append_of_mem (List.mem_append_right _ hk'), List.nil_append]
          exact List.mem_map.mpr ⟨k', h3 k' hk', rfl⟩
        · have hnot : k' ∉ ks := fun h => (List.nodup_append.mp h7).2.2 k' h k' (List.mem_append_left _ hk') rfl
          rw [List.idxOf_append_of_notMem hnot]
          dsimp only
          omega
      · exact h12 k' hk'

end Slugs.Model
