import Verif.Lemmas.CoopLoop
import Verif.Spec.Cooperative

/-! The computed lists of preferred transitions give cooperative strategies. -/

namespace Slugs.Model

open Slugs.Spec

variable {I O : Type}

theorem coopGuarantees_get {g : Game I O} {ts : List (T I O)} (hl : ts.length = g.assumptions.length) {k : Nat} {G : T I O}
    (h : (coopGame g ts).guarantees[k]? = some G) :
    g.guarantees[k]? = some G ∨ ∃ (m : Nat) (A t : T I O), k = g.guarantees.length + m ∧ g.assumptions[m]? = some A ∧ ts[m]? = some t ∧
      G = fun x y => A x y ∨ ¬ t x y := by
  by_cases hlt : k < g.guarantees.length
  · refine .inl ?_
    rw [← h]
    exact (List.getElem?_append_left hlt).symm
  · obtain ⟨m, rfl⟩ : ∃ m, k = g.guarantees.length + m := ⟨k - g.guarantees.length, by omega⟩
    have h' : (List.zipWith (fun a t => (semMgr I O).or a ((semMgr I O).not t)) g.assumptions ts)[m]? = some G := by
      rw [← h]
      refine Eq.symm ((List.getElem?_append_right (by exact Nat.le_add_right _ _)).trans ?_)
      rw [show g.guarantees.length + m - (gameCtx g).livenessGuarantees.length = m from Nat.add_sub_cancel_left _ _]
      rfl
    rw [List.getElem?_zipWith_eq_some] at h'
    obtain ⟨A, t, h1, h2, h3⟩ := h'
    exact .inr ⟨m, A, t, rfl, h1, h2, h3.symm⟩

theorem coopGuarantees_mem {g : Game I O} {ts : List (T I O)} {G : T I O} (h : G ∈ g.guarantees) : G ∈ (coopGame g ts).guarantees :=
  List.mem_append_left _ h

theorem coopGuarantees_of {g : Game I O} {ts : List (T I O)} (hl : ts.length = g.assumptions.length) {A : T I O}
    (h : A ∈ g.assumptions) : ∃ (m : Nat) (t : T I O), g.assumptions[m]? = some A ∧ ts[m]? = some t ∧
      (fun x y => A x y ∨ ¬ t x y) ∈ (coopGame g ts).guarantees := by
  obtain ⟨m, hm, rfl⟩ := List.getElem_of_mem h
  have hm' : m < ts.length := by omega
  refine ⟨m, ts[m], List.getElem?_eq_getElem hm, List.getElem?_eq_getElem hm', List.mem_append_right _ ?_⟩
  refine List.mem_of_getElem? (i := m) ?_
  rw [List.getElem?_zipWith_eq_some]
  exact ⟨_, _, List.getElem?_eq_getElem hm, List.getElem?_eq_getElem hm', rfl⟩

section
variable {g : Game I O} {dump : Dump (T I O)} {ts : List (T I O)}

theorem foldN_take {g : Game I O} (hg : g.guarantees ≠ []) (ha : g.assumptions ≠ []) (k : Nat) {t : Pos I O}
    (ht : t ∈ foldN g (g.assumptions.take k) (N0 g (nuZc g))) (hnd : t ∈ ND g) : t ∈ nuZc g := by
  rw [nuZc_eq g hg ha]
  exact ⟨foldN_sub g _ _ ht, hnd⟩

theorem nuZc_sub_foldN {g : Game I O} (hg : g.guarantees ≠ []) (k : Nat) :
    nuZc g ⊆ foldN g (g.assumptions.take k) (N0 g (nuZc g)) :=
  (foldN_ND g hg (g.assumptions.take k) (g.assumptions.drop k) (List.take_append_drop _ _).symm).1

/-- The outermost fixed point lies in the set from which the `k`-th assumption can be fulfilled together. -/
theorem nuZc_sub_muW {g : Game I O} (hg : g.guarantees ≠ []) {k : Nat} {A : T I O} (hk : g.assumptions[k]? = some A) :
    nuZc g ⊆ muW g A (foldN g (g.assumptions.take k) (N0 g (nuZc g))) := by
  have h := nuZc_sub_foldN hg (k + 1)
  have e : g.assumptions.take (k + 1) = g.assumptions.take k ++ [A] := by
    rw [List.take_add_one, hk]; rfl
  rw [e, foldN_append] at h
  exact h.trans Set.inter_subset_right

theorem coop_goodList (hg : g.guarantees ≠ []) (ha : g.assumptions ≠ []) {k : Nat} {G : T I O} (hk : g.guarantees[k]? = some G)
    {ds : List (T I O)} (h : CoopGoal g G (nuZc g) ds) :
    GoodList g G (nuZc g) ds ∧ Prog g G (nuZc g) ds ∧ ∀ d ∈ ds, ∀ s t, d s t → okT g s t := by
  obtain ⟨⟨gs, rfl, hgs⟩, htg⟩ := h
  have hmu := muYc_nuZc g (List.mem_of_getElem? hk)
  have hsub : nuZc g ⊆ muYc g G (nuZc g) := by rw [hmu]; exact nuZc_sub_N0 g
  have htarget : ∀ d ∈ gs.flatten, ∀ s t, d s t → t ∈ nuZc g := by
    intro d hd s t hst
    rcases htg d hd s t hst with h | h
    · exact h
    · rw [hmu] at h
      rw [nuZc_eq g hg ha]
      exact ⟨h, (hgs.ok d hd s t hst).1.2⟩
  have hgl : GoalList g G (nuZc g) (nuZc g) (gs.map union) := by
    refine ⟨hgs.ranked, ?_, ?_⟩
    · rw [← Covered_union]; exact hsub.trans hgs.covers
    · intro e he s t hst
      obtain ⟨grp, hgrp, rfl⟩ := List.mem_map.mp he
      obtain ⟨d, hd, hst⟩ := hst
      exact .inl (htarget d (List.mem_flatten.mpr ⟨grp, hgrp, hd⟩) s t hst)
  exact ⟨⟨hsub.trans hgs.covers, htarget, fun d hd s t hst => (hgs.ok d hd s t hst).1.1,
    fun p N h0 hu hG => goal_reached g hgl p N h0 (fun n hn => Used_union (hu n hn)) hG⟩, hgs.prog, hgs.ok⟩

/-- What is known about all lists, for the game with the additional guarantees. -/
structure CoopFamily (g g' : Game I O) (Z : Set (Pos I O)) (lists : Nat → List (T I O)) : Prop where
  family : Family g' Z lists
  prog : ∀ k G, g'.guarantees[k]? = some G → Prog g' G Z (lists k)
  alive : Z ⊆ ND g
  nd : ∀ k G, g'.guarantees[k]? = some G → ∀ d ∈ lists k, ∀ s t, d s t → ndT g s t
  inside : ∀ A ∈ g.assumptions, ∃ G ∈ g'.guarantees, ∀ s t, s ∈ Z → t ∈ Z → okT g s t → G s t → A s t

theorem CoopRound.family (hg : g.guarantees ≠ []) (ha : g.assumptions ≠ []) (h : CoopRound g (nuZc g) dump ts) :
    CoopFamily g (coopGame g ts) (nuZc g) (entries dump) := by
  have halive : nuZc g ⊆ ND g := by rw [nuZc_eq g hg ha]; exact Set.inter_subset_right
  have hassume : ∀ m A t, g.assumptions[m]? = some A → ts[m]? = some t →
      GoodList g (fun x y => A x y ∨ ¬ t x y) (nuZc g) (entries dump (g.guarantees.length + m)) ∧
      Prog g (fun x y => A x y ∨ ¬ t x y) (nuZc g) (entries dump (g.guarantees.length + m)) ∧
      ∀ d ∈ entries dump (g.guarantees.length + m), ∀ s t, d s t → ndT g s t := by
    intro m A t hA ht
    obtain ⟨ht', ⟨es, hes, htw, hcov⟩⟩ := h.assumption m A hA
    rw [hes]
    set N := foldN g (g.assumptions.take m) (N0 g (nuZc g)) with hN
    have hW := nuZc_sub_muW hg hA
    rw [← hN] at hW
    have hmem : ∀ d ∈ es ++ [fun s t => ndT g s t ∧ t ∈ nuZc g], ∀ s t, d s t → ndT g s t ∧ t ∈ nuZc g := by
      intro d hd s t hst
      rcases List.mem_append.mp hd with hd | hd
      · have := htw.sub d hd s t hst
        refine ⟨this.1.1, foldN_take hg ha m ?_ this.1.1.2⟩
        rcases this.2.2 with h | h
        · exact h.2
        · exact (muW_sub g A _ h).1
      · rw [List.mem_singleton.mp hd] at hst
        exact hst
    refine ⟨⟨?_, fun d hd s t hst => (hmem d hd s t hst).2, fun d hd s t hst => (hmem d hd s t hst).1.1, ?_⟩, ?_,
      fun d hd s t hst => (hmem d hd s t hst).1⟩
    · intro s hs i hi
      obtain ⟨G, hG⟩ := List.exists_mem_of_ne_nil _ hg
      obtain ⟨k, hk, rfl⟩ := List.getElem_of_mem hG
      obtain ⟨h1, _, h2⟩ := coop_goodList hg ha (List.getElem?_eq_getElem hk) (h.goal k _ (List.getElem?_eq_getElem hk))
      obtain ⟨o, d, hd, ho⟩ := h1.covers hs i hi
      exact ⟨o, _, List.mem_append_right _ (List.mem_singleton.mpr rfl), (h2 d hd _ _ ho).1, h1.target d hd _ _ ho⟩
    · intro p n0 _ _ hG
      refine ⟨A, List.mem_of_getElem? hA, fun hinf => ?_⟩
      obtain ⟨n, hn, hAn⟩ := hinf n0
      exact hG n hn (.inl hAn)
    · refine Prog_append (ds := es) (fun k d hk s t hst => ?_) (fun k d hk s t hst => ?_)
      · have hgd := htw.sub d (List.mem_of_getElem? hk) s t hst
        rcases htw.step k d hk s t hst with h | ⟨d', hd', t', ht'⟩
        · exact .inl ⟨.inl h.1, foldN_take hg ha m h.2 hgd.1.1.2⟩
        · exact .inr ⟨d', hd', t', (htw.sub d' (List.mem_of_mem_take hd') t t' ht').1.2, ht'⟩
      · have hst' := hmem d (List.mem_append_right _ (List.mem_of_getElem? hk)) s t hst
        obtain ⟨d', hd', t', ht'⟩ := hcov t (hW hst'.2)
        exact .inr ⟨d', List.mem_append_left _ hd', t', (htw.sub d' hd' t t' ht').1.2, ht'⟩
  have hall : ∀ k G, (coopGame g ts).guarantees[k]? = some G → GoodList g G (nuZc g) (entries dump k) ∧
      Prog g G (nuZc g) (entries dump k) ∧ ∀ d ∈ entries dump k, ∀ s t, d s t → ndT g s t := by
    intro k G hk
    rcases coopGuarantees_get h.length hk with hk | ⟨m, A, t, rfl, h1, h2, rfl⟩
    · obtain ⟨h1, h2, h3⟩ := coop_goodList hg ha hk (h.goal k G hk)
      exact ⟨h1, h2, fun d hd s t hst => (h3 d hd s t hst).1⟩
    · exact hassume m A t h1 h2
  refine ⟨fun k G hk => ?_, fun k G hk => (hall k G hk).2.1, halive, fun k G hk => (hall k G hk).2.2, ?_⟩
  · obtain ⟨h1, h2, h3, h4⟩ := (hall k G hk).1
    exact ⟨h1, h2, h3, h4⟩
  · intro A hA
    obtain ⟨m, t, h1, h2, h3⟩ := coopGuarantees_of h.length hA
    refine ⟨_, h3, fun x y hx hy hok hG => hG.resolve_right (not_not_intro ?_)⟩
    rw [(h.assumption m A h1).1] at h2
    cases h2
    exact ⟨hok, nuZc_sub_foldN hg m hx, .inr (nuZc_sub_muW hg h1 hy)⟩

end

/-! ### Runs on which the players cooperate -/

/-- If a system moves along the preferred transitions and switches goals as described, the environment can choose its inputs such that all
goals are reached infinitely often. -/
theorem cycle_run {S : Type} {g g' : Game I O} {Z : Set (Pos I O)} {lists : Nat → List (T I O)} (hf : CoopFamily g g' Z lists)
    (henv : g'.safetyEnv = g.safetyEnv)
    (P : S → Prop) (Step : S → S → Prop) (pos : S → Pos I O) (idx : S → Nat)
    (hidx : ∀ st, P st → idx st < g'.guarantees.length) (hZ : ∀ st, P st → pos st ∈ Z)
    (hstep : ∀ st, P st → ∀ i, g.safetyEnv (pos st) i → ∃ st', P st' ∧ Step st st' ∧ (pos st').1 = i ∧
      strat (lists (idx st)) (pos st) (pos st') ∧ GoalStep g' (pos st) (pos st') (idx st) (idx st')) (st : S) (hst : P st) :
    ∃ r : Nat → S, r 0 = st ∧ (∀ n, P (r n)) ∧ (∀ n, Step (r n) (r (n + 1))) ∧
      (∀ n, g.safetyEnv (pos (r n)) (pos (r (n + 1))).1) ∧ ∀ G ∈ g'.guarantees, InfOften G fun n => pos (r n) := by
  classical
  have hex : ∀ st, P st → ∃ m, ∃ d ∈ (lists (idx st)).take m, ∃ t', g.safetyEnv (pos st) t'.1 ∧ d (pos st) t' := by
    intro st hst
    obtain ⟨i, hi⟩ := hf.alive (hZ st hst)
    obtain ⟨o, d, hd, ho⟩ := (hf.family (idx st) _ (List.getElem?_eq_getElem (hidx st hst))).covers (hZ st hst) i (henv ▸ hi)
    exact ⟨(lists (idx st)).length, d, by rwa [List.take_length], (i, o), hi, ho⟩
  let b : S → Nat := fun st => if h : P st then Nat.find (hex st h) else 0
  have hb : ∀ st, P st → ∀ m, (∃ d ∈ (lists (idx st)).take m, ∃ t', g.safetyEnv (pos st) t'.1 ∧ d (pos st) t') → b st ≤ m := by
    intro st h m hm
    simp only [b, h, dif_pos]
    exact Nat.find_min' _ hm
  have hnext : ∀ st, P st → ∃ st', P st' ∧ Step st st' ∧ g.safetyEnv (pos st) (pos st').1 ∧
      GoalStep g' (pos st) (pos st') (idx st) (idx st') ∧ (goalAt g' (idx st) (pos st) (pos st') ∨ b st' < b st) := by
    intro st hst
    have hspec : ∃ d ∈ (lists (idx st)).take (b st), ∃ t', g.safetyEnv (pos st) t'.1 ∧ d (pos st) t' := by
      simp only [b, hst, dif_pos]
      exact Nat.find_spec (hex st hst)
    obtain ⟨d, hd, t', hi, ht'⟩ := hspec
    obtain ⟨st', h1, h2, h3, h4, h5⟩ := hstep st hst _ hi
    refine ⟨st', h1, h2, by rw [h3]; exact hi, h5, ?_⟩
    by_cases hgoal : goalAt g' (idx st) (pos st) (pos st')
    · exact .inl hgoal
    · refine .inr ?_
      obtain ⟨m, e, hm, he, hmin⟩ := h4
      have hmb : m < b st := by
        obtain ⟨m', hm', hmd⟩ := List.getElem_of_mem hd
        rw [List.length_take] at hm'
        rw [List.getElem_take] at hmd
        by_contra hge
        refine hmin m' (by omega) d (by rw [List.getElem?_eq_getElem (by omega), hmd]) t'.2 ?_
        rw [h3]
        exact ht'
      have hget := List.getElem?_eq_getElem (hidx st hst)
      have hidx' := h5.1 hgoal
      rcases hf.prog _ _ hget m e hm _ _ he with h | ⟨d', hd', t'', hi', ht''⟩
      · exact absurd ⟨_, hget, h.1⟩ hgoal
      · have := hb st' h1 m (by rw [hidx']; exact ⟨d', hd', t'', henv ▸ hi', ht''⟩)
        omega
  choose! next hn1 hn2 hn3 hn4 hn5 using hnext
  let r : Nat → S := fun n => next^[n] st
  have hr : ∀ n, r (n + 1) = next (r n) := fun n => Function.iterate_succ_apply' next n st
  have hP : ∀ n, P (r n) := by
    intro n
    induction n with
    | zero => exact hst
    | succ n ih => rw [hr]; exact hn1 _ ih
  refine ⟨r, rfl, hP, fun n => by rw [hr]; exact hn2 _ (hP n), fun n => by rw [hr]; exact hn3 _ (hP n), ?_⟩
  refine goals_cycle g' (fun n => pos (r n)) (fun n => idx (r n)) (fun n => hidx _ (hP n))
    (fun n => by simp only [hr]; exact hn4 _ (hP n)) ?_
  intro n
  induction hbn : b (r n) using Nat.strong_induction_on generalizing n with
  | _ v ih =>
    subst hbn
    rcases hn5 _ (hP n) with h | h
    · exact ⟨n, le_refl _, by simp only [hr]; exact h⟩
    · rw [← hr] at h
      obtain ⟨m, hm, hgoal⟩ := ih _ h (n + 1) rfl
      exact ⟨m, by omega, hgoal⟩

/-! ### Cooperative strategies -/

theorem sysHist_env {g g' : Game I O} (henv : g'.safetyEnv = g.safetyEnv) {σ : SysStrategy I O} {s : Pos I O} {h : History I O} :
    g'.SysHist σ s h ↔ g.SysHist σ s h := by
  constructor
  · intro hh
    induction hh with
    | start => exact .start
    | step _ hi ih => exact .step ih (henv ▸ hi)
  · intro hh
    induction hh with
    | start => exact .start
    | step _ hi ih => exact .step ih (henv ▸ hi)

theorem sysHist_ne {g : Game I O} {σ : SysStrategy I O} {s : Pos I O} {h : History I O} (hh : g.SysHist σ s h) : ∃ cur h', h = cur :: h' := by
  cases hh with
  | start => exact ⟨_, _, rfl⟩
  | step => exact ⟨_, _, rfl⟩

theorem coopFamily_wins {g g' : Game I O} {Z : Set (Pos I O)} {lists : Nat → List (T I O)} (hf : CoopFamily g g' Z lists)
    (henv : g'.safetyEnv = g.safetyEnv) (hsys : g'.safetySys = g.safetySys) (hass : g'.assumptions = g.assumptions)
    (hgu : ∀ G ∈ g.guarantees, G ∈ g'.guarantees) (hne : g'.guarantees ≠ []) {s : Pos I O} (hs : s ∈ Z) :
    g.CoopWins s := by
  have hw := family_wins g' hne hf.family hs
  have hlt := goalIdx_lt g' hne
  refine ⟨famStrategy g' lists s.2, ⟨?_, ?_⟩, ?_⟩
  · intro cur h i hh hi
    rw [← hsys]
    exact hw.1 cur h i ((sysHist_env henv).mpr hh) (henv ▸ hi)
  · intro p hp ha b hb
    exact hw.2 p (fun n => (sysHist_env henv).mpr (hp n)) (by rw [hass]; exact ha) b (hgu b hb)
  · -- the positions after which something happens
    have hgl : ∀ h : History I O, GoodList g' (g'.guarantees[goalIdx g' h]'(hlt h)) Z (lists (goalIdx g' h)) :=
      fun h => hf.family _ _ (List.getElem?_eq_getElem (hlt h))
    have hmove : ∀ cur h i, cur ∈ Z → g.safetyEnv cur i →
        strat (lists (goalIdx g' (cur :: h))) cur (i, famStrategy g' lists s.2 (cur :: h) i) := by
      intro cur h i hcur hi
      have hex := strat_exists g' ((hgl (cur :: h)).covers hcur) (henv.symm ▸ hi)
      simp only [famStrategy, hex, dif_pos]
      exact hex.choose_spec
    have hinv : ∀ h, g.SysHist (famStrategy g' lists s.2) s h → ∀ cur h', h = cur :: h' → cur ∈ Z := by
      intro h hh
      induction hh with
      | start => rintro cur h' ⟨⟩; exact hs
      | step hh hi ih =>
        rintro cur h' ⟨⟩
        exact (hgl _).stays (strat_mem (hmove _ _ _ (ih _ _ rfl) hi))
    intro h0 hh0
    obtain ⟨r, hr0, hrP, hrs, hri, hrg⟩ := cycle_run (S := {h : History I O // h ≠ []}) hf henv
      (fun h => g.SysHist (famStrategy g' lists s.2) s h.1) (fun h h' => h'.1 = h'.1.head h'.2 :: h.1)
      (fun h => h.1.head h.2) (fun h => goalIdx g' h.1) (fun h _ => hlt _)
      (by
        rintro ⟨h, hne⟩ hh
        obtain ⟨cur, h', rfl⟩ := sysHist_ne hh
        exact hinv _ hh _ _ rfl)
      (by
        rintro ⟨h, hne⟩ hh i hi
        obtain ⟨cur, h', rfl⟩ := sysHist_ne hh
        refine ⟨⟨(i, famStrategy g' lists s.2 (cur :: h') i) :: cur :: h', by simp⟩, .step hh hi, rfl, rfl,
          hmove cur h' i (hinv _ hh _ _ rfl) hi, ?_⟩
        show GoalStep g' cur (i, famStrategy g' lists s.2 (cur :: h') i) (goalIdx g' (cur :: h'))
          (goalIdx g' ((i, famStrategy g' lists s.2 (cur :: h') i) :: cur :: h'))
        rw [goalIdx]
        refine ⟨fun hn => by rw [if_neg hn], fun hy => ⟨1, le_refl _, List.length_pos_iff.mpr (by assumption), by rw [if_pos hy], ?_⟩⟩
        intro l hl
        have : l = 0 := by omega
        subst this
        rw [Nat.add_zero, Nat.mod_eq_of_lt (hlt _)]
        exact hy)
      ⟨h0, by obtain ⟨_, _, rfl⟩ := sysHist_ne hh0; simp⟩ hh0
    have hafter : ∀ n, afterHist h0 (fun n => (r (n + 1)).1.head (r (n + 1)).2) n = (r n).1 := by
      intro n
      induction n with
      | zero => rw [hr0]; rfl
      | succ n ih => rw [afterHist, ih]; exact (hrs n).symm
    refine ⟨fun n => (r (n + 1)).1.head (r (n + 1)).2, fun n => by rw [hafter]; exact hrP n, ?_⟩
    intro A hA
    obtain ⟨G, hG, hin⟩ := hf.inside A hA
    have hZr : ∀ n, (r n).1.head (r n).2 ∈ Z := fun n => by
      have h1 := hrP n
      obtain ⟨cur, h', he⟩ := sysHist_ne h1
      simp only [he, List.head_cons]
      exact hinv _ h1 _ _ he
    intro n
    obtain ⟨m, hm, hGm⟩ := hrg G hG (n + 1)
    obtain ⟨m, rfl⟩ : ∃ m', m = m' + 1 := ⟨m - 1, by omega⟩
    refine ⟨m, by omega, hin _ _ (hZr _) (hZr _) ⟨⟨?_, hf.alive (hZr _)⟩, hri _⟩ hGm⟩
    have h1 := hrP (m + 1)
    obtain ⟨cur, h', he⟩ := sysHist_ne h1
    have h2 := hrP (m + 1 + 1)
    rw [hrs, he] at h2
    simp only [he, List.head_cons]
    rw [he] at h1
    have hcur := hinv _ h1 _ _ rfl
    generalize (r (m + 1 + 1)).1.head _ = q at h2 ⊢
    cases h2 with
    | step _ hi => exact hsys ▸ (hgl _).safe (strat_mem (hmove _ _ _ hcur hi))

end Slugs.Model
