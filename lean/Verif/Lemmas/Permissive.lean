import Verif.Lemmas.Checked
import Verif.Lemmas.ExplicitSpec
import Verif.Lemmas.CostSound
import Verif.Lemmas.Bias

/-! What permissive strategies contain at least. -/

namespace Slugs.Model

open Slugs.Spec

variable {I O : Type}

/-- Entries for goal `j` were added, all of which contain the transitions of `L`. -/
def Added (L : T I O) (j : Nat) (dump dump' : Dump (T I O)) : Prop :=
  ∃ l : List (T I O), dump' = dump ++ l.map (fun d => (j, d)) ∧ ∀ d ∈ l, ∀ s t, L s t → d s t

/-- As `Added`, and at least one. -/
def AddedSome (L : T I O) (j : Nat) (dump dump' : Dump (T I O)) : Prop :=
  ∃ l : List (T I O), dump' = dump ++ l.map (fun d => (j, d)) ∧ l ≠ [] ∧ ∀ d ∈ l, ∀ s t, L s t → d s t

theorem AddedSome.added {L : T I O} {j : Nat} {dump dump' : Dump (T I O)} (h : AddedSome L j dump dump') : Added L j dump dump' := by
  obtain ⟨l, h1, _, h3⟩ := h
  exact ⟨l, h1, h3⟩

theorem Added.refl (L : T I O) (j : Nat) (dump : Dump (T I O)) : Added L j dump dump := ⟨[], by simp, by simp⟩

theorem Added.trans {L : T I O} {j : Nat} {d1 d2 d3 : Dump (T I O)} (h : Added L j d1 d2) (h' : Added L j d2 d3) : Added L j d1 d3 := by
  obtain ⟨l, rfl, h2⟩ := h
  obtain ⟨l', rfl, h3⟩ := h'
  refine ⟨l ++ l', by simp, fun d hd => ?_⟩
  rcases List.mem_append.mp hd with h | h
  · exact h2 d h
  · exact h3 d h

theorem Added.some {L : T I O} {j : Nat} {d1 d2 d3 : Dump (T I O)} (h : Added L j d1 d2) (h' : AddedSome L j d2 d3) : AddedSome L j d1 d3 := by
  obtain ⟨l, rfl, h2⟩ := h
  obtain ⟨l', rfl, hne, h3⟩ := h'
  refine ⟨l ++ l', by simp, by simp [hne], fun d hd => ?_⟩
  rcases List.mem_append.mp hd with h | h
  · exact h2 d h
  · exact h3 d h

variable {g : Game I O} {fuel j : Nat}

theorem nu0Loop_contains {live A nu0 found : T I O} (h : nu0Loop (semMgr I O) (gameCtx g) fuel live A = some (nu0, found)) (s t : Pos I O)
    (hl : live s t) (hs : g.safetySys s t) : found s t := by
  obtain ⟨_, x, _, hx⟩ := fixLoop_inv (fun _ _ => True) (fun _ _ _ _ _ _ => trivial) _ _ _ _ _ h trivial
  rw [nu0Step] at hx
  simp only [Option.some.injEq, Prod.mk.injEq] at hx
  rw [← hx.2]
  exact ⟨.inl hl, hs⟩

theorem assumptionLoop_added {live L : T I O} (hL : ∀ s t, L s t → live s t ∧ g.safetySys s t) : ∀ (as : List (T I O)) (good : T I O)
    (dump : Dump (T I O)) {good' : T I O} {dump' : Dump (T I O)},
    assumptionLoop (semMgr I O) (gameCtx g) fuel j live as (good, dump) = some (good', dump') →
      Added L j dump dump' ∧ (as ≠ [] → AddedSome L j dump dump')
  | [], good, dump, good', dump', h => by
    rw [assumptionLoop] at h
    cases h
    exact ⟨Added.refl _ _ _, fun h => absurd rfl h⟩
  | a :: as, good, dump, good', dump', h => by
    rw [assumptionLoop] at h
    cases hn : nu0Loop (semMgr I O) (gameCtx g) fuel live a with
    | none => rw [hn] at h; cases h
    | some r =>
      obtain ⟨nu0, found⟩ := r
      rw [hn] at h
      have h1 := (assumptionLoop_added hL as _ _ h).1
      obtain ⟨l, rfl, h2⟩ := h1
      have hf : AddedSome L j dump (dump ++ [(j, found)] ++ l.map fun d => (j, d)) := by
        refine ⟨found :: l, by simp, by simp, fun d hd s t hst => ?_⟩
        rcases List.mem_cons.mp hd with rfl | hd
        · exact nu0Loop_contains hn s t (hL s t hst).1 (hL s t hst).2
        · exact h2 d hd s t hst
      exact ⟨hf.added, fun _ => hf⟩

theorem mu1Loop_added (ha : g.assumptions ≠ []) {Z : Set (Pos I O)} {G : T I O} {dump dump' : Dump (T I O)} {mu live : T I O}
    (h : mu1Loop (semMgr I O) (gameCtx g) fuel j (pre Z) G dump = some (mu, (live, dump'))) :
    AddedSome (fun s t => g.safetySys s t ∧ G s t ∧ t ∈ Z) j dump dump' := by
  have hstep : ∀ (x : T I O) (st : T I O × Dump (T I O)) (x' : T I O) (st' : T I O × Dump (T I O)), (∀ s t, G s t → t ∈ Z → st.1 s t) →
      mu1Step (semMgr I O) (gameCtx g) fuel j x st = some (x', st') →
      (∀ s t, G s t → t ∈ Z → st'.1 s t) ∧ AddedSome (fun s t => g.safetySys s t ∧ G s t ∧ t ∈ Z) j st.2 st'.2 := by
    intro x st x' st' hi hs
    rw [mu1Step] at hs
    split at hs
    · cases hs
    · rename_i good d hl
      cases hs
      refine ⟨fun s t hG ht => .inl (hi s t hG ht), (assumptionLoop_added (fun s t hst => ⟨.inl (hi s t hst.2.1 hst.2.2), hst.1⟩) _ _ _ hl).2 ha⟩
  obtain ⟨_, st, ⟨h1, h2⟩, h3⟩ := fixLoop_inv (fun _ st => (∀ s t, G s t → t ∈ Z → st.1 s t) ∧
    Added (fun s t => g.safetySys s t ∧ G s t ∧ t ∈ Z) j dump st.2)
    (fun x st x' st' hi hs => ⟨(hstep x st x' st' hi.1 hs).1, hi.2.trans (hstep x st x' st' hi.1 hs).2.added⟩) _ _ _ _ _ h
    ⟨fun s t hG ht => ⟨hG, ht⟩, Added.refl _ _ _⟩
  exact h2.some (hstep _ _ _ _ h1 h3).2

theorem mu1LoopBias_added (ha : g.assumptions ≠ []) {Z : Set (Pos I O)} {G : T I O} {dump dump' : Dump (T I O)} {mu live : T I O}
    (h : mu1LoopBias (semMgr I O) (gameCtx g) fuel j (pre Z) G dump = some (mu, (live, dump'))) :
    AddedSome (fun s t => g.safetySys s t ∧ G s t ∧ t ∈ Z) j dump dump' := by
  have hstep : ∀ (x : T I O) (st : T I O × Dump (T I O)) (x' : T I O) (st' : T I O × Dump (T I O)), (∀ s t, G s t → t ∈ Z → st.1 s t) →
      mu1StepBias (semMgr I O) (gameCtx g) fuel j x st = some (x', st') →
      (∀ s t, G s t → t ∈ Z → st'.1 s t) ∧ AddedSome (fun s t => g.safetySys s t ∧ G s t ∧ t ∈ Z) j st.2 st'.2 := by
    intro x st x' st' hi hs
    rw [mu1StepBias] at hs
    split at hs
    · cases hs
    · rename_i mu1b d1 hb
      split at hs
      · cases hs
      · rename_i good d hl
        cases hs
        have hadd : Added (fun s t => g.safetySys s t ∧ G s t ∧ t ∈ Z) j st.2 d1 := by
          refine (fixLoop_inv (fun _ d => Added (fun s t => g.safetySys s t ∧ G s t ∧ t ∈ Z) j st.2 d) (fun y d y' d' hd hs => ?_)
            _ _ _ _ _ hb (Added.refl _ _ _)).1
          rw [mu1bStep] at hs
          cases hs
          refine hd.trans ⟨[_], rfl, fun e he s t hst => ?_⟩
          rw [List.mem_singleton] at he
          subst he
          exact ⟨.inl (.inl (hi s t hst.2.1 hst.2.2)), hst.1⟩
        exact ⟨fun s t hG ht => .inl (hi s t hG ht),
          hadd.some ((assumptionLoop_added (fun s t hst => ⟨.inl (hi s t hst.2.1 hst.2.2), hst.1⟩) _ _ _ hl).2 ha)⟩
  obtain ⟨_, st, ⟨h1, h2⟩, h3⟩ := fixLoop_inv (fun _ st => (∀ s t, G s t → t ∈ Z → st.1 s t) ∧
    Added (fun s t => g.safetySys s t ∧ G s t ∧ t ∈ Z) j dump st.2)
    (fun x st x' st' hi hs => ⟨(hstep x st x' st' hi.1 hs).1, hi.2.trans (hstep x st x' st' hi.1 hs).2.added⟩) _ _ _ _ _ h
    ⟨fun s t hG ht => ⟨hG, ht⟩, Added.refl _ _ _⟩
  exact h2.some (hstep _ _ _ _ h1 h3).2

/-- The entries for the goals `j`, `j + 1`, … contain all transitions that obey the safety guarantees, lead to `Z` and fulfil the goal. -/
def Rich (g : Game I O) (Z : Set (Pos I O)) (goals : List (T I O)) (j : Nat) (dump : Dump (T I O)) : Prop :=
  ∀ k G, goals[k]? = some G → entries dump (j + k) ≠ [] ∧ ∀ d ∈ entries dump (j + k), ∀ s t, g.safetySys s t → G s t → t ∈ Z → d s t

theorem rich_cons {Z : Set (Pos I O)} {G : T I O} {goals : List (T I O)} {l : List (T I O)} {dump : Dump (T I O)} (hne : l ≠ [])
    (hl : ∀ d ∈ l, ∀ s t, g.safetySys s t ∧ G s t ∧ t ∈ Z → d s t) (hr : Rich g Z goals (j + 1) dump) (hj : ∀ e ∈ dump, j + 1 ≤ e.1) :
    Rich g Z (G :: goals) j (l.map (fun d => (j, d)) ++ dump) := by
  intro k G' hk
  rw [entries_append]
  cases k with
  | zero =>
    simp at hk
    subst hk
    have : entries dump (j + 0) = [] := by
      simp only [entries, List.map_eq_nil_iff, List.filter_eq_nil_iff, beq_iff_eq]
      intro e he; have := hj e he; omega
    rw [this, List.append_nil, Nat.add_zero, entries_same]
    exact ⟨hne, fun d hd s t h1 h2 h3 => hl d hd s t ⟨h1, h2, h3⟩⟩
  | succ k =>
    rw [entries_other l (by omega), List.nil_append, show j + (k + 1) = j + 1 + k by omega]
    exact hr k G' (by simpa using hk)

theorem goalLoop_rich (ha : g.assumptions ≠ []) {Z : Set (Pos I O)} : ∀ (goals : List (T I O)) (j : Nat) (next : T I O) (dump : Dump (T I O))
    {next' : T I O} {dump' : Dump (T I O)}, goalLoop (semMgr I O) (gameCtx g) fuel (pre Z) j goals (next, dump) = some (next', dump') →
    ∃ l, dump' = dump ++ l ∧ Rich g Z goals j l ∧ ∀ e ∈ l, j ≤ e.1
  | [], j, next, dump, next', dump', h => by
    rw [goalLoop] at h
    cases h
    exact ⟨[], by simp, fun k G hk => by simp at hk, by simp⟩
  | G :: goals, j, next, dump, next', dump', h => by
    rw [goalLoop] at h
    cases hm : mu1Loop (semMgr I O) (gameCtx g) fuel j (pre Z) G dump with
    | none => rw [hm] at h; cases h
    | some r =>
      obtain ⟨mu, live, d1⟩ := r
      rw [hm] at h
      obtain ⟨l', h1, h2, h3⟩ := goalLoop_rich ha goals (j + 1) _ _ h
      obtain ⟨l, rfl, hne, h4⟩ := mu1Loop_added ha hm
      refine ⟨l.map (fun d => (j, d)) ++ l', by rw [h1]; simp, rich_cons hne h4 h2 h3, fun e he => ?_⟩
      rcases List.mem_append.mp he with he | he
      · obtain ⟨d, _, rfl⟩ := List.mem_map.mp he; exact le_refl _
      · have := h3 e he; omega

theorem goalLoopBias_rich (ha : g.assumptions ≠ []) {Z : Set (Pos I O)} : ∀ (goals : List (T I O)) (j : Nat) (next : T I O) (dump : Dump (T I O))
    {next' : T I O} {dump' : Dump (T I O)}, goalLoopBias (semMgr I O) (gameCtx g) fuel (pre Z) j goals (next, dump) = some (next', dump') →
    ∃ l, dump' = dump ++ l ∧ Rich g Z goals j l ∧ ∀ e ∈ l, j ≤ e.1
  | [], j, next, dump, next', dump', h => by
    rw [goalLoopBias] at h
    cases h
    exact ⟨[], by simp, fun k G hk => by simp at hk, by simp⟩
  | G :: goals, j, next, dump, next', dump', h => by
    rw [goalLoopBias] at h
    cases hm : mu1LoopBias (semMgr I O) (gameCtx g) fuel j (pre Z) G dump with
    | none => rw [hm] at h; cases h
    | some r =>
      obtain ⟨mu, live, d1⟩ := r
      rw [hm] at h
      obtain ⟨l', h1, h2, h3⟩ := goalLoopBias_rich ha goals (j + 1) _ _ h
      obtain ⟨l, rfl, hne, h4⟩ := mu1LoopBias_added ha hm
      refine ⟨l.map (fun d => (j, d)) ++ l', by rw [h1]; simp, rich_cons hne h4 h2 h3, fun e he => ?_⟩
      rcases List.mem_append.mp he with he | he
      · obtain ⟨d, _, rfl⟩ := List.mem_map.mp he; exact le_refl _
      · have := h3 e he; omega

/-- With every version of the algorithm. -/
theorem solve_rich [Finite I] [Finite O] (alg : Algorithm) (ha : g.assumptions ≠ []) (hf : Nat.card (Pos I O) < fuel) {Z : Set (Pos I O)}
    {dump : Dump (T I O)} (h : solve alg (semMgr I O) (gameCtx g) fuel = some (pre Z, dump)) : Rich g Z g.guarantees 0 dump := by
  have std : computeWinningPositions (semMgr I O) (gameCtx g) fuel = some (pre Z, dump) → Rich g Z g.guarantees 0 dump := by
    intro h
    obtain ⟨_, st, _, h1⟩ := fixLoop_inv (fun _ _ => True) (fun _ _ _ _ _ _ => trivial) _ _ _ _ _ h trivial
    obtain ⟨l, h2, h3, _⟩ := goalLoop_rich ha _ _ _ _ h1
    rw [List.nil_append] at h2
    rw [h2]
    exact h3
  cases alg with
  | standard => exact std h
  | recycling =>
    rw [solve, computeWinningPositionsRecycling_eq g fuel hf] at h
    exact std h
  | bias =>
    obtain ⟨_, st, _, h1⟩ := fixLoop_inv (fun _ _ => True) (fun _ _ _ _ _ _ => trivial) _ _ _ _ _ h trivial
    obtain ⟨l, h2, h3, _⟩ := goalLoopBias_rich ha _ _ _ _ h1
    rw [List.nil_append] at h2
    rw [h2]
    exact h3

/-- The permissive strategy contains them. -/
theorem rich_perm {Z : Set (Pos I O)} {dump : Dump (T I O)} (h : Rich g Z g.guarantees 0 dump) {G : T I O} (hG : g.guarantees[j]? = some G)
    {s t : Pos I O} (h1 : g.safetySys s t) (h2 : G s t) (h3 : t ∈ Z) : PermT g (entries dump j) s t := by
  obtain ⟨h4, h5⟩ := h j G hG
  rw [Nat.zero_add] at h4 h5
  obtain ⟨d, l, he⟩ := List.exists_cons_of_ne_nil h4
  exact ⟨0, d, by rw [he]; rfl, h5 d (by rw [he]; exact List.mem_cons_self) s t h1 h2 h3, .inl rfl⟩

/-- In a printed permissive strategy, all moves of the strategy are listed. -/
theorem extracted_full {ds : Decls} (F : Section → List Fml) (hn : (tableOf ds).names.Nodup) {recovery : Bool}
    {g : Game (specOf ds F).In (specOf ds F).Out} {Z : Set (Pos (specOf ds F).In (specOf ds F).Out)}
    {dump : Dump (T (specOf ds F).In (specOf ds F).Out)}
    {ks : List (Pos (specOf ds F).In (specOf ds F).Out × Nat)} {sts : List PState}
    (h : Extracted g (semVars ds) true recovery Z dump ks sts) {st : PState} (hm : st ∈ sts) {t : Pos (specOf ds F).In (specOf ds F).Out}
    (ht : PermT g (entries dump st.rank) (st.pos (specOf ds F)) t) (he : g.safetyEnv (st.pos (specOf ds F)) t.1) :
    ∃ st', Edge sts st st' ∧ st'.pos (specOf ds F) = t := by
  classical
  obtain ⟨m, hm', rfl⟩ := List.getElem_of_mem hm
  obtain ⟨k, ts, h1, h2, h3, h4, h5, h6, h7⟩ := h.state m _ (List.getElem?_eq_getElem hm')
  have hp := label_pos F hn h4
  rw [hp] at ht he
  rw [h3] at ht
  obtain ⟨u, hu, hc⟩ := h7.all t ⟨ht, .inr he⟩
  have hc' : t = u.1 := hc
  have hk := h6 u hu
  have hlt : ks.idxOf u < sts.length := by rw [h.length]; exact List.idxOf_lt_length_of_mem hk
  obtain ⟨k', ts', a1, a2, a3, a4, _⟩ := h.state _ _ (List.getElem?_eq_getElem hlt)
  rw [List.getElem?_eq_getElem (List.idxOf_lt_length_of_mem hk), List.getElem_idxOf] at a1
  cases a1
  refine ⟨sts[ks.idxOf u], ⟨hm, List.getElem_mem hlt, ?_⟩, ?_⟩
  · rw [a2, h5]
    exact List.mem_map.mpr ⟨u, hu, by congr!⟩
  · rw [label_pos F hn a4, hc']

end Slugs.Model
