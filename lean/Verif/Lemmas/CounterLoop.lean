import Verif.Lemmas.Counter
import Verif.Lemmas.ExplicitLoop

/-! The extraction of explicit counterstrategies, on predicates on pairs of positions. -/

namespace Slugs.Model

open Slugs.Spec

variable {I O : Type}

/-! ### Positional strategies -/

/-- The transitions of the positional counterstrategy built from a list: those of the first entry that offers something for the position. -/
def stratE (ds : List (T I O)) : T I O := fun s t =>
  ∃ (m : Nat) (d : T I O), ds[m]? = some d ∧ d s t ∧ s ∉ CovE (ds.take m)

theorem stratE_mem {ds : List (T I O)} {s t : Pos I O} (h : stratE ds s t) : ∃ d ∈ ds, d s t := by
  obtain ⟨m, d, hd, hst, _⟩ := h
  exact ⟨d, List.mem_of_getElem? hd, hst⟩

theorem stratE_exists {ds : List (T I O)} {s : Pos I O} : (∃ t, stratE ds s t) ↔ s ∈ CovE ds := by
  classical
  constructor
  · rintro ⟨t, h⟩
    obtain ⟨d, hd, hst⟩ := stratE_mem h
    exact ⟨d, hd, t, hst⟩
  · rintro ⟨d, hd, t, hst⟩
    obtain ⟨m, hm, hmd⟩ := List.getElem_of_mem hd
    have hex : ∃ (m : Nat) (d : T I O), ds[m]? = some d ∧ ∃ t, d s t := ⟨m, d, by rw [List.getElem?_eq_getElem hm, hmd], t, hst⟩
    obtain ⟨d', hd', t', ht'⟩ := Nat.find_spec hex
    refine ⟨t', _, d', hd', ht', ?_⟩
    rintro ⟨d'', hd'', t'', ht''⟩
    obtain ⟨m', hm', hmd'⟩ := List.getElem_of_mem hd''
    rw [List.length_take] at hm'
    rw [List.getElem_take] at hmd'
    exact Nat.find_min hex (m := m') (by omega) ⟨d'', by rw [List.getElem?_eq_getElem (by omega), hmd'], t'', ht''⟩

theorem stratE_append (ds ds' : List (T I O)) (s t : Pos I O) :
    stratE (ds ++ ds') s t ↔ stratE ds s t ∨ (stratE ds' s t ∧ s ∉ CovE ds) := by
  constructor
  · rintro ⟨m, d, hd, hst, hc⟩
    by_cases hm : m < ds.length
    · rw [List.getElem?_append_left hm] at hd
      rw [List.take_append_of_le_length (by omega)] at hc
      exact .inl ⟨m, d, hd, hst, hc⟩
    · rw [List.getElem?_append_right (by omega)] at hd
      rw [List.take_append, List.take_of_length_le (by omega)] at hc
      exact .inr ⟨⟨_, d, hd, hst, fun h => hc (CovE_mono (by simp +contextual) h)⟩,
        fun h => hc (CovE_mono (by simp +contextual) h)⟩
  · rintro (⟨m, d, hd, hst, hc⟩ | ⟨⟨m, d, hd, hst, hc⟩, hc'⟩)
    · have hm : m < ds.length := by
        by_contra hm; rw [List.getElem?_eq_none (by omega)] at hd; cases hd
      exact ⟨m, d, by rw [List.getElem?_append_left hm]; exact hd, hst, by rwa [List.take_append_of_le_length (by omega)]⟩
    · refine ⟨ds.length + m, d, ?_, hst, ?_⟩
      · rw [List.getElem?_append_right (by omega), show ds.length + m - ds.length = m by omega]; exact hd
      · rw [List.take_append, List.take_of_length_le (by omega), show ds.length + m - ds.length = m by omega]
        rintro ⟨e, he, t', ht'⟩
        rcases List.mem_append.mp he with he | he
        · exact hc' ⟨e, he, t', ht'⟩
        · exact hc ⟨e, he, t', ht'⟩

theorem stratE_single (d : T I O) (s t : Pos I O) : stratE [d] s t ↔ d s t := by
  constructor
  · intro h; simpa using stratE_mem h
  · intro h; exact ⟨0, d, rfl, h, by rintro ⟨e, he, _⟩; simp at he⟩

/-- In a list of lists, the strategy uses the first list that covers the position. -/
theorem stratE_flatten {LL : List (List (T I O))} {s t : Pos I O} (h : stratE LL.flatten s t) :
    ∃ (r : Nat) (l : List (T I O)), LL[r]? = some l ∧ stratE l s t ∧ ∀ r' < r, ∀ l' : List (T I O), LL[r']? = some l' → s ∉ CovE l' := by
  induction LL with
  | nil => obtain ⟨m, d, hd, _⟩ := h; simp at hd
  | cons l LL ih =>
    rw [List.flatten_cons, stratE_append] at h
    rcases h with h | ⟨h, hc⟩
    · exact ⟨0, l, rfl, h, by simp⟩
    · obtain ⟨r, l', h1, h2, h3⟩ := ih h
      refine ⟨r + 1, l', by simpa using h1, h2, ?_⟩
      intro r' hr' l'' hl''
      cases r' with
      | zero => simp at hl''; subst hl''; exact hc
      | succ r' => exact h3 r' (by omega) l'' (by simpa using hl'')

theorem positionalC_fold (ds : List (T I O)) (h : ∀ d ∈ ds, ∀ s i o o', d s (i, o) → d s (i, o')) :
    ds.foldl (positionalStepC (semMgr I O)) (semMgr I O).ff = stratE ds := by
  induction ds using List.reverseRecOn with
  | nil =>
    funext s t
    rw [eq_iff_iff]
    refine iff_of_false (by simp [semMgr]) ?_
    rintro ⟨m, d, hd, _⟩
    simp at hd
  | append_singleton ds d ih =>
    rw [List.foldl_append, ih fun d' hd' => h d' (List.mem_append_left _ hd')]
    simp only [List.foldl_cons, List.foldl_nil, positionalStepC]
    funext s t
    rw [stratE_append, stratE_single, ← stratE_exists, eq_iff_iff]
    simp only [semMgr]
    refine or_congr Iff.rfl (and_congr ⟨fun hd => hd t.2, fun hd o => ?_⟩ Iff.rfl)
    exact h d (by simp) s t.1 t.2 o hd

theorem positionalC_eq (dump : CDump (T I O)) (i j : Nat) (h : ∀ d ∈ entriesC dump i j, ∀ s i o o', d s (i, o) → d s (i, o')) :
    positionalC (semMgr I O) dump i j = stratE (entriesC dump i j) := positionalC_fold _ h

theorem stratE_indep {ds : List (T I O)} (h : ∀ d ∈ ds, ∀ s i o o', d s (i, o) → d s (i, o')) {s : Pos I O} {i : I} {o : O} (o' : O)
    (hs : stratE ds s (i, o)) : stratE ds s (i, o') := by
  obtain ⟨m, d, hd, hst, hc⟩ := hs
  exact ⟨m, d, hd, h d (List.mem_of_getElem? hd) s i o o' hst, hc⟩

/-! ### Determinisation -/

/-- The variables of a context tell positions apart. -/
structure CVarsOK (vs : CVars (T I O)) : Prop where
  base : VarsOK vs.toVars
  in_indep : ∀ v ∈ vs.postInputVars, ∀ s t t', t.1 = t'.1 → (v s t ↔ v s t')
  in_sep : ∀ s t t', (∀ v ∈ vs.postInputVars, (v s t ↔ v s t')) → t.1 = t'.1
  out_sep : ∀ s t t', t.1 = t'.1 → (∀ v ∈ vs.postOutputVars, (v s t ↔ v s t')) → t = t'
  label_in : ∀ v ∈ vs.inputLabels, ∀ s s' t t', s.1 = s'.1 → (v.2 s t ↔ v.2 s' t')

theorem det_in {vs : CVars (T I O)} (hv : CVarsOK vs) (s : Pos I O) {J : Set I} (hJ : J.Nonempty) (o0 : O) :
    ∃ i ∈ J, determinize (semMgr I O) vs.postInputVars (from1 s {t | t.1 ∈ J}) = from1 s {t | t.1 = i} := by
  have hd := determinize_isDet (semReading I O) vs.postInputVars (from1 s {t | t.1 ∈ J})
  obtain ⟨i0, hi0⟩ := hJ
  obtain ⟨⟨s1, t⟩, hst⟩ := hd.nonempty ⟨(s, (i0, o0)), rfl, hi0⟩
  obtain ⟨h1, h2⟩ := hd.sub _ hst
  dsimp only at h1 h2
  subst h1
  have hcl := determinize_closed (M := semMgr I O) (fun f : T I O => ∀ s t t' : Pos I O, t.1 = t'.1 → (f s t ↔ f s t')) vs.postInputVars
    (from1 s1 {t | t.1 ∈ J})
    (fun s t t' e => by simp only [from1, Set.mem_ofPred_eq, e]) (fun v hvm f hf =>
      ⟨fun s t t' e => and_congr (hf s t t' e) (hv.in_indep v hvm s t t' e),
      fun s t t' e => and_congr (hf s t t' e) (not_congr (hv.in_indep v hvm s t t' e))⟩)
  refine ⟨t.1, h2, ?_⟩
  funext s' t'
  rw [eq_iff_iff]
  constructor
  · intro h
    obtain ⟨h3, h4⟩ := hd.sub (s', t') h
    dsimp only at h3 h4
    subst h3
    refine ⟨rfl, hv.in_sep s' _ _ fun v hvm => ?_⟩
    rcases hd.fixed v hvm with h1 | h1
    · exact iff_of_true (h1 (_, t') h) (h1 (_, t) hst)
    · exact iff_of_false (h1 (_, t') h) (h1 (_, t) hst)
  · rintro ⟨rfl, h⟩
    exact (hcl _ _ _ h).mpr hst

theorem det_out {vs : CVars (T I O)} (hv : CVarsOK vs) (s : Pos I O) {R : Set (Pos I O)} (hR : R.Nonempty) {i : I}
    (hi : ∀ t ∈ R, t.1 = i) : ∃ t ∈ R, determinize (semMgr I O) vs.postOutputVars (from1 s R) = from1 s {t} := by
  have hd := determinize_isDet (semReading I O) vs.postOutputVars (from1 s R)
  obtain ⟨t0, ht0⟩ := hR
  obtain ⟨⟨s1, t⟩, hst⟩ := hd.nonempty ⟨(s, t0), rfl, ht0⟩
  obtain ⟨h1, h2⟩ := hd.sub _ hst
  dsimp only at h1 h2
  subst h1
  refine ⟨t, h2, ?_⟩
  funext s' t'
  rw [eq_iff_iff]
  constructor
  · intro h
    obtain ⟨h3, h4⟩ := hd.sub (s', t') h
    dsimp only at h3 h4
    subst h3
    refine ⟨rfl, hv.out_sep s' _ _ ((hi _ h4).trans (hi _ h2).symm) fun v hvm => ?_⟩
    rcases hd.fixed v hvm with h1 | h1
    · exact iff_of_true (h1 (_, t') h) (h1 (_, t) hst)
    · exact iff_of_false (h1 (_, t') h) (h1 (_, t) hst)
  · rintro ⟨rfl, rfl⟩
    exact hst

/-! ### The tables -/

/-- The rank of a state: assumption and guarantee. -/
abbrev Rk := Nat × Nat

/-- What a state stands for: a position or, for a state without successors, an input. -/
inductive CPlace (I O : Type) where
  | pos (s : Pos I O)
  | input (i : I)

abbrev CKey (I O : Type) := CPlace I O × Rk

def cbf : CPlace I O → T I O
  | .pos s => pre {s}
  | .input i => pre {s | s.1 = i}

def ckey (k : CKey I O) : T I O × Rk := (cbf k.1, k.2)

theorem ckey_inj [Nontrivial O] : Function.Injective (ckey (I := I) (O := O)) := by
  rintro ⟨a, r⟩ ⟨a', r'⟩ h
  simp only [ckey, Prod.mk.injEq] at h
  obtain ⟨h, rfl⟩ := h
  have hno : ∀ (s : Pos I O) (i : I), ({s} : Set (Pos I O)) ≠ {s | s.1 = i} := by
    intro s i e
    obtain ⟨o, ho⟩ := exists_ne s.2
    have h1 : s ∈ ({s} : Set (Pos I O)) := rfl
    rw [e] at h1
    have h2 : (s.1, o) ∈ ({s} : Set (Pos I O)) := by rw [e]; exact h1
    exact ho (congrArg Prod.snd (Set.mem_singleton_iff.mp h2))
  cases a with
  | pos s =>
    cases a' with
    | pos s' => simp only [cbf, pre_inj] at h; rw [Set.singleton_eq_singleton_iff.mp h]
    | input i' => simp only [cbf, pre_inj] at h; exact absurd h (hno _ _)
  | input i =>
    cases a' with
    | pos s' => simp only [cbf, pre_inj] at h; exact absurd h.symm (hno _ _)
    | input i' =>
      simp only [cbf, pre_inj] at h
      obtain ⟨o⟩ : Nonempty O := inferInstance
      have h1 : (i, o) ∈ {s : Pos I O | s.1 = i} := rfl
      rw [h] at h1
      have h1 : i = i' := h1
      rw [h1]

def nk (k : Pos I O × Rk) : CKey I O := (.pos k.1, k.2)

theorem nk_inj : Function.Injective (nk (I := I) (O := O)) := by
  rintro ⟨s, r⟩ ⟨s', r'⟩ h
  simp only [nk, Prod.mk.injEq, CPlace.pos.injEq] at h
  rw [h.1, h.2]

open Classical in
/-- The tables contain exactly the keys in `ks`, numbered in this order; those in `td` are still to be done. -/
structure CWorkInv (ks : List (CKey I O)) (td : List (Pos I O × Rk)) (w : Work (T I O) Rk) : Prop where
  nodup : ks.Nodup
  find : ∀ k, w.find (ckey k) = if k ∈ ks then some (ks.idxOf k) else none
  bfs : w.bfs = ks.map fun k => (ckey k).1
  todo : w.todo = td.map fun k => ckey (nk k)

theorem Work.find_cons {B R : Type} [DecidableEq B] [DecidableEq R] (w : Work B R) (k k' : B × R) (n : Nat) (bfs : List B) (td : List (B × R)) :
    Work.find { keys := (k, n) :: w.keys, bfs := bfs, todo := td } k' = if k' = k then some n else w.find k' := by
  simp only [Work.find, List.lookup_cons]
  by_cases h : k' = k
  · subst h; simp
  · rw [show (k' == k) = false by simpa using h, if_neg h]

section
variable [Nontrivial O]

open Classical in
theorem find_snoc {ks : List (CKey I O)} {w : Work (T I O) Rk} {n : Nat} (hn : n = ks.length)
    (hl : ∀ k, w.find (ckey k) = if k ∈ ks then some (ks.idxOf k) else none) {k : CKey I O} (hk : k ∉ ks) (k' : CKey I O)
    (bfs : List (T I O)) (td : List (T I O × Rk)) :
    Work.find { keys := (ckey k, n) :: w.keys, bfs := bfs, todo := td } (ckey k') =
      if k' ∈ ks ++ [k] then some ((ks ++ [k]).idxOf k') else none := by
  rw [Work.find_cons]
  by_cases e : k' = k
  · subst e
    simp [List.idxOf_append, hk, hn]
  · rw [if_neg fun h => e (ckey_inj h), hl]
    by_cases hm : k' ∈ ks
    · simp [hm, List.idxOf_append]
    · simp [hm, e]

theorem CWorkInv.enter {ks : List (CKey I O)} {td : List (Pos I O × Rk)} {w : Work (T I O) Rk} (h : CWorkInv ks td w)
    {k : Pos I O × Rk} (hk : nk k ∉ ks) : CWorkInv (ks ++ [nk k]) (td ++ [k]) (w.enter (ckey (nk k))) where
  nodup := by
    rw [List.nodup_append]
    exact ⟨h.nodup, by simp, by rintro a ha b hb rfl; simp at hb; subst hb; exact hk ha⟩
  find k' := find_snoc (by simp [h.bfs]) h.find hk k' _ _
  bfs := by simp [Work.enter, h.bfs]
  todo := by simp [Work.enter, h.todo]

theorem CWorkInv.enterDead {ks : List (CKey I O)} {td : List (Pos I O × Rk)} {w : Work (T I O) Rk} (h : CWorkInv ks td w)
    {k : CKey I O} (hk : k ∉ ks) : CWorkInv (ks ++ [k]) td (w.enterDead (ckey k)) where
  nodup := by
    rw [List.nodup_append]
    exact ⟨h.nodup, by simp, by rintro a ha b hb rfl; simp at hb; subst hb; exact hk ha⟩
  find k' := find_snoc (by simp [h.bfs]) h.find hk k' _ _
  bfs := by simp [Work.enterDead, h.bfs]
  todo := by simp [Work.enterDead, h.todo]

open Classical in
omit [Nontrivial O] in
theorem CWorkInv.num {ks : List (CKey I O)} {td : List (Pos I O × Rk)} {w : Work (T I O) Rk} (h : CWorkInv ks td w) {k : CKey I O}
    (hk : k ∈ ks) : w.num (ckey k) = ks.idxOf k := by
  rw [show w.num (ckey k) = (w.find (ckey k)).getD 0 from rfl, h.find, if_pos hk]; rfl

omit [Nontrivial O] in
theorem CWorkInv.nil : CWorkInv (I := I) (O := O) [] [] { keys := [], bfs := [], todo := [] } where
  nodup := List.nodup_nil
  find k := by simp [Work.find]
  bfs := rfl
  todo := rfl

/-! ### Initial states -/

omit [Nontrivial O] in
theorem firstGoal_spec {n : Nat} {strategy : Nat → T I O} {s : Pos I O} (h : ∃ j < n, ∃ t, strategy j s t) :
    firstGoal (semMgr I O) n strategy (pre {s}) < n ∧ ∃ t, strategy (firstGoal (semMgr I O) n strategy (pre {s})) s t := by
  have hne : ∀ j, (semMgr I O).and (pre {s}) (strategy j) ≠ (semMgr I O).ff ↔ ∃ t, strategy j s t := by
    intro j
    constructor
    · intro hne
      by_contra hno
      apply hne
      funext s' t'
      simp only [semMgr, pre, Set.mem_singleton_iff, eq_iff_iff, iff_false, not_and]
      rintro rfl h
      exact hno ⟨t', h⟩
    · rintro ⟨t, ht⟩ e
      have := congrFun (congrFun e s) t
      simp only [semMgr, pre, Set.mem_singleton_iff, true_and, eq_iff_iff] at this
      exact this.mp ht
  rw [firstGoal]
  cases hf : (List.range n).find? (fun j => decide ((semMgr I O).and (pre {s}) (strategy j) ≠ (semMgr I O).ff)) with
  | none =>
    rw [List.find?_eq_none] at hf
    obtain ⟨j, hj, ht⟩ := h
    exact absurd (by simpa using (hne j).mpr ht) (hf j (List.mem_range.mpr hj))
  | some j =>
    have h1 := List.mem_of_find?_eq_some hf
    have h2 := List.find?_some hf
    exact ⟨List.mem_range.mp h1, (hne j).mp (by simpa using h2)⟩

theorem initLoopC_spec [Finite I] [Finite O] {vs : CVars (T I O)} (hv : CVarsOK vs) (n : Nat) (strategy : Nat → T I O) :
    ∀ (fuel : Nat) (S : Set (Pos I O)) (ks : List (Pos I O × Rk)) (w : Work (T I O) Rk), S.ncard < fuel →
      CWorkInv (ks.map nk) ks w → (∀ s ∈ S, ∀ r, (s, r) ∉ ks) →
      ∃ ks' w', initLoopC (semMgr I O) n vs strategy fuel (pre S) w = some w' ∧
        CWorkInv ((ks ++ ks').map nk) (ks ++ ks') w' ∧
        ∀ k, k ∈ ks' ↔ k.1 ∈ S ∧ k.2 = (0, firstGoal (semMgr I O) n strategy (pre {k.1})) := by
  intro fuel
  induction fuel with
  | zero => intro S ks w h; omega
  | succ fuel ih =>
    intro S ks w hS hw hdis
    rw [initLoopC]
    by_cases he : S = ∅
    · rw [if_pos (by subst he; funext s t; simp [pre, semMgr])]
      refine ⟨[], w, rfl, by simpa using hw, ?_⟩
      rintro ⟨k, j⟩
      simp [he]
    · have hne : S.Nonempty := Set.nonempty_iff_ne_empty.mpr he
      rw [if_neg (fun h => by
        obtain ⟨s, hs⟩ := hne
        exact (iff_of_eq (congrFun (congrFun h s) s)).mp hs)]
      obtain ⟨s, hs, hdet⟩ := det_pre hv.base hne
      dsimp only
      rw [hdet]
      have e : (semMgr I O).and (pre S) ((semMgr I O).not (pre {s})) = pre (S \ {s}) := rfl
      rw [e]
      obtain ⟨ks', w', h1, h2, h3⟩ := ih (S \ {s}) (ks ++ [(s, (0, firstGoal (semMgr I O) n strategy (pre {s})))])
        (w.enter (ckey (nk (s, (0, firstGoal (semMgr I O) n strategy (pre {s}))))))
        (by have := Set.ncard_sdiff_singleton_lt_of_mem hs (Set.toFinite S); omega)
        (by
          rw [List.map_append]
          exact hw.enter fun h => hdis s hs _ (by
            obtain ⟨k, hk, e⟩ := List.mem_map.mp h
            rwa [nk_inj e] at hk))
        (by
          intro s' hs' r hm
          rcases List.mem_append.mp hm with hm | hm
          · exact hdis s' hs'.1 r hm
          · simp at hm; exact hs'.2 hm.1)
      refine ⟨(s, (0, firstGoal (semMgr I O) n strategy (pre {s}))) :: ks', w', h1, by simpa using h2, ?_⟩
      rintro ⟨k, j⟩
      rw [List.mem_cons, h3]
      simp only [Prod.mk.injEq, Set.mem_sdiff, Set.mem_singleton_iff]
      constructor
      · rintro (⟨rfl, rfl⟩ | ⟨⟨h, _⟩, rfl⟩)
        · exact ⟨hs, rfl⟩
        · exact ⟨h, rfl⟩
      · rintro ⟨h, rfl⟩
        by_cases hk : k = s
        · subst hk; exact .inl ⟨rfl, rfl⟩
        · exact .inr ⟨⟨h, hk⟩, rfl⟩

/-! ### Successors -/

/-- The game in which the assumptions are the goals. -/
def assGame (g : Game I O) : Game I O := { g with guarantees := g.assumptions }

/-- What is known about the listed successors of position `s` with the given rank when the next input is `i`. -/
structure CSuccOK (g : Game I O) (s : Pos I O) (rank : Rk) (i : I) (Q : Set (Pos I O)) (ts : List (Pos I O × Rk)) : Prop where
  mem : ∀ t ∈ ts, t.1 ∈ Q
  input : ∀ t ∈ ts, t.1.1 = i
  sys : ∀ t ∈ ts, g.safetySys s t.1
  stepA : ∀ t ∈ ts, GoalStep (assGame g) s t.1 rank.1 t.2.1
  stepG : ∀ t ∈ ts, GoalStep g s t.1 rank.2 t.2.2
  rankA : ∀ t ∈ ts, t.2.1 < g.assumptions.length
  rankG : ∀ t ∈ ts, t.2.2 < g.guarantees.length
  all : ∀ t' ∈ Q, g.safetySys s t' → ∃ t ∈ ts, t.1 = t'

open Classical in
theorem succLoopC_spec [Finite I] [Finite O] (g : Game I O) {vs : CVars (T I O)} (hv : CVarsOK vs) {rank : Rk}
    (hrA : rank.1 < g.assumptions.length) (hrG : rank.2 < g.guarantees.length) (s : Pos I O) (i : I) :
    ∀ (fuel : Nat) (R : Set (Pos I O)) (ks : List (CKey I O)) (td : List (Pos I O × Rk)) (w : Work (T I O) Rk) (printed : List Nat),
      R.ncard < fuel → (∀ t ∈ R, t.1 = i) → CWorkInv ks td w →
      ∃ (new ts : List (Pos I O × Rk)) (w' : Work (T I O) Rk),
        succLoopC (semMgr I O) (gameCtx g) vs rank fuel (from1 s R) w printed =
          some (w', printed ++ ts.map fun t => (ks ++ new.map nk).idxOf (nk t)) ∧
        CWorkInv (ks ++ new.map nk) (td ++ new) w' ∧ (∀ k ∈ new, k ∈ ts) ∧ (∀ t ∈ ts, nk t ∈ ks ++ new.map nk) ∧
        CSuccOK g s rank i R ts := by
  intro fuel
  induction fuel with
  | zero => intro R ks td w printed h; omega
  | succ fuel ih =>
    intro R ks td w printed hR hi hw
    have eand : (semMgr I O).and (from1 s R) (gameCtx g).safetySys = from1 s {t | t ∈ R ∧ g.safetySys s t} := by
      funext s' t'
      simp only [semMgr, from1, gameCtx, Set.mem_ofPred_eq, eq_iff_iff]
      constructor
      · rintro ⟨⟨rfl, h⟩, h'⟩; exact ⟨rfl, h, h'⟩
      · rintro ⟨rfl, h, h'⟩; exact ⟨⟨rfl, h⟩, h'⟩
    rw [succLoopC, eand]
    by_cases he : {t | t ∈ R ∧ g.safetySys s t} = ∅
    · rw [if_pos (by rw [he]; funext s t; simp [from1, semMgr])]
      refine ⟨[], [], w, by simp, by simpa using hw, by simp, by simp,
        ⟨by simp, by simp, by simp, by simp, by simp, by simp, by simp, ?_⟩⟩
      intro t' ht' hs
      have : t' ∈ {t | t ∈ R ∧ g.safetySys s t} := ⟨ht', hs⟩
      rw [he] at this
      exact absurd this (Set.notMem_empty _)
    · have hne : {t | t ∈ R ∧ g.safetySys s t}.Nonempty := Set.nonempty_iff_ne_empty.mpr he
      rw [if_neg (fun h => by
        obtain ⟨t, ht⟩ := hne
        exact (iff_of_eq (congrFun (congrFun h s) t)).mp ⟨rfl, ht⟩)]
      obtain ⟨t, ht, hdet⟩ := det_out hv s hne (i := i) fun t ht => hi t ht.1
      obtain ⟨nA, hnA, hstA, hltA⟩ := goalJump_eq (assGame g) hrA (s := s) (t := t)
      obtain ⟨nG, hnG, hstG, hltG⟩ := goalJump_eq g hrG (s := s) (t := t)
      dsimp only
      rw [hdet, show (gameCtx g).livenessGuarantees = g.guarantees from rfl,
        show (gameCtx g).livenessAssumptions = (assGame g).guarantees from rfl, hnA, hnG]
      dsimp only
      have etarget : ((semMgr I O).swap ((semMgr I O).exPre (from1 s {t})), (nA, nG)) = ckey (nk (t, (nA, nG))) := by
        refine Prod.ext ?_ rfl
        funext s' t'
        simp [semMgr, from1, ckey, nk, cbf, pre]
      have erem : (semMgr I O).and (from1 s R) ((semMgr I O).not (from1 s {t})) = from1 s (R \ {t}) := by
        funext s' t'
        simp only [semMgr, from1, eq_iff_iff, Set.mem_singleton_iff, Set.mem_sdiff]
        constructor
        · rintro ⟨⟨rfl, h⟩, h'⟩
          exact ⟨rfl, h, fun e => h' ⟨rfl, e⟩⟩
        · rintro ⟨rfl, h, h'⟩
          exact ⟨⟨rfl, h⟩, fun ⟨_, e⟩ => h' e⟩
      rw [etarget, erem]
      obtain ⟨k1, hw1, hk1, hin⟩ : ∃ k1 : List (Pos I O × Rk), CWorkInv (ks ++ k1.map nk) (td ++ k1)
          (if w.find (ckey (nk (t, (nA, nG)))) = none then w.enter (ckey (nk (t, (nA, nG)))) else w) ∧
          (∀ k ∈ k1, k = (t, (nA, nG))) ∧ nk (t, (nA, nG)) ∈ ks ++ k1.map nk := by
        rw [hw.find]
        by_cases hm : nk (t, (nA, nG)) ∈ ks
        · rw [if_pos hm, if_neg (by simp)]
          exact ⟨[], by simpa using hw, by simp, by simpa using hm⟩
        · rw [if_neg hm, if_pos rfl]
          exact ⟨[(t, (nA, nG))], hw.enter hm, by simp, by simp⟩
      rw [hw1.num hin]
      obtain ⟨k2, ts, w', h1, h2, h3, h4, h5⟩ := ih (R \ {t}) (ks ++ k1.map nk) (td ++ k1) _
        (printed ++ [(ks ++ k1.map nk).idxOf (nk (t, (nA, nG)))])
        (by have := Set.ncard_sdiff_singleton_lt_of_mem ht.1 (Set.toFinite R); omega) (fun t' ht' => hi t' ht'.1) hw1
      have eks : ks ++ (k1 ++ k2).map nk = ks ++ k1.map nk ++ k2.map nk := by simp
      refine ⟨k1 ++ k2, (t, (nA, nG)) :: ts, w', ?_, by rw [eks, ← List.append_assoc td]; exact h2, ?_, ?_, ?_⟩
      · rw [h1, eks, List.map_cons, List.append_assoc printed]
        rw [List.idxOf_append_of_mem hin]
        rfl
      · intro k hk
        rcases List.mem_append.mp hk with hk | hk
        · rw [hk1 k hk]; exact List.mem_cons_self
        · exact List.mem_cons_of_mem _ (h3 k hk)
      · intro t' ht'
        rw [eks]
        rcases List.mem_cons.mp ht' with rfl | ht'
        · exact List.mem_append_left _ hin
        · exact h4 t' ht'
      · constructor
        · exact List.forall_mem_cons.mpr ⟨ht.1, fun t' ht' => (h5.mem t' ht').1⟩
        · exact List.forall_mem_cons.mpr ⟨hi t ht.1, h5.input⟩
        · exact List.forall_mem_cons.mpr ⟨ht.2, h5.sys⟩
        · exact List.forall_mem_cons.mpr ⟨hstA, h5.stepA⟩
        · exact List.forall_mem_cons.mpr ⟨hstG, h5.stepG⟩
        · exact List.forall_mem_cons.mpr ⟨hltA, h5.rankA⟩
        · exact List.forall_mem_cons.mpr ⟨hltG, h5.rankG⟩
        · intro t' ht' hs
          by_cases hc : t' = t
          · exact ⟨_, List.mem_cons_self, hc.symm⟩
          · obtain ⟨t'', h6, h7⟩ := h5.all t' ⟨ht', hc⟩ hs
            exact ⟨t'', List.mem_cons_of_mem _ h6, h7⟩

end

end Slugs.Model
