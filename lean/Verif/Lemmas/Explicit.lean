import Verif.Lemmas.Determinize
import Mathlib.Data.List.Induction
import Mathlib.Data.List.Nodup
import Mathlib.Data.List.Perm.Subperm

/-! The extraction of explicit strategies, on predicates on pairs of positions. -/

namespace Slugs.Model

open Slugs.Spec

variable {I O : Type}

/-! ### Positional strategies -/

theorem strat_snoc (ds : List (T I O)) (d : T I O) (s t : Pos I O) :
    strat (ds ++ [d]) s t ↔ strat ds s t ∨ (d s t ∧ ∀ d' ∈ ds, ∀ o, ¬ d' s (t.1, o)) := by
  constructor
  · rintro ⟨m, e, he, hst, hmin⟩
    by_cases hm : m < ds.length
    · rw [List.getElem?_append_left hm] at he
      refine .inl ⟨m, e, he, hst, fun m' hm' d' hd' => hmin m' hm' d' ?_⟩
      rw [List.getElem?_append_left (by omega)]; exact hd'
    · have hml : m = ds.length := by
        by_contra hne
        rw [List.getElem?_eq_none (by simp; omega)] at he; cases he
      subst hml
      simp at he
      subst he
      refine .inr ⟨hst, fun d' hd' => ?_⟩
      obtain ⟨k, hk, rfl⟩ := List.getElem_of_mem hd'
      exact hmin k hk _ (by rw [List.getElem?_append_left hk, List.getElem?_eq_getElem hk])
  · rintro (⟨m, e, he, hst, hmin⟩ | ⟨hst, hmin⟩)
    · have hm : m < ds.length := by
        by_contra hm; rw [List.getElem?_eq_none (by omega)] at he; cases he
      refine ⟨m, e, by rw [List.getElem?_append_left hm]; exact he, hst, fun m' hm' d' hd' => hmin m' hm' d' ?_⟩
      rw [List.getElem?_append_left (by omega)] at hd'; exact hd'
    · refine ⟨ds.length, d, by simp, hst, fun m' hm' d' hd' => hmin d' ?_⟩
      rw [List.getElem?_append_left hm'] at hd'
      exact List.mem_of_getElem? hd'

theorem positional_fold (ds : List (T I O)) :
    ds.foldl (positionalStep (semMgr I O)) ((semMgr I O).ff, (semMgr I O).ff) =
      (fun s t => ∃ d ∈ ds, ∃ o, d s (t.1, o), strat ds) := by
  induction ds using List.reverseRecOn with
  | nil =>
    simp only [List.foldl_nil, semMgr]
    refine Prod.ext ?_ ?_
    · funext s t; simp
    · funext s t
      exact propext ⟨fun h => h.elim, fun ⟨m, d, hd, _⟩ => by simp at hd⟩
  | append_singleton ds d ih =>
    rw [List.foldl_append, ih]
    simp only [List.foldl_cons, List.foldl_nil, positionalStep]
    refine Prod.ext ?_ ?_
    · funext s t
      simp only [semMgr, List.mem_append, List.mem_singleton, eq_iff_iff]
      constructor
      · rintro (⟨e, he, h⟩ | ⟨h, _⟩)
        · exact ⟨e, .inl he, h⟩
        · exact ⟨d, .inr rfl, h⟩
      · rintro ⟨e, he | rfl, h⟩
        · exact .inl ⟨e, he, h⟩
        · by_cases hc : ∃ d ∈ ds, ∃ o, d s (t.1, o)
          · exact .inl hc
          · exact .inr ⟨h, hc⟩
    · funext s t
      rw [eq_iff_iff]
      refine Iff.trans ?_ (strat_snoc ds d s t).symm
      simp only [semMgr]
      constructor
      · rintro (h | ⟨⟨_, h⟩, hd⟩)
        · exact .inl h
        · exact .inr ⟨hd, fun d' hd' o ho => h ⟨d', hd', o, ho⟩⟩
      · rintro (h | ⟨hd, h⟩)
        · exact .inl h
        · exact .inr ⟨⟨⟨t.2, hd⟩, fun ⟨d', hd', o, ho⟩ => h d' hd' o ho⟩, hd⟩

theorem positional_eq (dump : Dump (T I O)) (j : Nat) : positional (semMgr I O) dump j = strat (entries dump j) := by
  rw [positional, positional_fold]; rfl

/-- The transitions of the permissive strategy built from a list. -/
def PermT (g : Game I O) (ds : List (T I O)) : T I O := fun s t =>
  ∃ (m : Nat) (d : T I O), ds[m]? = some d ∧ d s t ∧ (m = 0 ∨ s ∉ Covered g (ds.take m))

theorem PermT.mem {g : Game I O} {ds : List (T I O)} {s t : Pos I O} (h : PermT g ds s t) : ∃ d ∈ ds, d s t := by
  obtain ⟨m, d, hd, hst, _⟩ := h
  exact ⟨d, List.mem_of_getElem? hd, hst⟩

theorem PermT.used {g : Game I O} {ds : List (T I O)} {s t : Pos I O} (h : PermT g ds s t) (hi : g.safetyEnv s t.1) :
    Used g ds s t := by
  obtain ⟨m, d, hd, hst, hm⟩ := h
  refine ⟨m, d, hd, hst, ?_⟩
  rcases hm with rfl | hm
  · intro hc
    obtain ⟨o, d', hd', _⟩ := hc _ hi
    simp at hd'
  · exact hm

theorem PermT_snoc (g : Game I O) (ds : List (T I O)) (d : T I O) (s t : Pos I O) :
    PermT g (ds ++ [d]) s t ↔ PermT g ds s t ∨ (d s t ∧ (ds = [] ∨ s ∉ Covered g ds)) := by
  constructor
  · rintro ⟨m, e, he, hst, hm⟩
    by_cases hml : m < ds.length
    · rw [List.getElem?_append_left hml] at he
      refine .inl ⟨m, e, he, hst, hm.imp id fun h => ?_⟩
      rwa [List.take_append_of_le_length (by omega)] at h
    · have hml : m = ds.length := by
        by_contra hne
        rw [List.getElem?_eq_none (by simp; omega)] at he; cases he
      subst hml
      simp at he
      subst he
      refine .inr ⟨hst, hm.imp (fun h => List.eq_nil_of_length_eq_zero h) fun h => ?_⟩
      rwa [List.take_append_of_le_length (by omega), List.take_length] at h
  · rintro (⟨m, e, he, hst, hm⟩ | ⟨hst, hm⟩)
    · have hml : m < ds.length := by
        by_contra hm; rw [List.getElem?_eq_none (by omega)] at he; cases he
      refine ⟨m, e, by rw [List.getElem?_append_left hml]; exact he, hst, hm.imp id fun h => ?_⟩
      rwa [List.take_append_of_le_length (by omega)]
    · refine ⟨ds.length, d, by simp, hst, hm.imp (fun h => by simp [h]) fun h => ?_⟩
      rwa [List.take_append_of_le_length (by omega), List.take_length]

theorem cox_PermT (g : Game I O) (ds : List (T I O)) : cox g (PermT g ds) = Covered g ds := by
  classical
  ext s
  constructor
  · intro h i hi
    obtain ⟨o, ho⟩ := h i hi
    exact ⟨o, ho.mem⟩
  · intro h i hi
    have hex : ∃ m, s ∈ Covered g (ds.take m) := ⟨ds.length, by rwa [List.take_length]⟩
    obtain ⟨o, d, hd, ho⟩ := Nat.find_spec hex i hi
    obtain ⟨k, hk, hkd⟩ := List.getElem_of_mem hd
    rw [List.getElem_take] at hkd
    rw [List.length_take] at hk
    refine ⟨o, k, d, by rw [List.getElem?_eq_getElem (by omega), hkd], ho, .inr ?_⟩
    exact Nat.find_min hex (by omega)

theorem permissive_fold (g : Game I O) (ds : List (T I O)) :
    ds.foldl (permissiveStep (semMgr I O) (gameCtx g)) ((semMgr I O).ff, (semMgr I O).ff, (semMgr I O).ff) =
      (fun s _ => ds ≠ [] ∧ s ∈ Covered g ds, fun s t => ∃ o, PermT g ds s (t.1, o), PermT g ds) := by
  induction ds using List.reverseRecOn with
  | nil =>
    simp only [List.foldl_nil, semMgr]
    have h : ∀ s t, ¬ PermT g [] s t := by rintro s t ⟨m, d, hd, _⟩; simp at hd
    refine Prod.ext ?_ (Prod.ext ?_ ?_)
    · funext s t; simp
    · funext s t; simp [h]
    · funext s t; simp [h]
  | append_singleton ds d ih =>
    rw [List.foldl_append, ih]
    simp only [List.foldl_cons, List.foldl_nil, permissiveStep]
    have hc : ∀ s, (ds = [] ∨ s ∉ Covered g ds) ↔ ¬ (ds ≠ [] ∧ s ∈ Covered g ds) := by
      intro s; by_cases hd : ds = [] <;> simp [hd]
    have hsic : (semMgr I O).or (fun s t => ∃ o, PermT g ds s (t.1, o))
        ((semMgr I O).and ((semMgr I O).exPostOutput d) ((semMgr I O).not fun s _ => ds ≠ [] ∧ s ∈ Covered g ds)) =
        fun s t => ∃ o, PermT g (ds ++ [d]) s (t.1, o) := by
      funext s t
      simp only [semMgr, PermT_snoc, hc, eq_iff_iff]
      constructor
      · rintro (⟨o, h⟩ | ⟨⟨o, h⟩, h'⟩)
        · exact ⟨o, .inl h⟩
        · exact ⟨o, .inr ⟨h, h'⟩⟩
      · rintro ⟨o, h | ⟨h, h'⟩⟩
        · exact .inl ⟨o, h⟩
        · exact .inr ⟨⟨o, h⟩, h'⟩
    rw [hsic]
    refine Prod.ext ?_ (Prod.ext rfl ?_)
    · funext s t
      simp only [ne_eq, List.append_eq_nil_iff, List.cons_ne_self, and_false, not_false_eq_true, true_and, eq_iff_iff]
      rw [← cox_PermT]
      simp only [semMgr, gameCtx, cox, Set.mem_ofPred_eq]
      constructor
      · intro h i hi
        rcases h i with h | h
        · exact absurd hi h
        · exact h
      · intro h i
        by_cases hi : g.safetyEnv s i
        · exact .inr (h i hi)
        · exact .inl hi
    · funext s t
      simp only [semMgr, PermT_snoc, hc, eq_iff_iff]
      exact or_congr Iff.rfl and_comm

theorem permissive_eq (g : Game I O) (dump : Dump (T I O)) (j : Nat) :
    permissive (semMgr I O) (gameCtx g) dump j = PermT g (entries dump j) := by
  rw [permissive, permissive_fold]; rfl

/-! ### Determinisation -/

/-- The variables of a context tell positions apart. -/
structure VarsOK (vs : Vars (T I O)) : Prop where
  pre_indep : ∀ v ∈ vs.preVars, ∀ s t t', v s t ↔ v s t'
  pre_sep : ∀ s s' t t', (∀ v ∈ vs.preVars, (v s t ↔ v s' t')) → s = s'
  post_sep : ∀ s t t', (∀ v ∈ vs.postVars, (v s t ↔ v s t')) → t = t'
  label_indep : ∀ v ∈ vs.labels, ∀ s t t', v.2 s t ↔ v.2 s t'

/-- The transitions from `s` to the positions in `R`. -/
def from1 (s : Pos I O) (R : Set (Pos I O)) : T I O := fun s' t' => s' = s ∧ t' ∈ R

theorem det_pre {vs : Vars (T I O)} (hv : VarsOK vs) {S : Set (Pos I O)} (hS : S.Nonempty) :
    ∃ s ∈ S, determinize (semMgr I O) vs.preVars (pre S) = pre {s} := by
  have hd := determinize_isDet (semReading I O) vs.preVars (pre S)
  obtain ⟨s0, hs0⟩ := hS
  obtain ⟨⟨s, t⟩, hst⟩ := hd.nonempty ⟨(s0, s0), hs0⟩
  have hcl := determinize_closed (M := semMgr I O) (fun f => ∀ s t t', f s t ↔ f s t') vs.preVars (pre S)
    (fun _ _ _ => Iff.rfl) (fun v hvm f hf => ⟨fun s t t' => and_congr (hf s t t') (hv.pre_indep v hvm s t t'),
      fun s t t' => and_congr (hf s t t') (not_congr (hv.pre_indep v hvm s t t'))⟩)
  refine ⟨s, hd.sub _ hst, ?_⟩
  funext s' t'
  rw [eq_iff_iff]
  constructor
  · intro h
    refine hv.pre_sep _ _ t' t fun v hvm => ?_
    rcases hd.fixed v hvm with h1 | h1
    · exact iff_of_true (h1 (s', t') h) (h1 (s, t) hst)
    · exact iff_of_false (h1 (s', t') h) (h1 (s, t) hst)
  · rintro rfl
    exact (hcl _ _ _).mp hst

theorem det_post {vs : Vars (T I O)} (hv : VarsOK vs) (s : Pos I O) {R : Set (Pos I O)} (hR : R.Nonempty) :
    ∃ t ∈ R, determinize (semMgr I O) vs.postVars (from1 s R) = from1 s {t} := by
  have hd := determinize_isDet (semReading I O) vs.postVars (from1 s R)
  obtain ⟨t0, ht0⟩ := hR
  obtain ⟨⟨s1, t⟩, hst⟩ := hd.nonempty ⟨(s, t0), rfl, ht0⟩
  obtain ⟨h1, h2⟩ := hd.sub _ hst
  dsimp only at h1 h2
  subst h1
  refine ⟨t, h2, ?_⟩
  funext s' t'
  rw [eq_iff_iff]
  constructor
  · intro h
    obtain ⟨h3, h4⟩ := hd.sub (s', t') h
    dsimp only at h3 h4
    subst h3
    refine ⟨rfl, hv.post_sep s' _ _ fun v hvm => ?_⟩
    rcases hd.fixed v hvm with h1 | h1
    · exact iff_of_true (h1 (_, t') h) (h1 (_, t) hst)
    · exact iff_of_false (h1 (_, t') h) (h1 (_, t) hst)
  · rintro ⟨rfl, rfl⟩
    exact hst

/-! ### Moving on to the next goal -/

theorem goalJump_spec (g : Game I O) {s t : Pos I O} {cur : Nat} (hcur : cur < g.guarantees.length) :
    ∀ (k l : Nat), l + k = g.guarantees.length + 1 → l ≤ g.guarantees.length →
      (∀ l' < l, goalAt g ((cur + l') % g.guarantees.length) s t) →
      ∃ next, goalJump (semMgr I O) g.guarantees (from1 s {t}) cur k ((cur + l) % g.guarantees.length) (decide (l = 0)) = some next ∧
        GoalStep g s t cur next ∧ next < g.guarantees.length := by
  have hpos : 0 < g.guarantees.length := by omega
  intro k
  induction k with
  | zero => intro l h1 h2; omega
  | succ k ih =>
    intro l h1 h2 h3
    have hlt : (cur + l) % g.guarantees.length < g.guarantees.length := Nat.mod_lt _ hpos
    rw [goalJump]
    by_cases hc : (cur + l) % g.guarantees.length ≠ cur ∨ decide (l = 0) = true
    · rw [if_pos hc, List.getElem?_eq_getElem hlt]
      dsimp only
      have hln : l < g.guarantees.length := by
        by_contra hge
        have : l = g.guarantees.length := by omega
        subst this
        rw [Nat.add_mod_right, Nat.mod_eq_of_lt hcur] at hc
        simp at hc
        rw [hc] at hcur; simp at hcur
      have hG : (semMgr I O).and (g.guarantees[(cur + l) % g.guarantees.length]) (from1 s {t}) = (semMgr I O).ff ↔
          ¬ goalAt g ((cur + l) % g.guarantees.length) s t := by
        constructor
        · rintro h ⟨G, hG, hst⟩
          rw [List.getElem?_eq_getElem hlt] at hG
          cases hG
          have := congrFun (congrFun h s) t
          simp only [semMgr, from1, Set.mem_singleton_iff, and_self, and_true, eq_iff_iff] at this
          exact this.mp hst
        · intro h
          funext s' t'
          simp only [semMgr, from1, Set.mem_singleton_iff, eq_iff_iff, iff_false, not_and]
          rintro hst rfl rfl
          exact h ⟨_, List.getElem?_eq_getElem hlt, hst⟩
      by_cases hg : goalAt g ((cur + l) % g.guarantees.length) s t
      · rw [if_neg (fun h => hG.mp h hg)]
        have e : ((cur + l) % g.guarantees.length + 1) % g.guarantees.length = (cur + (l + 1)) % g.guarantees.length := by
          rw [Nat.mod_add_mod]; rfl
        rw [e]
        have := ih (l + 1) (by omega) (by omega) (fun l' hl' => by
          rcases Nat.lt_succ_iff_lt_or_eq.mp hl' with h | rfl
          · exact h3 l' h
          · exact hg)
        simpa using this
      · rw [if_pos (hG.mpr hg)]
        refine ⟨_, rfl, ?_, hlt⟩
        rcases Nat.eq_zero_or_pos l with rfl | hl
        · rw [Nat.add_zero, Nat.mod_eq_of_lt hcur] at hg ⊢
          exact ⟨fun _ => rfl, fun h => absurd h hg⟩
        · have h0 := h3 0 hl
          rw [Nat.add_zero, Nat.mod_eq_of_lt hcur] at h0
          exact ⟨fun h => absurd h0 h, fun _ => ⟨l, hl, by omega, rfl, h3⟩⟩
    · rw [if_neg hc]
      push Not at hc
      have hl : l ≠ 0 := by simpa using hc.2
      have h0 := h3 0 (by omega)
      rw [Nat.add_zero, Nat.mod_eq_of_lt hcur] at h0
      exact ⟨_, rfl, ⟨fun h => absurd h0 h, fun _ => ⟨l, by omega, by omega, rfl, h3⟩⟩, hlt⟩

theorem goalJump_eq (g : Game I O) {s t : Pos I O} {cur : Nat} (hcur : cur < g.guarantees.length) :
    ∃ next, goalJump (semMgr I O) g.guarantees (from1 s {t}) cur (g.guarantees.length + 1) cur true = some next ∧
        GoalStep g s t cur next ∧ next < g.guarantees.length := by
  have := goalJump_spec g hcur (s := s) (t := t) (g.guarantees.length + 1) 0 (by omega) (by omega) (by simp)
  simpa [Nat.mod_eq_of_lt hcur] using this

end Slugs.Model
