import Verif.Lemmas.Frontier
import Verif.Lemmas.ResilienceInfty

/-!
The first search of `kResilientRealizabilityChecker.py`: the order on the vectors, and what is found.
-/

namespace Slugs.Model.Resilience

open Slugs.Spec Slugs.Model.Core

/-! ### Games -/

/-- A game is still won if it is relaxed for all inputs that are allowed. -/
theorem relaxed_wins' {I O : Type} {g g' : Game I O} (hE : ∀ s i, g'.safetyEnv s i → g.safetyEnv s i) (hS : ∀ s t, g'.safetyEnv s t.1 → g.safetySys s t → g'.safetySys s t)
    (hA : ∀ a ∈ g.assumptions, ∃ a' ∈ g'.assumptions, ∀ s t, g'.safetyEnv s t.1 → a' s t → a s t)
    (hG : ∀ b' ∈ g'.guarantees, (∀ s t, b' s t) ∨ ∃ b ∈ g.guarantees, ∀ s t, g'.safetyEnv s t.1 → b s t → b' s t) {s : Pos I O} (h : g.SysWins s) : g'.SysWins s := by
  obtain ⟨σ, h1, h2⟩ := h
  have hh : ∀ l, g'.SysHist σ s l → g.SysHist σ s l := by
    intro l hl
    induction hl with
    | start => exact .start
    | step _ hi ih => exact .step ih (hE _ _ hi)
  refine ⟨σ, fun cur l i hc hi => hS _ _ hi (h1 cur l i (hh _ hc) (hE _ _ hi)), fun p hp ha b' hb' n => ?_⟩
  have hs : ∀ n, g'.safetyEnv (p n) (p (n + 1)).1 := by
    intro n
    have := hp (n + 1)
    rw [prefixHist] at this
    have e : prefixHist p n = p n :: (prefixHist p n).tail := by cases n <;> rfl
    rw [e] at this
    generalize hq : p (n + 1) = q at this ⊢
    cases this with
    | step _ hi => exact hi
  rcases hG b' hb' with hi | ⟨b, hb, hi⟩
  · exact ⟨n, le_rfl, hi _ _⟩
  have := h2 p (fun n => hh _ (hp n)) (fun a ha' m => by
    obtain ⟨a', h3, h4⟩ := hA a ha'
    obtain ⟨j, h5, h6⟩ := ha a' h3 m
    exact ⟨j, h5, h4 _ _ (hs j) h6⟩) b hb n
  obtain ⟨m, h3, h4⟩ := this
  exact ⟨m, h3, hi _ _ (hs m) h4⟩

theorem relaxed_wins {I O : Type} {g g' : Game I O} (hE : ∀ s i, g'.safetyEnv s i → g.safetyEnv s i) (hS : ∀ s t, g'.safetyEnv s t.1 → g.safetySys s t → g'.safetySys s t)
    (hA : ∀ a ∈ g.assumptions, ∃ a' ∈ g'.assumptions, ∀ s t, g'.safetyEnv s t.1 → a' s t → a s t)
    (hG : ∀ b' ∈ g'.guarantees, ∃ b ∈ g.guarantees, ∀ s t, g'.safetyEnv s t.1 → b s t → b' s t) {s : Pos I O} (h : g.SysWins s) : g'.SysWins s :=
  relaxed_wins' hE hS hA (fun b' hb' => .inr (hG b' hb')) h

theorem mem_pick {β : Type} {f : β → Bool} {v : List β} {soft : List Fml} {φ : Fml} :
    φ ∈ pick f v soft ↔ ∃ (j : Nat) (b : β), soft[j]? = some φ ∧ v[j]? = some b ∧ f b = true := by
  rw [pick, List.mem_map]
  constructor
  · rintro ⟨⟨ψ, b⟩, h, rfl⟩
    obtain ⟨h1, h2⟩ := List.mem_filter.mp h
    obtain ⟨j, hj⟩ := List.mem_iff_getElem?.mp h1
    obtain ⟨h3, h4⟩ := List.getElem?_zip_eq_some.mp hj
    exact ⟨j, b, h3, h4, h2⟩
  · rintro ⟨j, b, h1, h2, h3⟩
    exact ⟨(φ, b), List.mem_filter.mpr ⟨List.mem_iff_getElem?.mpr ⟨j, List.getElem?_zip_eq_some.mpr ⟨h1, h2⟩⟩, h3⟩, rfl⟩

theorem tolerant_anti {sp : SpecFile} {hard soft : List Fml} {v w : List Bool} (h : List.Forall₂ (· ≤ ·) v w) (hr : (sp.tolerant hard soft w).Realizable) :
    (sp.tolerant hard soft v).Realizable := by
  have at' : ∀ (j : Nat) (b : Bool), v[j]? = some b → ∃ b', w[j]? = some b' ∧ b ≤ b' := by
    intro j b hj
    obtain ⟨h1, h2⟩ := List.forall₂_iff_get.mp h
    obtain ⟨hlt, rfl⟩ := List.getElem?_eq_some_iff.mp hj
    exact ⟨w[j], List.getElem?_eq_getElem (h1 ▸ hlt), h2 j hlt (h1 ▸ hlt)⟩
  have at'' : ∀ (j : Nat) (b : Bool), w[j]? = some b → ∃ b', v[j]? = some b' ∧ b' ≤ b := by
    intro j b hj
    obtain ⟨h1, h2⟩ := List.forall₂_iff_get.mp h
    obtain ⟨hlt, rfl⟩ := List.getElem?_eq_some_iff.mp hj
    exact ⟨v[j], List.getElem?_eq_getElem (h1 ▸ hlt), h2 j (h1 ▸ hlt) hlt⟩
  intro i hi
  obtain ⟨o, ho, hw⟩ := hr i hi
  refine ⟨o, ho, relaxed_wins (g := sp.tolerant hard soft w) (g' := sp.tolerant hard soft v) (fun s i he φ hφ => ?_) (fun s t _ hs => hs) (fun a ha => ⟨a, ha, fun _ _ _ h => h⟩) ?_ hw⟩
  · refine he φ ?_
    rcases List.mem_append.mp hφ with hφ | hφ
    · exact List.mem_append_left _ hφ
    · obtain ⟨j, b, h1, h2, h3⟩ := mem_pick.mp hφ
      obtain ⟨b', h4, h5⟩ := at'' j b h2
      refine List.mem_append_right _ (mem_pick.mpr ⟨j, b', h1, h4, ?_⟩)
      revert h5 h3
      cases b <;> cases b' <;> simp
  · intro b' hb'
    obtain ⟨b, hb, rfl⟩ := List.mem_map.mp hb'
    refine ⟨_, List.mem_map.mpr ⟨b, hb, rfl⟩, fun s t he ht => ?_⟩
    rcases ht with ht | ⟨φ, hφ, hv⟩
    · exact .inl ht
    · right
      obtain ⟨j, x, h1, h2, h3⟩ := mem_pick.mp hφ
      obtain ⟨y, h4, h5⟩ := at'' j x h2
      cases hy : y with
      | true => exact ⟨φ, mem_pick.mpr ⟨j, y, h1, h4, hy⟩, hv⟩
      | false =>
        have := he φ (List.mem_append_right _ (mem_pick.mpr ⟨j, y, h1, h4, by simp [hy]⟩))
        rw [hv] at this
        cases this

/-- Without violations, it is the game of the file. -/
theorem Base.tolerant_none {sp : SpecFile} {hard soft : List Fml} {ess : List (List Char)} {c : Categories} (h : Base sp hard soft ess c) :
    (sp.tolerant hard soft (List.replicate soft.length false)).Realizable ↔ sp.game.Realizable := by
  have hp : ∀ φ, φ ∈ pick (! ·) (List.replicate soft.length false) soft ↔ φ ∈ soft := by
    intro φ
    rw [mem_pick, List.mem_iff_getElem?]
    constructor
    · rintro ⟨j, b, h1, _⟩
      exact ⟨j, h1⟩
    · rintro ⟨j, h1⟩
      obtain ⟨hlt, _⟩ := List.getElem?_eq_some_iff.mp h1
      exact ⟨j, false, h1, by simp [hlt], rfl⟩
  have hn : ∀ φ, φ ∉ pick id (List.replicate soft.length false) soft := by
    intro φ hφ
    obtain ⟨j, b, h1, h2, h3⟩ := mem_pick.mp hφ
    obtain ⟨hlt, e⟩ := List.getElem?_eq_some_iff.mp h2
    rw [List.getElem_replicate] at e
    subst e
    cases h3
  have e : sp.tolerant hard soft (List.replicate soft.length false) = sp.game := by
    rw [SpecFile.tolerant]
    have e1 : (fun p i => ∀ φ ∈ hard ++ pick (! ·) (List.replicate soft.length false) soft, sp.violates p i φ = false) = sp.game.safetyEnv := by
      funext p i
      refine propext (forall_congr' fun φ => ?_)
      rw [h.envTrans, List.mem_append, List.mem_append, hp]
      refine forall_congr' fun _ => ?_
      rw [SpecFile.violates]
      simp [SpecFile.holds]
    have e2 : (sp.game.guarantees.map fun b p q => b p q ∨ ∃ φ ∈ pick id (List.replicate soft.length false) soft, sp.violates p q.1 φ = true) = sp.game.guarantees := by
      conv_rhs => rw [← List.map_id sp.game.guarantees]
      refine List.map_congr_left fun b _ => ?_
      funext p q
      exact propext ⟨fun h => h.elim id fun ⟨φ, h, _⟩ => absurd h (hn φ), .inl⟩
    rw [e1, e2]
  rw [e]

/-! ### The order -/

theorem forall₂_le_trans {β : Type} [Preorder β] {u v w : List β} (h1 : List.Forall₂ (· ≤ ·) u v) (h2 : List.Forall₂ (· ≤ ·) v w) : List.Forall₂ (· ≤ ·) u w := by
  rw [List.forall₂_iff_get]
  obtain ⟨e1, h1⟩ := List.forall₂_iff_get.mp h1
  obtain ⟨e2, h2⟩ := List.forall₂_iff_get.mp h2
  exact ⟨e1.trans e2, fun i ha hb => (h1 i ha (e1 ▸ ha)).trans (h2 i (e1 ▸ ha) hb)⟩

theorem inftyLeq_iff {v w : List Bool} (h : v.length = w.length) : inftyLeq v w = true ↔ List.Forall₂ (· ≤ ·) v w := by
  rw [inftyLeq, List.all_eq_true, List.forall₂_iff_get]
  constructor
  · intro h1
    refine ⟨h, fun i hv hw => ?_⟩
    have := h1 i (List.mem_range.mpr hv)
    rw [List.getD_eq_getElem _ _ hv, List.getD_eq_getElem _ _ hw] at this
    simp only [List.get_eq_getElem]
    revert this
    cases v[i] <;> cases w[i] <;> simp
  · rintro ⟨_, h1⟩ i hi
    have hv := List.mem_range.mp hi
    have hw := h ▸ hv
    have := h1 i hv hw
    simp only [List.get_eq_getElem] at this
    rw [List.getD_eq_getElem _ _ hv, List.getD_eq_getElem _ _ hw]
    revert this
    cases v[i] <;> cases w[i] <;> simp

theorem mem_inftySucc {v y : List Bool} : y ∈ inftySucc v ↔ ∃ a, a < v.length ∧ v.getD a false = false ∧ y = v.set a true := by
  rw [inftySucc, List.mem_filterMap]
  refine exists_congr fun a => ?_
  rw [List.mem_range]
  refine and_congr_right fun _ => ?_
  split
  · rename_i h
    rw [h]
    simp
  · rename_i h
    rw [Bool.not_eq_true] at h
    rw [h]
    simp [eq_comm]

theorem inftySucc_props {v y : List Bool} (h : y ∈ inftySucc v) :
    y.length = v.length ∧ List.Forall₂ (· ≤ ·) v y ∧ y.count true = v.count true + 1 ∧ y.count false < v.count false := by
  obtain ⟨a, ha, hf, rfl⟩ := mem_inftySucc.mp h
  rw [List.getD_eq_getElem _ _ ha] at hf
  have hc : (v.set a true).count false < v.count false := by
    rw [List.count_set ha, hf]
    have : 0 < v.count false := List.count_pos_iff.mpr (hf ▸ List.getElem_mem ha)
    rw [show (false == false) = true from rfl, show (true == false) = false from rfl, if_pos rfl, if_neg Bool.false_ne_true]
    omega
  refine ⟨List.length_set, ?_, ?_, hc⟩
  · rw [List.forall₂_iff_get]
    refine ⟨List.length_set.symm, fun i h1 h2 => ?_⟩
    simp only [List.get_eq_getElem, List.getElem_set]
    split
    · exact le_top
    · exact le_rfl
  · rw [List.count_set ha, hf]
    simp

theorem inftyAbove_cons {a : Bool} {v w : List Bool} (h : Above inftySucc v w) : Above inftySucc (a :: v) (a :: w) := by
  refine Relation.ReflTransGen.lift (a :: ·) (fun x y hxy => ?_) _ _ h
  obtain ⟨i, h1, h2, rfl⟩ := mem_inftySucc.mp hxy
  exact mem_inftySucc.mpr ⟨i + 1, by simpa using h1, by simpa using h2, by simp⟩

theorem inftyAbove_of {v w : List Bool} (h : List.Forall₂ (· ≤ ·) v w) : Above inftySucc v w := by
  induction h with
  | nil => exact .refl
  | @cons a b v w hab _ ih =>
    have h1 := inftyAbove_cons (a := b) ih
    rcases Bool.eq_or_eq_not a b with e | e
    · subst e
      exact h1
    · have : a = false ∧ b = true := by
        revert hab e
        cases a <;> cases b <;> simp
      obtain ⟨rfl, rfl⟩ := this
      exact .head (mem_inftySucc.mpr ⟨0, by simp, rfl, rfl⟩) h1

theorem infty_lattice {oracle : List Bool → Option Bool} {P : List Bool → Prop} (n : Nat) (yes : ∀ v, v.length = n → P v → oracle v = some true)
    (no : ∀ v, v.length = n → ¬ P v → oracle v = some false) (anti : ∀ v w, List.Forall₂ (· ≤ ·) v w → P w → P v) :
    Lattice inftyLeq inftySucc oracle [] (fun v => v.length = n) (fun _ => True) P (List.count true) where
  refl x _ := (inftyLeq_iff rfl).mpr (List.forall₂_same.mpr fun _ _ => le_rfl)
  trans x y z hx hy hz h1 h2 := by
    rw [inftyLeq_iff (hx.trans hy.symm)] at h1
    rw [inftyLeq_iff (hy.trans hz.symm)] at h2
    rw [inftyLeq_iff (hx.trans hz.symm)]
    exact forall₂_le_trans h1 h2
  closed x hx y hy := by
    obtain ⟨h1, h2, h3, _⟩ := inftySucc_props hy
    exact ⟨h1.trans hx, (inftyLeq_iff h1.symm).mpr h2, h3⟩
  near _ _ _ _ _ := trivial
  yes x hx _ := yes x hx
  no x hx _ := no x hx
  anti x y hx hy h := anti x y ((inftyLeq_iff (hx.trans hy.symm)).mp h)
  known := by simp

theorem infty_frontier {oracle : List Bool → Option Bool} {P : List Bool → Prop} (n : Nat) (yes : ∀ v, v.length = n → P v → oracle v = some true)
    (no : ∀ v, v.length = n → ¬ P v → oracle v = some false) (anti : ∀ v w, List.Forall₂ (· ≤ ·) v w → P w → P v) :
    ∃ L, frontier inftyLeq inftySucc oracle [] (n + 1) (List.replicate n false) = some L ∧ L.Nodup ∧
      ∀ v, v ∈ L ↔ v.length = n ∧ P v ∧ ∀ w, List.Forall₂ (· ≤ ·) v w → P w → w = v := by
  have lat := infty_lattice n yes no anti
  have hs : (List.replicate n false).length = n := List.length_replicate
  obtain ⟨L, hL⟩ := frontier_ends lat (height := List.count false) (fun x _ _ y hy => (inftySucc_props hy).2.2.2) (fuel := n + 1)
    (start := List.replicate n false) (by simp) hs trivial
  obtain ⟨h1, h2, h3, h4⟩ := frontier_spec lat hs trivial hL
  refine ⟨L, hL, h3.imp_of_mem fun {a b} ha hb hab e => ?_, fun v => ⟨fun hv => ⟨(h1 v hv).1, (h1 v hv).2, fun w hw hp => h2 v hv w (inftyAbove_of hw) hp⟩, ?_⟩⟩
  · subst e
    rw [lat.refl a (h1 a ha).1] at hab
    cases hab
  · rintro ⟨hl, hp, hm⟩
    obtain ⟨r, hr, hle⟩ := h4 v (inftyAbove_of (by
      rw [List.forall₂_iff_get]
      refine ⟨by rw [List.length_replicate, hl], fun i _ _ => ?_⟩
      simp)) hp
    have := (inftyLeq_iff (hl.trans (h1 r hr).1.symm)).mp hle
    rwa [← hm r this (h1 r hr).2]

theorem inftyAbove_count {v w : List Bool} (h : Above inftySucc v w) : w.count false ≤ v.count false := by
  induction h with
  | refl => exact le_rfl
  | tail _ h ih => exact (inftySucc_props h).2.2.2.le.trans ih

theorem infty_maximal {P : List Bool → Prop} {v : List Bool} (h : P v) : ∃ w, List.Forall₂ (· ≤ ·) v w ∧ P w ∧ ∀ u, List.Forall₂ (· ≤ ·) w u → P u → u = w := by
  induction hn : v.count false using Nat.strong_induction_on generalizing v with
  | _ n ih =>
    subst hn
    by_cases hm : ∀ u, List.Forall₂ (· ≤ ·) v u → P u → u = v
    · exact ⟨v, List.forall₂_same.mpr fun _ _ => le_rfl, h, hm⟩
    · push Not at hm
      obtain ⟨u, h1, h2, h3⟩ := hm
      have hc : u.count false < v.count false := by
        rcases Relation.ReflTransGen.cases_head (inftyAbove_of h1) with e | ⟨y, h4, h5⟩
        · exact absurd e.symm h3
        · exact (inftyAbove_count h5).trans_lt (inftySucc_props h4).2.2.2
      obtain ⟨w, h4, h5, h6⟩ := ih _ hc h2 rfl
      exact ⟨w, forall₂_le_trans h1 h4, h5, h6⟩

theorem replicate_le {n : Nat} {v : List Bool} (hl : v.length = n) : List.Forall₂ (· ≤ ·) (List.replicate n false) v := by
  rw [List.forall₂_iff_get]
  refine ⟨by rw [List.length_replicate, hl], fun i _ _ => ?_⟩
  simp

/-! ### What is found -/

theorem specLines_infty_card {sp : SpecFile} {hard soft : List Fml} {ess : List (List Char)} {c : Categories} (h : Base sp hard soft ess c) (v : List Bool) :
    Nat.card (Pos (specLines (inftyLines ess c v)).In (specLines (inftyLines ess c v)).Out) = Nat.card (Pos sp.In sp.Out) := by
  have h1 : (specLines (inftyLines ess c v)).inputs = sp.inputs := h.inputs.symm
  have h2 : (specLines (inftyLines ess c v)).outputs = sp.outputs := h.outputs.symm
  unfold SpecFile.In SpecFile.Out
  rw [h1, h2]

/-- The answer for one vector. -/
theorem Base.infty_answer {sp : SpecFile} {hard soft : List Fml} {ess : List (List Char)} {c : Categories} (h : Base sp hard soft ess c) (B : Type) [DecidableEq B] [BddLib B]
    (alg : Algorithm) (order : List Char → Bool) {cap fuel : Nat} {v : List Bool} (hv : v.length = soft.length) (hcap : (inftyFile ess c v).length ≤ cap)
    (hf : Nat.card (Pos sp.In sp.Out) + 1 ≤ fuel) :
    ((sp.tolerant hard soft v).Realizable → askSlugs B alg cap order fuel (inftyFile ess c v) = some true) ∧
    (¬ (sp.tolerant hard soft v).Realizable → askSlugs B alg cap order fuel (inftyFile ess c v) = some false) := by
  have hg := h.inftyGood v hcap
  rw [← h.game_eq hv, inftyFile_eq]
  have flt : ∀ s, ((inftyLines ess c v s).map trim).filter (· ≠ []) = inftyLines ess c v s := fun s => itemLine_filter (hg.line s)
  have flt' : ∀ s, ((inftyLines ess c v s ++ [[]]).map trim).filter (· ≠ []) = inftyLines ess c v s := fun s => by
    rw [List.map_append, List.filter_append, flt]
    simp [trim]
  refine answer_sections B alg order hg (bs := inftyBlocks ess c v) (a := .input) (b := .output) (rest := [.envLiveness, .envInit, .sysInit, .sysTrans, .envTrans, .sysLiveness])
    rfl (.inl ⟨rfl, rfl⟩) (by decide) (fun s => by cases s <;> decide) ?_ ?_ (by rw [specLines_infty_card h]; exact hf)
  · intro b hb
    simp only [inftyBlocks, List.mem_cons, List.not_mem_nil, or_false] at hb
    rcases hb with rfl | rfl | rfl | rfl | rfl | rfl | rfl | rfl
    · exact flt' .input
    · exact flt' .output
    · exact flt' .envLiveness
    · exact flt' .envInit
    · exact flt' .sysInit
    · exact flt' .sysTrans
    · exact flt .envTrans
    · exact flt .sysLiveness
  · intro b hb l hl
    have cl : ∀ s, ∀ l ∈ inftyLines ess c v s, '\n' ∉ l := fun s l hl => (hg.line s l hl).clean
    have cl' : ∀ s, ∀ l ∈ inftyLines ess c v s ++ [[]], '\n' ∉ l := fun s l hl => by
      rcases List.mem_append.mp hl with hl | hl
      · exact cl s l hl
      · simp_all
    simp only [inftyBlocks, List.mem_cons, List.not_mem_nil, or_false] at hb
    rcases hb with rfl | rfl | rfl | rfl | rfl | rfl | rfl | rfl
    · exact cl' .input l hl
    · exact cl' .output l hl
    · exact cl' .envLiveness l hl
    · exact cl' .envInit l hl
    · exact cl' .sysInit l hl
    · exact cl' .sysTrans l hl
    · exact cl .envTrans l hl
    · exact cl .sysLiveness l hl

/-- There are finitely many vectors, and hence files. -/
theorem bounded_files {β : Type} [Finite β] (f : List β → Nat) (n : Nat) : ∃ N, ∀ v : List β, v.length = n → f v ≤ N := by
  have : Finite {v : List β // v.length = n} := inferInstanceAs (Finite (List.Vector β n))
  obtain ⟨N, hN⟩ := (Set.finite_range fun v : {v : List β // v.length = n} => f v.1).bddAbove
  exact ⟨N, fun v hv => hN ⟨⟨v, hv⟩, rfl⟩⟩

theorem Base.infty_found {sp : SpecFile} {hard soft : List Fml} {ess : List (List Char)} {c : Categories} (h : Base sp hard soft ess c) :
    ∃ N, ∀ (B : Type) [DecidableEq B] [BddLib B] (alg : Algorithm) (order : List Char → Bool) (cap fuel : Nat), N ≤ cap → N ≤ fuel →
      ∃ L, findInfty (askSlugs B alg cap order fuel) ess c = some L ∧ L.Nodup ∧
        ∀ v, v ∈ L ↔ v.length = soft.length ∧ (sp.tolerant hard soft v).Realizable ∧ ∀ w, List.Forall₂ (· ≤ ·) v w → (sp.tolerant hard soft w).Realizable → w = v := by
  obtain ⟨M, hM⟩ := bounded_files (fun v => (inftyFile ess c v).length) soft.length
  refine ⟨M + (Nat.card (Pos sp.In sp.Out) + 1), fun B _ _ alg order cap fuel hcap hfuel => ?_⟩
  have e : (c .envTrans).length = soft.length := by rw [h.softEq, List.length_map]
  rw [findInfty, e]
  refine infty_frontier soft.length (P := fun v => (sp.tolerant hard soft v).Realizable) (fun v hv hp => ?_) (fun v hv hp => ?_) fun v w hvw => tolerant_anti hvw
  · exact (h.infty_answer B alg order hv ((hM v hv).trans (by omega)) (by omega)).1 hp
  · exact (h.infty_answer B alg order hv ((hM v hv).trans (by omega)) (by omega)).2 hp

end Slugs.Model.Resilience
