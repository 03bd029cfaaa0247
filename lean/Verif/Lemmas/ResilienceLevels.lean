import Verif.Lemmas.ResilienceTheory

/-!
The second search of `kResilientRealizabilityChecker.py`: its order and what it finds.
-/

namespace Slugs.Model.Resilience

open Slugs.Spec Slugs.Model.Structured
open Slugs.Model.Core

/-! ### The order -/

theorem forall₂_nat {v w : List Nat} (hl : v.length = w.length) : List.Forall₂ (· ≤ ·) v w ↔ ∀ a, a < v.length → v.getD a 0 ≤ w.getD a 0 := by
  rw [List.forall₂_iff_get]
  constructor
  · rintro ⟨_, h⟩ a ha
    have := h a ha (hl ▸ ha)
    rwa [List.getD_eq_getElem _ _ ha, List.getD_eq_getElem _ _ (hl ▸ ha)]
  · intro h
    refine ⟨hl, fun a h1 h2 => ?_⟩
    have := h a h1
    rwa [List.getD_eq_getElem _ _ h1, List.getD_eq_getElem _ _ h2] at this

theorem mixedLeq_iff {x y : List Nat × Nat} (hl : x.1.length = y.1.length) : mixedLeq x y = true ↔ List.Forall₂ (· ≤ ·) x.1 y.1 ∧ x.2 ≤ y.2 := by
  rw [mixedLeq, Bool.and_eq_true, decide_eq_true_eq, forall₂_nat hl, List.all_eq_true]
  simp only [List.mem_range, decide_eq_true_eq]

theorem mem_mixedSucc {infty : List (List Bool)} {x y : List Nat × Nat} : y ∈ mixedSucc infty x ↔
    (∃ a, a < x.1.length ∧ x.1.getD a 0 < 2 ∧ y = (x.1.set a (x.1.getD a 0 + 1), x.2)) ∨ (moreAmbitious infty x.1 = true ∧ y = (x.1, x.2 + 1)) := by
  rw [mixedSucc, List.mem_append, List.mem_filterMap]
  refine or_congr (exists_congr fun a => ?_) ?_
  · rw [List.mem_range]
    refine and_congr_right fun _ => ?_
    split
    · rename_i h
      rw [Option.some.injEq]
      exact ⟨fun e => ⟨h, e.symm⟩, fun e => e.2.symm⟩
    · rename_i h
      exact ⟨fun e => (by simp at e), fun e => absurd e.1 h⟩
  · split
    · rename_i h
      simp [h]
    · rename_i h
      simp [h]

theorem set_succ {v : List Nat} {a : Nat} (ha : a < v.length) :
    List.Forall₂ (· ≤ ·) v (v.set a (v.getD a 0 + 1)) ∧ (v.set a (v.getD a 0 + 1)).sum = v.sum + 1 := by
  induction v generalizing a with
  | nil => simp at ha
  | cons x v ih =>
    cases a with
    | zero => simpa [List.forall₂_same] using by omega
    | succ a =>
      obtain ⟨h1, h2⟩ := ih (a := a) (by simpa using ha)
      simp only [List.getD_cons_succ, List.set_cons_succ, List.sum_cons, h2]
      exact ⟨.cons le_rfl h1, by omega⟩

theorem mixedAbove_cons {infty : List (List Bool)} {k a b : Nat} {v w : List Nat} (hab : a ≤ b) (hb : b ≤ 2)
    (h : Relation.ReflTransGen (fun x y : List Nat => ∃ i, i < x.length ∧ x.getD i 0 < 2 ∧ y = x.set i (x.getD i 0 + 1)) v w) :
    Relation.ReflTransGen (fun x y : List Nat => ∃ i, i < x.length ∧ x.getD i 0 < 2 ∧ y = x.set i (x.getD i 0 + 1)) (a :: v) (b :: w) := by
  have h1 : Relation.ReflTransGen (fun x y : List Nat => ∃ i, i < x.length ∧ x.getD i 0 < 2 ∧ y = x.set i (x.getD i 0 + 1)) (b :: v) (b :: w) := by
    refine Relation.ReflTransGen.lift (b :: ·) (fun x y hxy => ?_) _ _ h
    obtain ⟨i, h1, h2, rfl⟩ := hxy
    exact ⟨i + 1, by simpa using h1, by simpa using h2, by simp⟩
  refine Relation.ReflTransGen.trans ?_ h1
  obtain ⟨d, rfl⟩ := Nat.exists_eq_add_of_le hab
  clear h1 hab
  induction d with
  | zero => exact .refl
  | succ d ih => exact .tail (ih (by omega)) ⟨0, by simp, by simp; omega, by simp; omega⟩

theorem mixedAbove_levels {infty : List (List Bool)} {k : Nat} {v w : List Nat} (h : List.Forall₂ (· ≤ ·) v w) (hw : ∀ a ∈ w, a ≤ 2) :
    Above (mixedSucc infty) (v, k) (w, k) := by
  have : Relation.ReflTransGen (fun x y : List Nat => ∃ i, i < x.length ∧ x.getD i 0 < 2 ∧ y = x.set i (x.getD i 0 + 1)) v w := by
    induction h with
    | nil => exact .refl
    | cons hab _ ih => exact mixedAbove_cons (infty := infty) (k := k) hab (hw _ (by simp)) (ih fun a ha => hw a (by simp [ha]))
  refine Relation.ReflTransGen.lift (fun x => (x, k)) (fun x y hxy => ?_) _ _ this
  obtain ⟨i, h1, h2, rfl⟩ := hxy
  exact mem_mixedSucc.mpr (.inl ⟨i, h1, h2, rfl⟩)

theorem mixedAbove_number {infty : List (List Bool)} {k l : Nat} {w : List Nat} (h : moreAmbitious infty w = true) (hkl : k ≤ l) : Above (mixedSucc infty) (w, k) (w, l) := by
  obtain ⟨d, rfl⟩ := Nat.exists_eq_add_of_le hkl
  clear hkl
  induction d with
  | zero => exact .refl
  | succ d ih => exact .tail ih (mem_mixedSucc.mpr (.inr ⟨h, rfl⟩))

theorem moreAmbitious_iff {infty : List (List Bool)} {v : List Nat} (hl : ∀ w ∈ infty, w.length = v.length) :
    moreAmbitious infty v = true ↔ ∀ w ∈ infty, ¬ List.Forall₂ (· ≤ ·) (support v) w := by
  rw [moreAmbitious, List.all_eq_true]
  refine forall₂_congr fun w hw => ?_
  have hlen := hl w hw
  have key : ((List.range w.length).all fun i => v.getD i 0 == 0 || w.getD i false) = true ↔ List.Forall₂ (· ≤ ·) (support v) w := by
    rw [List.all_eq_true, List.forall₂_iff_get]
    simp only [support, List.length_map, List.mem_range, List.get_eq_getElem, List.getElem_map]
    constructor
    · intro h
      refine ⟨hlen.symm, fun i h1 h2 => ?_⟩
      have := h i h2
      rw [List.getD_eq_getElem _ _ h1, List.getD_eq_getElem _ _ h2] at this
      revert this
      cases w[i] <;> cases v[i] <;> simp
    · rintro ⟨_, h⟩ i hi
      have := h i (hlen ▸ hi) hi
      rw [List.getD_eq_getElem _ _ (hlen ▸ hi), List.getD_eq_getElem _ _ hi]
      revert this
      cases w[i] <;> cases v[i] <;> simp
  have neg : ((List.range w.length).any fun i => decide (0 < v.getD i 0) && !w.getD i false) = !((List.range w.length).all fun i => v.getD i 0 == 0 || w.getD i false) := by
    rw [List.not_all_eq_any_not]
    congr 1
    funext i
    rw [Bool.not_or]
    congr 1
    cases v.getD i 0 <;> simp
  dsimp only
  rw [neg, Bool.or_self, Bool.not_eq_true', ← Bool.not_eq_true, key]

/-! ### The search -/

/-- A candidate: with a number that is greater than 1 only if not any number of violations can be tolerated. -/
def Candidate (n : Nat) (Tol : List Bool → Prop) (x : List Nat × Nat) : Prop :=
  x.1.length = n ∧ (∀ a ∈ x.1, a ≤ 2) ∧ 1 ≤ x.2 ∧ (x.2 = 1 ∨ ¬ Tol (support x.1))

theorem support_le {v w : List Nat} (h : List.Forall₂ (· ≤ ·) v w) : List.Forall₂ (· ≤ ·) (support v) (support w) := by
  induction h with
  | nil => exact .nil
  | cons h _ ih =>
    refine .cons ?_ ih
    intro h1
    simp only [decide_eq_true_eq] at h1 ⊢
    omega

theorem sum_le_two : ∀ {v : List Nat}, (∀ a ∈ v, a ≤ 2) → v.sum ≤ 2 * v.length
  | [], _ => by simp
  | a :: v, h => by
    have := sum_le_two fun b hb => h b (List.mem_cons_of_mem _ hb)
    have := h a (by simp)
    simp only [List.sum_cons, List.length_cons]
    omega

theorem forall₂_nat_trans {u v w : List Nat} (h1 : List.Forall₂ (· ≤ ·) u v) (h2 : List.Forall₂ (· ≤ ·) v w) : List.Forall₂ (· ≤ ·) u w := by
  induction h1 generalizing w with
  | nil => exact h2
  | cons h _ ih =>
    cases h2 with
    | cons h' h2 => exact .cons (h.trans h') (ih h2)

theorem sum_lt_of_le {v w : List Nat} (h : List.Forall₂ (· ≤ ·) v w) : v = w ∨ v.sum < w.sum := by
  induction h with
  | nil => exact .inl rfl
  | @cons a b v w h h' ih =>
    simp only [List.sum_cons, List.cons.injEq]
    rcases ih with rfl | ih
    · rcases Nat.eq_or_lt_of_le h with rfl | h
      · exact .inl ⟨rfl, rfl⟩
      · right
        omega
    · right
      omega

theorem forall₂_antisymm {v w : List Nat} (h1 : List.Forall₂ (· ≤ ·) v w) (h2 : List.Forall₂ (· ≤ ·) w v) : v = w := by
  rcases sum_lt_of_le h1 with e | h1
  · exact e
  · rcases sum_lt_of_le h2 with e | h2
    · exact e.symm
    · omega

theorem mixed_lattice {oracle : List Nat × Nat → Option Bool} {P : List Nat × Nat → Prop} {Tol : List Bool → Prop} {infty : List (List Bool)} {n K : Nat} (hK : 1 ≤ K)
    (yes : ∀ x, x.1.length = n → (∀ a ∈ x.1, a ≤ 2) → 1 ≤ x.2 → x.2 ≤ K + 1 → P x → oracle x = some true)
    (no : ∀ x, x.1.length = n → (∀ a ∈ x.1, a ≤ 2) → 1 ≤ x.2 → x.2 ≤ K + 1 → ¬ P x → oracle x = some false)
    (anti : ∀ x y : List Nat × Nat, List.Forall₂ (· ≤ ·) x.1 y.1 → x.2 ≤ y.2 → P y → P x)
    (tolAnti : ∀ v w : List Bool, List.Forall₂ (· ≤ ·) v w → Tol w → Tol v)
    (len : ∀ w ∈ infty, w.length = n)
    (tol : ∀ v : List Bool, v.length = n → (Tol v ↔ ∃ w ∈ infty, List.Forall₂ (· ≤ ·) v w))
    (any : ∀ w ∈ infty, P (anyLevels w, 1))
    (many : ∀ x, K < x.2 → P x → Tol (support x.1)) :
    Lattice mixedLeq (mixedSucc infty) oracle (infty.map fun w => (anyLevels w, 1)) (Candidate n Tol) (fun x => x.2 ≤ K + 1) P (fun x => x.1.sum + x.2) where
  refl x _ := (mixedLeq_iff rfl).mpr ⟨List.forall₂_same.mpr fun _ _ => le_rfl, le_rfl⟩
  trans x y z hx hy hz h1 h2 := by
    rw [mixedLeq_iff (hx.1.trans hy.1.symm)] at h1
    rw [mixedLeq_iff (hy.1.trans hz.1.symm)] at h2
    rw [mixedLeq_iff (hx.1.trans hz.1.symm)]
    exact ⟨forall₂_nat_trans h1.1 h2.1, h1.2.trans h2.2⟩
  closed x hx y hy := by
    rcases mem_mixedSucc.mp hy with ⟨a, h1, h2, rfl⟩ | ⟨h1, rfl⟩
    · obtain ⟨h3, h4⟩ := set_succ h1
      refine ⟨⟨List.length_set.trans hx.1, fun b hb => ?_, hx.2.2.1, hx.2.2.2.imp_right fun h h' => h (tolAnti _ _ (support_le h3) h')⟩,
        (mixedLeq_iff List.length_set.symm).mpr ⟨h3, le_rfl⟩, ?_⟩
      · rcases List.mem_or_eq_of_mem_set hb with hb | rfl
        · exact hx.2.1 b hb
        · omega
      · simp only [h4]
        omega
    · refine ⟨⟨hx.1, hx.2.1, Nat.le_add_left _ _, .inr fun h => ?_⟩, (mixedLeq_iff (x := x) (y := (x.1, x.2 + 1)) rfl).mpr ⟨List.forall₂_same.mpr fun _ _ => le_rfl, Nat.le_succ _⟩, rfl⟩
      rw [moreAmbitious_iff fun w hw => (len w hw).trans hx.1.symm] at h1
      obtain ⟨w, hw, hle⟩ := (tol _ ((List.length_map _).trans hx.1)).mp h
      exact h1 w hw hle
  near x hx hp y hy := by
    have : x.2 ≤ K := by
      by_contra hn
      rcases hx.2.2.2 with h | h
      · omega
      · exact h (many x (by omega) hp)
    rcases mem_mixedSucc.mp hy with ⟨a, _, _, rfl⟩ | ⟨_, rfl⟩
    · exact this.trans (Nat.le_succ _)
    · exact Nat.succ_le_succ this
  yes x hx hA := yes x hx.1 hx.2.1 hx.2.2.1 hA
  no x hx hA := no x hx.1 hx.2.1 hx.2.2.1 hA
  anti x y hx hy h := by
    obtain ⟨h1, h2⟩ := (mixedLeq_iff (hx.1.trans hy.1.symm)).mp h
    exact anti x y h1 h2
  known x hx := by
    obtain ⟨w, hw, rfl⟩ := List.mem_map.mp hx
    refine ⟨⟨(List.length_map _).trans (len w hw), fun a ha => ?_, le_rfl, .inl rfl⟩, any w hw⟩
    obtain ⟨b, _, rfl⟩ := List.mem_map.mp ha
    cases b <;> simp

theorem mixed_frontier {oracle : List Nat × Nat → Option Bool} {P : List Nat × Nat → Prop} {Tol : List Bool → Prop} {infty : List (List Bool)} {n K depth : Nat} (hK : 1 ≤ K)
    (yes : ∀ x, x.1.length = n → (∀ a ∈ x.1, a ≤ 2) → 1 ≤ x.2 → x.2 ≤ K + 1 → P x → oracle x = some true)
    (no : ∀ x, x.1.length = n → (∀ a ∈ x.1, a ≤ 2) → 1 ≤ x.2 → x.2 ≤ K + 1 → ¬ P x → oracle x = some false)
    (anti : ∀ x y : List Nat × Nat, List.Forall₂ (· ≤ ·) x.1 y.1 → x.2 ≤ y.2 → P y → P x)
    (tolAnti : ∀ v w : List Bool, List.Forall₂ (· ≤ ·) v w → Tol w → Tol v)
    (len : ∀ w ∈ infty, w.length = n)
    (tol : ∀ v : List Bool, v.length = n → (Tol v ↔ ∃ w ∈ infty, List.Forall₂ (· ≤ ·) v w))
    (any : ∀ w ∈ infty, P (anyLevels w, 1))
    (many : ∀ x, K < x.2 → P x → Tol (support x.1)) (hd : 2 * n + K < depth) :
    ∃ R, frontier mixedLeq (mixedSucc infty) oracle (infty.map fun w => (anyLevels w, 1)) depth (List.replicate n 0, 1) = some R ∧ R.Nodup ∧
      ∀ x, x ∈ R ↔ Candidate n Tol x ∧ P x ∧ ∀ y, Candidate n Tol y → List.Forall₂ (· ≤ ·) x.1 y.1 → x.2 ≤ y.2 → P y → y = x := by
  have lat := mixed_lattice hK yes no anti tolAnti len tol any many
  have hs : Candidate n Tol (List.replicate n 0, 1) := ⟨List.length_replicate, by simp, le_rfl, .inl rfl⟩
  have above : ∀ x y, Candidate n Tol x → Candidate n Tol y → List.Forall₂ (· ≤ ·) x.1 y.1 → x.2 ≤ y.2 → Above (mixedSucc infty) x y := by
    rintro ⟨v, k⟩ ⟨w, l⟩ hx hy h1 h2
    refine Relation.ReflTransGen.trans (mixedAbove_levels h1 hy.2.1) ?_
    rcases Nat.eq_or_lt_of_le h2 with e | hlt
    · obtain rfl : k = l := e
      exact .refl
    · refine mixedAbove_number ?_ h2
      rw [moreAmbitious_iff fun u hu => (len u hu).trans hy.1.symm]
      intro u hu hle
      have hlt : k < l := hlt
      have hk : 1 ≤ k := hx.2.2.1
      rcases hy.2.2.2 with h | h
      · have h : l = 1 := h
        omega
      · exact h ((tol _ ((List.length_map _).trans hy.1)).mpr ⟨u, hu, hle⟩)
  obtain ⟨R, hR⟩ := frontier_ends lat (height := fun x => 2 * n - x.1.sum + (K + 1 - x.2)) (fun x hx hp y hy => by
    obtain ⟨h1, _, h3⟩ := lat.closed x hx y hy
    have h4 := lat.near x hx hp y hy
    have h5 := sum_le_two h1.2.1
    rw [h1.1] at h5
    rcases mem_mixedSucc.mp hy with ⟨a, h6, _, rfl⟩ | ⟨_, rfl⟩
    · simp only at h3 h4 h5 ⊢
      omega
    · simp only at h3 h4 h5 ⊢
      omega) (fuel := depth) (start := (List.replicate n 0, 1)) (by simp; omega) hs (by simp)
  obtain ⟨h1, h2, h3, h4⟩ := frontier_spec lat hs (by simp) hR
  refine ⟨R, hR, h3.imp_of_mem fun {a b} ha hb hab e => ?_, fun x => ⟨fun hx => ⟨(h1 x hx).1, (h1 x hx).2, fun y hy hle hk hp => h2 x hx y (above x y (h1 x hx).1 hy hle hk) hp⟩, ?_⟩⟩
  · subst e
    rw [lat.refl a (h1 a ha).1] at hab
    cases hab
  · rintro ⟨hc, hp, hm⟩
    obtain ⟨r, hr, hle⟩ := h4 x (above _ _ hs hc (by
      rw [List.forall₂_iff_get]
      refine ⟨by rw [List.length_replicate, hc.1], fun i _ _ => ?_⟩
      simp) hc.2.2.1) hp
    obtain ⟨hle, hk⟩ := (mixedLeq_iff (hc.1.trans (h1 r hr).1.1.symm)).mp hle
    rwa [← hm r (h1 r hr).1 hle hk (h1 r hr).2]

/-! ### The answers -/

theorem Base.mixed_answer {sp : SpecFile} {hard soft : List Fml} {ess : List (List Char)} {c : Categories} (h : Base sp hard soft ess c) (hfr : Fresh sp) {bits : Nat → Nat}
    (hbits : ∀ k, k < 2 ^ bits k) (B : Type) [DecidableEq B] [BddLib B] (alg : Algorithm) (order : List Char → Bool) {cap fuel : Nat} {v : List Nat} {k : Nat}
    (hv : v.length = soft.length) (hk : 0 < k) (hcap : (mixedFile bits ess c v k).length ≤ cap)
    (hf : Nat.card (Pos (specLines (mixedLines (bits k) ess c v k)).In (specLines (mixedLines (bits k) ess c v k)).Out) + 1 ≤ fuel) :
    ((sp.resilient hard soft v k).Realizable → askSlugs B alg cap order fuel (mixedFile bits ess c v k) = some true) ∧
    (¬ (sp.resilient hard soft v k).Realizable → askSlugs B alg cap order fuel (mixedFile bits ess c v k) = some false) := by
  have hb : 0 < bits k := by
    have := hbits k
    rcases Nat.eq_zero_or_pos (bits k) with h0 | h0
    · rw [h0] at this
      omega
    · exact h0
  have hg := h.mixedGood hfr hbits v hk hcap
  rw [← h.mixed_eq hfr hb (hbits k) hv, mixedFile_eq]
  generalize hL : mixedLines (bits k) ess c v k = L at hg hf ⊢
  have flt : ∀ s, ((L s).map trim).filter (· ≠ []) = L s := fun s => itemLine_filter (hg.line s)
  have flt' : ∀ s, ((L s ++ [[]]).map trim).filter (· ≠ []) = L s := fun s => by
    rw [List.map_append, List.filter_append, flt]
    simp [trim]
  have cl : ∀ s, ∀ l ∈ L s, '\n' ∉ l := fun s l hl => (hg.line s l hl).clean
  have cl' : ∀ s, ∀ l ∈ L s ++ [[]], '\n' ∉ l := fun s l hl => by
    rcases List.mem_append.mp hl with hl | hl
    · exact cl s l hl
    · simp_all
  have hcount : (∀ l ∈ countLines (bits k) k (atLevel 0 v (· == 1) (c .envTrans)), '\n' ∉ l) := fun x hx =>
    ((ok_counts (U := (· ∈ usable .sysTrans (c .input) (c .output ++ bitNames (bits k)))) (hbits k) (fun j hj => usable_bit (.inr (.inr (.inl rfl))) hj)
      (fun j hj => usable_bit' (.inl rfl) hj) fun a ha => (h.okMasked v _ a ha).mono fun _ h => usable_trans h).1 x hx).2.2
  have hsys : L .sysTrans = c .sysTrans ++ (countLines (bits k) k (atLevel 0 v (· == 1) (c .envTrans))).map trim := by
    rw [← hL]
    rfl
  have hbl : mixedBlocks (bits k) ess c v k = [(.output, L .output ++ [[]]), (.input, L .input ++ [[]]), (.envInit, L .envInit ++ [[]]),
      (.envLiveness, L .envLiveness ++ [[]]), (.sysInit, L .sysInit ++ [[]]), (.envTrans, L .envTrans ++ [[]]),
      (.sysTrans, c .sysTrans ++ countLines (bits k) k (atLevel 0 v (· == 1) (c .envTrans)) ++ [[]]), (.sysLiveness, L .sysLiveness)] := by
    rw [← hL]
    rfl
  rw [hbl]
  refine answer_sections B alg order hg (a := .output) (b := .input) (rest := [.envInit, .envLiveness, .sysInit, .envTrans, .sysTrans, .sysLiveness])
    rfl (.inr ⟨rfl, rfl⟩) (by decide) (fun s => by cases s <;> decide) ?_ ?_ hf
  · intro b hb
    simp only [List.mem_cons, List.not_mem_nil, or_false] at hb
    rcases hb with rfl | rfl | rfl | rfl | rfl | rfl | rfl | rfl
    · exact flt' .output
    · exact flt' .input
    · exact flt' .envInit
    · exact flt' .envLiveness
    · exact flt' .sysInit
    · exact flt' .envTrans
    · have := flt .sysTrans
      rw [hsys, List.map_append, List.map_map, show trim ∘ trim = trim from funext trim_trim, ← List.map_append] at this
      refine Eq.trans ?_ (this.trans hsys.symm)
      rw [List.map_append (l₂ := [[]]), List.filter_append]
      simp [trim]
    · exact flt .sysLiveness
  · intro b hb l hl
    simp only [List.mem_cons, List.not_mem_nil, or_false] at hb
    rcases hb with rfl | rfl | rfl | rfl | rfl | rfl | rfl | rfl
    · exact cl' .output l hl
    · exact cl' .input l hl
    · exact cl' .envInit l hl
    · exact cl' .envLiveness l hl
    · exact cl' .sysInit l hl
    · exact cl' .envTrans l hl
    · rcases List.mem_append.mp hl with hl | hl
      · rcases List.mem_append.mp hl with hl | hl
        · exact cl .sysTrans l (by rw [hsys]; exact List.mem_append_left _ hl)
        · exact hcount l hl
      · simp_all
    · exact cl .sysLiveness l hl

theorem bounded_levels (f : List Nat → Nat → Nat) (n : Nat) : ∀ K, ∃ N, ∀ v k, v.length = n → (∀ a ∈ v, a ≤ 2) → k ≤ K → f v k ≤ N
  | 0 => by
    obtain ⟨N, hN⟩ := bounded_files (β := Fin 3) (fun v => f (v.map Fin.val) 0) n
    refine ⟨N, fun v k h1 h2 h3 => ?_⟩
    obtain rfl : k = 0 := by omega
    have := hN (v.map (Fin.ofNat 3)) (by simpa using h1)
    rwa [List.map_map, List.map_congr_left (g := id) (fun a ha => ?_), List.map_id] at this
    have := h2 a ha
    simp only [Function.comp, Fin.ofNat, id]
    omega
  | K + 1 => by
    obtain ⟨N, hN⟩ := bounded_files (β := Fin 3) (fun v => f (v.map Fin.val) (K + 1)) n
    obtain ⟨N', hN'⟩ := bounded_levels f n K
    refine ⟨max N N', fun v k h1 h2 h3 => ?_⟩
    rcases Nat.lt_or_ge K k with hk | hk
    · obtain rfl : k = K + 1 := by omega
      have := hN (v.map (Fin.ofNat 3)) (by simpa using h1)
      rw [List.map_map, List.map_congr_left (g := id) (fun a ha => ?_), List.map_id] at this
      · exact this.trans (le_max_left _ _)
      · have := h2 a ha
        simp only [Function.comp, Fin.ofNat, id]
        omega
    · exact (hN' v k h1 h2 hk).trans (le_max_right _ _)

theorem Base.mixed_found {sp : SpecFile} {hard soft : List Fml} {ess : List (List Char)} {c : Categories} (h : Base sp hard soft ess c) (hfr : Fresh sp) {bits : Nat → Nat}
    (hbits : ∀ k, k < 2 ^ bits k) :
    ∃ N, ∀ (B : Type) [DecidableEq B] [BddLib B] (alg : Algorithm) (order : List Char → Bool) (cap fuel depth : Nat), N ≤ cap → N ≤ fuel → N ≤ depth →
      ∀ infty : List (List Bool), infty ≠ [] → (∀ v, v ∈ infty ↔ v.length = soft.length ∧ (sp.tolerant hard soft v).Realizable ∧
          ∀ w, List.Forall₂ (· ≤ ·) v w → (sp.tolerant hard soft w).Realizable → w = v) →
      ∃ R, findMixed bits (askSlugs B alg cap order fuel) depth ess c infty = some R ∧ R.Nodup ∧
        ∀ x, x ∈ R ↔ Candidate soft.length (fun w => (sp.tolerant hard soft w).Realizable) x ∧ (sp.resilient hard soft x.1 x.2).Realizable ∧
          ∀ y, Candidate soft.length (fun w => (sp.tolerant hard soft w).Realizable) y → List.Forall₂ (· ≤ ·) x.1 y.1 → x.2 ≤ y.2 →
            (sp.resilient hard soft y.1 y.2).Realizable → y = x := by
  generalize hK : soft.length * (Nat.card (Pos sp.In sp.Out) + 1) + 1 = K
  obtain ⟨M, hM⟩ := bounded_levels (fun v k => (mixedFile bits ess c v k).length) soft.length (K + 1)
  obtain ⟨M', hM'⟩ := bounded_levels (fun v k => Nat.card (Pos (specLines (mixedLines (bits k) ess c v k)).In (specLines (mixedLines (bits k) ess c v k)).Out)) soft.length (K + 1)
  refine ⟨M + M' + 1 + (2 * soft.length + K + 1), fun B _ _ alg order cap fuel depth h1 h2 h3 infty hne hi => ?_⟩
  have ans := fun (x : List Nat × Nat) (a : x.1.length = soft.length) (b : ∀ a ∈ x.1, a ≤ 2) (d : 1 ≤ x.2) (e : x.2 ≤ K + 1) =>
    h.mixed_answer hfr hbits B alg order (cap := cap) (fuel := fuel) a d ((hM x.1 x.2 a b e).trans (by omega)) (by have := hM' x.1 x.2 a b e; omega)
  have := mixed_frontier (oracle := fun x => askSlugs B alg cap order fuel (mixedFile bits ess c x.1 x.2)) (P := fun x => (sp.resilient hard soft x.1 x.2).Realizable)
    (Tol := fun w => (sp.tolerant hard soft w).Realizable) (infty := infty) (n := soft.length) (K := K) (depth := depth) (by omega)
    (fun x a b d e => (ans x a b d e).1) (fun x a b d e => (ans x a b d e).2) (fun x y => resilient_anti) (fun v w => tolerant_anti) (fun w hw => ((hi w).mp hw).1)
    (fun v hv => ⟨fun hp => by
      obtain ⟨w, h4, h5, h6⟩ := infty_maximal (P := fun v => (sp.tolerant hard soft v).Realizable) hp
      exact ⟨w, (hi w).mpr ⟨h4.length_eq.symm.trans hv, h5, h6⟩, h4⟩, fun ⟨w, hw, hle⟩ => tolerant_anti hle ((hi w).mp hw).2.1⟩)
    (fun w hw => resilient_of_tolerant ((hi w).mp hw).2.1) (fun x hx => tolerant_of_many (by omega)) (by omega)
  cases infty with
  | nil => exact absurd rfl hne
  | cons w ws =>
    rw [findMixed]
    have e : (w.map fun _ => 0) = List.replicate soft.length 0 := by
      rw [List.map_const', ((hi w).mp (by simp)).1]
    rw [e]
    exact this

end Slugs.Model.Resilience
