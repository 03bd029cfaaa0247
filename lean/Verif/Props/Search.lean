import Verif.Model.Search

/-!
# C64: the searches for parameters find what they say

`binarySearch` and `runSearch` are the models of `tools/binaryRealizabilitySearch.py` and `tools/multiDimensionalRealizabilitySearch.py`.  `ask` tells what the
script says for a value: realizable, unrealizable, or an error (`none`).
-/

namespace Slugs.Props

open Slugs.Spec Slugs.Model.Search

/-! ### The script -/

/-- C64: the verdict that is used is the one that the script has written: it ends normally, and exactly one line is a verdict. -/
theorem C64_script_verdict (c : Call) (b : Bool) :
    checkRealizability c = some b ↔ c.code = 0 ∧ ∃ l r v, c.lines = l ++ v :: r ∧
      trim v = (if b then txt!"RESULT: Specification is realizable." else txt!"RESULT: Specification is unrealizable.") ∧
      ∀ x ∈ l ++ r, trim x ≠ txt!"RESULT: Specification is realizable." ∧ trim x ≠ txt!"RESULT: Specification is unrealizable." := by
  have hne : (txt!"RESULT: Specification is realizable.") ≠ txt!"RESULT: Specification is unrealizable." := by decide
  unfold checkRealizability
  dsimp only
  generalize hR : (txt!"RESULT: Specification is realizable.") = R at hne ⊢
  generalize hU : (txt!"RESULT: Specification is unrealizable.") = U at hne ⊢
  have none_of : ∀ (l : List (List Char)) (w : List Char), (l.map trim).count w = 0 ↔ ∀ x ∈ l, trim x ≠ w := by
    intro l w
    rw [List.count_eq_zero]
    simp
  have split : ∀ (l : List (List Char)) (w w' : List Char), w ≠ w' → (l.map trim).count w = 1 → (l.map trim).count w' = 0 →
      ∃ a b v, l = a ++ v :: b ∧ trim v = w ∧ ∀ x ∈ a ++ b, trim x ≠ w ∧ trim x ≠ w' := by
    intro l w w' hw h1 h2
    have hm : w ∈ l.map trim := List.count_pos_iff.mp (by omega)
    obtain ⟨v, hv, rfl⟩ := List.mem_map.mp hm
    obtain ⟨a, b, rfl⟩ := List.append_of_mem hv
    refine ⟨a, b, v, rfl, rfl, fun x hx => ⟨?_, ?_⟩⟩
    · have : ((a ++ b).map trim).count (trim v) = 0 := by
        simp only [List.map_append, List.map_cons, List.count_append, List.count_cons_self] at h1 ⊢
        omega
      exact (none_of _ _).mp this x hx
    · refine (none_of _ _).mp h2 x ?_
      simp only [List.mem_append, List.mem_cons] at hx ⊢
      tauto
  constructor
  · intro h
    split_ifs at h with h1 h2 h3
    cases h
    refine ⟨by simpa using h1, ?_⟩
    by_cases hr : List.count R (c.lines.map trim) > 0
    · obtain ⟨a, b, v, e1, e2, e3⟩ := split c.lines R U hne (by omega) (by omega)
      exact ⟨a, b, v, e1, by simp [hr, e2], e3⟩
    · obtain ⟨a, b, v, e1, e2, e3⟩ := split c.lines U R hne.symm (by omega) (by omega)
      exact ⟨a, b, v, e1, by simp [hr, e2], fun x hx => (e3 x hx).symm⟩
  · rintro ⟨h0, l, r, v, e1, e2, e3⟩
    have hz : ∀ w, (∀ x ∈ l ++ r, trim x ≠ w) → (c.lines.map trim).count w = if trim v = w then 1 else 0 := by
      intro w hw
      have := (none_of (l ++ r) w).mpr hw
      rw [List.map_append, List.count_append] at this
      rw [e1, List.map_append, List.map_cons, List.count_append, List.count_cons]
      simp only [beq_iff_eq]
      split <;> omega
    rw [hz R fun x hx => (e3 x hx).1, hz U fun x hx => (e3 x hx).2, e2]
    cases b
    · simp [h0, hne.symm]
    · simp [h0, hne]

/-! ### One parameter -/

theorem binary_monotone {ask : Int → Option Bool} {mn mx : Int} (h : mn ≤ mx) (hask : ∀ v, mn ≤ v → v ≤ mx → ask v ≠ none)
    (hm : ∀ v w, mn ≤ v → v ≤ w → w ≤ mx → ask v = some true → ask w = some true) :
    (∃ v, (binarySearch true ask mn mx).ended = .value v ∧ mn ≤ v ∧ v ≤ mx ∧ ask v = some true ∧ ∀ w, mn ≤ w → w < v → ask w = some false) ∨
    ((binarySearch true ask mn mx).ended = .unrealizable ∧ ∀ w, mn ≤ w → w ≤ mx → ask w = some false) := by
  rw [binarySearch]
  by_cases hlt : mn < mx
  · rw [dif_pos hlt]
    have hb := (testValue_bounds true hlt).1 rfl
    dsimp only
    generalize testValue true mn mx = t at hb
    cases e : ask t with
    | none => exact absurd e (hask t hb.1 (by omega))
    | some b =>
      cases b with
      | true =>
        dsimp only
        rw [if_pos rfl]
        rcases binary_monotone (ask := ask) (mn := mn) (mx := t) hb.1 (fun v h1 h2 => hask v h1 (by omega))
          (fun v w h1 h2 h3 => hm v w h1 h2 (by omega)) with ⟨v, h1, h2, h3, h4, h5⟩ | ⟨h1, h2⟩
        · exact .inl ⟨v, h1, h2, by omega, h4, h5⟩
        · rw [h2 t hb.1 (le_refl t)] at e
          cases e
      | false =>
        dsimp only
        rw [if_pos rfl]
        have low : ∀ w, mn ≤ w → w ≤ t → ask w = some false := by
          intro w h1 h2
          cases e' : ask w with
          | none => exact absurd e' (hask w h1 (by omega))
          | some b =>
            cases b with
            | false => rfl
            | true => rw [hm w t h1 h2 (by omega) e'] at e; cases e
        rcases binary_monotone (ask := ask) (mn := t + 1) (mx := mx) (by omega) (fun v h1 h2 => hask v (by omega) h2)
          (fun v w h1 h2 h3 => hm v w (by omega) h2 h3) with ⟨v, h1, h2, h3, h4, h5⟩ | ⟨h1, h2⟩
        · refine .inl ⟨v, h1, by omega, h3, h4, fun w h6 h7 => ?_⟩
          by_cases hw : w ≤ t
          · exact low w h6 hw
          · exact h5 w (by omega) h7
        · refine .inr ⟨h1, fun w h6 h7 => ?_⟩
          by_cases hw : w ≤ t
          · exact low w h6 hw
          · exact h2 w (by omega) h7
  · rw [dif_neg hlt]
    have : mn = mx := by omega
    subst this
    cases e : ask mn with
    | none => exact absurd e (hask mn h h)
    | some b =>
      cases b with
      | true => exact .inl ⟨mn, rfl, h, h, e, fun w h1 h2 => by omega⟩
      | false => exact .inr ⟨rfl, fun w h1 h2 => by rw [show w = mn by omega]; exact e⟩
termination_by (mx - mn).toNat
decreasing_by all_goals omega

theorem binary_antitone {ask : Int → Option Bool} {mn mx : Int} (h : mn ≤ mx) (hask : ∀ v, mn ≤ v → v ≤ mx → ask v ≠ none)
    (hm : ∀ v w, mn ≤ v → v ≤ w → w ≤ mx → ask w = some true → ask v = some true) :
    (∃ v, (binarySearch false ask mn mx).ended = .value v ∧ mn ≤ v ∧ v ≤ mx ∧ ask v = some true ∧ ∀ w, v < w → w ≤ mx → ask w = some false) ∨
    ((binarySearch false ask mn mx).ended = .unrealizable ∧ ∀ w, mn ≤ w → w ≤ mx → ask w = some false) := by
  rw [binarySearch]
  by_cases hlt : mn < mx
  · rw [dif_pos hlt]
    have hb := (testValue_bounds false hlt).2 rfl
    dsimp only
    generalize testValue false mn mx = t at hb
    cases e : ask t with
    | none => exact absurd e (hask t (by omega) (by omega))
    | some b =>
      cases b with
      | true =>
        dsimp only
        rw [if_neg (by simp)]
        rcases binary_antitone (ask := ask) (mn := t) (mx := mx) hb.2 (fun v h1 h2 => hask v (by omega) h2)
          (fun v w h1 h2 h3 => hm v w (by omega) h2 h3) with ⟨v, h1, h2, h3, h4, h5⟩ | ⟨h1, h2⟩
        · exact .inl ⟨v, h1, by omega, h3, h4, h5⟩
        · rw [h2 t (le_refl t) hb.2] at e
          cases e
      | false =>
        dsimp only
        rw [if_neg (by simp)]
        have high : ∀ w, t ≤ w → w ≤ mx → ask w = some false := by
          intro w h1 h2
          cases e' : ask w with
          | none => exact absurd e' (hask w (by omega) h2)
          | some b =>
            cases b with
            | false => rfl
            | true => rw [hm t w (by omega) h1 h2 e'] at e; cases e
        rcases binary_antitone (ask := ask) (mn := mn) (mx := t - 1) (by omega) (fun v h1 h2 => hask v h1 (by omega))
          (fun v w h1 h2 h3 => hm v w h1 h2 (by omega)) with ⟨v, h1, h2, h3, h4, h5⟩ | ⟨h1, h2⟩
        · refine .inl ⟨v, h1, h2, by omega, h4, fun w h6 h7 => ?_⟩
          by_cases hw : t ≤ w
          · exact high w hw h7
          · exact h5 w h6 (by omega)
        · refine .inr ⟨h1, fun w h6 h7 => ?_⟩
          by_cases hw : t ≤ w
          · exact high w hw h7
          · exact h2 w h6 (by omega)
  · rw [dif_neg hlt]
    have : mn = mx := by omega
    subst this
    cases e : ask mn with
    | none => exact absurd e (hask mn h h)
    | some b =>
      cases b with
      | true => exact .inl ⟨mn, rfl, h, h, e, fun w h1 h2 => by omega⟩
      | false => exact .inr ⟨rfl, fun w h1 h2 => by rw [show w = mn by omega]; exact e⟩
termination_by (mx - mn).toNat
decreasing_by all_goals omega

/-- C64: if realizability is monotone, the search ends with the least value in the range that is realizable, and says that there is none exactly if there is none. -/
theorem C64_minimum {ask : Int → Option Bool} {mn mx : Int} (h : mn ≤ mx) (hask : ∀ v, mn ≤ v → v ≤ mx → ask v ≠ none)
    (hm : ∀ v w, mn ≤ v → v ≤ w → w ≤ mx → ask v = some true → ask w = some true) :
    (∀ v, (binarySearch true ask mn mx).ended = .value v ↔
      (mn ≤ v ∧ v ≤ mx ∧ ask v = some true) ∧ ∀ w, mn ≤ w → w ≤ mx → ask w = some true → v ≤ w) ∧
    ((binarySearch true ask mn mx).ended = .unrealizable ↔ ∀ w, mn ≤ w → w ≤ mx → ask w = some false) := by
  rcases binary_monotone h hask hm with ⟨v, h1, h2, h3, h4, h5⟩ | ⟨h1, h2⟩
  · have hleast : ∀ w, mn ≤ w → w ≤ mx → ask w = some true → v ≤ w := by
      intro w h6 _ h8
      by_contra h9
      rw [h5 w h6 (by omega)] at h8
      cases h8
    refine ⟨fun u => ?_, ?_⟩
    · rw [h1]
      constructor
      · rintro ⟨⟩
        exact ⟨⟨h2, h3, h4⟩, hleast⟩
      · rintro ⟨⟨h6, h7, h8⟩, h9⟩
        rw [le_antisymm (hleast u h6 h7 h8) (h9 v h2 h3 h4)]
    · rw [h1]
      refine ⟨nofun, fun h6 => ?_⟩
      rw [h6 v h2 h3] at h4
      cases h4
  · refine ⟨fun u => ?_, by rw [h1]; exact ⟨fun _ => h2, fun _ => rfl⟩⟩
    rw [h1]
    refine ⟨nofun, ?_⟩
    rintro ⟨⟨h6, h7, h8⟩, -⟩
    rw [h2 u h6 h7] at h8
    cases h8

/-- C64: if realizability is antitone, the search ends with the greatest value in the range that is realizable. -/
theorem C64_maximum {ask : Int → Option Bool} {mn mx : Int} (h : mn ≤ mx) (hask : ∀ v, mn ≤ v → v ≤ mx → ask v ≠ none)
    (hm : ∀ v w, mn ≤ v → v ≤ w → w ≤ mx → ask w = some true → ask v = some true) :
    (∀ v, (binarySearch false ask mn mx).ended = .value v ↔
      (mn ≤ v ∧ v ≤ mx ∧ ask v = some true) ∧ ∀ w, mn ≤ w → w ≤ mx → ask w = some true → w ≤ v) ∧
    ((binarySearch false ask mn mx).ended = .unrealizable ↔ ∀ w, mn ≤ w → w ≤ mx → ask w = some false) := by
  rcases binary_antitone h hask hm with ⟨v, h1, h2, h3, h4, h5⟩ | ⟨h1, h2⟩
  · have hgreatest : ∀ w, mn ≤ w → w ≤ mx → ask w = some true → w ≤ v := by
      intro w _ h7 h8
      by_contra h9
      rw [h5 w (by omega) h7] at h8
      cases h8
    refine ⟨fun u => ?_, ?_⟩
    · rw [h1]
      constructor
      · rintro ⟨⟩
        exact ⟨⟨h2, h3, h4⟩, hgreatest⟩
      · rintro ⟨⟨h6, h7, h8⟩, h9⟩
        rw [le_antisymm (hgreatest u h6 h7 h8) (h9 v h2 h3 h4)]
    · rw [h1]
      refine ⟨nofun, fun h6 => ?_⟩
      rw [h6 v h2 h3] at h4
      cases h4
  · refine ⟨fun u => ?_, by rw [h1]; exact ⟨fun _ => h2, fun _ => rfl⟩⟩
    rw [h1]
    refine ⟨nofun, ?_⟩
    rintro ⟨⟨h6, h7, h8⟩, -⟩
    rw [h2 u h6 h7] at h8
    cases h8

/-- C64: whatever the script says, a value that is reported is realizable, in the range, and that of the last call. -/
theorem C64_reported_is_realizable (monotone : Bool) {ask : Int → Option Bool} {mn mx v : Int} (h : mn ≤ mx)
    (hv : (binarySearch monotone ask mn mx).ended = .value v) :
    mn ≤ v ∧ v ≤ mx ∧ ask v = some true ∧ (binarySearch monotone ask mn mx).calls.getLast? = some v := by
  rw [binarySearch] at hv ⊢
  by_cases hlt : mn < mx
  · rw [dif_pos hlt] at hv ⊢
    have hb := testValue_bounds monotone hlt
    dsimp only at hv ⊢
    generalize testValue monotone mn mx = t at hb hv ⊢
    have last : ∀ {l : List Int}, l.getLast? = some v → (t :: l).getLast? = some v := by
      intro l hl
      cases l with
      | nil => cases hl
      | cons a l => rw [List.getLast?_cons_cons]; exact hl
    cases e : ask t with
    | none => rw [e] at hv; cases hv
    | some b =>
      rw [e] at hv
      cases b <;> cases monotone <;> dsimp only at hv ⊢
      · have hb := hb.2 rfl
        rw [if_neg (by simp)] at hv ⊢
        obtain ⟨h1, h2, h3, h4⟩ := C64_reported_is_realizable false (mn := mn) (mx := t - 1) (by omega) hv
        exact ⟨h1, by omega, h3, last h4⟩
      · have hb := hb.1 rfl
        rw [if_pos rfl] at hv ⊢
        obtain ⟨h1, h2, h3, h4⟩ := C64_reported_is_realizable true (mn := t + 1) (mx := mx) (by omega) hv
        exact ⟨by omega, h2, h3, last h4⟩
      · have hb := hb.2 rfl
        rw [if_neg (by simp)] at hv ⊢
        obtain ⟨h1, h2, h3, h4⟩ := C64_reported_is_realizable false (mn := t) (mx := mx) (by omega) hv
        exact ⟨by omega, h2, h3, last h4⟩
      · have hb := hb.1 rfl
        rw [if_pos rfl] at hv ⊢
        obtain ⟨h1, h2, h3, h4⟩ := C64_reported_is_realizable true (mn := mn) (mx := t) (by omega) hv
        exact ⟨h1, by omega, h3, last h4⟩
  · rw [dif_neg hlt] at hv ⊢
    cases e : ask mx with
    | none => rw [e] at hv; cases hv
    | some b =>
      rw [e] at hv
      cases b with
      | false => cases hv
      | true => cases hv; exact ⟨h, le_refl _, e, rfl⟩
termination_by (mx - mn).toNat
decreasing_by all_goals omega

theorem half_size {d d' : Nat} (h : d ≠ 0) (h' : d' ≤ d / 2) : Nat.size d' + 1 ≤ Nat.size d := by
  have h1 : d < 2 ^ Nat.size d := Nat.lt_size_self d
  have h2 : 0 < Nat.size d := Nat.size_pos.mpr (Nat.pos_of_ne_zero h)
  have h3 : Nat.size d' ≤ Nat.size d - 1 := by
    rw [Nat.size_le]
    have : 2 ^ Nat.size d = 2 * 2 ^ (Nat.size d - 1) := by rw [← Nat.pow_succ']; congr 1; omega
    omega
  omega

/-- C64: the number of calls is at most logarithmic in the size of the range. -/
theorem C64_few_calls (monotone : Bool) (ask : Int → Option Bool) (mn mx : Int) :
    (binarySearch monotone ask mn mx).calls.length ≤ Nat.size (mx - mn).toNat + 1 := by
  rw [binarySearch]
  by_cases hlt : mn < mx
  · rw [dif_pos hlt]
    have hb := testValue_bounds monotone hlt
    have ht : testValue monotone mn mx = (mn + mx) / 2 ∨ monotone = false ∧ testValue monotone mn mx = (mn + mx + 1) / 2 := by
      rw [testValue]
      cases monotone
      · simp only [Bool.not_false, Bool.true_and, decide_eq_true_eq]
        split
        · exact .inr ⟨trivial, by omega⟩
        · exact .inl rfl
      · exact .inl rfl
    have ht' : monotone = false → testValue monotone mn mx = (mn + mx + 1) / 2 := by
      rintro rfl
      simp only [testValue, Bool.not_false, Bool.true_and, decide_eq_true_eq]
      split <;> omega
    dsimp only
    generalize testValue monotone mn mx = t at hb ht ht' ⊢
    have hd : (mx - mn).toNat ≠ 0 := by omega
    cases e : ask t with
    | none => simp
    | some b =>
      cases b <;> cases monotone <;> dsimp only
      · have hb := hb.2 rfl
        have ht := ht' rfl
        rw [if_neg (by simp), List.length_cons]
        have := C64_few_calls false ask mn (t - 1)
        have := half_size hd (d' := (t - 1 - mn).toNat) (by omega)
        omega
      · have hb := hb.1 rfl
        have ht := ht.resolve_right (by simp)
        rw [if_pos rfl, List.length_cons]
        have := C64_few_calls true ask (t + 1) mx
        have := half_size hd (d' := (mx - (t + 1)).toNat) (by omega)
        omega
      · have hb := hb.2 rfl
        have ht := ht' rfl
        rw [if_neg (by simp), List.length_cons]
        have := C64_few_calls false ask t mx
        have := half_size hd (d' := (mx - t).toNat) (by omega)
        omega
      · have hb := hb.1 rfl
        have ht := ht.resolve_right (by simp)
        rw [if_pos rfl, List.length_cons]
        have := C64_few_calls true ask mn t
        have := half_size hd (d' := (t - mn).toNat) (by omega)
        omega
  · rw [dif_neg hlt]
    cases e : ask mx with
    | none => simp
    | some b => cases b <;> simp
termination_by (mx - mn).toNat
decreasing_by all_goals omega


/-! ### Several parameters -/

/-- The tuple is in the normalized box. -/
abbrev InBox (box : List (Int × Int)) (t : List Int) : Prop := List.Forall₂ (fun b a => b.1 ≤ a ∧ a ≤ b.2) box t

theorem mem_range {a b x : Int} : x ∈ range a b ↔ a ≤ x ∧ x ≤ b := by
  simp only [range, List.mem_map, List.mem_range]
  constructor
  · rintro ⟨k, hk, rfl⟩
    omega
  · intro h
    exact ⟨(x - a).toNat, by omega, by omega⟩

theorem mem_product : ∀ {ls : List (List Int)} {t : List Int}, t ∈ product ls ↔ List.Forall₂ (fun l a => a ∈ l) ls t
  | [], t => by simp [product]
  | l :: ls, t => by
    simp only [product, List.mem_flatMap, List.mem_map, List.forall₂_cons_left_iff]
    constructor
    · rintro ⟨a, ha, s, hs, rfl⟩
      exact ⟨a, s, ha, mem_product.mp hs, rfl⟩
    · rintro ⟨a, s, ha, hs, rfl⟩
      exact ⟨a, ha, s, mem_product.mpr hs, rfl⟩

theorem mem_box {box : List (Int × Int)} {t : List Int} : t ∈ product (box.map fun b => range b.1 b.2) ↔ InBox box t := by
  rw [mem_product, List.forall₂_map_left_iff]
  simp only [mem_range]

theorem tupleLe_refl : ∀ t : List Int, tupleLe t t = true
  | [] => rfl
  | a :: t => by simp [tupleLe, tupleLe_refl t]

theorem tupleLe_trans : ∀ {r s t : List Int}, r.length = s.length → s.length = t.length → tupleLe r s = true → tupleLe s t = true → tupleLe r t = true
  | [], [], _, _, _, _, _ => by simp [tupleLe]
  | a :: r, b :: s, c :: t, h1, h2, h3, h4 => by
    simp only [tupleLe, Bool.and_eq_true, decide_eq_true_eq] at h3 h4 ⊢
    exact ⟨h3.1.trans h4.1, tupleLe_trans (by simpa using h1) (by simpa using h2) h3.2 h4.2⟩

theorem tupleLe_antisymm : ∀ {s t : List Int}, s.length = t.length → tupleLe s t = true → tupleLe t s = true → s = t
  | [], [], _, _, _ => rfl
  | a :: s, b :: t, h, h1, h2 => by
    simp only [tupleLe, Bool.and_eq_true, decide_eq_true_eq] at h1 h2
    rw [le_antisymm h1.1 h2.1, tupleLe_antisymm (by simpa using h) h1.2 h2.2]

theorem translate_twice : ∀ {ps : List Parameter} {t : List Int}, ps.length = t.length → translate ps (translate ps t) = t
  | [], [], _ => rfl
  | p :: ps, a :: t, h => by
    simp only [translate]
    rw [translate_twice (by simpa using h)]
    split <;> simp

theorem translate_length : ∀ {ps : List Parameter} {t : List Int}, ps.length = t.length → (translate ps t).length = t.length
  | [], [], _ => rfl
  | p :: ps, a :: t, h => by simp only [translate, List.length_cons]; rw [translate_length (by simpa using h)]

theorem inRange_translate : ∀ {ps : List Parameter} {t : List Int}, ps.length = t.length → (InRange ps (translate ps t) ↔ InBox (ps.map normalized) t)
  | [], [], _ => by simp [InRange, translate]
  | p :: ps, a :: t, h => by
    have ih := inRange_translate (ps := ps) (t := t) (by simpa using h)
    rw [InRange] at ih ⊢
    simp only [translate, List.map_cons, InBox, List.forall₂_cons]
    rw [ih]
    refine and_congr ?_ Iff.rfl
    rw [normalized]
    split <;> dsimp only <;> omega

theorem easier_translate : ∀ {ps : List Parameter} {s t : List Int}, ps.length = s.length → ps.length = t.length →
    (Easier ps (translate ps s) (translate ps t) ↔ tupleLe s t = true)
  | [], [], [], _, _ => by simp [Easier, tupleLe]
  | p :: ps, a :: s, b :: t, h1, h2 => by
    have ih := easier_translate (ps := ps) (s := s) (t := t) (by simpa using h1) (by simpa using h2)
    simp only [translate, Easier, tupleLe, Bool.and_eq_true, decide_eq_true_eq]
    rw [ih]
    refine and_congr ?_ Iff.rfl
    split <;> omega

theorem covers_iff {P : Points} {t : List Int} :
    P.covers t = true ↔ (∃ c ∈ P.negative, tupleLe t c = true) ∨ ∃ c ∈ P.positive, tupleLe c t = true := by
  simp [Points.covers]

theorem distNeg_pos {box : List (Int × Int)} {P : Points} {t : List Int} (ht : InBox box t) (hc : P.covers t = false) : 0 < distNeg box P t := by
  rw [distNeg]
  refine List.length_pos_of_mem (a := t) (List.mem_filter.mpr ⟨mem_product.mpr ?_, ?_⟩)
  · clear hc
    rw [List.forall₂_map_left_iff]
    induction ht with
    | nil => exact .nil
    | cons h _ ih => exact .cons (mem_range.mpr ⟨le_refl _, h.2⟩) ih
  · rw [Points.covers, Bool.or_eq_false_iff] at hc
    rw [hc.2]; rfl

theorem choose_some {box : List (Int × Int)} {P : Points} : ∀ {ts : List (List Int)} {best : Option (List Int × Nat)} {t : List Int} {v : Nat},
    choose box P ts best = some (t, v) → (t ∈ ts ∧ P.covers t = false) ∨ best = some (t, v)
  | [], best, t, v, h => .inr h
  | a :: ts, best, t, v, h => by
    have lift : ∀ {best'}, choose box P ts best' = some (t, v) → (best' = best ∨ best' = some (a, min (distNeg box P a) (distPos box P a)) ∧ P.covers a = false) →
        (t ∈ a :: ts ∧ P.covers t = false) ∨ best = some (t, v) := by
      intro best' h1 h2
      rcases choose_some h1 with h3 | h3
      · exact .inl ⟨List.mem_cons_of_mem _ h3.1, h3.2⟩
      · rcases h2 with rfl | ⟨rfl, h4⟩
        · exact .inr h3
        · cases h3; exact .inl ⟨List.mem_cons_self, h4⟩
    rw [choose] at h
    by_cases hc : P.covers a = true
    · rw [if_pos hc] at h
      exact lift h (.inl rfl)
    · rw [if_neg hc] at h
      have hc' : P.covers a = false := by simpa using hc
      dsimp only at h
      split at h
      · cases best with
        | none => exact lift h (.inr ⟨rfl, hc'⟩)
        | some x =>
          dsimp only at h
          split at h
          · exact lift h (.inr ⟨rfl, hc'⟩)
          · exact lift h (.inl rfl)
      · exact lift h (.inl rfl)

theorem choose_none {box : List (Int × Int)} {P : Points} : ∀ {ts : List (List Int)} {best : Option (List Int × Nat)},
    (∀ t ∈ ts, InBox box t) → choose box P ts best = none → best = none ∧ ∀ t ∈ ts, P.covers t = true
  | [], best, _, h => ⟨h, by simp⟩
  | a :: ts, best, hb, h => by
    have hb' : ∀ t ∈ ts, InBox box t := fun t ht => hb t (List.mem_cons_of_mem _ ht)
    rw [choose] at h
    by_cases hc : P.covers a = true
    · rw [if_pos hc] at h
      obtain ⟨h1, h2⟩ := choose_none hb' h
      exact ⟨h1, by simp [hc]; exact h2⟩
    · rw [if_neg hc] at h
      have hp := distNeg_pos (P := P) (hb a List.mem_cons_self) (by simpa using hc)
      dsimp only at h
      rw [if_pos (.inr hp)] at h
      exfalso
      cases best with
      | none => cases (choose_none hb' h).1
      | some x =>
        dsimp only at h
        have := (choose_none hb' h).1
        split at this <;> cases this

/-- What is known while the search runs. -/
structure SearchInv (ps : List Parameter) (ask : List Int → Option Bool) (P : Points) : Prop where
  negBox : ∀ t ∈ P.negative, InBox (ps.map normalized) t
  posBox : ∀ t ∈ P.positive, InBox (ps.map normalized) t
  neg : ∀ t ∈ P.negative, ask (translate ps t) = some false
  pos : ∀ t ∈ P.positive, ask (translate ps t) = some true
  anti : P.positive.Pairwise fun s t => tupleLe s t = false ∧ tupleLe t s = false

theorem InBox.length {ps : List Parameter} {t : List Int} (h : InBox (ps.map normalized) t) : ps.length = t.length := by
  have := h.length_eq
  simpa using this

theorem SearchInv.realizable {ps : List Parameter} {ask : List Int → Option Bool} {P : Points} (h : SearchInv ps ask P) {t : List Int}
    (ht : InBox (ps.map normalized) t) (hc : P.covers t = false) (ha : ask (translate ps t) = some true) :
    SearchInv ps ask { P with positive := P.positive.filter (fun a => !tupleLe t a) ++ [t] } := by
  have hmem : ∀ s ∈ P.positive.filter (fun a => !tupleLe t a) ++ [t], s ∈ P.positive ∨ s = t := by
    intro s hs
    rcases List.mem_append.mp hs with hs | hs
    · exact .inl (List.mem_filter.mp hs).1
    · exact .inr (by simpa using hs)
  refine ⟨h.negBox, ?_, h.neg, ?_, ?_⟩
  · intro s hs
    rcases hmem s hs with hs | rfl
    · exact h.posBox s hs
    · exact ht
  · intro s hs
    rcases hmem s hs with hs | rfl
    · exact h.pos s hs
    · exact ha
  · rw [List.pairwise_append]
    refine ⟨h.anti.filter _, by simp, ?_⟩
    intro s hs u hu
    rw [List.mem_singleton] at hu
    subst hu
    obtain ⟨h1, h2⟩ := List.mem_filter.mp hs
    refine ⟨?_, by simpa using h2⟩
    by_contra h3
    have := covers_iff.mpr (.inr ⟨s, h1, by simpa using h3⟩)
    rw [hc] at this
    cases this

theorem SearchInv.unrealizable {ps : List Parameter} {ask : List Int → Option Bool} {P : Points} (h : SearchInv ps ask P) {t : List Int}
    (ht : InBox (ps.map normalized) t) (ha : ask (translate ps t) = some false) :
    SearchInv ps ask { P with negative := P.negative.filter (fun a => !tupleLe a t) ++ [t] } := by
  have hmem : ∀ s ∈ P.negative.filter (fun a => !tupleLe a t) ++ [t], s ∈ P.negative ∨ s = t := by
    intro s hs
    rcases List.mem_append.mp hs with hs | hs
    · exact .inl (List.mem_filter.mp hs).1
    · exact .inr (by simpa using hs)
  refine ⟨?_, h.posBox, ?_, h.pos, h.anti⟩
  · intro s hs
    rcases hmem s hs with hs | rfl
    · exact h.negBox s hs
    · exact ht
  · intro s hs
    rcases hmem s hs with hs | rfl
    · exact h.neg s hs
    · exact ha

theorem pairwise_mem {α : Type} {R : α → α → Prop} (hs : ∀ a b, R a b → R b a) : ∀ {l : List α}, l.Pairwise R → ∀ {a b}, a ∈ l → b ∈ l → a = b ∨ R a b
  | [], _, _, _, h, _ => absurd h (by simp)
  | x :: l, hp, a, b, ha, hb => by
    rw [List.pairwise_cons] at hp
    rcases List.mem_cons.mp ha with h1 | h1 <;> rcases List.mem_cons.mp hb with h2 | h2
    · exact .inl (h1.trans h2.symm)
    · exact .inr (h1 ▸ hp.1 b h2)
    · exact .inr (h2 ▸ hs _ _ (hp.1 a h1))
    · exact pairwise_mem hs hp.2 h1 h2

/-- The front, when everything is covered. -/
theorem SearchInv.front {ps : List Parameter} {ask : List Int → Option Bool} {P : Points} (h : SearchInv ps ask P)
    (hall : ∀ t, InBox (ps.map normalized) t → P.covers t = true) (hm : Promised ps fun t => ask t = some true) :
    (P.positive.map (translate ps)).Nodup ∧ ∀ t, t ∈ P.positive.map (translate ps) ↔ ParetoPoint ps (fun t => ask t = some true) t := by
  have below : ∀ t, InBox (ps.map normalized) t → ask (translate ps t) = some true → ∃ c ∈ P.positive, tupleLe c t = true := by
    intro t ht ha
    rcases covers_iff.mp (hall t ht) with ⟨c, hc, hle⟩ | hp
    · have hcb := h.negBox c hc
      have : ask (translate ps c) = some true := hm _ _ ((inRange_translate ht.length).mpr ht) ((inRange_translate hcb.length).mpr hcb)
        ((easier_translate ht.length hcb.length).mpr hle) ha
      rw [h.neg c hc] at this
      cases this
    · exact hp
  have inj : ∀ s ∈ P.positive, ∀ t ∈ P.positive, translate ps s = translate ps t → s = t := by
    intro s hs t ht e
    rw [← translate_twice (h.posBox s hs).length, e, translate_twice (h.posBox t ht).length]
  constructor
  · rw [List.Nodup, List.pairwise_map]
    refine h.anti.imp_of_mem ?_
    intro s t hs ht h1 h2
    rw [inj s hs t ht h2, tupleLe_refl] at h1
    cases h1.1
  · intro u
    constructor
    · intro hu
      obtain ⟨t, ht, rfl⟩ := List.mem_map.mp hu
      have hb := h.posBox t ht
      refine ⟨(inRange_translate hb.length).mpr hb, h.pos t ht, ?_⟩
      intro s hs hreal he
      have hlen : ps.length = s.length := hs.length_eq
      have hs' : ps.length = (translate ps s).length := by rw [translate_length hlen]; exact hlen
      have hsb : InBox (ps.map normalized) (translate ps s) := by
        rw [← inRange_translate hs', translate_twice hlen]; exact hs
      have hle : tupleLe (translate ps s) t = true := by
        rw [← easier_translate hs' hb.length, translate_twice hlen]; exact he
      obtain ⟨c, hc, hcle⟩ := below _ hsb (by rw [translate_twice hlen]; exact hreal)
      have hcb := h.posBox c hc
      have hct : tupleLe c t = true := tupleLe_trans (hcb.length.symm.trans hs') (hs'.symm.trans hb.length) hcle hle
      have hceq : c = t := by
        by_contra hne
        rcases pairwise_mem (fun _ _ h => h.symm) h.anti hc ht with h1 | h1
        · exact hne h1
        · rw [h1.1] at hct; cases hct
      subst hceq
      rw [← translate_twice hlen, tupleLe_antisymm (hs'.symm.trans hb.length) hle hcle]
    · rintro ⟨hr, hreal, hmin⟩
      have hlen : ps.length = u.length := hr.length_eq
      have hu' : ps.length = (translate ps u).length := by rw [translate_length hlen]; exact hlen
      have hub : InBox (ps.map normalized) (translate ps u) := by
        rw [← inRange_translate hu', translate_twice hlen]; exact hr
      obtain ⟨c, hc, hcle⟩ := below _ hub (by rw [translate_twice hlen]; exact hreal)
      have hcb := h.posBox c hc
      have := hmin (translate ps c) ((inRange_translate hcb.length).mpr hcb) (h.pos c hc) (by
        have := (easier_translate hcb.length hu').mpr hcle
        rwa [translate_twice hlen] at this)
      rw [← this]
      exact List.mem_map_of_mem hc

/-- The number of tuples that are not covered. -/
def uncovered (ps : List Parameter) (P : Points) : Nat :=
  ((product ((ps.map normalized).map fun b => range b.1 b.2)).filter fun t => !P.covers t).length

theorem length_filter_lt {α : Type} {p q : α → Bool} : ∀ {l : List α} {a : α}, (∀ x ∈ l, p x = true → q x = true) → a ∈ l → q a = true → p a = false →
    (l.filter p).length < (l.filter q).length
  | [], a, _, h, _, _ => absurd h (by simp)
  | x :: l, a, hpq, ha, hqa, hpa => by
    have hle : (l.filter p).length ≤ (l.filter q).length := by
      rw [← List.countP_eq_length_filter, ← List.countP_eq_length_filter]
      exact List.countP_mono_left fun y hy => hpq y (List.mem_cons_of_mem _ hy)
    rcases List.mem_cons.mp ha with rfl | ha
    · rw [List.filter_cons_of_neg (by simp [hpa]), List.filter_cons_of_pos hqa, List.length_cons]
      omega
    · have ih := length_filter_lt (fun y hy => hpq y (List.mem_cons_of_mem _ hy)) ha hqa hpa
      have hx := hpq x List.mem_cons_self
      cases hp : p x with
      | true => rw [List.filter_cons_of_pos hp, List.filter_cons_of_pos (hx hp)]; simpa using ih
      | false =>
        rw [List.filter_cons_of_neg (by simp [hp])]
        cases hq : q x with
        | true => rw [List.filter_cons_of_pos hq, List.length_cons]; omega
        | false => rw [List.filter_cons_of_neg (by simp [hq])]; exact ih

theorem search_ends {ps : List Parameter} {ask : List Int → Option Bool} (hask : ∀ t, InRange ps t → ask t ≠ none)
    (hm : Promised ps fun t => ask t = some true) : ∀ (n : Nat) (P : Points), SearchInv ps ask P → uncovered ps P < n →
    ∃ F, searchLoop ps ask n P = .front F ∧ F.Nodup ∧ ∀ t, t ∈ F ↔ ParetoPoint ps (fun t => ask t = some true) t
  | 0, _, _, h => absurd h (Nat.not_lt_zero _)
  | n + 1, P, hP, hn => by
    rw [searchLoop]
    cases e : choose (ps.map normalized) P (product ((ps.map normalized).map fun b => range b.1 b.2)) none with
    | none =>
      have := (choose_none (fun t ht => mem_box.mp ht) e).2
      exact ⟨_, rfl, hP.front (fun t ht => this t (mem_box.mpr ht)) hm⟩
    | some x =>
      obtain ⟨t, v⟩ := x
      obtain ⟨ht, hc⟩ := (choose_some e).resolve_right (by simp)
      have htb := mem_box.mp ht
      have step : ∀ P' : Points, (∀ s, InBox (ps.map normalized) s → P.covers s = true → P'.covers s = true) → P'.covers t = true →
          uncovered ps P' < n := by
        intro P' h1 h2
        refine Nat.lt_of_lt_of_le (length_filter_lt (fun s hs h3 => ?_) ht (by simp [hc]) (by simp [h2])) (Nat.lt_succ_iff.mp hn)
        by_contra h4
        have := h1 s (mem_box.mp hs) (by simpa using h4)
        rw [this] at h3
        cases h3
      dsimp only
      cases e2 : ask (translate ps t) with
      | none => exact absurd e2 (hask _ ((inRange_translate htb.length).mpr htb))
      | some b =>
        cases b with
        | true =>
          refine search_ends hask hm n _ (hP.realizable htb hc e2) (step _ ?_ (covers_iff.mpr (.inr ⟨t, by simp, tupleLe_refl t⟩)))
          intro s hs hcov
          rcases covers_iff.mp hcov with h1 | ⟨c, h1, h2⟩
          · exact covers_iff.mpr (.inl h1)
          · refine covers_iff.mpr (.inr ?_)
            by_cases h3 : tupleLe t c = true
            · exact ⟨t, by simp, tupleLe_trans (htb.length.symm.trans (hP.posBox c h1).length) ((hP.posBox c h1).length.symm.trans hs.length) h3 h2⟩
            · exact ⟨c, by simp [h1, h3], h2⟩
        | false =>
          refine search_ends hask hm n _ (hP.unrealizable htb e2) (step _ ?_ (covers_iff.mpr (.inl ⟨t, by simp, tupleLe_refl t⟩)))
          intro s hs hcov
          rcases covers_iff.mp hcov with ⟨c, h1, h2⟩ | h1
          · refine covers_iff.mpr (.inl ?_)
            by_cases h3 : tupleLe c t = true
            · exact ⟨t, by simp, tupleLe_trans (hs.length.symm.trans (hP.negBox c h1).length) ((hP.negBox c h1).length.symm.trans htb.length) h2 h3⟩
            · exact ⟨c, by simp [h1, h3], h2⟩
          · exact covers_iff.mpr (.inr h1)

theorem searchLoop_more {ps : List Parameter} {ask : List Int → Option Bool} : ∀ (n : Nat) {k : Nat} {P : Points} {F : List (List Int)},
    searchLoop ps ask n P = .front F → searchLoop ps ask (n + k) P = .front F
  | 0, _, _, _, h => by cases h
  | n + 1, k, P, F, h => by
    rw [Nat.succ_add]
    rw [searchLoop] at h ⊢
    cases e : choose (ps.map normalized) P (product ((ps.map normalized).map fun b => range b.1 b.2)) none with
    | none => rw [e] at h; exact h
    | some x =>
      rw [e] at h
      dsimp only at h ⊢
      cases e2 : ask (translate ps x.1) with
      | none => rw [e2] at h; exact searchLoop_more n h
      | some b =>
        rw [e2] at h
        cases b <;> exact searchLoop_more n h

/-- C64: if realizability is monotone resp. antitone in every parameter as promised and the script always has a result, then the search ends, and the list
that is printed has exactly the points of the Pareto front, each once. -/
theorem C64_pareto_front {ps : List Parameter} (hps : ∀ p ∈ ps, 0 ≤ p.least ∧ 0 ≤ p.greatest) {ask : List Int → Option Bool}
    (hask : ∀ t, InRange ps t → ask t ≠ none) (hm : Promised ps fun t => ask t = some true) :
    ∃ N F, (∀ n, N ≤ n → runSearch ps ask n = some (.front F)) ∧ F.Nodup ∧ ∀ t, t ∈ F ↔ ParetoPoint ps (fun t => ask t = some true) t := by
  have start : SearchInv ps ask ⟨[], []⟩ := ⟨by simp, by simp, by simp, by simp, .nil⟩
  have hall : (ps.all fun p => decide (p.least ≥ 0 ∧ p.greatest ≥ 0)) = true := by
    rw [List.all_eq_true]
    intro p hp
    simpa using hps p hp
  obtain ⟨F, h1, h2, h3⟩ := search_ends hask hm (uncovered ps ⟨[], []⟩ + 1) _ start (Nat.lt_succ_self _)
  refine ⟨uncovered ps ⟨[], []⟩ + 1, F, fun n hn => ?_, h2, h3⟩
  obtain ⟨k, rfl⟩ := Nat.exists_eq_add_of_le hn
  rw [runSearch, if_pos hall, searchLoop_more _ h1]

/-- C64: if the script never has a result, then the search with several parameters never ends, unless there is nothing to try. -/
theorem C64_errors_loop {ps : List Parameter} (hps : ∀ p ∈ ps, 0 ≤ p.least ∧ p.least ≤ p.greatest) {ask : List Int → Option Bool}
    (hask : ∀ t, ask t = none) (n : Nat) : runSearch ps ask n = some .running := by
  have hall : (ps.all fun p => decide (p.least ≥ 0 ∧ p.greatest ≥ 0)) = true := by
    rw [List.all_eq_true]
    intro p hp
    have := hps p hp
    simp only [decide_eq_true_eq]
    omega
  rw [runSearch, if_pos hall]
  congr 1
  induction n with
  | zero => rfl
  | succ n ih =>
    rw [searchLoop]
    cases e : choose (ps.map normalized) ⟨[], []⟩ (product ((ps.map normalized).map fun b => range b.1 b.2)) none with
    | none =>
      have hc := (choose_none (fun t ht => mem_box.mp ht) e).2
      have hmem : InBox (ps.map normalized) ((ps.map normalized).map Prod.fst) := by
        rw [InBox, List.forall₂_map_right_iff, List.forall₂_same]
        intro b hb
        obtain ⟨p, hp, rfl⟩ := List.mem_map.mp hb
        have := hps p hp
        rw [normalized]
        split <;> dsimp only <;> omega
      have := hc _ (mem_box.mpr hmem)
      simp [Points.covers] at this
    | some x => simp only [hask, ih]

/-! ### Examples -/

/-- The squares that are at least 50. -/
example : (binarySearch true (fun v => some (decide (v * v ≥ 50))) 0 20).ended = .value 8 :=
  ((C64_minimum (by decide) (by simp) (by
    intro v w h1 h2 _ h3
    simp only [Option.some.injEq, decide_eq_true_eq] at h3 ⊢
    nlinarith)).1 8).mpr (by
      refine ⟨by decide, fun w h1 _ h3 => ?_⟩
      simp only [Option.some.injEq, decide_eq_true_eq] at h3
      nlinarith)

example : (binarySearch false (fun v => some (decide (v * v ≤ 50))) 0 20).ended = .value 7 :=
  ((C64_maximum (by decide) (by simp) (by
    intro v w h1 h2 _ h3
    simp only [Option.some.injEq, decide_eq_true_eq] at h3 ⊢
    nlinarith)).1 7).mpr (by
      refine ⟨by decide, fun w h1 _ h3 => ?_⟩
      simp only [Option.some.injEq, decide_eq_true_eq] at h3
      nlinarith)

/-- More buffer space or less load. -/
def buffers : List Parameter := [⟨0, 3, true⟩, ⟨1, 3, false⟩]

theorem buffers_promised : Promised buffers fun t => (some (decide (t.headD 0 ≥ (t.getD 1 0)))) = some true := by
  intro s t hs ht he hr
  match s, t, hs, ht with
  | [a, b], [c, d], _, _ =>
    simp only [buffers, Easier, List.headD_cons, List.getD_cons_succ, List.getD_cons_zero, Option.some.injEq, decide_eq_true_eq, if_true] at he hr ⊢
    simp at he
    omega

example : ∃ N F, (∀ n, N ≤ n → runSearch buffers (fun t => some (decide (t.headD 0 ≥ t.getD 1 0))) n = some (.front F)) ∧ F.Nodup ∧
    ∀ t, t ∈ F ↔ ParetoPoint buffers (fun t => some (decide (t.headD 0 ≥ t.getD 1 0)) = some true) t :=
  C64_pareto_front (by decide) (by simp) buffers_promised

example : runSearch buffers (fun t => some (decide (t.headD 0 ≥ t.getD 1 0))) 13 = some (.front [[2, 2], [3, 3], [1, 1]]) := by decide +kernel

/-- A script that writes one verdict between other lines. -/
example : checkRealizability ⟨[txt!"SLUGS: ...", txt!"RESULT: Specification is realizable.\n"], 0⟩ = some true :=
  (C64_script_verdict _ true).mpr ⟨rfl, [txt!"SLUGS: ..."], [], _, rfl, by decide, by decide⟩

end Slugs.Props
