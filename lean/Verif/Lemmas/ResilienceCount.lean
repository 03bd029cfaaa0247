import Verif.Lemmas.ResilienceLines

/-!
The constraints for the counter of violations in the files of `writeMixedRobustSpecification`.
-/

namespace Slugs.Model.Resilience

open Slugs.Spec Slugs.Model.Core

variable {U : Word → Prop}

/-- What is said by the line is wrong. -/
noncomputable def bad (ρ : Word → Bool) (l : List Char) : Bool := decide ((rdLine l).eval ρ [] ≠ some true)

theorem bad_eq_false {ρ : Word → Bool} {l : List Char} : bad ρ l = false ↔ mean ρ l := by simp [bad, mean, Yes]

theorem bad_eq_true {ρ : Word → Bool} {l : List Char} : bad ρ l = true ↔ ¬ mean ρ l := by simp [bad, mean, Yes]

/-- The variables have the value of the counter. -/
def Shows (b : Nat) (ρ : Word → Bool) (c : Nat) : Prop := ∀ j, j < b → ρ (counterName j) = c.testBit j

def ShowsNext (b : Nat) (ρ : Word → Bool) (c : Nat) : Prop := ∀ j, j < b → ρ (prime (counterName j)) = c.testBit j

theorem ok_limitLine {b : Nat} (hu : ∀ j, j < b → U (counterName j)) (value : Int) {combination : List (List Char)} (hm : ∀ a ∈ combination, Ok U a) :
    Ok U (limitLine b value combination) ∧ ∀ ρ c, c < 2 ^ b → Shows b ρ c →
      (mean ρ (limitLine b value combination) ↔ (c : Int) ≠ value % 2 ^ b ∨ ∃ a ∈ combination, bad ρ a = false) := by
  obtain ⟨h1, h2⟩ := ok_selector b value hu
  obtain ⟨h3, h4⟩ := ok_not h1
  obtain ⟨h5, h6⟩ := ok_ors_last (ok_false (U := U)).1 hm
  obtain ⟨h7, h8⟩ := ok_or h3 h5
  have e : limitLine b value combination = txt!"| " ++ (txt!"! " ++ selector b value) ++ txt!" " ++ (ops combination.length '|' ++ joinWords (combination ++ [txt!"0"])) := by
    simp [limitLine]
  rw [e]
  refine ⟨h7, fun ρ c hc hs => ?_⟩
  rw [h8, h4, h2 ρ c hc hs, h6]
  have := (ok_false (U := U)).2 ρ
  simp only [this, or_false, bad_eq_false]

theorem ok_limits {b k : Nat} (hk : k < 2 ^ b) (hu : ∀ j, j < b → U (counterName j)) {masked : List (List Char)} (hm : ∀ a ∈ masked, Ok U a) :
    (∀ l ∈ limitLines b k masked, Ok U l) ∧
    ∀ ρ c, c ≤ k → Shows b ρ c → ((∀ l ∈ limitLines b k masked, mean ρ l) ↔ c + masked.countP (bad ρ) ≤ k) := by
  have sub : ∀ {r s}, s ∈ combinations r masked → ∀ a ∈ s, Ok U a := fun hs a ha => hm a ((mem_combinations.mp hs).1.subset ha)
  have mem : ∀ l, l ∈ limitLines b k masked ↔ ∃ j, j < masked.length ∧ ∃ s ∈ combinations (masked.length - j) masked,
      limitLine b ((k : Int) - masked.length + 1 + j) s = l := by
    intro l
    simp only [limitLines, List.mem_flatMap, List.mem_range, List.mem_map]
  refine ⟨fun l hl => ?_, fun ρ c hc hs => ?_⟩
  · obtain ⟨j, hj, s, hs, rfl⟩ := (mem l).mp hl
    exact (ok_limitLine hu _ (sub hs)).1
  · have e : (∀ l ∈ limitLines b k masked, mean ρ l) ↔
        ∀ j, j < masked.length → (c : Int) ≠ ((k : Int) - masked.length + 1 + j) % 2 ^ b ∨ masked.countP (bad ρ) < masked.length - j := by
      constructor
      · intro h j hj
        by_cases hv : (c : Int) = ((k : Int) - masked.length + 1 + j) % 2 ^ b
        · refine .inr ((all_combinations _ _ _).mp fun s hs' => ?_)
          exact (((ok_limitLine hu _ (sub hs')).2 ρ c (by omega) hs).mp (h _ ((mem _).mpr ⟨j, hj, s, hs', rfl⟩))).resolve_left fun hn => hn hv
        · exact .inl hv
      · intro h l hl
        obtain ⟨j, hj, s, hs', rfl⟩ := (mem l).mp hl
        refine ((ok_limitLine hu _ (sub hs')).2 ρ c (by omega) hs).mpr ((h j hj).imp_right fun hlt => ?_)
        exact (all_combinations _ _ _).mpr hlt s hs'
    rw [e]
    have hle : masked.countP (bad ρ) ≤ masked.length := List.countP_le_length
    constructor
    · intro h
      by_cases hcm : c + masked.length ≤ k
      · omega
      · have hj : c + masked.length - (k + 1) < masked.length := by omega
        have := (h _ hj).resolve_left fun hn => hn (by
          have : ((k : Int) - masked.length + 1 + (c + masked.length - (k + 1) : Nat)) = c := by omega
          rw [this]
          exact (Int.emod_eq_of_lt (by omega) (by exact_mod_cast (by omega : c < 2 ^ b))).symm)
        omega
    · intro h j hj
      by_cases hv : (c : Int) = ((k : Int) - masked.length + 1 + j) % 2 ^ b
      · right
        by_cases hn : ((k : Int) - masked.length + 1 + j) < 0
        · omega
        · rw [Int.emod_eq_of_lt (by omega) (by
            have : (k : Int) < 2 ^ b := by exact_mod_cast hk
            omega)] at hv
          omega
      · exact .inl hv

/-- The line, without the blank at the end. -/
def countLine' (b fromValue toValue : Nat) (selected : List (List Char)) : List Char :=
  txt!"| " ++ (txt!"| " ++ (txt!"! " ++ selector b fromValue) ++ txt!" " ++ smaller toValue b) ++ txt!" " ++
    (ops selected.length '|' ++ joinWords (txt!"0" :: selected.map (txt!"! " ++ ·)))

theorem countLine_eq (b fromValue toValue : Nat) (selected : List (List Char)) :
    countLine b fromValue toValue selected = countLine' b fromValue toValue selected ++ (if selected = [] then txt!" " else []) := by
  rw [countLine, countLine']
  cases selected <;> simp [joinWords]

theorem trim_blank (l : List Char) : trim (l ++ txt!" ") = trim l := by
  rw [trim, trim, List.dropWhile_append]
  split
  · rename_i h
    rw [List.isEmpty_iff] at h
    rw [h]
    rfl
  · rw [List.reverse_append]
    simp only [List.reverse_cons, List.reverse_nil, List.nil_append, List.singleton_append]
    rw [List.dropWhile_cons_of_pos (by decide)]

theorem ok_countLine {b : Nat} (hu : ∀ j, j < b → U (counterName j)) (hu' : ∀ j, j < b → U (prime (counterName j))) {fromValue toValue : Nat} (hf : fromValue < 2 ^ b)
    (ht : toValue < 2 ^ b) {selected : List (List Char)} (hm : ∀ a ∈ selected, Ok U a) :
    Ok U (countLine' b fromValue toValue selected) ∧ trim (countLine b fromValue toValue selected) = countLine' b fromValue toValue selected ∧
    ∀ ρ c d, c < 2 ^ b → d < 2 ^ b → Shows b ρ c → ShowsNext b ρ d →
      (mean ρ (countLine' b fromValue toValue selected) ↔ c ≠ fromValue ∨ d ≤ toValue ∨ ∃ a ∈ selected, bad ρ a = true) := by
  obtain ⟨h1, h2⟩ := ok_selector b fromValue hu
  obtain ⟨h3, h4⟩ := ok_not h1
  obtain ⟨h5, h6⟩ := ok_smaller toValue b hu'
  obtain ⟨h7, h8⟩ := ok_or h3 h5
  obtain ⟨h9, h10⟩ := ok_ors (U := U) (as := selected.map (txt!"! " ++ ·)) (ok_false (U := U)).1 (by
    intro x hx
    obtain ⟨a, ha, rfl⟩ := List.mem_map.mp hx
    exact (ok_not (hm a ha)).1)
  rw [List.length_map] at h9 h10
  obtain ⟨h11, h12⟩ := ok_or h7 h9
  refine ⟨h11, ?_, fun ρ c d hc hd hs hn => (h12 ρ).trans ?_⟩
  · rw [countLine_eq]
    split
    · exact (trim_blank _).trans h11.line.tight
    · rw [List.append_nil]
      exact h11.line.tight
  · rw [h8, h4, h2 ρ c hc hs, h6 ρ d hn, h10, Nat.mod_eq_of_lt hd, Nat.mod_eq_of_lt ht]
    have e : (c : Int) = (fromValue : Int) % 2 ^ b ↔ c = fromValue := by
      rw [Int.emod_eq_of_lt (by omega) (by exact_mod_cast hf)]
      omega
    rw [e]
    have := (ok_false (U := U)).2 ρ
    simp only [this, false_or, or_assoc, List.mem_map]
    refine or_congr Iff.rfl (or_congr Iff.rfl ?_)
    constructor
    · rintro ⟨_, ⟨a, ha, rfl⟩, h⟩
      exact ⟨a, ha, bad_eq_true.mpr (((ok_not (hm a ha)).2 ρ).mp h)⟩
    · rintro ⟨a, ha, h⟩
      exact ⟨_, ⟨a, ha, rfl⟩, ((ok_not (hm a ha)).2 ρ).mpr (bad_eq_true.mp h)⟩

theorem ok_counts {b k : Nat} (hk : k < 2 ^ b) (hu : ∀ j, j < b → U (counterName j)) (hu' : ∀ j, j < b → U (prime (counterName j))) {masked : List (List Char)}
    (hm : ∀ a ∈ masked, Ok U a) :
    (∀ l ∈ countLines b k masked, Ok U (trim l) ∧ (trim l).length ≤ l.length ∧ '\n' ∉ l) ∧
    ∀ ρ c d, d < 2 ^ b → Shows b ρ c → ShowsNext b ρ d → c + masked.countP (bad ρ) ≤ k →
      ((∀ l ∈ countLines b k masked, mean ρ (trim l)) ↔ d ≤ c + masked.countP (bad ρ)) := by
  have sub : ∀ {r s}, s ∈ combinations r masked → ∀ a ∈ s, Ok U a := fun hs a ha => hm a ((mem_combinations.mp hs).1.subset ha)
  have mem : ∀ l, l ∈ countLines b k masked ↔ ∃ f, f ≤ k ∧ ∃ t, f ≤ t ∧ t ≤ k ∧ t ≤ f + masked.length ∧ ∃ s ∈ combinations (masked.length + f - t) masked,
      countLine b f t s = l := by
    intro l
    simp only [countLines, List.mem_flatMap, List.mem_range, List.mem_map, List.mem_filter, decide_eq_true_eq]
    constructor
    · rintro ⟨f, hf, t, ⟨ht, hft⟩, h⟩
      exact ⟨f, by omega, t, hft, by omega, by omega, h⟩
    · rintro ⟨f, hf, t, hft, h1, h2, h⟩
      exact ⟨f, by omega, t, ⟨by omega, hft⟩, h⟩
  refine ⟨fun l hl => ?_, fun ρ c d hd hs hn hck => ?_⟩
  · obtain ⟨f, hf, t, hft, h1, h2, s, hs, rfl⟩ := (mem l).mp hl
    obtain ⟨h3, h4, -⟩ := ok_countLine hu hu' (show f < 2 ^ b by omega) (show t < 2 ^ b by omega) (sub hs)
    rw [h4]
    refine ⟨h3, by rw [countLine_eq]; simp, ?_⟩
    rw [countLine_eq, List.mem_append, not_or]
    refine ⟨h3.line.clean, ?_⟩
    split <;> decide
  · have hle : masked.countP (bad ρ) ≤ masked.length := List.countP_le_length
    have hsum : masked.countP (bad ρ) + masked.countP (fun a => !bad ρ a) = masked.length := by
      rw [List.length_eq_countP_add_countP (bad ρ)]
      congr 1
      refine List.countP_congr fun a _ => ?_
      simp
    constructor
    · intro h
      by_contra hgt
      push Not at hgt
      -- all selections of assumptions that are not violated
      have hall : ∀ s ∈ combinations (masked.length + c - (c + masked.countP (bad ρ))) masked, ∃ a ∈ s, (!bad ρ a) = false := by
        intro s hs'
        have h0 := ok_countLine hu hu' (show c < 2 ^ b by omega) (show c + masked.countP (bad ρ) < 2 ^ b by omega) (sub hs')
        have h1 := h _ ((mem _).mpr ⟨c, by omega, c + masked.countP (bad ρ), by omega, hck, by omega, s, hs', rfl⟩)
        rw [h0.2.1, h0.2.2 ρ c d (by omega) hd hs hn] at h1
        rcases h1 with h1 | h1 | ⟨a, ha, h1⟩
        · exact absurd rfl h1
        · omega
        · exact ⟨a, ha, by simp [h1]⟩
      have := (all_combinations _ _ _).mp hall
      omega
    · intro h l hl
      obtain ⟨f, hf, t, hft, h1, h2, s, hs', rfl⟩ := (mem l).mp hl
      have h0 := ok_countLine hu hu' (show f < 2 ^ b by omega) (show t < 2 ^ b by omega) (sub hs')
      rw [h0.2.1, h0.2.2 ρ c d (by omega) hd hs hn]
      by_cases hcf : c = f
      · subst hcf
        by_cases hdt : d ≤ t
        · exact .inr (.inl hdt)
        · refine .inr (.inr ?_)
          have : masked.countP (fun a => !bad ρ a) < masked.length + c - t := by omega
          obtain ⟨a, ha, hb⟩ := (all_combinations _ _ _).mpr this s hs'
          exact ⟨a, ha, by simpa using hb⟩
      · exact .inl hcf

/-- The disjunction with the negations of the assumptions. -/
theorem ok_prefix {as : List (List Char)} (ha : ∀ a ∈ as, Ok U a) {l : List Char} (hl : Ok U l) :
    Ok U (violationPrefix as ++ l) ∧ ∀ ρ, mean ρ (violationPrefix as ++ l) ↔ mean ρ l ∨ ∃ a ∈ as, bad ρ a = true := by
  induction as using List.reverseRecOn with
  | nil => simpa [violationPrefix] using hl
  | append_singleton as a ih =>
    obtain ⟨h1, h2⟩ := ih fun x hx => ha x (by simp [hx])
    obtain ⟨h3, h4⟩ := ok_not (ha a (by simp))
    obtain ⟨h5, h6⟩ := ok_or h3 h1
    have e : violationPrefix (as ++ [a]) ++ l = txt!"| " ++ (txt!"! " ++ a) ++ txt!" " ++ (violationPrefix as ++ l) := by
      simp [violationPrefix, List.foldl_append]
    rw [e]
    refine ⟨h5, fun ρ => ?_⟩
    rw [h6, h4, h2]
    simp only [List.mem_append, List.mem_singleton, or_and_right, exists_or, exists_eq_left, bad_eq_true]
    generalize (∃ a ∈ as, ¬ mean ρ a) = X
    tauto

end Slugs.Model.Resilience
