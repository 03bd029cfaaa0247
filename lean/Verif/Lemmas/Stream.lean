import Verif.Model.Stream
import Verif.Spec.Formula
import Mathlib.Data.List.TakeWhile
import Mathlib.Tactic.Common

/-! Reading words and numbers agrees with the grammar. -/

namespace Slugs.Model

open Slugs.Spec

theorem dropWhile_head (p : Char → Bool) (s : List Char) {c : Char} (h : (s.dropWhile p).head? = some c) :
    p c = false := by
  induction s with
  | nil => simp at h
  | cons a s ih =>
    rw [List.dropWhile_cons] at h
    split at h
    · exact ih h
    · simp at h; subst h; simp_all

theorem takeWhile_all (p : Char → Bool) (s : List Char) {c : Char} (h : c ∈ s.takeWhile p) : p c = true := by
  induction s with
  | nil => simp at h
  | cons a s ih =>
    rw [List.takeWhile_cons] at h
    split at h
    · rcases List.mem_cons.mp h with rfl | h
      · assumption
      · exact ih h
    · simp at h

theorem dropWhile_of_head (p : Char → Bool) (l r : List Char) (hl : ∀ c ∈ l, p c = true)
    (hr : ∀ c, r.head? = some c → p c = false) : (l ++ r).dropWhile p = r ∧ (l ++ r).takeWhile p = l := by
  induction l with
  | nil =>
    cases r with
    | nil => simp
    | cons a r => simp [hr a (by simp)]
  | cons a l ih =>
    have := ih (fun c hc => hl c (by simp [hc]))
    simp [hl a (by simp), this]

theorem readWord_sound {s w rest : List Char} (h : readWord s = (w, rest)) (hw : w ≠ []) : StartsWithWord s w rest := by
  simp only [readWord, Prod.mk.injEq] at h
  obtain ⟨h1, h2⟩ := h
  refine ⟨s.takeWhile isSpace, ?_, ?_, hw, ?_, ?_⟩
  · rw [← h1, ← h2, List.append_assoc, List.takeWhile_append_dropWhile, List.takeWhile_append_dropWhile]
  · intro c hc; exact takeWhile_all _ _ hc
  · intro c hc
    rw [← h1] at hc
    simpa using takeWhile_all _ _ hc
  · intro c hc
    rw [← h2] at hc
    simpa using dropWhile_head _ _ hc

theorem readWord_complete {s w rest : List Char} (h : StartsWithWord s w rest) : readWord s = (w, rest) := by
  obtain ⟨sp, rfl, hsp, hw, hwc, hr⟩ := h
  have h1 : ((sp ++ w ++ rest).dropWhile isSpace) = w ++ rest := by
    rw [List.append_assoc]
    refine (dropWhile_of_head isSpace sp (w ++ rest) hsp ?_).1
    intro c hc
    cases w with
    | nil => exact absurd rfl hw
    | cons a w => simp at hc; subst hc; exact hwc a (by simp)
  have h2 := dropWhile_of_head (fun c => !isSpace c) w rest (fun c hc => by simp [hwc c hc])
    (fun c hc => by simp [hr c hc])
  simp only [readWord, h1, h2]

theorem readWord_nil {s : List Char} : (readWord s).1 = [] ↔ ∀ c ∈ s, isSpace c := by
  simp only [readWord]
  constructor
  · intro h c hc
    by_contra hn
    have hd : s.dropWhile isSpace ≠ [] := by
      intro he
      rw [List.dropWhile_eq_nil_iff] at he
      exact hn (he c hc)
    cases hds : s.dropWhile isSpace with
    | nil => exact hd hds
    | cons a r =>
      have := dropWhile_head isSpace s (c := a) (by rw [hds]; rfl)
      rw [hds, List.takeWhile_cons] at h
      simp [this] at h
  · intro h
    have : s.dropWhile isSpace = [] := by rw [List.dropWhile_eq_nil_iff]; exact h
    rw [this]; rfl

theorem readWord_length (s : List Char) : (readWord s).2.length ≤ s.length := by
  simp only [readWord]
  exact Nat.le_trans (List.length_dropWhile_le _ _) (List.length_dropWhile_le _ _)

theorem StartsWithWord.length {s w rest : List Char} (h : StartsWithWord s w rest) : rest.length < s.length := by
  obtain ⟨sp, rfl, _, hw, _, _⟩ := h
  have := List.length_pos_iff.mpr hw
  simp; omega

theorem isDigit_not_space {c : Char} (h : isDigit c = true) : isSpace c = false ∧ c ≠ '-' ∧ c ≠ '+' := by
  refine ⟨?_, ?_, ?_⟩
  · by_contra hs
    simp only [isSpace, Bool.not_eq_false, Bool.or_eq_true, beq_iff_eq] at hs
    rcases hs with (((((rfl | rfl) | rfl) | rfl) | rfl) | rfl) <;> exact absurd h (by decide)
  · rintro rfl; exact absurd h (by decide)
  · rintro rfl; exact absurd h (by decide)

theorem readUnsigned_sound {s rest : List Char} {n : Nat} (h : readUnsigned s = some (n, rest)) :
    StartsWithNumber s n rest := by
  have hspl : s.takeWhile isSpace ++ s.dropWhile isSpace = s := List.takeWhile_append_dropWhile
  have hsp : ∀ c ∈ s.takeWhile isSpace, isSpace c := fun c hc => takeWhile_all _ _ hc
  simp only [readUnsigned] at h
  generalize s.dropWhile isSpace = d at *
  have key : ∀ (sign e : List Char) (neg : Bool), d = sign ++ e →
      ((if (e.takeWhile isDigit).isEmpty = true then none
        else if digitsVal (e.takeWhile isDigit) ≥ 2 ^ 32 then none
        else some (if neg = true then (2 ^ 32 - digitsVal (e.takeWhile isDigit)) % 2 ^ 32
          else digitsVal (e.takeWhile isDigit), e.dropWhile isDigit)) = some (n, rest)) →
      ((sign = [] ∨ sign = ['+']) ∧ neg = false ∨ sign = ['-'] ∧ neg = true) → StartsWithNumber s n rest := by
    intro sign e neg hd hif hs
    by_cases he : (e.takeWhile isDigit).isEmpty = true
    · rw [if_pos he] at hif; exact absurd hif (by simp)
    · rw [if_neg he] at hif
      by_cases hlt : digitsVal (e.takeWhile isDigit) ≥ 2 ^ 32
      · rw [if_pos hlt] at hif; exact absurd hif (by simp)
      · rw [if_neg hlt] at hif
        simp only [Option.some.injEq, Prod.mk.injEq] at hif
        obtain ⟨h1, h2⟩ := hif
        refine ⟨s.takeWhile isSpace, sign, e.takeWhile isDigit, ?_, hsp, by simpa using he,
            fun c hc => takeWhile_all _ _ hc, ?_, by omega, ?_⟩
        · rw [← h2, List.append_assoc, List.append_assoc, List.takeWhile_append_dropWhile, ← hd, hspl]
        · intro c hc; rw [← h2] at hc; exact dropWhile_head _ _ hc
        · rcases hs with ⟨h3, rfl⟩ | ⟨h3, rfl⟩
          · exact .inl ⟨h3, by simpa using h1.symm⟩
          · exact .inr ⟨h3, by simpa using h1.symm⟩
  by_cases hm : d.head? = some '-'
  · obtain ⟨d', rfl⟩ : ∃ d', d = '-' :: d' := by cases d <;> simp_all
    exact key ['-'] d' true rfl h (.inr ⟨rfl, rfl⟩)
  · by_cases hp : d.head? = some '+'
    · obtain ⟨d', rfl⟩ : ∃ d', d = '+' :: d' := by cases d <;> simp_all
      exact key ['+'] d' false rfl h (.inl ⟨.inr rfl, rfl⟩)
    · have hf : (d.head? == some '-') = false := by simpa using hm
      have hf' : (d.head? == some '+') = false := by simpa using hp
      rw [hf, hf'] at h
      exact key [] d false rfl h (.inl ⟨.inl rfl, rfl⟩)

theorem readUnsigned_complete {s rest : List Char} {n : Nat} (h : StartsWithNumber s n rest) :
    readUnsigned s = some (n, rest) := by
  obtain ⟨sp, sign, ds, rfl, hsp, hds, hdig, hr, hlt, hn⟩ := h
  obtain ⟨a, ds', rfl⟩ : ∃ a l, ds = a :: l := by cases ds <;> simp_all
  have ha := isDigit_not_space (hdig a (by simp))
  have hd2 := dropWhile_of_head isDigit (a :: ds') rest hdig hr
  have hge : ¬ (2 ^ 32 ≤ digitsVal (a :: ds')) := by omega
  rcases hn with ⟨hs | hs, rfl⟩ | ⟨hs, rfl⟩ <;> subst hs
  · have hd1 : (sp ++ [] ++ (a :: ds') ++ rest).dropWhile isSpace = (a :: ds') ++ rest := by
      rw [List.append_nil, List.append_assoc]
      exact (dropWhile_of_head isSpace sp _ hsp (fun c hc => by simp at hc; subst hc; exact ha.1)).1
    have e1 : ((a :: ds' ++ rest).head? == some '-') = false := by simp [ha.2.1]
    have e2 : ((a :: ds' ++ rest).head? == some '+') = false := by simp [ha.2.2]
    simp only [readUnsigned, hd1, e1, e2, Bool.or_self, Bool.false_eq_true, if_false, hd2.1, hd2.2]
    simp only [List.isEmpty_cons, ge_iff_le, hge, if_false, Bool.false_eq_true]
  · have hd1 : (sp ++ ['+'] ++ (a :: ds') ++ rest).dropWhile isSpace = '+' :: ((a :: ds') ++ rest) := by
      rw [List.append_assoc, List.append_assoc]
      exact (dropWhile_of_head isSpace sp _ hsp (fun c hc => by simp at hc; subst hc; decide)).1
    simp only [readUnsigned, hd1, List.head?_cons, beq_self_eq_true, Bool.or_true, if_true, List.tail_cons,
      hd2.1, hd2.2]
    simp only [List.isEmpty_cons, ge_iff_le, hge, if_false, Bool.false_eq_true]
    rfl
  · have hd1 : (sp ++ ['-'] ++ (a :: ds') ++ rest).dropWhile isSpace = '-' :: ((a :: ds') ++ rest) := by
      rw [List.append_assoc, List.append_assoc]
      exact (dropWhile_of_head isSpace sp _ hsp (fun c hc => by simp at hc; subst hc; decide)).1
    simp only [readUnsigned, hd1, List.head?_cons, beq_self_eq_true, Bool.true_or, if_true, List.tail_cons,
      hd2.1, hd2.2]
    simp only [List.isEmpty_cons, ge_iff_le, hge, if_false, Bool.false_eq_true]

theorem readUnsigned_length {s rest : List Char} {n : Nat} (h : readUnsigned s = some (n, rest)) :
    rest.length ≤ s.length := by
  obtain ⟨sp, sign, ds, rfl, _⟩ := readUnsigned_sound h
  simp; omega

/-- Decimal numerals read back. -/
theorem digitsVal_decimal (n : Nat) : digitsVal (decimal n) = n := by
  have := Nat.ofDigitChars_ten_toDigits (n := n)
  rw [Nat.ofDigitChars_eq_foldl] at this
  exact this

theorem decimal_digits (n : Nat) : ∀ c ∈ decimal n, isDigit c = true := by
  intro c hc
  have := Nat.isDigit_of_mem_toDigits (b := 10) (by decide) (by decide) hc
  simpa [isDigit, Char.isDigit, Char.le_def] using this

theorem decimal_ne_nil (n : Nat) : decimal n ≠ [] := Nat.toDigits_ne_nil

end Slugs.Model
