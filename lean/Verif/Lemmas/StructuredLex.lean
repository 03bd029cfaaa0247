import Verif.Model.Structured
import Mathlib.Data.List.TakeWhile

/-!
The lexer of the structured slugs compiler finds the symbols of a line.
-/

namespace Slugs.Model.Structured

open Slugs.Spec (Word isDigit)
open Slugs.Spec.Structured

theorem isspace_eq (c : Char) : isspace c = pySpace c := rfl

theorem wordStart_eq (c : Char) : wordStart c = nameStart c := rfl

theorem digitChar_eq (c : Char) : digitChar c = isDigit c := rfl

theorem wordChar_eq (c : Char) : wordChar c = nameChar c := by
  rw [Bool.eq_iff_iff]
  simp only [wordChar, nameChar, nameStart, isDigit, Bool.or_eq_true]
  tauto

theorem wordStart_char {c : Char} (h : wordStart c = true) : wordChar c = true := by
  rw [wordChar_eq, nameChar, Bool.or_eq_true]
  exact .inl h

theorem takeWhile_more {A : Type} {p q : A → Bool} (h : ∀ a, p a = true → q a = true) (l : List A) :
    l.takeWhile p ++ (l.dropWhile p).takeWhile q = l.takeWhile q := by
  induction l with
  | nil => rfl
  | cons a l ih =>
    by_cases hp : p a = true
    · rw [List.takeWhile_cons_of_pos hp, List.dropWhile_cons_of_pos hp, List.takeWhile_cons_of_pos (h a hp), ← ih]
      rfl
    · rw [List.takeWhile_cons_of_neg hp, List.dropWhile_cons_of_neg hp]
      rfl

theorem dropWhile_more {A : Type} {p q : A → Bool} (h : ∀ a, p a = true → q a = true) (l : List A) :
    (l.dropWhile p).dropWhile q = l.dropWhile q := by
  induction l with
  | nil => rfl
  | cons a l ih =>
    by_cases hp : p a = true
    · rw [List.dropWhile_cons_of_pos hp, List.dropWhile_cons_of_pos (h a hp), ih]
    · rw [List.dropWhile_cons_of_neg hp]

theorem word_token (bools : List Word) (w : Word) :
    (if w ∈ keywords then (⟨termOf w, w⟩ : Tok) else if w ∈ bools then ⟨.boolID, w⟩ else ⟨.numID, w⟩) = nameTok bools w := by
  by_cases h : w ∈ keywords
  · rw [if_pos h]
    simp only [keywords, List.mem_cons, List.not_mem_nil, or_false] at h
    rcases h with rfl | rfl | rfl | rfl | rfl | rfl | rfl | rfl | rfl <;> rfl
  · rw [if_neg h]
    simp only [keywords, List.mem_cons, List.not_mem_nil, or_false, not_or] at h
    obtain ⟨h1, h2, h3, h4, h5, h6, h7, h8, h9⟩ := h
    rw [nameTok, if_neg h1, if_neg h2, if_neg h3, if_neg h4, if_neg h5, if_neg h6, if_neg h7, if_neg h8, if_neg h9]

theorem char_token {c : Char} (h : nameStart c = false) : (⟨termOf [c], [c]⟩ : Tok) = charTok c := by
  have hF : c ≠ 'F' := by rintro rfl; revert h; decide
  have hG : c ≠ 'G' := by rintro rfl; revert h; decide
  have hU : c ≠ 'U' := by rintro rfl; revert h; decide
  have hW : c ≠ 'W' := by rintro rfl; revert h; decide
  have hX : c ≠ 'X' := by rintro rfl; revert h; decide
  simp [termOf, charTok, hF, hG, hU, hW, hX]

theorem head_dropWhile {A : Type} {p : A → Bool} (l : List A) : ∀ d, (l.dropWhile p).head? = some d → p d = false := by
  induction l with
  | nil => intro d h; cases h
  | cons a l ih =>
    intro d h
    by_cases hp : p a = true
    · rw [List.dropWhile_cons_of_pos hp] at h
      exact ih d h
    · rw [List.dropWhile_cons_of_neg hp] at h
      cases h
      simpa using hp

theorem tokenizeAux_lexes (bools : List Word) : ∀ (n : Nat) (s : List Char), s.length ≤ n → Lexes bools s (tokenizeAux bools n s)
  | n, [], _ => by cases n <;> exact .nil
  | 0, c :: cs, h => absurd h (by simp)
  | n + 1, c :: cs, h => by
    have hcs : cs.length ≤ n := by simpa using h
    rw [tokenizeAux.eq_def]
    dsimp only
    by_cases h1 : isspace c = true
    · rw [if_pos h1]
      exact .space h1 (tokenizeAux_lexes bools n cs hcs)
    rw [if_neg h1]
    by_cases h2 : wordStart c = true
    · rw [if_pos h2, takeWhile_more (fun _ => wordStart_char), dropWhile_more (fun _ => wordStart_char), word_token]
      have hw : wordChar c = true := wordStart_char h2
      rw [List.takeWhile_cons_of_pos hw, List.dropWhile_cons_of_pos hw]
      have hs : c :: cs = c :: cs.takeWhile wordChar ++ cs.dropWhile wordChar := by
        rw [List.cons_append, List.takeWhile_append_dropWhile]
      have hl : (cs.dropWhile wordChar).length ≤ n := le_trans (List.dropWhile_suffix _).length_le hcs
      have := Lexes.name (bools := bools) (c := c) (w := cs.takeWhile wordChar) (rest := cs.dropWhile wordChar) h2
        (fun d hd => by rw [← wordChar_eq]; exact List.mem_takeWhile_imp hd)
        (fun d hd => by rw [← wordChar_eq]; exact head_dropWhile _ d hd) (tokenizeAux_lexes bools n _ hl)
      rw [← hs] at this
      exact this
    rw [if_neg h2]
    by_cases h3 : digitChar c = true
    · rw [if_pos h3]
      have hl : ((c :: cs).dropWhile digitChar).length ≤ n := by
        rw [List.dropWhile_cons_of_pos h3]
        exact le_trans (List.dropWhile_suffix _).length_le hcs
      have := Lexes.number (bools := bools) (w := (c :: cs).takeWhile digitChar) (rest := (c :: cs).dropWhile digitChar)
        (by rw [List.takeWhile_cons_of_pos h3]; simp) (fun d hd => List.mem_takeWhile_imp (p := digitChar) hd)
        (fun d hd => head_dropWhile (p := digitChar) _ d hd) (tokenizeAux_lexes bools n _ hl)
      rw [List.takeWhile_append_dropWhile] at this
      exact this
    rw [if_neg h3, char_token (by rw [← wordStart_eq]; simpa using h2)]
    exact .char (by rw [← isspace_eq]; simpa using h1) (by rw [← wordStart_eq]; simpa using h2) (by rw [← digitChar_eq]; simpa using h3)
      (tokenizeAux_lexes bools n cs hcs)

theorem tokenize_lexes (bools : List Word) (s : List Char) : Lexes bools s (tokenize bools s) := tokenizeAux_lexes bools _ s le_rfl

theorem name_not_space {c : Char} (h : nameStart c = true) : isspace c = false := by
  simp only [nameStart, Bool.or_eq_true, Bool.and_eq_true, decide_eq_true_eq, beq_iff_eq] at h
  simp only [isspace, Bool.or_eq_false_iff, Bool.and_eq_false_iff, decide_eq_false_iff_not, beq_eq_false_iff_ne]
  have h0 : ∀ a b : Char, a ≤ b ↔ a.toNat ≤ b.toNat := fun a b => Iff.rfl
  simp only [h0] at h
  rcases h with ((((h | h) | h) | h) | h) | h
  · rw [show 'a'.toNat = 97 from rfl, show 'z'.toNat = 122 from rfl] at h; omega
  · rw [show 'A'.toNat = 65 from rfl, show 'Z'.toNat = 90 from rfl] at h; omega
  all_goals subst h; decide

theorem digit_not_space {c : Char} (h : isDigit c = true) : isspace c = false := by
  simp only [isDigit, Bool.and_eq_true, decide_eq_true_eq] at h
  simp only [isspace, Bool.or_eq_false_iff, Bool.and_eq_false_iff, decide_eq_false_iff_not, beq_eq_false_iff_ne]
  have h0 : ∀ a b : Char, a ≤ b ↔ a.toNat ≤ b.toNat := fun a b => Iff.rfl
  simp only [h0] at h
  rw [show '0'.toNat = 48 from rfl, show '9'.toNat = 57 from rfl] at h
  omega

theorem digit_not_name {c : Char} (h : isDigit c = true) : nameStart c = false := by
  simp only [isDigit, Bool.and_eq_true, decide_eq_true_eq] at h
  have h0 : ∀ a b : Char, a ≤ b ↔ a.toNat ≤ b.toNat := fun a b => Iff.rfl
  simp only [h0] at h
  rw [show '0'.toNat = 48 from rfl, show '9'.toNat = 57 from rfl] at h
  rw [Bool.eq_false_iff]
  intro hn
  simp only [nameStart, Bool.or_eq_true, Bool.and_eq_true, decide_eq_true_eq, beq_iff_eq, h0] at hn
  rcases hn with ((((hn | hn) | hn) | hn) | hn) | hn
  · rw [show 'a'.toNat = 97 from rfl, show 'z'.toNat = 122 from rfl] at hn; omega
  · rw [show 'A'.toNat = 65 from rfl, show 'Z'.toNat = 90 from rfl] at hn; omega
  all_goals subst hn; revert h; decide

theorem takeWhile_exact {p : Char → Bool} {w rest : List Char} (h1 : ∀ d ∈ w, p d = true) (h2 : ∀ d, rest.head? = some d → p d = false) :
    (w ++ rest).takeWhile p = w ∧ (w ++ rest).dropWhile p = rest := by
  have ht : rest.takeWhile p = [] ∧ rest.dropWhile p = rest := by
    cases rest with
    | nil => exact ⟨rfl, rfl⟩
    | cons d r =>
      have : ¬ p d = true := by rw [h2 d rfl]; simp
      exact ⟨List.takeWhile_cons_of_neg this, List.dropWhile_cons_of_neg this⟩
  induction w with
  | nil => exact ht
  | cons a w ih =>
    have ha := h1 a (by simp)
    obtain ⟨i1, i2⟩ := ih (fun d hd => h1 d (by simp [hd]))
    rw [List.cons_append, List.takeWhile_cons_of_pos ha, List.dropWhile_cons_of_pos ha, i1, i2]
    exact ⟨rfl, rfl⟩

theorem lexes_tokenizeAux {bools : List Word} {s : List Char} {ts : List Tok} (h : Lexes bools s ts) :
    ∀ n, s.length ≤ n → tokenizeAux bools n s = ts := by
  induction h with
  | nil => intro n _; cases n <;> rfl
  | @space c cs ts hc _ ih =>
    intro n hn
    obtain ⟨n, rfl⟩ : ∃ m, n = m + 1 := ⟨n - 1, by simp at hn; omega⟩
    rw [tokenizeAux.eq_def]
    dsimp only
    rw [if_pos (by rw [isspace_eq]; exact hc)]
    exact ih n (by simpa using hn)
  | @name c w rest ts hc hw hr _ ih =>
    intro n hn
    obtain ⟨n, rfl⟩ : ∃ m, n = m + 1 := ⟨n - 1, by simp at hn; omega⟩
    have hc' : wordStart c = true := hc
    obtain ⟨e1, e2⟩ := takeWhile_exact (p := wordChar) (w := c :: w) (rest := rest)
      (by
        intro d hd
        rcases List.mem_cons.mp hd with rfl | hd
        · exact wordStart_char hc'
        · rw [wordChar_eq]; exact hw d hd)
      (fun d hd => by rw [wordChar_eq]; exact hr d hd)
    rw [List.cons_append] at e1 e2 hn ⊢
    rw [tokenizeAux.eq_def]
    dsimp only
    rw [if_neg (by rw [name_not_space hc]; simp), if_pos hc', takeWhile_more (fun _ => wordStart_char), dropWhile_more (fun _ => wordStart_char),
      word_token, e1, e2, ih n (by simp at hn; omega)]
  | @number w rest ts hw hd hr _ ih =>
    intro n hn
    obtain ⟨c, w, rfl⟩ := List.exists_cons_of_ne_nil hw
    obtain ⟨n, rfl⟩ : ∃ m, n = m + 1 := ⟨n - 1, by simp at hn; omega⟩
    have hc := hd c (by simp)
    obtain ⟨e1, e2⟩ := takeWhile_exact (p := digitChar) (w := c :: w) (rest := rest) hd hr
    rw [List.cons_append] at e1 e2 hn ⊢
    rw [tokenizeAux.eq_def]
    dsimp only
    rw [if_neg (by rw [digit_not_space hc]; simp), if_neg (by rw [wordStart_eq, digit_not_name hc]; simp), if_pos (by rw [digitChar_eq]; exact hc),
      e1, e2, ih n (by simp at hn; omega)]
  | @char c cs ts h1 h2 h3 _ ih =>
    intro n hn
    obtain ⟨n, rfl⟩ : ∃ m, n = m + 1 := ⟨n - 1, by simp at hn; omega⟩
    rw [tokenizeAux.eq_def]
    dsimp only
    rw [if_neg (by rw [isspace_eq, h1]; simp), if_neg (by rw [wordStart_eq, h2]; simp), if_neg (by rw [digitChar_eq, h3]; simp), char_token h2,
      ih n (by simpa using hn)]

/-- The lexer finds the symbols of a line. -/
theorem lexes_iff (bools : List Word) (s : List Char) (ts : List Tok) : Lexes bools s ts ↔ tokenize bools s = ts :=
  ⟨fun h => lexes_tokenizeAux h _ le_rfl, fun h => h ▸ tokenize_lexes bools s⟩

theorem nameTok_text (bools : List Word) (w : Word) : (nameTok bools w).text = w := by
  rw [nameTok]
  repeat' split
  all_goals rfl

theorem nameTok_kind (bools : List Word) (w : Word) : (nameTok bools w).kind ≠ .eof ∧ (nameTok bools w).kind ≠ .numeral := by
  rw [nameTok]
  repeat' split
  all_goals exact ⟨fun h => (by cases h), fun h => (by cases h)⟩

theorem ite_avoid {A : Type} {p : Prop} [Decidable p] {a b k : A} (h1 : a ≠ k) (h2 : b ≠ k) : (if p then a else b) ≠ k := by
  split
  · exact h1
  · exact h2

theorem charTok_kind (c : Char) : (charTok c).kind ≠ .eof ∧ (charTok c).kind ≠ .numeral ∧ (charTok c).kind ≠ .boolID ∧ (charTok c).kind ≠ .numID := by
  refine ⟨?_, ?_, ?_, ?_⟩ <;> rw [charTok] <;> dsimp only <;> repeat refine ite_avoid (by decide) ?_
  all_goals decide

/-- What is known about symbols. -/
structure TokOk (bools : List Word) (t : Tok) : Prop where
  eof : t.kind ≠ .eof
  numeral : t.kind = .numeral → t.text ≠ [] ∧ ∀ d ∈ t.text, isDigit d = true
  boolID : t.kind = .boolID → t.text ∈ bools ∧ t.text ≠ [] ∧ ∀ d ∈ t.text, nameChar d = true
  numID : t.kind = .numID → t.text ≠ [] ∧ ∀ d ∈ t.text, nameChar d = true

theorem nameTok_bool {bools : List Word} {w : Word} (h : (nameTok bools w).kind = .boolID) : w ∈ bools := by
  rw [nameTok] at h
  repeat' split at h
  all_goals first | assumption | cases h

theorem Lexes.ok {bools : List Word} {s : List Char} {ts : List Tok} (h : Lexes bools s ts) : ∀ t ∈ ts, TokOk bools t := by
  induction h with
  | nil => intro t ht; cases ht
  | space _ _ ih => exact ih
  | @name c w rest ts hc hw hr _ ih =>
    intro t ht
    rcases List.mem_cons.mp ht with rfl | ht
    · have hall : ∀ d ∈ c :: w, nameChar d = true := by
        intro d hd
        rcases List.mem_cons.mp hd with rfl | hd
        · rw [nameChar, hc]; rfl
        · exact hw d hd
      refine ⟨(nameTok_kind _ _).1, fun h => absurd h (nameTok_kind _ _).2, fun h => ?_, fun _ => ?_⟩
      · rw [nameTok_text]; exact ⟨nameTok_bool h, by simp, hall⟩
      · rw [nameTok_text]; exact ⟨by simp, hall⟩
    · exact ih t ht
  | @number w rest ts hw hd hr _ ih =>
    intro t ht
    rcases List.mem_cons.mp ht with rfl | ht
    · exact ⟨fun h => (by cases h), fun _ => ⟨hw, hd⟩, fun h => (by cases h), fun h => (by cases h)⟩
    · exact ih t ht
  | @char c cs ts h1 h2 h3 _ ih =>
    intro t ht
    rcases List.mem_cons.mp ht with rfl | ht
    · obtain ⟨k1, k2, k3, k4⟩ := charTok_kind c
      exact ⟨k1, fun h => absurd h k2, fun h => absurd h k3, fun h => absurd h k4⟩
    · exact ih t ht

end Slugs.Model.Structured
