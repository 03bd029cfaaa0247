import Verif.Lemmas.StructuredLex
import Verif.Lemmas.LtlLR
import Verif.Model.LtlTranslators

/-!
The lexer of the translators from formulas of linear temporal logic.
-/

namespace Slugs.Model.LtlText

open Slugs.Spec (Word isSpace)
open Slugs.Spec.LtlText
open Slugs.Model.Structured (takeWhile_exact)

theorem idChar_eq (c : Char) : idChar c = wordChar c := rfl

theorem word_not_space {c : Char} (h : wordChar c = true) : isSpace c = false := by
  simp only [wordChar, Bool.or_eq_true, Bool.and_eq_true, decide_eq_true_eq, beq_iff_eq] at h
  have h0 : ∀ a b : Char, a ≤ b ↔ a.toNat ≤ b.toNat := fun a b => Iff.rfl
  simp only [h0] at h
  rw [Bool.eq_false_iff]
  intro hs
  simp only [isSpace, Bool.or_eq_true, beq_iff_eq] at hs
  rcases hs with ((((rfl | rfl) | rfl) | rfl) | rfl) | rfl <;> revert h <;> decide

theorem char_token {c : Char} (h : wordChar c = false) : (⟨termOf c, [c]⟩ : Tok) = charTok c := by
  have h' : ∀ d : Char, wordChar d = true → c ≠ d := fun d hd e => by rw [e, hd] at h; cases h
  simp only [termOf, charTok, if_neg (h' '0' (by decide)), if_neg (h' '1' (by decide)), if_neg (h' 'F' (by decide)), if_neg (h' 'G' (by decide)),
    if_neg (h' 'U' (by decide)), if_neg (h' 'W' (by decide)), if_neg (h' 'X' (by decide))]

theorem wordTok_text (w : Word) : (wordTok w).text = w := rfl

theorem wordTok_id {w : Word} (h : w ∉ [txt!"X", txt!"F", txt!"G", txt!"U", txt!"W", txt!"0", txt!"1", txt!"FALSE", txt!"TRUE", txt!"next"]) : wordTok w = ⟨.id, w⟩ := by
  simp only [List.mem_cons, List.not_mem_nil, or_false, not_or] at h
  obtain ⟨h1, h2, h3, h4, h5, h6, h7, h8, h9, h10⟩ := h
  simp only [wordTok, if_neg h1, if_neg h2, if_neg h3, if_neg h4, if_neg h5, if_neg h6, if_neg h7, if_neg h8, if_neg h9, if_neg h10]

theorem ite_avoid {A : Type} {p : Prop} [Decidable p] {a b k : A} (h1 : a ≠ k) (h2 : b ≠ k) : (if p then a else b) ≠ k := by
  split
  · exact h1
  · exact h2

theorem lexes_kind {s : List Char} {ts : List Tok} (h : Lexes s ts) : ∀ t ∈ ts, t.kind ≠ .eof := by
  induction h with
  | nil => simp
  | space _ _ ih => exact ih
  | word _ _ _ _ ih =>
    intro t ht
    rcases List.mem_cons.mp ht with rfl | ht
    · rw [wordTok]; dsimp only
      repeat refine ite_avoid (by decide) ?_
      decide
    · exact ih t ht
  | char _ _ _ ih =>
    intro t ht
    rcases List.mem_cons.mp ht with rfl | ht
    · rw [charTok]; dsimp only
      repeat refine ite_avoid (by decide) ?_
      decide
    · exact ih t ht

theorem prefix_word {rest : List Char} (hr : ∀ d, rest.head? = some d → wordChar d = false) :
    ∀ {p w : List Char}, (∀ d ∈ p, wordChar d = true) → p <+: w ++ rest → p <+: w
  | [], _, _, _ => List.nil_prefix
  | a :: p, [], hp, h => by
    obtain ⟨t, ht⟩ := h
    rw [List.nil_append] at ht
    have h1 := hr a (by rw [← ht]; rfl)
    rw [hp a (by simp)] at h1
    cases h1
  | a :: p, b :: w, hp, h => by
    rw [List.cons_append, List.cons_prefix_cons] at h
    exact List.cons_prefix_cons.mpr ⟨h.1, prefix_word hr (fun d hd => hp d (by simp [hd])) h.2⟩

/-- Names that start with the text of a symbol are no other symbols. -/
theorem plain_word {p w : Word} (hp : p ∈ [txt!"FALSE", txt!"TRUE", txt!"next"]) (h : p <+: w) (hw : w ≠ p) : wordTok w = ⟨.id, w⟩ := by
  apply wordTok_id
  intro hm
  simp only [List.mem_cons, List.not_mem_nil, or_false] at hp hm
  revert h hw
  rcases hp with rfl | rfl | rfl <;> rcases hm with rfl | rfl | rfl | rfl | rfl | rfl | rfl | rfl | rfl | rfl <;> decide

theorem lexes_tokenizeAux {s : List Char} {ts : List Tok} (h : Lexes s ts) : PlainNames ts → ∀ n, s.length ≤ n → tokenizeAux n s = ts := by
  induction h with
  | nil => intro _ n _; cases n <;> rfl
  | @space c cs ts hc _ ih =>
    intro hp n hn
    obtain ⟨n, rfl⟩ : ∃ m, n = m + 1 := ⟨n - 1, by simp at hn; omega⟩
    rw [tokenizeAux.eq_def]
    dsimp only
    rw [if_pos hc]
    exact ih hp n (by simpa using hn)
  | @word w rest ts hw hc hr _ ih =>
    intro hp n hn
    obtain ⟨c, w, rfl⟩ := List.exists_cons_of_ne_nil hw
    obtain ⟨n, rfl⟩ : ∃ m, n = m + 1 := ⟨n - 1, by simp at hn; omega⟩
    have hcc := hc c (by simp)
    have ih' := ih (fun t ht => hp t (by simp [ht])) n (by simp at hn; omega)
    obtain ⟨e1, e2⟩ := takeWhile_exact (p := idChar) (w := c :: w) (rest := rest) hc hr
    have key : ∀ p ∈ [txt!"FALSE", txt!"TRUE", txt!"next"], p <+: (c :: w) ++ rest → c :: w = p := by
      intro p hpm hpre
      by_contra hne
      have h1 : p <+: c :: w := prefix_word hr (by
        intro d hd
        simp only [List.mem_cons, List.not_mem_nil, or_false] at hpm
        revert hd
        rcases hpm with rfl | rfl | rfl <;> revert d <;> decide) hpre
      have h2 := plain_word hpm h1 hne
      have h3 := hp (wordTok (c :: w)) (by simp) (by rw [h2])
      rw [wordTok_text] at h3
      simp only [List.mem_cons, List.not_mem_nil, or_false] at hpm
      rcases hpm with rfl | rfl | rfl
      · exact h3.1 h1
      · exact h3.2.1 h1
      · exact h3.2.2 h1
    rw [List.cons_append] at e1 e2 key hn ⊢
    rw [tokenizeAux.eq_def]
    dsimp only
    rw [if_neg (by rw [word_not_space hcc]; simp)]
    by_cases h1 : txt!"FALSE".isPrefixOf (c :: (w ++ rest)) = true
    · rw [if_pos h1]
      have h2 := key _ (by simp) (List.isPrefixOf_iff_prefix.mp h1)
      obtain ⟨rfl, rfl⟩ := List.cons.inj h2
      exact congrArg₂ List.cons (by decide) ih'
    rw [if_neg h1]
    by_cases h2 : txt!"TRUE".isPrefixOf (c :: (w ++ rest)) = true
    · rw [if_pos h2]
      have h2 := key _ (by simp) (List.isPrefixOf_iff_prefix.mp h2)
      obtain ⟨rfl, rfl⟩ := List.cons.inj h2
      exact congrArg₂ List.cons (by decide) ih'
    rw [if_neg h2]
    by_cases h3 : txt!"next".isPrefixOf (c :: (w ++ rest)) = true
    · rw [if_pos h3]
      have h2 := key _ (by simp) (List.isPrefixOf_iff_prefix.mp h3)
      obtain ⟨rfl, rfl⟩ := List.cons.inj h2
      exact congrArg₂ List.cons (by decide) ih'
    rw [if_neg h3, if_pos (by rw [idChar_eq]; exact hcc), e1, e2, ih']
    congr 1
    have n1 : c :: w ≠ txt!"FALSE" := fun e => h1 (List.isPrefixOf_iff_prefix.mpr (by rw [← List.cons_append, e]; exact List.prefix_append _ _))
    have n2 : c :: w ≠ txt!"TRUE" := fun e => h2 (List.isPrefixOf_iff_prefix.mpr (by rw [← List.cons_append, e]; exact List.prefix_append _ _))
    have n3 : c :: w ≠ txt!"next" := fun e => h3 (List.isPrefixOf_iff_prefix.mpr (by rw [← List.cons_append, e]; exact List.prefix_append _ _))
    by_cases h4 : (c :: w).length = 1 ∧ c ∈ ['X', 'F', 'G', 'U', 'W', '0', '1']
    · rw [if_pos h4]
      obtain ⟨h5, h6⟩ := h4
      obtain rfl : w = [] := by simpa using h5
      simp only [List.mem_cons, List.not_mem_nil, or_false] at h6
      rcases h6 with rfl | rfl | rfl | rfl | rfl | rfl | rfl <;> decide
    · rw [if_neg h4, wordTok_id]
      intro hm
      simp only [List.mem_cons, List.not_mem_nil, or_false, n1, n2, n3] at hm
      rcases hm with e | e | e | e | e | e | e <;> (obtain ⟨rfl, rfl⟩ := List.cons.inj e; exact h4 (by decide))
  | @char c cs ts h1 h2 _ ih =>
    intro hp n hn
    obtain ⟨n, rfl⟩ : ∃ m, n = m + 1 := ⟨n - 1, by simp at hn; omega⟩
    have hne : ∀ d : Char, wordChar d = true → (d == c) = false := fun d hd => by
      rw [beq_eq_false_iff_ne]; intro e; rw [e, h2] at hd; cases hd
    rw [tokenizeAux.eq_def]
    dsimp only
    rw [if_neg (by rw [h1]; simp), if_neg (by simp [List.isPrefixOf, hne 'F' (by decide)]), if_neg (by simp [List.isPrefixOf, hne 'T' (by decide)]),
      if_neg (by simp [List.isPrefixOf, hne 'n' (by decide)]), if_neg (by rw [idChar_eq, h2]; simp), char_token h2,
      ih (fun t ht => hp t (by simp [ht])) n (by simpa using hn)]

theorem lexes_tokenize {s : List Char} {ts : List Tok} (h : Lexes s ts) (hp : PlainNames ts) : tokenize s = ts := lexes_tokenizeAux h hp _ le_rfl

/-! ### Every text consists of symbols -/

/-- The symbols of a text. -/
def symbols : Nat → List Char → List Tok
  | 0, _ => []
  | _, [] => []
  | n + 1, c :: cs =>
    if isSpace c then symbols n cs
    else if wordChar c then wordTok ((c :: cs).takeWhile wordChar) :: symbols n ((c :: cs).dropWhile wordChar)
    else charTok c :: symbols n cs

theorem lexes_symbols : ∀ (n : Nat) (s : List Char), s.length ≤ n → Lexes s (symbols n s)
  | 0, s, h => by
    obtain rfl : s = [] := List.length_eq_zero_iff.mp (Nat.le_zero.mp h)
    exact .nil
  | n + 1, [], _ => .nil
  | n + 1, c :: cs, h => by
    rw [symbols]
    by_cases h1 : isSpace c
    · rw [if_pos h1]
      exact .space h1 (lexes_symbols n cs (by simpa using h))
    rw [if_neg h1]
    by_cases h2 : wordChar c
    · rw [if_pos h2]
      have e := List.takeWhile_append_dropWhile (p := wordChar) (l := c :: cs)
      have e' : (c :: cs).dropWhile wordChar = cs.dropWhile wordChar := by rw [List.dropWhile_cons, if_pos h2]
      have hl := (List.dropWhile_sublist (l := cs) wordChar).length_le
      have := Lexes.word (w := (c :: cs).takeWhile wordChar) (rest := (c :: cs).dropWhile wordChar) (by rw [List.takeWhile_cons, if_pos h2]; simp)
        (fun d hd => List.mem_takeWhile_imp hd) (fun d hd => ?_) (lexes_symbols n _ (by rw [e']; simp at h; omega))
      · rwa [e] at this
      · have := List.head?_dropWhile_not wordChar (c :: cs)
        rw [hd] at this
        simpa using this
    · rw [if_neg h2]
      exact .char (by simpa using h1) (by simpa using h2) (lexes_symbols n cs (by simpa using h))

end Slugs.Model.LtlText
