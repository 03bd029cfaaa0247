import Verif.Spec.Cinderella
import Verif.Model.Cinderella
import Verif.Lemmas.Decoder
import Verif.Lemmas.StructuredLines

/-! The lines of the benchmark as formulas (C86). -/

namespace Slugs.Model.Cinderella

open Slugs.Spec Slugs.Spec.Structured Slugs.Model.Structured

/-! ### Symbols -/

def nameT (w : Word) : Tok := ⟨.numID, w⟩
def numT (k : Nat) : Tok := ⟨.numeral, strNat k⟩

theorem strNat_digits (k : Nat) : ∀ d ∈ strNat k, isDigit d = true := decimal_digits k

theorem strNat_ne (k : Nat) : strNat k ≠ [] := decimal_ne_nil k

theorem digit_nameChar {d : Char} (h : isDigit d = true) : nameChar d = true := by simp [nameChar, h]

/-- What follows does not belong to a name. -/
def Free (rest : List Char) : Prop := ∀ d, rest.head? = some d → nameChar d = false

theorem Free.digit {rest : List Char} (h : Free rest) : ∀ d, rest.head? = some d → isDigit d = false := by
  intro d hd
  have := h d hd
  simp only [nameChar, Bool.or_eq_false_iff] at this
  exact this.2

theorem lex_num {k : Nat} {rest : List Char} {ts : List Tok} (hf : Free rest) (h : Lexes [] rest ts) : Lexes [] (strNat k ++ rest) (numT k :: ts) :=
  Lexes.number (strNat_ne k) (strNat_digits k) hf.digit h

theorem nameTok_other {w : Word} (h : w ∉ Slugs.Spec.Structured.keywords) : nameTok [] w = nameT w := by
  simp only [Slugs.Spec.Structured.keywords, List.mem_cons, List.not_mem_nil, or_false, not_or] at h
  obtain ⟨h1, h2, h3, h4, h5, h6, h7, h8, h9⟩ := h
  simp [nameTok, nameT, h1, h2, h3, h4, h5, h6, h7, h8, h9]

theorem lex_name {c : Char} {w rest : List Char} {ts : List Tok} (hc : nameStart c = true) (hw : ∀ d ∈ w, nameChar d = true) (hk : c :: w ∉ Slugs.Spec.Structured.keywords) (hf : Free rest)
    (h : Lexes [] rest ts) : Lexes [] (c :: (w ++ rest)) (nameT (c :: w) :: ts) := by
  rw [← nameTok_other hk]
  exact Lexes.name hc hw hf h

theorem lex_e {rest : List Char} {ts : List Tok} (hf : Free rest) (h : Lexes [] rest ts) : Lexes [] ('e' :: rest) (nameT txt!"e" :: ts) :=
  lex_name (w := []) (by decide) (by simp) (by decide) hf h

theorem x_keyword (w : Word) : 'x' :: w ∉ Slugs.Spec.Structured.keywords := by simp [Slugs.Spec.Structured.keywords]
theorem y_keyword (w : Word) : 'y' :: w ∉ Slugs.Spec.Structured.keywords := by simp [Slugs.Spec.Structured.keywords]

theorem lex_x {i : Nat} {rest : List Char} {ts : List Tok} (hf : Free rest) (h : Lexes [] rest ts) : Lexes [] (xName i ++ rest) (nameT (xName i) :: ts) :=
  lex_name (by decide) (fun d hd => digit_nameChar (strNat_digits i d hd)) (x_keyword _) hf h

theorem lex_y {i : Nat} {rest : List Char} {ts : List Tok} (hf : Free rest) (h : Lexes [] rest ts) : Lexes [] (yName i ++ rest) (nameT (yName i) :: ts) :=
  lex_name (by decide) (fun d hd => digit_nameChar (strNat_digits i d hd)) (y_keyword _) hf h

theorem primed_chars (i : Nat) : ∀ d ∈ strNat i ++ ['\''], nameChar d = true := by
  intro d hd
  rcases List.mem_append.mp hd with hd | hd
  · exact digit_nameChar (strNat_digits i d hd)
  · rw [List.mem_singleton.mp hd]; decide

theorem lex_xp {i : Nat} {rest : List Char} {ts : List Tok} (hf : Free rest) (h : Lexes [] rest ts) :
    Lexes [] (xName i ++ '\'' :: rest) (nameT (prime (xName i)) :: ts) := by
  have := lex_name (c := 'x') (w := strNat i ++ ['\'']) (rest := rest) (by decide) (primed_chars i) (x_keyword _) hf h
  rwa [List.append_assoc] at this

theorem lex_yp {i : Nat} {rest : List Char} {ts : List Tok} (hf : Free rest) (h : Lexes [] rest ts) :
    Lexes [] (yName i ++ '\'' :: rest) (nameT (prime (yName i)) :: ts) := by
  have := lex_name (c := 'y') (w := strNat i ++ ['\'']) (rest := rest) (by decide) (primed_chars i) (y_keyword _) hf h
  rwa [List.append_assoc] at this

theorem free_cons {c : Char} {rest : List Char} (h : nameChar c = false) : Free (c :: rest) := by
  intro d hd
  simp only [List.head?_cons, Option.some.injEq] at hd
  rw [← hd]; exact h

theorem free_nil : Free [] := by intro d hd; simp at hd

theorem lex_char {c : Char} {cs : List Char} {ts : List Tok} (h : (pySpace c || nameStart c || isDigit c) = false) (hl : Lexes [] cs ts) :
    Lexes [] (c :: cs) (charTok c :: ts) := by
  simp only [Bool.or_eq_false_iff] at h
  exact .char h.1.1 h.1.2 h.2 hl

/-! ### The condition under which a bucket is emptied -/

def emptiedToks (n power i : Nat) : List Tok :=
  [charTok '(', charTok '(', nameT txt!"e", charTok '<', charTok '=', numT i, charTok '&', nameT txt!"e", charTok '+', numT power, charTok '>', numT i, charTok ')',
    charTok '|', charTok '(', nameT txt!"e", charTok '+', numT (power - 1), charTok '>', charTok '=', numT (i + n), charTok ')', charTok ')']

def emptiedFml (n power i : Nat) : SFml :=
  .or (.and (.cmp .le (.var txt!"e") (.num i)) (.cmp .gt (.add (.var txt!"e") (.num power)) (.num i)))
    (.cmp .ge (.add (.var txt!"e") (.num (power - 1))) (.num (i + n)))

theorem strInt_pred {k : Nat} (h : 1 ≤ k) : strInt ((k : Int) - 1) = strNat (k - 1) := by
  have : (k : Int) - 1 = ((k - 1 : Nat) : Int) := by omega
  rw [this]
  rfl

theorem emptied_lexes {n power i : Nat} (hp : 1 ≤ power) {rest : List Char} {ts : List Tok} (h : Lexes [] rest ts) :
    Lexes [] (emptiedText n power i ++ rest) (emptiedToks n power i ++ ts) := by
  unfold emptiedText
  rw [strInt_pred hp]
  simp only [List.append_assoc]
  refine lex_char (by decide) (lex_char (by decide) (lex_e (free_cons (by decide)) (lex_char (by decide) (lex_char (by decide) ?_))))
  refine lex_num (free_cons (by decide)) (.space (by decide) (lex_char (by decide) (.space (by decide) (lex_e (free_cons (by decide)) (lex_char (by decide) ?_)))))
  refine lex_num (free_cons (by decide)) (.space (by decide) (lex_char (by decide) (.space (by decide) ?_)))
  refine lex_num (free_cons (by decide)) (lex_char (by decide) (.space (by decide) (lex_char (by decide) (.space (by decide) (lex_char (by decide)
    (lex_e (free_cons (by decide)) (lex_char (by decide) ?_)))))))
  refine lex_num (free_cons (by decide)) (.space (by decide) (lex_char (by decide) (lex_char (by decide) (.space (by decide) ?_))))
  exact lex_num (free_cons (by decide)) (lex_char (by decide) (lex_char (by decide) h))

theorem infix_up {m n : Nat} {ts : List Tok} {f : SFml} (hn : n ≤ 5) (h : Infix n ts f) (hm : m ≤ n) : Infix m ts f := by
  obtain ⟨d, rfl⟩ := Nat.exists_eq_add_of_le hm
  clear hm
  induction d generalizing m with
  | zero => exact h
  | succ d ih => exact .up (by omega) (ih (m := m + 1) (by omega) (by rwa [show m + 1 + d = m + (d + 1) by omega]))

theorem number_var (w : Word) : InfixNumber [nameT w] (.var w) := InfixNumber.var (t := nameT w) rfl

theorem number_num (k : Nat) : InfixNumber [numT k] (.num k) := by
  have := InfixNumber.num (t := numT k) rfl
  rwa [show digitsVal (numT k).text = k from digitsVal_decimal k] at this

theorem sum_var (w : Word) : InfixSum [nameT w] (.var w) := .one (.one (number_var w))

theorem sum_num (k : Nat) : InfixSum [numT k] (.num k) := .one (.one (number_num k))

theorem sum_two {a b : NExp} {t u : Tok} (ha : InfixNumber [t] a) (hb : InfixSum [u] b) : InfixSum [t, charTok '+', u] (.add a b) :=
  InfixSum.add (ts := [t]) (op := charTok '+') (us := [u]) (.one ha) rfl hb

theorem emptied_infix (n power i : Nat) : Infix 5 (emptiedToks n power i) (emptiedFml n power i) := by
  have h1 : Infix 5 [nameT txt!"e", charTok '<', charTok '=', numT i] (.cmp .le (.var txt!"e") (.num i)) :=
    Infix.cmp (ts := [nameT txt!"e"]) (op := [charTok '<', charTok '=']) (us := [numT i]) .le (sum_var _) rfl (sum_num i)
  have h2 : Infix 5 [nameT txt!"e", charTok '+', numT power, charTok '>', numT i] (.cmp .gt (.add (.var txt!"e") (.num power)) (.num i)) :=
    Infix.cmp (ts := [nameT txt!"e", charTok '+', numT power]) (op := [charTok '>']) (us := [numT i]) .gt (sum_two (number_var _) (sum_num _)) rfl (sum_num i)
  have h3 : Infix 5 [nameT txt!"e", charTok '+', numT (power - 1), charTok '>', charTok '=', numT (i + n)]
      (.cmp .ge (.add (.var txt!"e") (.num (power - 1))) (.num (i + n))) :=
    Infix.cmp (ts := [nameT txt!"e", charTok '+', numT (power - 1)]) (op := [charTok '>', charTok '=']) (us := [numT (i + n)]) .ge
      (sum_two (number_var _) (sum_num _)) rfl (sum_num _)
  have h4 := Infix.and (infix_up (m := 3) (by decide) h1 (by decide)) (op := [charTok '&']) (.inl rfl) (infix_up (m := 4) (by decide) h2 (by decide))
  have h5 := Infix.brackets (l := charTok '(') (r := charTok ')') (.inl ⟨rfl, rfl⟩) (infix_up (m := 0) (by decide) h4 (by decide))
  have h6 := Infix.brackets (l := charTok '(') (r := charTok ')') (.inl ⟨rfl, rfl⟩) (infix_up (m := 0) (by decide) h3 (by decide))
  have h7 := Infix.or (infix_up (m := 2) (by decide) h5 (by decide)) (op := [charTok '|']) (.inl rfl) (infix_up (m := 3) (by decide) h6 (by decide))
  exact Infix.brackets (l := charTok '(') (r := charTok ')') (.inl ⟨rfl, rfl⟩) (infix_up (m := 0) (by decide) h7 (by decide))

/-! ### The other formulas -/

def zeroFml (w : Word) : SFml := .cmp .eq (.var w) (.num 0)

theorem xZero_formula (i : Nat) : IsFormula [] (xName i ++ txt!" = 0") (zeroFml (xName i)) :=
  ⟨[nameT (xName i), charTok '=', numT 0],
    lex_x (free_cons (by decide)) (.space (by decide) (lex_char (by decide) (.space (by decide) (lex_num (k := 0) (rest := []) free_nil .nil)))),
    infix_up (n := 5) (by decide) (Infix.cmp (ts := [nameT (xName i)]) (op := [charTok '=']) (us := [numT 0]) .eq (sum_var _) rfl (sum_num 0)) (by decide)⟩

theorem yZero_formula (i : Nat) : IsFormula [] (yName i ++ txt!" = 0") (zeroFml (yName i)) :=
  ⟨[nameT (yName i), charTok '=', numT 0],
    lex_y (free_cons (by decide)) (.space (by decide) (lex_char (by decide) (.space (by decide) (lex_num (k := 0) (rest := []) free_nil .nil)))),
    infix_up (n := 5) (by decide) (Infix.cmp (ts := [nameT (yName i)]) (op := [charTok '=']) (us := [numT 0]) .eq (sum_var _) rfl (sum_num 0)) (by decide)⟩

def keepFml (n power i : Nat) : SFml :=
  .imp (.not (emptiedFml n power i)) (.cmp .eq (.var (prime (yName i))) (.add (.var (yName i)) (.var (prime (xName i)))))

def emptyFml (n power i : Nat) : SFml := .imp (emptiedFml n power i) (.cmp .eq (.var (prime (yName i))) (.var (prime (xName i))))

theorem keep_formula {n power i : Nat} (hp : 1 ≤ power) :
    IsFormula [] ('!' :: (emptiedText n power i ++ (txt!" -> " ++ (yName i ++ (txt!"' = " ++ (yName i ++ (txt!" + " ++ (xName i ++ txt!"'"))))))))
      (keepFml n power i) := by
  refine ⟨charTok '!' :: (emptiedToks n power i ++ [charTok '-', charTok '>', nameT (prime (yName i)), charTok '=', nameT (yName i), charTok '+', nameT (prime (xName i))]), ?_, ?_⟩
  · refine lex_char (by decide) (emptied_lexes hp (.space (by decide) (lex_char (by decide) (lex_char (by decide) (.space (by decide) ?_)))))
    refine lex_yp (free_cons (by decide)) (.space (by decide) (lex_char (by decide) (.space (by decide) ?_)))
    refine lex_y (free_cons (by decide)) (.space (by decide) (lex_char (by decide) (.space (by decide) ?_)))
    exact lex_xp (rest := []) free_nil .nil
  · have h1 := Infix.not (op := charTok '!') (.inl rfl) (infix_up (m := 4) (by decide) (emptied_infix n power i) (by decide))
    have h2 : Infix 5 [nameT (prime (yName i)), charTok '=', nameT (yName i), charTok '+', nameT (prime (xName i))]
        (.cmp .eq (.var (prime (yName i))) (.add (.var (yName i)) (.var (prime (xName i))))) :=
      Infix.cmp (ts := [nameT (prime (yName i))]) (op := [charTok '=']) (us := [nameT (yName i), charTok '+', nameT (prime (xName i))]) .eq (sum_var _) rfl
        (sum_two (number_var _) (sum_var _))
    have h3 := Infix.imp (infix_up (m := 1) (by decide) h1 (by decide)) (op := [charTok '-', charTok '>']) (.inl rfl) (infix_up (m := 2) (by decide) h2 (by decide))
    have := infix_up (m := 0) (by decide) h3 (by decide)
    simpa [keepFml] using this

theorem empty_formula {n power i : Nat} (hp : 1 ≤ power) :
    IsFormula [] (emptiedText n power i ++ (txt!" -> " ++ (yName i ++ (txt!"' = " ++ (xName i ++ txt!"'"))))) (emptyFml n power i) := by
  refine ⟨emptiedToks n power i ++ [charTok '-', charTok '>', nameT (prime (yName i)), charTok '=', nameT (prime (xName i))], ?_, ?_⟩
  · refine emptied_lexes hp (.space (by decide) (lex_char (by decide) (lex_char (by decide) (.space (by decide) ?_))))
    refine lex_yp (free_cons (by decide)) (.space (by decide) (lex_char (by decide) (.space (by decide) ?_)))
    exact lex_xp (rest := []) free_nil .nil
  · have h2 : Infix 5 [nameT (prime (yName i)), charTok '=', nameT (prime (xName i))] (.cmp .eq (.var (prime (yName i))) (.var (prime (xName i)))) :=
      Infix.cmp (ts := [nameT (prime (yName i))]) (op := [charTok '=']) (us := [nameT (prime (xName i))]) .eq (sum_var _) rfl (sum_var _)
    have h3 := Infix.imp (infix_up (m := 1) (by decide) (emptied_infix n power i) (by decide)) (op := [charTok '-', charTok '>']) (.inl rfl)
      (infix_up (m := 2) (by decide) h2 (by decide))
    have := infix_up (m := 0) (by decide) h3 (by decide)
    simpa [emptyFml] using this

/-- The sum of the variables with these numbers (in the next step). -/
def sumExp : Nat → List Nat → NExp
  | i, [] => .var (prime (xName i))
  | i, j :: is => .add (.var (prime (xName i))) (sumExp j is)

def sumToks : Nat → List Nat → List Tok
  | i, [] => [nameT (prime (xName i))]
  | i, j :: is => nameT (prime (xName i)) :: charTok '+' :: sumToks j is

theorem sum_infix : ∀ (is : List Nat) (i : Nat), InfixSum (sumToks i is) (sumExp i is) := by
  intro is
  induction is with
  | nil => intro i; exact sum_var _
  | cons j is ih => intro i; exact InfixSum.add (ts := [nameT (prime (xName i))]) (op := charTok '+') (.one (number_var _)) rfl (ih j)

theorem sum_lexes {rest : List Char} {ts : List Tok} (hf : Free rest) (h : Lexes [] rest ts) : ∀ (is : List Nat) (i : Nat),
    Lexes [] (joined txt!"+" ((i :: is).map fun i => xName i ++ txt!"'") ++ rest) (sumToks i is ++ ts) := by
  intro is
  induction is with
  | nil =>
    intro i
    have := lex_xp (i := i) hf h
    simpa [joined, sumToks] using this
  | cons j is ih =>
    intro i
    have := lex_xp (i := i) (rest := '+' :: (joined txt!"+" ((j :: is).map fun i => xName i ++ txt!"'") ++ rest)) (free_cons (by decide)) (lex_char (by decide) (ih j))
    simpa [joined, sumToks] using this

def sumFml (units : Nat) : List Nat → SFml
  | [] => .tt
  | i :: is => .cmp .le (sumExp i is) (.num units)

theorem restriction_formula {n units : Nat} (hn : 1 ≤ n) : IsFormula [] (restriction n units) (sumFml units (List.range n)) := by
  unfold restriction
  cases hl : List.range n with
  | nil => rw [List.range_eq_nil] at hl; omega
  | cons i is =>
    refine ⟨sumToks i is ++ [charTok '<', charTok '=', numT units], ?_, ?_⟩
    · refine sum_lexes (free_cons (by decide)) (.space (by decide) (lex_char (by decide) (lex_char (by decide) (.space (by decide) ?_)))) is i
      have := lex_num (k := units) (rest := []) free_nil .nil
      rwa [List.append_nil] at this
    · have := Infix.cmp (op := [charTok '<', charTok '=']) .le (sum_infix is i) rfl (sum_num units)
      have := infix_up (m := 0) (by decide) this (by decide)
      simpa [sumFml] using this

end Slugs.Model.Cinderella
