import Verif.Model.Report
import Verif.Spec.Report
import Verif.Lemmas.AigerText

/-! The texts in a report. -/

namespace Slugs.Model.Report

open Slugs.Spec

theorem escape_cons (c : Char) (s : List Char) :
    escape (c :: s) = (if c = '&' then txt!"&amp;" else if c = '<' then txt!"&lt;" else if c = '>' then txt!"&gt;" else [c]) ++ escape s := by
  rw [escape, escape]
  simp only [replaceChar, List.flatMap_cons, List.flatMap_append]
  congr 1
  split
  · decide
  · split
    · rename_i h; subst h; decide
    · split
      · rename_i h; subst h; decide
      · rename_i h1 h2 h3; simp [h2, h3]

theorem escape_append (s t : List Char) : escape (s ++ t) = escape s ++ escape t := by simp [escape, replaceChar, List.flatMap_append]

theorem shows_append {h h' t t' : List Char} (h1 : ShowsText h t) (h2 : ShowsText h' t') : ShowsText (h ++ h') (t ++ t') := by
  induction h1 with
  | nil => exact h2
  | plain a b c _ ih => exact .plain a b c ih
  | lt _ ih => exact .lt ih
  | gt _ ih => exact .gt ih
  | amp _ ih => exact .amp ih

/-- What has been escaped is shown. -/
theorem escape_shows (s : List Char) : ShowsText (escape s) s := by
  induction s with
  | nil => exact .nil
  | cons c s ih =>
    rw [escape_cons]
    split
    · rename_i h; subst h; exact .amp ih
    · split
      · rename_i h; subst h; exact .lt ih
      · split
        · rename_i h; subst h; exact .gt ih
        · rename_i h1 h2 h3; exact .plain h2 h3 h1 ih

theorem shows_plain {s : List Char} (h : ∀ c ∈ s, c ≠ '<' ∧ c ≠ '>' ∧ c ≠ '&') : ShowsText s s := by
  induction s with
  | nil => exact .nil
  | cons c s ih =>
    rw [List.forall_mem_cons] at h
    exact .plain h.1.1 h.1.2.1 h.1.2.2 (ih h.2)

/-! ### The copy of the specification -/

/-- What is printed for a line between the first and the last line that is not blank. -/
def render (l : List Char) : List Char := if blankLine l = true then ['\n'] else escape l ++ softspace l

def dropEnd (L : List (List Char)) : List (List Char) := (L.reverse.dropWhile blankLine).reverse

theorem dropEnd_nil : dropEnd [] = [] := rfl

theorem dropEnd_cons (l : List Char) (L : List (List Char)) :
    dropEnd (l :: L) = if dropEnd L = [] ∧ blankLine l = true then [] else l :: dropEnd L := by
  rw [dropEnd, dropEnd, List.reverse_cons, List.dropWhile_append]
  by_cases h : (L.reverse.dropWhile blankLine) = []
  · rw [h]
    by_cases hb : blankLine l = true
    · simp [hb]
    · simp [hb]
  · have : (L.reverse.dropWhile blankLine).isEmpty = false := by simpa [List.isEmpty_iff] using h
    simp [this, h]

theorem blankLine_iff {l : List Char} : blankLine l = true ↔ trim l = [] := by simp [blankLine]

theorem endMark_eq : endMark = reportEnd := rfl

def notEnd (l : List Char) : Bool := decide (trim l ≠ reportEnd)

theorem copyLoop_eq : ∀ (L : List (List Char)) (n : Nat), copyLoop n L =
    if dropEnd (L.takeWhile notEnd) = [] then [] else List.replicate n '\n' ++ (dropEnd (L.takeWhile notEnd)).flatMap render
  | [], n => by simp [copyLoop, dropEnd]
  | l :: L, n => by
    rw [copyLoop, endMark_eq]
    by_cases hb : trim l = []
    · have hne : notEnd l = true := by simp only [notEnd, hb, decide_eq_true_eq]; decide
      rw [if_pos hb, List.takeWhile_cons_of_pos hne, dropEnd_cons, show ((n : Int) + 1) = ((n + 1 : Nat) : Int) by simp, copyLoop_eq L (n + 1)]
      have hb' : blankLine l = true := blankLine_iff.mpr hb
      by_cases he : dropEnd (L.takeWhile notEnd) = []
      · simp [he, hb']
      · simp [he, render, hb', List.replicate_succ', List.append_assoc]
    · rw [if_neg hb]
      have hb' : ¬ blankLine l = true := fun h => hb (blankLine_iff.mp h)
      by_cases he : trim l = reportEnd
      · have hne : ¬ notEnd l = true := by simp [notEnd, he]
        rw [if_pos he, List.takeWhile_cons_of_neg hne]
        simp [dropEnd]
      · have hne : notEnd l = true := by simpa [notEnd] using he
        have ed : ∀ X, dropEnd (l :: X) = l :: dropEnd X := fun X => by rw [dropEnd_cons, if_neg fun h => hb' h.2]
        rw [if_neg he, List.takeWhile_cons_of_pos hne, ed, if_neg (by simp), show (0 : Int) = ((0 : Nat) : Int) by rfl, copyLoop_eq L 0]
        have : ∀ X : List (List Char), (if X = [] then [] else List.replicate 0 '\n' ++ X.flatMap render) = X.flatMap render := by
          intro X; split
          · rename_i h; subst h; rfl
          · simp
        rw [this]
        simp [render, hb', List.append_assoc]

theorem copyLoop_start : ∀ (L : List (List Char)) (n : Int), n + (L.takeWhile blankLine).length ≤ 0 → copyLoop n L = copyLoop 0 (L.dropWhile blankLine)
  | [], _, _ => by simp [copyLoop]
  | l :: L, n, h => by
    by_cases hb : blankLine l = true
    · rw [List.takeWhile_cons_of_pos hb, List.length_cons] at h
      rw [List.dropWhile_cons_of_pos hb, ← copyLoop_start L (n + 1) (by omega), copyLoop, if_pos (blankLine_iff.mp hb)]
    · rw [List.takeWhile_cons_of_neg hb] at h
      have hb' : trim l ≠ [] := fun h => hb (blankLine_iff.mpr h)
      rw [List.dropWhile_cons_of_neg hb, copyLoop, copyLoop, if_neg hb', if_neg hb']
      have : n.toNat = 0 := by simp at h; omega
      rw [this]; rfl

/-- The lines with their line ends: only the last line may lack it. -/
inductive Ended : List (List Char) → List (List Char) → Prop
  | nil : Ended [] []
  | last {l} : l ≠ [] → '\n' ∉ l → Ended [l] [l]
  | cons {l R L} : '\n' ∉ l → Ended R L → Ended ((l ++ ['\n']) :: R) (l :: L)

theorem rawLines_ended (s : List Char) : ∀ cur, '\n' ∉ cur → Ended (Aiger.rawLinesAux cur s) (splitLinesAux cur s) := by
  induction s with
  | nil =>
    intro cur hc
    rw [Aiger.rawLinesAux, splitLinesAux]
    split
    · exact .nil
    · rename_i h
      exact .last (by simpa [List.isEmpty_iff] using h) (by simpa using hc)
  | cons c s ih =>
    intro cur hc
    rw [Aiger.rawLinesAux, splitLinesAux]
    split
    · exact .cons (by simpa using hc) (ih [] (by simp))
    · rename_i h
      have h : c ≠ '\n' := by simpa using h
      refine ih _ ?_
      rw [List.mem_cons, not_or]
      exact ⟨fun e => h e.symm, hc⟩

/-- A test that does not see the line end. -/
def Deaf (p : List Char → Bool) : Prop := ∀ l, p (l ++ ['\n']) = p l

theorem blankLine_deaf : Deaf blankLine := fun l => by rw [blankLine, blankLine, Aiger.trim_newline]
theorem notEnd_deaf : Deaf notEnd := fun l => by rw [notEnd, notEnd, Aiger.trim_newline]

theorem Ended.dropWhile {p : List Char → Bool} (hp : Deaf p) {R L : List (List Char)} (h : Ended R L) : Ended (R.dropWhile p) (L.dropWhile p) := by
  induction h with
  | nil => exact .nil
  | @last l h1 h2 =>
    by_cases hl : p l = true
    · simp only [List.dropWhile_cons_of_pos hl]; exact .nil
    · simp only [List.dropWhile_cons_of_neg hl]; exact .last h1 h2
  | @cons l R L h1 h2 ih =>
    by_cases hl : p l = true
    · rw [List.dropWhile_cons_of_pos (by rw [hp]; exact hl), List.dropWhile_cons_of_pos hl]; exact ih
    · rw [List.dropWhile_cons_of_neg (by rw [hp]; exact hl), List.dropWhile_cons_of_neg hl]; exact .cons h1 h2

theorem Ended.takeWhile {p : List Char → Bool} (hp : Deaf p) {R L : List (List Char)} (h : Ended R L) : Ended (R.takeWhile p) (L.takeWhile p) := by
  induction h with
  | nil => exact .nil
  | @last l h1 h2 =>
    by_cases hl : p l = true
    · simp only [List.takeWhile_cons_of_pos hl]; exact .last h1 h2
    · simp only [List.takeWhile_cons_of_neg hl]; exact .nil
  | @cons l R L h1 h2 ih =>
    by_cases hl : p l = true
    · rw [List.takeWhile_cons_of_pos (by rw [hp]; exact hl), List.takeWhile_cons_of_pos hl]; exact .cons h1 ih
    · rw [List.takeWhile_cons_of_neg (by rw [hp]; exact hl), List.takeWhile_cons_of_neg hl]; exact .nil

theorem Ended.dropEnd {R L : List (List Char)} (h : Ended R L) : Ended (dropEnd R) (dropEnd L) ∧ (Report.dropEnd R = [] ↔ Report.dropEnd L = []) := by
  induction h with
  | nil => exact ⟨.nil, Iff.rfl⟩
  | @last l h1 h2 =>
    rw [dropEnd_cons]
    split
    · exact ⟨.nil, Iff.rfl⟩
    · exact ⟨.last h1 h2, Iff.rfl⟩
  | @cons l R L h1 h2 ih =>
    rw [dropEnd_cons, dropEnd_cons]
    by_cases h : Report.dropEnd L = [] ∧ blankLine l = true
    · rw [if_pos h, if_pos ⟨ih.2.mpr h.1, by rw [blankLine_deaf]; exact h.2⟩]
      exact ⟨.nil, Iff.rfl⟩
    · rw [if_neg h, if_neg fun h' => h ⟨ih.2.mp h'.1, by rw [← blankLine_deaf]; exact h'.2⟩]
      exact ⟨.cons h1 ih.1, by simp⟩

def shown (l : List Char) : List Char := if blankLine l = true then [] else l

theorem softspace_newline (l : List Char) : softspace (l ++ ['\n']) = [] := by
  rw [softspace, List.getLast?_append]; rfl

theorem render_ended {R L : List (List Char)} (h : Ended R L) : ∃ tail, (tail = [] ∨ tail = ['\n'] ∨ tail = [' ']) ∧
    ShowsText (R.flatMap render) ((txt!"\n").intercalate (L.map shown) ++ tail) := by
  have soft : ∀ l, softspace l = [] ∨ softspace l = [' '] := by
    intro l; rw [softspace]; split
    · split <;> simp
    · simp
  have nl : ShowsText ['\n'] ['\n'] := .plain (by decide) (by decide) (by decide) .nil
  have ren : ∀ l, ShowsText (render (l ++ ['\n'])) (shown l ++ ['\n']) := by
    intro l
    rw [render, shown, blankLine_deaf]
    split
    · exact nl
    · rw [softspace_newline, List.append_nil]; exact escape_shows _
  induction h with
  | nil => exact ⟨[], .inl rfl, .nil⟩
  | @last l h1 h2 =>
    rw [List.flatMap_cons, List.flatMap_nil, List.append_nil, render, List.map_cons, List.map_nil, shown]
    split
    · exact ⟨['\n'], by simp, nl⟩
    · refine ⟨softspace l, ?_, ?_⟩
      · rcases soft l with h | h <;> simp [h]
      · have : ShowsText (softspace l) (softspace l) := by
          rcases soft l with h | h <;> rw [h]
          · exact .nil
          · exact .plain (by decide) (by decide) (by decide) .nil
        have := shows_append (escape_shows l) this
        simpa [List.intercalate, List.intersperse] using this
  | @cons l R L h1 h2 ih =>
    obtain ⟨tail, ht, hs⟩ := ih
    rw [List.flatMap_cons, List.map_cons]
    cases h2 with
    | nil => exact ⟨['\n'], by simp, by simpa [List.intercalate, List.intersperse] using ren l⟩
    | last h3 h4 =>
      refine ⟨tail, ht, ?_⟩
      have := shows_append (ren l) hs
      simpa [List.intercalate, List.intersperse] using this
    | cons h3 h4 =>
      refine ⟨tail, ht, ?_⟩
      have := shows_append (ren l) hs
      simpa [List.intercalate, List.intersperse] using this

theorem takeWhile_dropWhile_comm (L : List (List Char)) : (L.dropWhile blankLine).takeWhile notEnd = (L.takeWhile notEnd).dropWhile blankLine := by
  induction L with
  | nil => rfl
  | cons l L ih =>
    by_cases hb : blankLine l = true
    · have hne : notEnd l = true := by
        simp only [notEnd, blankLine_iff.mp hb, decide_eq_true_eq]; decide
      rw [List.dropWhile_cons_of_pos hb, List.takeWhile_cons_of_pos hne, List.dropWhile_cons_of_pos hb, ih]
    · rw [List.dropWhile_cons_of_neg hb]
      by_cases hne : notEnd l = true
      · rw [List.takeWhile_cons_of_pos hne, List.dropWhile_cons_of_neg hb]
      · rw [List.takeWhile_cons_of_neg hne]; rfl

theorem Ended.blanks {R L : List (List Char)} (h : Ended R L) : (R.takeWhile blankLine).length = (L.takeWhile blankLine).length := by
  have := h.takeWhile blankLine_deaf
  revert this
  generalize R.takeWhile blankLine = R'
  generalize L.takeWhile blankLine = L'
  intro h
  induction h with
  | nil => rfl
  | last => rfl
  | cons _ _ ih => simp [ih]

/-- The copy shows the lines. -/
theorem copySpecification_shows (file : List Char) (h : ((splitLines file).takeWhile blankLine).length ≤ 10000) :
    ∃ tail, (tail = [] ∨ tail = ['\n'] ∨ tail = [' ']) ∧ ShowsText (copySpecification file) ((txt!"\n").intercalate (shownLines file) ++ tail) := by
  have he : Ended (Aiger.rawLines file) (splitLines file) := rawLines_ended file [] (by simp)
  rw [copySpecification, copyLoop_start _ _ (by rw [he.blanks]; omega), show (0 : Int) = ((0 : Nat) : Int) by rfl, copyLoop_eq, takeWhile_dropWhile_comm]
  obtain ⟨tail, h1, h2⟩ := render_ended (((he.takeWhile notEnd_deaf).dropWhile blankLine_deaf).dropEnd.1)
  refine ⟨tail, h1, ?_⟩
  have e : ∀ X : List (List Char), (if X = [] then [] else List.replicate 0 '\n' ++ X.flatMap render) = X.flatMap render := by
    intro X; split
    · rename_i h; subst h; rfl
    · simp
  rw [e]
  exact h2

end Slugs.Model.Report
