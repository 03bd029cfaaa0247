import Verif.Model.NuSmv
import Verif.Lemmas.Graphviz
import Verif.Lemmas.AigerText

/-!
What the program that makes instances for NuSMV reads: specifications and automata.
-/

namespace Slugs.Model.NuSmv

open Slugs.Spec Slugs.Model Slugs.Model.Structured Slugs.Model.Decoder
open Slugs.Model.Core (Categories)
open Slugs.Model.Graphviz (setItem setItem_new line1 line2 bitText_chars)
open Slugs.Model.Aiger (int2_decimal)

/-! ### Specifications -/

theorem readSpec_congr (ls : List (List Char)) : ∀ (ls' : List (List Char)) (t : List Char) (c : Categories), ls.map trim = ls'.map trim → readSpec t c ls = readSpec t c ls' := by
  induction ls with
  | nil =>
    intro ls' t c h
    rw [List.map_nil] at h
    rw [List.map_eq_nil_iff.mp h.symm]
  | cons l ls ih =>
    intro ls' t c h
    cases ls' with
    | nil => simp at h
    | cons l' ls' =>
      rw [List.map_cons, List.map_cons] at h
      obtain ⟨h1, h2⟩ := List.cons.inj h
      have ih' := fun t c => ih ls' t c h2
      rw [readSpec.eq_def, readSpec.eq_def t c (l' :: ls')]
      simp only [h1, ih']

theorem readSpec_content {cur : Option Section} {ls : List (List Char)} {items : List (Section × List Char)} (h : Content cur ls items) :
    ∀ (t : List Char) (c : Categories), (∀ s, cur = some s → headerOf t = some s) → readSpec t c ls = some fun s => c s ++ itemsOf s items := by
  induction h with
  | nil => intro t c _; simp [readSpec, itemsOf]
  | @skip cur l ls items h _ ih =>
    intro t c ht
    rw [readSpec]
    rw [if_neg, ih t c ht]
    rintro ⟨h1, h2⟩
    rcases h with h | h
    · rw [h] at h2; simp at h2
    · exact h1 h
  | @header cur l ls items s h _ ih =>
    intro t c _
    rw [readSpec]
    rw [h, if_pos ⟨by rw [Core.header_head]; decide, by cases s <;> decide⟩, if_pos (Core.header_head s), Core.headerOf_header]
    exact ih _ c fun s' e => by cases e; exact Core.headerOf_header s
  | @item s l ls items h1 h2 h3 _ ih =>
    intro t c ht
    rw [readSpec]
    rw [if_pos ⟨h2, List.length_pos_iff.mpr h1⟩, if_neg h3, ht s rfl]
    dsimp only
    rw [ih t _ ht]
    congr 1
    funext s'
    by_cases e : s' = s
    · subst e; simp [Core.Categories.add, itemsOf]
    · have e' : ¬ s = s' := fun h => e h.symm
      simp [Core.Categories.add, itemsOf, e, e']

theorem readSpec_text {text : List Char} {items : List (Section × List Char)} (h : Content none (splitLines text) items) :
    readSpec [] (fun _ => []) (Aiger.rawLines text) = some fun s => itemsOf s items := by
  rw [readSpec_congr (Aiger.rawLines text) (splitLines text) _ _ (Aiger.rawLines_trim text []), readSpec_content h [] (fun _ => []) (fun s h => by cases h)]
  simp

/-! ### Lines -/

theorem rawLinesAux_line {a : List Char} (h : '\n' ∉ a) : ∀ (cur rest : List Char), Aiger.rawLinesAux cur (a ++ '\n' :: rest) = (cur.reverse ++ a ++ ['\n']) :: Aiger.rawLinesAux [] rest := by
  induction a with
  | nil => intro cur rest; simp [Aiger.rawLinesAux]
  | cons c a ih =>
    intro cur rest
    rw [List.mem_cons, not_or] at h
    rw [List.cons_append, Aiger.rawLinesAux, if_neg (by simpa using fun e : c = '\n' => h.1 e.symm), ih h.2]
    simp

theorem rawLines_line {a : List Char} (h : '\n' ∉ a) (rest : List Char) : Aiger.rawLines (a ++ '\n' :: rest) = (a ++ ['\n']) :: Aiger.rawLines rest := by
  rw [Aiger.rawLines, rawLinesAux_line h]; rfl

/-! ### Splitting -/

/-- Names that are not torn apart. -/
def Whole (w : List Char) : Prop := ∀ c ∈ w, isSpace c = false ∧ c ≠ ',' ∧ c ≠ '<' ∧ c ≠ ':' ∧ c ≠ '>'

theorem Whole.decimal (n : Nat) : Whole (decimal n) := fun c hc =>
  have h := decimal_digits n c hc
  ⟨not_space (Graphviz.decimal_clean n c hc), digit_ne h (by decide), digit_ne h (by decide), digit_ne h (by decide), digit_ne h (by decide)⟩

theorem Whole.bit (b : Bool) : Whole (bitText b) := by cases b <;> (unfold Whole; decide)

theorem first_word {w : List Char} (h : Whole w) : ∀ (cur rest : List Char), reSplitAux firstSep 0 cur (w ++ rest) = reSplitAux firstSep 0 (w.reverse ++ cur) rest := by
  induction w with
  | nil => intro cur rest; rfl
  | cons c w ih =>
    intro cur rest
    obtain ⟨h1, h2, h3, h4, h5⟩ := h c (by simp)
    have hs : c ≠ ' ' := by rintro rfl; exact absurd h1 (by decide)
    have e : firstSep (c :: (w ++ rest)) = 0 := by simp [firstSep, List.isPrefixOf, h2, h3, h4, h5, hs, hs.symm, h2.symm]
    rw [List.cons_append, reSplitAux]
    simp only [e]
    rw [ih fun d hd => h d (by simp [hd])]
    simp

theorem second_word {w : List Char} (h : Whole w) : ∀ (cur rest : List Char), reSplitAux secondSep 0 cur (w ++ rest) = reSplitAux secondSep 0 (w.reverse ++ cur) rest := by
  induction w with
  | nil => intro cur rest; rfl
  | cons c w ih =>
    intro cur rest
    obtain ⟨h1, h2, h3, h4, h5⟩ := h c (by simp)
    have hs : c ≠ ' ' := by rintro rfl; exact absurd h1 (by decide)
    have e : secondSep (c :: (w ++ rest)) = 0 := by simp [secondSep, List.isPrefixOf, h2, h3, h4, h5, hs, hs.symm, h2.symm]
    rw [List.cons_append, reSplitAux]
    simp only [e]
    rw [ih fun d hd => h d (by simp [hd])]
    simp

theorem first_one {c : Char} (hc : c = '<' ∨ c = ':' ∨ c = '>') (cur rest : List Char) : reSplitAux firstSep 0 cur (c :: rest) = cur.reverse :: reSplitAux firstSep 0 [] rest := by
  have e : firstSep (c :: rest) = 1 := by rcases hc with rfl | rfl | rfl <;> simp [firstSep, List.isPrefixOf]
  rw [reSplitAux]; simp only [e]

theorem first_blank {c : Char} (hc : c ≠ '-') (cur rest : List Char) : reSplitAux firstSep 0 cur (' ' :: c :: rest) = cur.reverse :: reSplitAux firstSep 0 [] (c :: rest) := by
  have e : firstSep (' ' :: c :: rest) = 1 := by simp [firstSep, List.isPrefixOf, hc.symm]
  rw [reSplitAux]; simp only [e]

theorem first_blank_decimal (n : Nat) (cur rest : List Char) : reSplitAux firstSep 0 cur (' ' :: (decimal n ++ rest)) = cur.reverse :: reSplitAux firstSep 0 (decimal n).reverse rest := by
  have h := first_word (Whole.decimal n) [] rest
  obtain ⟨c, w, e⟩ := List.exists_cons_of_ne_nil (decimal_ne_nil n)
  have hc : c ≠ '-' := digit_ne (decimal_digits n c (by rw [e]; simp)) (by decide)
  rw [List.append_nil] at h
  rw [← h, e]
  exact first_blank hc cur _

theorem first_comma (cur rest : List Char) : reSplitAux firstSep 0 cur (',' :: ' ' :: rest) = cur.reverse :: reSplitAux firstSep 0 [] rest := by
  have e : firstSep (',' :: ' ' :: rest) = 2 := by simp [firstSep, List.isPrefixOf]
  rw [reSplitAux]; simp only [e]; rw [reSplitAux]

theorem second_comma (cur rest : List Char) : reSplitAux secondSep 0 cur (',' :: ' ' :: rest) = cur.reverse :: reSplitAux secondSep 0 [] rest := by
  have e : secondSep (',' :: ' ' :: rest) = 2 := by simp [secondSep, List.isPrefixOf]
  rw [reSplitAux]; simp only [e]; rw [reSplitAux]

theorem first_arrow (cur rest : List Char) : reSplitAux firstSep 0 cur (' ' :: '-' :: '>' :: rest) = cur.reverse :: reSplitAux firstSep 0 [] rest := by
  have e : firstSep (' ' :: '-' :: '>' :: rest) = 3 := by simp [firstSep, List.isPrefixOf]
  rw [reSplitAux]; simp only [e]; rw [reSplitAux, reSplitAux]

/-- The pieces of the values of a state. -/
theorem first_label : ∀ {label : List (Word × Bool)}, label ≠ [] → (∀ l ∈ label, Whole l.1) →
    reSplitAux firstSep 0 [] (labelText label ++ ['>']) = (label.flatMap fun l => [l.1, bitText l.2]) ++ [[]]
  | [], h, _ => absurd rfl h
  | [l], _, h => by
    have hl := h l (by simp)
    have e : labelText [l] ++ ['>'] = l.1 ++ (':' :: (bitText l.2 ++ ['>'])) := by simp [labelText, withCommas]
    rw [e, first_word hl, first_one (by simp), first_word (Whole.bit _), first_one (by simp)]
    simp [reSplitAux]
  | l :: m :: ls, _, h => by
    have hl := h l (by simp)
    have ih := first_label (label := m :: ls) (by simp) fun x hx => h x (by simp [List.mem_cons.mp hx])
    have e : labelText (l :: m :: ls) ++ ['>'] = l.1 ++ (':' :: (bitText l.2 ++ (',' :: ' ' :: (labelText (m :: ls) ++ ['>'])))) := by simp [labelText, withCommas]
    rw [e, first_word hl, first_one (by simp), first_word (Whole.bit _), first_comma, ih]
    simp

theorem split_first {st : PState} (hne : st.label ≠ []) (h : ∀ l ∈ st.label, Whole l.1) :
    reSplit firstSep (line1 st) = [txt!"State", decimal st.num, txt!"with", txt!"rank", decimal st.rank, [], []] ++ ((st.label.flatMap fun l => [l.1, bitText l.2]) ++ [[]]) := by
  have e : line1 st = txt!"State" ++ (' ' :: (decimal st.num ++ (' ' :: 'w' :: (txt!"ith" ++ (' ' :: 'r' :: (txt!"ank" ++ (' ' :: (decimal st.rank ++
      (' ' :: '-' :: '>' :: ' ' :: '<' :: (labelText st.label ++ ['>'])))))))))) := by simp [line1]
  have w1 : ∀ rest, reSplitAux firstSep 0 [] ('w' :: (txt!"ith" ++ rest)) = reSplitAux firstSep 0 (txt!"with").reverse rest := fun rest =>
    first_word (w := txt!"with") (by unfold Whole; decide) [] rest
  have w2 : ∀ rest, reSplitAux firstSep 0 [] ('r' :: (txt!"ank" ++ rest)) = reSplitAux firstSep 0 (txt!"rank").reverse rest := fun rest =>
    first_word (w := txt!"rank") (by unfold Whole; decide) [] rest
  rw [reSplit, e, first_word (w := txt!"State") (by unfold Whole; decide), first_blank_decimal, first_blank (by decide), w1, first_blank (by decide), w2, first_blank_decimal, first_arrow,
    first_blank (by decide), first_one (by simp), first_label hne h]
  simp

/-! ### Automata -/

def bitInt (b : Bool) : Int := if b then 1 else 0

/-- The values of a state, as they are read. -/
def valuation (st : PState) : Valuation := st.label.map fun l => (l.1, bitInt l.2)

/-- A state, as it is read. -/
def astate (st : PState) : AState := (valuation st, st.succ.map fun n : Nat => (n : Int))

theorem int2_bit (b : Bool) : StuckAt.int2 (bitText b) = some (bitInt b) := by cases b <;> decide +kernel

theorem readValues_eq : ∀ (label : List (Word × Bool)) (d : Valuation), (d.map Prod.fst ++ label.map Prod.fst).Nodup →
    readValues ((label.flatMap fun l => [l.1, bitText l.2]) ++ [[]]) d = some (d ++ label.map fun l => (l.1, bitInt l.2))
  | [], d, _ => by simp [readValues]
  | l :: ls, d, h => by
    have hn : l.1 ∉ d.map Prod.fst := by
      intro hm
      rw [List.nodup_append] at h
      exact h.2.2 _ hm _ (by simp) rfl
    have ih := readValues_eq ls (setItem l.1 (bitInt l.2) d) (by
      rw [setItem_new hn]
      simpa using h)
    simp only [List.flatMap_cons, List.cons_append, List.nil_append]
    rw [readValues]
    simp only [int2_bit]
    rw [ih, setItem_new hn]
    simp

theorem firstLine_eq {st : PState} (hne : st.label ≠ []) (h : ∀ l ∈ st.label, Whole l.1) (hn : (st.label.map Prod.fst).Nodup) :
    firstLine st.num (line1 st) = some (valuation st) := by
  rw [firstLine]
  rw [split_first hne h, if_pos]
  · exact readValues_eq st.label [] (by simpa using hn)
  · simp [strNat_eq]

theorem second_numbers : ∀ (l : List Nat), l ≠ [] → reSplitAux secondSep 0 [] (withCommas (l.map decimal)) = l.map decimal
  | [], h => absurd rfl h
  | [n], _ => by
    have := second_word (Whole.decimal n) [] []
    simp only [List.append_nil] at this
    simp [withCommas, this, reSplitAux]
  | n :: m :: l, _ => by
    have ih := second_numbers (m :: l) (by simp)
    have e : withCommas ((n :: m :: l).map decimal) = decimal n ++ (',' :: ' ' :: withCommas ((m :: l).map decimal)) := by simp [withCommas]
    rw [e, second_word (Whole.decimal n), second_comma, ih]
    simp

theorem mapM_int2 : ∀ l : List Nat, (l.map decimal).mapM StuckAt.int2 = some (l.map fun n : Nat => (n : Int))
  | [] => rfl
  | n :: l => by
    rw [List.map_cons, List.mapM_cons, int2_decimal, mapM_int2 l]
    rfl

theorem trim_eq {a s b : List Char} (ha : ∀ c ∈ a, isSpace c = true) (hb : ∀ c ∈ b, isSpace c = true) (h1 : ∀ c, s.head? = some c → isSpace c = false)
    (h2 : ∀ c, s.getLast? = some c → isSpace c = false) (hne : s ≠ []) : trim (a ++ s ++ b) = s := by
  have hd : s.dropWhile isSpace = s := by
    cases s with
    | nil => rfl
    | cons c s => rw [List.dropWhile_cons_of_neg (by rw [h1 c rfl]; decide)]
  have e1 : (a ++ s ++ b).dropWhile isSpace = s ++ b := by
    rw [List.append_assoc, List.dropWhile_append_of_pos ha]
    cases s with
    | nil => exact absurd rfl hne
    | cons c s => rw [List.cons_append, List.dropWhile_cons_of_neg (by rw [h1 c rfl]; decide)]
  have hr : s.reverse.dropWhile isSpace = s.reverse := by
    cases hs : s.reverse with
    | nil => rfl
    | cons c s' =>
      rw [List.dropWhile_cons_of_neg]
      have : s.getLast? = some c := by rw [List.getLast?_eq_head?_reverse, hs]; rfl
      rw [h2 c this]; decide
  rw [trim, e1, List.reverse_append, List.dropWhile_append_of_pos (fun c hc => hb c (List.mem_reverse.mp hc)), hr, List.reverse_reverse]

theorem trim_line1 (st : PState) : trim (line1 st ++ ['\n']) = line1 st := by
  have := trim_eq (a := []) (s := line1 st) (b := ['\n']) (by simp) (by simp; decide) (by simp [line1]; decide) (by
    intro c hc
    have : line1 st = (txt!"State " ++ decimal st.num ++ txt!" with rank " ++ decimal st.rank ++ txt!" -> " ++ '<' :: labelText st.label) ++ ['>'] := by simp [line1]
    rw [this, List.getLast?_append] at hc
    simp at hc
    subst hc
    decide) (by simp [line1])
  simpa using this

theorem numbers_last {l : List Nat} {c : Char} (h : (withCommas (l.map decimal)).getLast? = some c) (hl : l ≠ []) : isSpace c = false :=
  not_space (Graphviz.withCommas_last l hl c h)

theorem secondLine_eq (st : PState) : secondLine (line2 st ++ ['\n']) = some (st.succ.map fun n : Nat => (n : Int)) := by
  by_cases hs : st.succ = []
  · have : line2 st ++ ['\n'] = txt!"\tWith successors : \n" := by simp [line2, hs, withCommas]
    rw [this, hs]
    decide +kernel
  · have hne : withCommas (st.succ.map decimal) ≠ [] := by
      obtain ⟨n, l, e⟩ := List.exists_cons_of_ne_nil hs
      rw [e]
      cases l with
      | nil => simpa [withCommas] using decimal_ne_nil n
      | cons k l => simp [withCommas]
    have ht : trim (line2 st ++ ['\n']) = txt!"With successors : " ++ withCommas (st.succ.map decimal) := by
      have := trim_eq (a := ['\t']) (s := txt!"With successors : " ++ withCommas (st.succ.map decimal)) (b := ['\n']) (by simp; decide) (by simp; decide)
        (by simp; decide) (by
          intro c hc
          rw [List.getLast?_append] at hc
          cases hg : (withCommas (st.succ.map decimal)).getLast? with
          | some d =>
            rw [hg] at hc
            simp only [Option.some_or, Option.some.injEq] at hc
            subst hc
            exact numbers_last hg hs
          | none => exact absurd (List.getLast?_eq_none_iff.mp hg) hne) (by simp)
      simpa [line2] using this
    have hp : reSplit secondSep (txt!"With successors : " ++ withCommas (st.succ.map decimal)) = txt!"With successors" :: st.succ.map decimal := by
      have e : reSplit secondSep (txt!"With successors : " ++ withCommas (st.succ.map decimal)) = txt!"With successors" :: reSplitAux secondSep 0 [] (withCommas (st.succ.map decimal)) := rfl
      rw [e, second_numbers st.succ hs]
    rw [secondLine]
    rw [ht, hp, if_pos (show (List.isPrefixOf _ (List.headD (_ :: _) _)) = true by rw [List.headD_cons]; decide)]
    exact mapM_int2 st.succ

/-- Names for which automata can be read. -/
structure Legible (st : PState) : Prop where
  nonempty : st.label ≠ []
  whole : ∀ l ∈ st.label, Whole l.1
  nodup : (st.label.map Prod.fst).Nodup

theorem no_newline {w : List Char} (h : Whole w) : '\n' ∉ w := fun hm => absurd (h _ hm).1 (by decide)

theorem readAutomaton_eq : ∀ (sts : List PState) (done : List AState), (∀ st ∈ sts, Legible st) → sts.map PState.num = List.range' done.length sts.length →
    readAutomaton (Aiger.rawLines (sts.map stateText).flatten) done = some (done ++ sts.map astate)
  | [], done, _, _ => by simp [readAutomaton, Aiger.rawLines, Aiger.rawLinesAux]
  | st :: sts, done, h, hnum => by
    have hst := h st (by simp)
    rw [List.map_cons, List.length_cons, List.range'_succ] at hnum
    obtain ⟨n1, n2⟩ := List.cons.inj hnum
    have ih := readAutomaton_eq sts (done ++ [astate st]) (fun x hx => h x (by simp [hx])) (by simpa using n2)
    have e : (((st :: sts).map stateText).flatten) = line1 st ++ '\n' :: (line2 st ++ '\n' :: (sts.map stateText).flatten) := by
      simp [stateText, line1, line2]
    have m1 : '\n' ∉ line1 st := by
      simp only [line1, List.mem_append, List.mem_cons, not_or]
      refine ⟨⟨⟨⟨⟨by decide, no_newline (Whole.decimal _)⟩, by decide⟩, no_newline (Whole.decimal _)⟩, by decide⟩, by decide, ?_, by decide⟩
      refine commas_not_mem (by decide) fun a ha => ?_
      obtain ⟨l, hl, rfl⟩ := List.mem_map.mp ha
      simp only [List.mem_append, not_or]
      exact ⟨⟨no_newline (hst.whole l hl), by decide⟩, no_newline (Whole.bit _)⟩
    have m2 : '\n' ∉ line2 st := by
      simp only [line2, List.mem_append, not_or]
      refine ⟨by decide, commas_not_mem (by decide) fun a ha => ?_⟩
      obtain ⟨l, hl, rfl⟩ := List.mem_map.mp ha
      exact no_newline (Whole.decimal _)
    have hf : firstLine done.length (trim (line1 st ++ ['\n'])) = some (valuation st) := by
      rw [trim_line1, ← n1, firstLine_eq hst.nonempty hst.whole hst.nodup]
    rw [e, rawLines_line m1, rawLines_line m2, readAutomaton.eq_def]
    dsimp only
    rw [if_pos (by rw [trim_line1]; simp [line1])]
    simp only [hf, secondLine_eq]
    have e2 : (valuation st, st.succ.map fun n : Nat => (n : Int)) = astate st := rfl
    rw [e2, ih]
    simp

/-- The number that `firstLine` expects is that of the state. -/
theorem firstLine_num {n : Nat} {st : PState} {v : Valuation} (hne : st.label ≠ []) (h : ∀ l ∈ st.label, Whole l.1) (hf : firstLine n (line1 st) = some v) : st.num = n := by
  rw [firstLine, split_first hne h] at hf
  split at hf
  · rename_i hc
    have := hc.2.1
    simp only [strNat_eq, List.getElem?_cons_succ, List.getElem?_cons_zero, List.cons_append, Option.some.injEq] at this
    exact decimal_inj this
  · cases hf

/-- States that are read have the numbers 0, 1, …, in this order. -/
theorem readAutomaton_numbers : ∀ (sts : List PState) (done r : List AState), (∀ st ∈ sts, st.label ≠ [] ∧ ∀ l ∈ st.label, Whole l.1) →
    readAutomaton (Aiger.rawLines (sts.map stateText).flatten) done = some r → sts.map PState.num = List.range' done.length sts.length
  | [], _, _, _, _ => rfl
  | st :: sts, done, r, h, hr => by
    have hst := h st (by simp)
    have e : (((st :: sts).map stateText).flatten) = line1 st ++ '\n' :: (line2 st ++ '\n' :: (sts.map stateText).flatten) := by
      simp [stateText, line1, line2]
    have m1 : '\n' ∉ line1 st := by
      simp only [line1, List.mem_append, List.mem_cons, not_or]
      refine ⟨⟨⟨⟨⟨by decide, no_newline (Whole.decimal _)⟩, by decide⟩, no_newline (Whole.decimal _)⟩, by decide⟩, by decide, ?_, by decide⟩
      refine commas_not_mem (by decide) fun a ha => ?_
      obtain ⟨l, hl, rfl⟩ := List.mem_map.mp ha
      simp only [List.mem_append, not_or]
      exact ⟨⟨no_newline (hst.2 l hl), by decide⟩, no_newline (Whole.bit _)⟩
    have m2 : '\n' ∉ line2 st := by
      simp only [line2, List.mem_append, not_or]
      refine ⟨by decide, commas_not_mem (by decide) fun a ha => ?_⟩
      obtain ⟨l, hl, rfl⟩ := List.mem_map.mp ha
      exact no_newline (Whole.decimal _)
    rw [e, rawLines_line m1, rawLines_line m2, readAutomaton.eq_def] at hr
    dsimp only at hr
    rw [if_pos (by rw [trim_line1]; simp [line1]), trim_line1] at hr
    cases hf : firstLine done.length (line1 st) with
    | none => rw [hf] at hr; cases hr
    | some v =>
      rw [hf] at hr
      simp only [secondLine_eq] at hr
      have ih := readAutomaton_numbers sts _ r (fun x hx => h x (by simp [hx])) hr
      rw [List.map_cons, List.length_cons, List.range'_succ, firstLine_num hst.1 hst.2 hf, ih]
      simp

end Slugs.Model.NuSmv
