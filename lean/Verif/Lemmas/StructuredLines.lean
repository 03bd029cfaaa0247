import Verif.Lemmas.StructuredGame
import Verif.Lemmas.Order

/-!
Lines, sections and declarations of structured specifications.
-/

namespace Slugs.Model.Structured

open Slugs.Spec Slugs.Spec.Structured

/-! ### Lines -/

theorem pyLinesAux_eq (s : List Char) : ∀ cur, pyLinesAux cur s = splitLinesAux cur (universal s) := by
  fun_induction universal s with
  | case1 => intro cur; rw [pyLinesAux, splitLinesAux]
  | case2 cs ih => intro cur; rw [pyLinesAux, splitLinesAux, ih]; rfl
  | case3 c cs hne ih =>
    intro cur
    rw [pyLinesAux.eq_3 _ _ _ (by simpa using hne), splitLinesAux]
    by_cases h1 : c = '\r'
    · subst h1; simp [ih]
    · by_cases h2 : c = '\n'
      · subst h2; simp [ih]
      · simp [h1, h2, ih]

theorem pyLines_eq (s : List Char) : pyLines s = splitLines (universal s) := pyLinesAux_eq s []

theorem splitLinesAux_clean (s : List Char) : ∀ cur, '\n' ∉ cur → ∀ l ∈ splitLinesAux cur s, '\n' ∉ l := by
  induction s with
  | nil =>
    intro cur hc l hl
    rw [splitLinesAux] at hl
    split at hl
    · cases hl
    · rw [List.mem_singleton.mp hl]; simpa using hc
  | cons c s ih =>
    intro cur hc l hl
    rw [splitLinesAux] at hl
    split at hl
    · rcases List.mem_cons.mp hl with rfl | hl
      · simpa using hc
      · exact ih [] (by simp) l hl
    · rename_i hn
      refine ih (c :: cur) ?_ l hl
      simp only [beq_iff_eq] at hn
      simp [hc, Ne.symm hn]

theorem splitLines_clean (s : List Char) : ∀ l ∈ splitLines s, '\n' ∉ l := splitLinesAux_clean s [] (by simp)

theorem splitLinesAux_line (l : List Char) (rest : List Char) : ∀ cur, '\n' ∉ l → splitLinesAux cur (l ++ '\n' :: rest) = (cur.reverse ++ l) :: splitLinesAux [] rest := by
  induction l with
  | nil => intro cur _; simp [splitLinesAux]
  | cons c l ih =>
    intro cur h
    rw [List.mem_cons, not_or] at h
    rw [List.cons_append, splitLinesAux, if_neg (by simpa using Ne.symm h.1), ih _ h.2]
    simp

theorem splitLines_printLines : ∀ (ls : List (List Char)), (∀ l ∈ ls, '\n' ∉ l) → splitLines (printLines ls) = ls
  | [], _ => rfl
  | l :: ls, h => by
    rw [List.forall_mem_cons] at h
    have := splitLines_printLines ls h.2
    rw [splitLines] at this ⊢
    rw [printLines, splitLinesAux_line l _ [] h.1, this]
    rfl

/-! ### White space -/

theorem isspace_pySpace : isspace = pySpace := rfl

theorem strip_eq (s : List Char) : strip s = pyTrim s := rfl

theorem dropWhile_self {p : Char → Bool} {s : List Char} (h : ∀ c, s.head? = some c → p c = false) : s.dropWhile p = s := by
  cases s with
  | nil => rfl
  | cons c s => rw [List.dropWhile_cons_of_neg (by simp [h c rfl])]

theorem trimWith_self {p : Char → Bool} {s : List Char} (h1 : ∀ c, s.head? = some c → p c = false) (h2 : ∀ c, s.getLast? = some c → p c = false) :
    ((s.dropWhile p).reverse.dropWhile p).reverse = s := by
  rw [dropWhile_self h1, dropWhile_self (by rw [List.head?_reverse]; exact h2), List.reverse_reverse]

theorem dropWhile_head {p : Char → Bool} (s : List Char) {c : Char} (h : (s.dropWhile p).head? = some c) : p c = false := by
  induction s with
  | nil => cases h
  | cons d s ih =>
    by_cases hd : p d = true
    · rw [List.dropWhile_cons_of_pos hd] at h; exact ih h
    · rw [List.dropWhile_cons_of_neg hd] at h
      cases h
      simpa using hd

theorem dropWhile_last {p : Char → Bool} (s : List Char) : s.dropWhile p = [] ∨ (s.dropWhile p).getLast? = s.getLast? := by
  induction s with
  | nil => exact .inl rfl
  | cons d s ih =>
    by_cases hd : p d = true
    · rw [List.dropWhile_cons_of_pos hd]
      rcases ih with ih | ih
      · exact .inl ih
      · by_cases h0 : s.dropWhile p = []
        · exact .inl h0
        · refine .inr (ih.trans ?_)
          cases s with
          | nil => exact absurd rfl h0
          | cons a t => rw [List.getLast?_cons_cons]
    · rw [List.dropWhile_cons_of_neg hd]; exact .inr rfl

/-- The ends of a trimmed text. -/
theorem trimWith_ends (p : Char → Bool) (s : List Char) :
    (∀ c, ((s.dropWhile p).reverse.dropWhile p).reverse.head? = some c → p c = false) ∧
    (∀ c, ((s.dropWhile p).reverse.dropWhile p).reverse.getLast? = some c → p c = false) := by
  constructor
  · intro c h
    rw [List.head?_reverse] at h
    rcases dropWhile_last (p := p) (s.dropWhile p).reverse with h0 | h0
    · rw [h0] at h; cases h
    · rw [h0, List.getLast?_reverse] at h
      exact dropWhile_head _ h
  · intro c h
    rw [List.getLast?_reverse] at h
    exact dropWhile_head _ h

theorem pyTrim_ends (s : List Char) : (∀ c, (pyTrim s).head? = some c → pySpace c = false) ∧ ∀ c, (pyTrim s).getLast? = some c → pySpace c = false :=
  trimWith_ends pySpace s

theorem pyTrim_mem {s : List Char} {c : Char} (h : c ∈ pyTrim s) : c ∈ s := by
  rw [pyTrim, List.mem_reverse] at h
  have := (List.dropWhile_sublist _).subset h
  rw [List.mem_reverse] at this
  exact (List.dropWhile_sublist _).subset this

theorem pyTrim_self {s : List Char} (h1 : ∀ c, s.head? = some c → pySpace c = false) (h2 : ∀ c, s.getLast? = some c → pySpace c = false) : pyTrim s = s :=
  trimWith_self h1 h2

theorem trim_self {s : List Char} (h1 : ∀ c, s.head? = some c → isSpace c = false) (h2 : ∀ c, s.getLast? = some c → isSpace c = false) : trim s = s :=
  trimWith_self h1 h2

theorem not_space {c : Char} (h : pySpace c = false) : isSpace c = false := by
  rw [Bool.eq_false_iff] at h ⊢
  exact fun h' => h (isSpace_py h')

/-- The ends of a line are not white space, and it has no line end. -/
structure Tight (l : List Char) : Prop where
  head : ∀ c, l.head? = some c → pySpace c = false
  last : ∀ c, l.getLast? = some c → pySpace c = false
  line : '\n' ∉ l

theorem Tight.strip {l : List Char} (h : Tight l) : strip l = l := pyTrim_self h.head h.last

theorem Tight.pyTrim {l : List Char} (h : Tight l) : pyTrim l = l := pyTrim_self h.head h.last

theorem Tight.trim {l : List Char} (h : Tight l) : trim l = l := trim_self (fun c hc => not_space (h.head c hc)) (fun c hc => not_space (h.last c hc))

theorem pyTrim_tight {l : List Char} (h : '\n' ∉ l) : Tight (Slugs.Spec.Structured.pyTrim l) :=
  ⟨(pyTrim_ends l).1, (pyTrim_ends l).2, fun hm => h (pyTrim_mem hm)⟩

/-! ### Sections -/

/-- A line that is neither empty nor a comment. -/
def isItem (l : List Char) : Bool := !l.isEmpty && l.head? != some '#'

theorem isItem_iff {l : List Char} : isItem l = true ↔ l ≠ [] ∧ l.head? ≠ some '#' := by
  simp [isItem]

theorem header_mem (s : Section) : s.header ∈ headers := by cases s <;> decide

theorem header_bracket (s : Section) : s.header.head? = some '[' := by cases s <;> rfl

theorem header_ne (s : Section) : s.header ≠ [] := by cases s <;> decide

theorem header_inj {s s' : Section} (h : s.header = s'.header) : s = s' := by
  cases s <;> cases s' <;> first | rfl | (revert h; decide)

theorem linesOf_cons (h : List Char) (e : List Char × List Char) (lines : List (List Char × List Char)) :
    linesOf h (e :: lines) = if e.1 = h then e.2 :: linesOf h lines else linesOf h lines := by
  rw [linesOf, List.filter_cons]
  split
  · rename_i hh; rw [if_pos (by simpa using hh)]; rfl
  · rename_i hh; rw [if_neg (by simpa using hh)]; rfl

theorem linesOf_append (h : List Char) (a b : List (List Char × List Char)) : linesOf h (a ++ b) = linesOf h a ++ linesOf h b := by
  simp [linesOf]

theorem itemsOf_cons (s : Section) (e : Section × List Char) (items : List (Section × List Char)) :
    itemsOf s (e :: items) = if e.1 = s then e.2 :: itemsOf s items else itemsOf s items := by
  rw [itemsOf, List.filter_cons]
  split
  · rename_i hh; rw [if_pos (by simpa using hh)]; rfl
  · rename_i hh; rw [if_neg (by simpa using hh)]; rfl

/-- What `readSections` collects. -/
structure Collected (lines : List (List Char × List Char)) (items : List (Section × List Char)) : Prop where
  items : ∀ s : Section, (linesOf s.header lines).filter isItem = itemsOf s items
  lines : ∀ e ∈ lines, (∃ s : Section, e.1 = s.header) ∧ Tight e.2 ∧ e.2.head? ≠ some '['

def modeOf : Option Section → List Char
  | none => []
  | some s => s.header

theorem readSections_line {s : Section} {l : List Char} {ls : List (List Char)} (h : (strip l).head? ≠ some '[') :
    readSections s.header (l :: ls) = (readSections s.header ls).map ((s.header, strip l) :: ·) := by
  rw [readSections]
  rw [if_neg h, if_neg (fun h => header_ne s h.1), if_pos (header_ne s), if_pos (header_mem s)]

theorem readSections_header {m : List Char} {s : Section} {l : List Char} {ls : List (List Char)} (h : strip l = s.header) :
    readSections m (l :: ls) = readSections s.header ls := by
  rw [readSections]
  rw [h, if_pos (header_bracket s)]

theorem readSections_collected {cur : Option Section} {ls : List (List Char)} {items : List (Section × List Char)} (h : SContent cur ls items)
    (hn : ∀ l ∈ ls, '\n' ∉ l) : ∃ lines, readSections (modeOf cur) ls = some lines ∧ Collected lines items := by
  induction h with
  | nil => exact ⟨[], rfl, fun s => rfl, by simp⟩
  | @skip cur l ls items h1 _ ih =>
    rw [List.forall_mem_cons] at hn
    obtain ⟨lines, h2, h3⟩ := ih hn.2
    have hb : (strip l).head? ≠ some '[' := by
      rw [strip_eq]
      rcases h1 with h1 | h1 <;> rw [h1] <;> simp
    have hi : isItem (strip l) = false := by
      rw [Bool.eq_false_iff]
      intro h
      rw [isItem_iff, strip_eq] at h
      exact h1.elim h.1 h.2
    cases cur with
    | none =>
      refine ⟨lines, ?_, h3⟩
      rw [readSections]
      dsimp only [modeOf] at h2 ⊢
      rw [if_neg hb]
      simp [h2]
    | some s =>
      refine ⟨(s.header, strip l) :: lines, ?_, ⟨fun s' => ?_, ?_⟩⟩
      · change readSections s.header ls = some lines at h2
        change readSections s.header (l :: ls) = _
        rw [readSections_line hb, h2]
        rfl
      · rw [linesOf_cons]
        split
        · rw [List.filter_cons_of_neg (by simp [hi])]; exact h3.items s'
        · exact h3.items s'
      · rw [List.forall_mem_cons]
        exact ⟨⟨⟨s, rfl⟩, pyTrim_tight hn.1, hb⟩, h3.lines⟩
  | @header cur l ls items s h1 _ ih =>
    rw [List.forall_mem_cons] at hn
    obtain ⟨lines, h2, h3⟩ := ih hn.2
    refine ⟨lines, ?_, h3⟩
    rw [readSections_header h1]
    exact h2
  | @item s l ls items h1 h2 h3 _ ih =>
    rw [List.forall_mem_cons] at hn
    obtain ⟨lines, h4, h5⟩ := ih hn.2
    have hi : isItem (strip l) = true := isItem_iff.mpr ⟨h1, h2⟩
    refine ⟨(s.header, strip l) :: lines, ?_, ⟨fun s' => ?_, ?_⟩⟩
    · change readSections s.header ls = some lines at h4
      change readSections s.header (l :: ls) = _
      rw [readSections_line h3, h4]
      rfl
    · rw [linesOf_cons, itemsOf_cons]
      by_cases hs : s = s'
      · subst hs
        rw [if_pos rfl, if_pos rfl, List.filter_cons_of_pos hi, h5.items s]
        rfl
      · rw [if_neg (fun h => hs (header_inj h)), if_neg hs, h5.items s']
    · rw [List.forall_mem_cons]
      exact ⟨⟨⟨s, rfl⟩, pyTrim_tight hn.1, h3⟩, h5.lines⟩

/-! ### Declarations -/

theorem digitsAux_foldl : ∀ (ds : List Char) (n : Nat) (last : Bool), (ds ≠ [] ∨ last = true) → (∀ c ∈ ds, isDigit c = true) →
    digitsAux n last ds = some (ds.foldl (fun n c => 10 * n + (c.toNat - '0'.toNat)) n)
  | [], n, last, h, _ => by
    have : last = true := by simpa using h
    rw [digitsAux, this]; rfl
  | c :: ds, n, last, _, h => by
    rw [List.forall_mem_cons] at h
    have hc : '0' ≤ c ∧ c ≤ '9' := by simpa [isDigit] using h.1
    rw [digitsAux, if_pos hc, digitsAux_foldl ds _ true (.inr rfl) h.2, List.foldl_cons]
    rfl

theorem digit_not_py {c : Char} (h : isDigit c = true) : pySpace c = false := by
  have := digit_not_space h
  rwa [isspace_pySpace] at this

theorem dropWhile_append_pos {p : Char → Bool} {s t : List Char} (h : ∀ c ∈ s, p c = true) : (s ++ t).dropWhile p = t.dropWhile p := by
  induction s with
  | nil => rfl
  | cons c s ih => rw [List.forall_mem_cons] at h; rw [List.cons_append, List.dropWhile_cons_of_pos h.1, ih h.2]

/-- White space around a text is removed. -/
theorem pyTrim_around {a s b : List Char} (ha : ∀ c ∈ a, pySpace c = true) (hb : ∀ c ∈ b, pySpace c = true)
    (h1 : ∀ c, s.head? = some c → pySpace c = false) (h2 : ∀ c, s.getLast? = some c → pySpace c = false) (hne : s ≠ []) : pyTrim (a ++ s ++ b) = s := by
  obtain ⟨d, t, rfl⟩ := List.exists_cons_of_ne_nil hne
  rw [pyTrim, List.append_assoc, dropWhile_append_pos ha, List.cons_append, List.dropWhile_cons_of_neg (by simp [h1 d rfl]), ← List.cons_append, List.reverse_append,
    dropWhile_append_pos (fun c hc => hb c (by simpa using hc)), dropWhile_self (by rw [List.head?_reverse]; exact h2), List.reverse_reverse]

theorem number_ends {a : List Char} {z : Int} (h : IsNumber a z) :
    a ≠ [] ∧ (∀ c ∈ a, pySpace c = false ∧ c ≠ '.' ∧ c ≠ ':' ∧ c ≠ '\'' ∧ c ≠ '@' ∧ c ≠ '\n') := by
  have dig : ∀ c, isDigit c = true → pySpace c = false ∧ c ≠ '.' ∧ c ≠ ':' ∧ c ≠ '\'' ∧ c ≠ '@' ∧ c ≠ '\n' := by
    intro c hc
    refine ⟨digit_not_py hc, ?_, ?_, ?_, ?_, ?_⟩ <;> rintro rfl <;> revert hc <;> decide
  obtain ⟨ds, h1, h2, ⟨rfl, _⟩ | ⟨rfl, _⟩⟩ := h
  · exact ⟨h1, fun c hc => dig c (h2 c hc)⟩
  · refine ⟨by simp, ?_⟩
    rw [List.forall_mem_cons]
    exact ⟨by decide, fun c hc => dig c (h2 c hc)⟩

theorem toInt_number {a s t : List Char} {z : Int} (h : IsNumber a z) (hs : ∀ c ∈ s, pySpace c = true) (ht : ∀ c ∈ t, pySpace c = true) :
    toInt (s ++ a ++ t) = some z := by
  obtain ⟨e1, e2⟩ := number_ends h
  rw [toInt, strip_eq, pyTrim_around hs ht (fun c hc => (e2 c (List.mem_of_head? hc)).1) (fun c hc => (e2 c (List.mem_of_getLast? hc)).1) e1]
  obtain ⟨ds, h1, h2, ⟨rfl, rfl⟩ | ⟨rfl, rfl⟩⟩ := h
  · obtain ⟨d, t, rfl⟩ := List.exists_cons_of_ne_nil h1
    have hd := h2 d (by simp)
    split
    · rename_i e; cases e; exact absurd hd (by decide)
    · rename_i e; cases e; exact absurd hd (by decide)
    · rw [digitsAux_foldl _ _ _ (.inl h1) h2]; rfl
  · split
    · rename_i e; cases e; rw [digitsAux_foldl _ _ _ (.inl h1) h2]; rfl
    · rename_i e; cases e
    · rename_i h _; exact absurd rfl (h ds)

theorem splitAux_sep {sep : List Char} {c : Char} {cs : List Char} (hsep : sep = c :: cs) : ∀ (k : Nat) (rest : List Char) (a cur : List Char), c ∉ a →
    splitAux sep 0 cur (a ++ rest) = splitAux sep 0 (a.reverse ++ cur) rest
  | _, rest, [], cur, _ => by simp
  | k, rest, d :: a, cur, h => by
    rw [List.mem_cons, not_or] at h
    rw [List.cons_append, splitAux, if_neg (by rw [hsep]; simp [List.isPrefixOf, h.1]), splitAux_sep hsep k rest a _ h.2]
    simp

theorem split_one {c : Char} {a b : List Char} (ha : c ∉ a) (hb : c ∉ b) : split [c] (a ++ c :: b) = [a, b] := by
  rw [split, splitAux_sep rfl 0 _ a [] ha, splitAux, if_pos (by simp [List.isPrefixOf])]
  have := splitAux_sep (sep := [c]) rfl 0 [] b [] hb
  rw [List.append_nil] at this
  simp only [List.length_singleton, Nat.sub_self, List.append_nil, List.reverse_reverse]
  rw [this]
  simp [splitAux]

theorem split_dots {a b : List Char} (ha : '.' ∉ a) (hb : '.' ∉ b) : split txt!"..." (a ++ txt!"..." ++ b) = [a, b] := by
  rw [List.append_assoc, split, splitAux_sep rfl 0 _ a [] ha]
  simp only [List.cons_append, List.nil_append, List.append_nil]
  rw [splitAux, if_pos (by simp [List.isPrefixOf])]
  simp only [List.length_cons, List.length_nil, Nat.reduceAdd, Nat.reduceSub, List.reverse_reverse]
  rw [splitAux, splitAux]
  have := splitAux_sep (sep := txt!"...") rfl 0 [] b [] hb
  rw [List.append_nil] at this
  rw [this]
  simp [splitAux]

theorem tidy_chars {x : Word} (h : Tidy x) : x ≠ [] ∧ ∀ c ∈ x, pySpace c = false ∧ c ≠ ':' ∧ c ≠ '#' ∧ c ≠ '[' ∧ c ≠ '\n' := by
  obtain ⟨⟨c, h1, _⟩, h2, _⟩ := h
  refine ⟨fun e => (by rw [e] at h1; cases h1), fun c hc => ?_⟩
  have hn := h2 c hc
  refine ⟨?_, ?_, ?_, ?_, ?_⟩
  · rw [nameChar, Bool.or_eq_true] at hn
    rcases hn with hn | hn
    · have := name_not_space hn; rwa [isspace_pySpace] at this
    · exact digit_not_py hn
  all_goals rintro rfl; revert hn; decide

/-- What the declaration of a variable adds. -/
def apsOf (d : Decl) : List Word :=
  match d.range with
  | none => [d.name, prime d.name]
  | some _ => bitsOf d

def numbersOf (d : Decl) : List (Word × (Int × Int) × List Word) :=
  match d.range with
  | none => []
  | some q => [(d.name, q, bitsOf d)]

/-- The comment on the limits of a variable. -/
def limitNote (p : List Char) (x : Word) (lo hi : Int) : List Char := txt!"## Variable limits: " ++ strInt lo ++ txt!"<=" ++ x ++ (p ++ txt!"<=" ++ strInt hi)

def extraOf (t : Bool) (dest : List Char) (d : Decl) : List (List Char × List Char) :=
  match d.range with
  | none => []
  | some (lo, hi) =>
    if 2 ^ bitsFor (hi - lo) = sizeOf lo hi then [] else
    [(dest ++ txt!"_INIT]", limitNote [] d.name lo hi), (dest ++ txt!"_INIT]", (limitF (bitsOf d) (sizeOf lo hi)).text)] ++
    (if t then [(dest ++ txt!"_TRANS]", limitNote [] d.name lo hi), (dest ++ txt!"_TRANS]", (limitF (bitsOf d) (sizeOf lo hi)).text)] else []) ++
    [(dest ++ txt!"_TRANS]", limitNote txt!"'" d.name lo hi), (dest ++ txt!"_TRANS]", (limitF ((bitsOf d).map prime) (sizeOf lo hi)).text)]

def destOf (v : List Char) : List Char := if (txt!"INPUT]").isSuffixOf v then txt!"[ENV" else txt!"[SYS"

def addDecl (t : Bool) (v : List Char) (d : Decl) (c : Conv) : Conv where
  booleanAPs := c.booleanAPs ++ apsOf d
  numbers := c.numbers ++ numbersOf d
  io := c.io ++ (bitsOf d).map fun b => (v, b)
  extra := c.extra ++ extraOf t (destOf v) d

theorem declareNumber_eq (t : Bool) (v : List Char) (x : Word) {lo hi : Int} (h : lo ≤ hi) (c : Conv) :
    declareNumber t v x lo hi c = addDecl t v ⟨x, some (lo, hi)⟩ c := by
  have e : (hi - lo + 1).toNat = sizeOf lo hi := rfl
  rw [declareNumber, addDecl]
  rw [nofBits_eq h, e]
  simp only [apsOf, numbersOf, extraOf, bitsOf, limit_text]
  congr 2
  by_cases hh : 2 ^ bitsFor (hi - lo) = sizeOf lo hi
  · rw [if_neg (by simp [hh]), if_pos hh]
  · rw [if_pos hh, if_neg hh]
    simp only [limitNote, destOf, List.append_assoc, List.nil_append, List.cons_append]
    rfl

theorem declare_decl (t : Bool) (v : List Char) {line : List Char} {d : Decl} (h : IsDecl line d) (c : Conv) : declare t v line c = some (addDecl t v d c) := by
  cases h with
  | bool hx =>
    obtain ⟨h1, h2⟩ := tidy_chars hx
    obtain ⟨_, _, h3, h4, _⟩ := hx
    rw [declare, if_neg, if_neg h3, if_neg h4, if_neg (fun hm => (h2 _ hm).2.1 rfl)]
    · dsimp only
      rw [strip_eq, pyTrim_self (fun c hc => (h2 c (List.mem_of_head? hc)).1) (fun c hc => (h2 c (List.mem_of_getLast? hc)).1)]
      simp [addDecl, apsOf, numbersOf, extraOf, bitsOf, prime]
    · rintro (h | h)
      · exact h1 h
      · exact (h2 _ (List.mem_of_head? h)).2.2.1 rfl
  | @num x s1 s2 a s3 s4 b lo hi hx hs ha hb h0 hl =>
    obtain ⟨h1, h2⟩ := tidy_chars hx
    obtain ⟨_, _, h3, h4, _⟩ := hx
    obtain ⟨a1, a2⟩ := number_ends ha
    obtain ⟨b1, b2⟩ := number_ends hb
    have sp : ∀ c, pySpace c = true → c ≠ '.' ∧ c ≠ ':' ∧ c ≠ '\'' ∧ c ≠ '@' := by
      intro c hc
      refine ⟨?_, ?_, ?_, ?_⟩ <;> rintro rfl <;> revert hc <;> decide
    simp only [List.mem_append] at hs
    have hs1 : ∀ c ∈ s1, pySpace c = true := fun c hc => hs c (by simp [hc])
    have hs2 : ∀ c ∈ s2, pySpace c = true := fun c hc => hs c (by simp [hc])
    have hs3 : ∀ c ∈ s3, pySpace c = true := fun c hc => hs c (by simp [hc])
    have hs4 : ∀ c ∈ s4, pySpace c = true := fun c hc => hs c (by simp [hc])
    have no : ∀ k : Char, k ∉ x → (∀ c, pySpace c = true → c ≠ k) → (∀ c ∈ a, c ≠ k) → (∀ c ∈ b, c ≠ k) → k ≠ ':' → k ≠ '.' →
        k ∉ x ++ s1 ++ ':' :: s2 ++ a ++ s3 ++ txt!"..." ++ s4 ++ b := by
      intro k k1 k2 k3 k4 k5 k6 hm
      simp only [List.append_assoc, List.cons_append, List.mem_append, List.mem_cons, List.nil_append, List.not_mem_nil, or_false] at hm
      rcases hm with hm | hm | hm | hm | hm | hm | hm | hm | hm | hm | hm
      · exact k1 hm
      · exact k2 _ (hs1 _ hm) rfl
      · exact k5 hm
      · exact k2 _ (hs2 _ hm) rfl
      · exact k3 _ hm rfl
      · exact k2 _ (hs3 _ hm) rfl
      · exact k6 hm
      · exact k6 hm
      · exact k6 hm
      · exact k2 _ (hs4 _ hm) rfl
      · exact k4 _ hm rfl
    rw [declare, if_neg, if_neg (no _ h3 (fun c hc => (sp c hc).2.2.1) (fun c hc => (a2 c hc).2.2.2.1) (fun c hc => (b2 c hc).2.2.2.1) (by decide) (by decide)),
      if_neg (no _ h4 (fun c hc => (sp c hc).2.2.2) (fun c hc => (a2 c hc).2.2.2.2.1) (fun c hc => (b2 c hc).2.2.2.2.1) (by decide) (by decide)),
      if_pos (by simp)]
    · have e1 : x ++ s1 ++ ':' :: s2 ++ a ++ s3 ++ txt!"..." ++ s4 ++ b = (x ++ s1) ++ ':' :: (s2 ++ ((a ++ s3) ++ txt!"..." ++ (s4 ++ b))) := by simp
      have e2 : split txt!":" (x ++ s1 ++ ':' :: s2 ++ a ++ s3 ++ txt!"..." ++ s4 ++ b) = [x ++ s1, s2 ++ ((a ++ s3) ++ txt!"..." ++ (s4 ++ b))] := by
        rw [e1]
        refine split_one ?_ ?_
        · intro hm
          rcases List.mem_append.mp hm with hm | hm
          · exact (h2 _ hm).2.1 rfl
          · exact (sp _ (hs1 _ hm)).2.1 rfl
        · intro hm
          simp only [List.mem_append, List.mem_cons, List.not_mem_nil, or_false] at hm
          rcases hm with hm | ((hm | hm) | (hm | hm | hm)) | hm | hm
          · exact (sp _ (hs2 _ hm)).2.1 rfl
          · exact (a2 _ hm).2.2.1 rfl
          · exact (sp _ (hs3 _ hm)).2.1 rfl
          · revert hm; decide
          · revert hm; decide
          · revert hm; decide
          · exact (sp _ (hs4 _ hm)).2.1 rfl
          · exact (b2 _ hm).2.2.1 rfl
      have e3 : strip (x ++ s1) = x := by
        have := pyTrim_around (a := []) (by simp) hs1 (fun c hc => (h2 c (List.mem_of_head? hc)).1) (fun c hc => (h2 c (List.mem_of_getLast? hc)).1) h1
        simpa [strip_eq] using this
      have e4 : strip (s2 ++ ((a ++ s3) ++ txt!"..." ++ (s4 ++ b))) = (a ++ s3) ++ txt!"..." ++ (s4 ++ b) := by
        have := pyTrim_around (a := s2) (s := (a ++ s3) ++ txt!"..." ++ (s4 ++ b)) (b := []) hs2 (by simp) ?_ ?_ (by simp)
        · rw [List.append_nil] at this; exact this
        · intro c hc
          obtain ⟨d, r, rfl⟩ := List.exists_cons_of_ne_nil a1
          simp only [List.cons_append, List.head?_cons, Option.some.injEq] at hc
          subst hc
          exact (a2 d (by simp)).1
        · intro c hc
          rw [← List.append_assoc, List.getLast?_append_of_ne_nil _ b1] at hc
          exact (b2 c (List.mem_of_getLast? hc)).1
      have e5 : split txt!"..." ((a ++ s3) ++ txt!"..." ++ (s4 ++ b)) = [a ++ s3, s4 ++ b] := by
        refine split_dots ?_ ?_
        · intro hm
          rcases List.mem_append.mp hm with hm | hm
          · exact (a2 _ hm).2.1 rfl
          · exact (sp _ (hs3 _ hm)).1 rfl
        · intro hm
          rcases List.mem_append.mp hm with hm | hm
          · exact (sp _ (hs4 _ hm)).1 rfl
          · exact (b2 _ hm).2.1 rfl
      have e6 : toInt (a ++ s3) = some lo := by have := toInt_number (s := []) ha (by simp) hs3; simpa using this
      have e7 : toInt (s4 ++ b) = some hi := by have := toInt_number (t := []) hb hs4 (by simp); simpa using this
      rw [e2]
      simp only [List.map_cons, List.map_nil, e3, e4]
      rw [e5]
      simp only [e6, e7]
      rw [if_neg (by omega), declareNumber_eq t v x hl]
    · rintro (h | h)
      · simp at h
      · obtain ⟨d, r, rfl⟩ := List.exists_cons_of_ne_nil h1
        simp only [List.cons_append, List.head?_cons, Option.some.injEq] at h
        exact (h2 d (by simp)).2.2.1 h

end Slugs.Model.Structured
