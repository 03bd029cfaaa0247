import Verif.Lemmas.SubstitutorSolid
import Verif.Lemmas.SubstitutorGame

/-!
The tool that replaces integer variables: how both files are read, and what is printed.
-/

namespace Slugs.Model.Substitutor

open Slugs.Spec Slugs.Spec.Structured
open Slugs.Model.Structured
open Slugs.Model.Substitutor

/-! ### The file with the replacements -/

theorem split_none {c : Char} {b : List Char} (hb : c ∉ b) : split [c] b = [b] := by
  have := splitAux_sep (sep := [c]) rfl 0 [] b [] hb
  rw [List.append_nil] at this
  rw [split, this]
  simp [splitAux]

theorem split_head {c : Char} {a b : List Char} (ha : c ∉ a) : split [c] (a ++ c :: b) = a :: split [c] b := by
  rw [split, splitAux_sep rfl 0 _ a [] ha, splitAux, if_pos (by simp [List.isPrefixOf])]
  simp only [List.length_singleton, Nat.sub_self, List.append_nil, List.reverse_reverse]
  rfl

/-- The entry of a line that is neither blank nor a comment. -/
def entryOf (line : List Char) : Option Entry :=
  match split txt!"," line with
  | [a, b] => some (.definition a b)
  | [a, b, c] => some (.expression a b c)
  | _ => none

theorem readEntries_eq (text : List Char) : readEntries text =
    (((splitLines (universal text)).map pyTrim).filter (fun l => l ≠ [] ∧ l.head? ≠ some '#')).filterMap entryOf := by
  rw [readEntries, pyLines_eq]
  induction splitLines (universal text) with
  | nil => rfl
  | cons l ls ih =>
    rw [List.filterMap_cons, List.map_cons, readEntry]
    by_cases h : pyTrim l ≠ [] ∧ (pyTrim l).head? ≠ some '#'
    · have h' : (strip l).length > 0 ∧ (strip l).head? ≠ some '#' := ⟨List.length_pos_iff.mpr h.1, h.2⟩
      rw [if_pos h', List.filter_cons_of_pos (by simpa using h), List.filterMap_cons, ih]
      rfl
    · have h' : ¬ ((strip l).length > 0 ∧ (strip l).head? ≠ some '#') := fun h' => h ⟨List.length_pos_iff.mp h'.1, h'.2⟩
      rw [if_neg h', List.filter_cons_of_neg (by simpa using h), ih]

/-- There is no comma in the parts of the lines. -/
structure NoComma (r : Shift) : Prop where
  old : ',' ∉ r.old
  new : ',' ∉ r.new
  x : ',' ∉ r.x
  y : ',' ∉ r.y
  k : ',' ∉ r.k

def entriesOf (r : Shift) : List Entry := [.definition r.old r.new, .expression r.x r.y r.k, .expression (prime r.x) (prime r.y) r.k]

theorem comma_prime {x : Word} (h : ',' ∉ x) : ',' ∉ prime x := by simp [prime, h]

theorem entries_shift {r : Shift} (h : NoComma r) : r.lines.filterMap entryOf = entriesOf r := by
  have e1 : entryOf (r.old ++ ',' :: r.new) = some (.definition r.old r.new) := by
    rw [entryOf, split_head h.old, split_none h.new]
  have e2 : ∀ {a b : List Char}, ',' ∉ a → ',' ∉ b → entryOf (a ++ ',' :: (b ++ ',' :: r.k)) = some (.expression a b r.k) := by
    intro a b ha hb
    rw [entryOf, split_head ha, split_head hb, split_none h.k]
  simp only [Shift.lines, List.filterMap_cons, List.filterMap_nil, e1, e2 h.x h.y, e2 (comma_prime h.x) (comma_prime h.y)]
  rfl

theorem readEntries_shifts {rs : List Shift} (h : ∀ r ∈ rs, NoComma r) {text : List Char} (ht : ShiftFile text rs) : readEntries text = rs.flatMap entriesOf := by
  rw [readEntries_eq, ht, List.filterMap_flatMap]
  induction rs with
  | nil => rfl
  | cons r rs ih =>
    rw [List.forall_mem_cons] at h
    rw [List.flatMap_cons, List.flatMap_cons, entries_shift h.1]
    congr 1
    clear ih ht
    induction rs with
    | nil => rfl
    | cons r rs ih =>
      rw [List.forall_mem_cons] at h
      rw [List.flatMap_cons, List.flatMap_cons, entries_shift h.2.1, ih ⟨h.1, h.2.2⟩]

theorem expressions_mem {es : List Entry} {x : Word} {q : List Char × List Char} (h : expressions es x = some q) : Entry.expression x q.1 q.2 ∈ es := by
  rw [expressions] at h
  obtain ⟨e, he, h⟩ := List.exists_of_findSome?_eq_some h
  rw [List.mem_reverse] at he
  cases e with
  | definition a b => cases h
  | expression n a b =>
    dsimp only at h
    by_cases hn : n = x
    · rw [if_pos hn] at h
      cases h
      exact hn ▸ he
    · rw [if_neg hn] at h; cases h

theorem expressions_some {es : List Entry} {x a b : List Char} (h : Entry.expression x a b ∈ es) : ∃ q, expressions es x = some q := by
  rw [expressions]
  cases hf : es.reverse.findSome? (fun e => match e with
    | .expression n a b => if n = x then some (a, b) else none
    | .definition _ _ => none) with
  | some q => exact ⟨q, rfl⟩
  | none =>
    rw [List.findSome?_eq_none_iff] at hf
    have := hf _ (List.mem_reverse.mpr h)
    simp at this

theorem definitions_mem {es : List Entry} {l q : List Char} (h : definitions es l = some q) : Entry.definition l q ∈ es := by
  rw [definitions] at h
  obtain ⟨e, he, h⟩ := List.exists_of_findSome?_eq_some h
  rw [List.mem_reverse] at he
  cases e with
  | expression a b c => cases h
  | definition n a =>
    dsimp only at h
    by_cases hn : n = l
    · rw [if_pos hn] at h
      cases h
      exact hn ▸ he
    · rw [if_neg hn] at h; cases h

theorem definitions_some {es : List Entry} {l a : List Char} (h : Entry.definition l a ∈ es) : ∃ q, definitions es l = some q := by
  rw [definitions]
  cases hf : es.reverse.findSome? (fun e => match e with
    | .definition a b => if a = l then some b else none
    | .expression _ _ _ => none) with
  | some q => exact ⟨q, rfl⟩
  | none =>
    rw [List.findSome?_eq_none_iff] at hf
    have := hf _ (List.mem_reverse.mpr h)
    simp at this

variable {rs : List Shift}

theorem mem_expression {x a b : List Char} : Entry.expression x a b ∈ rs.flatMap entriesOf ↔
    ∃ r ∈ rs, (x = r.x ∧ a = r.y ∨ x = prime r.x ∧ a = prime r.y) ∧ b = r.k := by
  simp only [List.mem_flatMap, entriesOf, List.mem_cons, List.not_mem_nil, or_false, reduceCtorEq, false_or, Entry.expression.injEq]
  constructor
  · rintro ⟨r, hr, ⟨h1, h2, h3⟩ | ⟨h1, h2, h3⟩⟩
    · exact ⟨r, hr, .inl ⟨h1, h2⟩, h3⟩
    · exact ⟨r, hr, .inr ⟨h1, h2⟩, h3⟩
  · rintro ⟨r, hr, ⟨h1, h2⟩ | ⟨h1, h2⟩, h3⟩
    · exact ⟨r, hr, .inl ⟨h1, h2, h3⟩⟩
    · exact ⟨r, hr, .inr ⟨h1, h2, h3⟩⟩

theorem mem_definition {l a : List Char} : Entry.definition l a ∈ rs.flatMap entriesOf ↔ ∃ r ∈ rs, l = r.old ∧ a = r.new := by
  simp only [List.mem_flatMap, entriesOf, List.mem_cons, List.not_mem_nil, or_false, reduceCtorEq, Entry.definition.injEq]

/-- The terms for the replaced names. -/
noncomputable def termsOf (rs : List Shift) : Terms := fun w =>
  open Classical in
  if h : ∃ r ∈ rs, w = r.x then some (.var h.choose.y, .num h.choose.amount)
  else if h : ∃ r ∈ rs, w = prime r.x then some (.var (prime h.choose.y), .num h.choose.amount)
  else none

theorem terms_now (hn : (rs.map Shift.x).Nodup) {r : Shift} (hr : r ∈ rs) : termsOf rs r.x = some (.var r.y, .num r.amount) := by
  have h : ∃ r' ∈ rs, r.x = r'.x := ⟨r, hr, rfl⟩
  have : h.choose = r := List.inj_on_of_nodup_map hn h.choose_spec.1 hr h.choose_spec.2.symm
  rw [termsOf, dif_pos h, this]

theorem terms_next (hn : (rs.map Shift.x).Nodup) (ht : ∀ r ∈ rs, Tidy r.x) {r : Shift} (hr : r ∈ rs) :
    termsOf rs (prime r.x) = some (.var (prime r.y), .num r.amount) := by
  have h0 : ¬ ∃ r' ∈ rs, prime r.x = r'.x := by
    rintro ⟨r', hr', e⟩
    exact prime_not_tidy (e ▸ ht r' hr')
  have h : ∃ r' ∈ rs, prime r.x = prime r'.x := ⟨r, hr, rfl⟩
  have : h.choose = r := List.inj_on_of_nodup_map hn h.choose_spec.1 hr (prime_inj h.choose_spec.2).symm
  rw [termsOf, dif_neg h0, dif_pos h, this]

theorem terms_other {w : Word} (h : ∀ r ∈ rs, w ≠ r.x ∧ w ≠ prime r.x) : termsOf rs w = none := by
  rw [termsOf, dif_neg (fun ⟨r, hr, e⟩ => (h r hr).1 e), dif_neg (fun ⟨r, hr, e⟩ => (h r hr).2 e)]

theorem texts_now (hn : (rs.map Shift.x).Nodup) (ht : ∀ r ∈ rs, Tidy r.x) {r : Shift} (hr : r ∈ rs) : expressions (rs.flatMap entriesOf) r.x = some (r.y, r.k) := by
  obtain ⟨q, hq⟩ := expressions_some (mem_expression.mpr ⟨r, hr, .inl ⟨rfl, rfl⟩, rfl⟩)
  rw [hq]
  obtain ⟨r', hr', h1, h2⟩ := mem_expression.mp (expressions_mem hq)
  rcases h1 with ⟨e, h1⟩ | ⟨e, h1⟩
  · rw [← List.inj_on_of_nodup_map hn hr hr' e] at h1 h2
    rw [← h1, ← h2]
  · exact (prime_not_tidy (e ▸ ht r hr)).elim

theorem texts_next (hn : (rs.map Shift.x).Nodup) (ht : ∀ r ∈ rs, Tidy r.x) {r : Shift} (hr : r ∈ rs) :
    expressions (rs.flatMap entriesOf) (prime r.x) = some (prime r.y, r.k) := by
  obtain ⟨q, hq⟩ := expressions_some (mem_expression.mpr ⟨r, hr, .inr ⟨rfl, rfl⟩, rfl⟩)
  rw [hq]
  obtain ⟨r', hr', h1, h2⟩ := mem_expression.mp (expressions_mem hq)
  rcases h1 with ⟨e, h1⟩ | ⟨e, h1⟩
  · exact (prime_not_tidy (e ▸ ht r' hr')).elim
  · rw [← List.inj_on_of_nodup_map hn hr hr' (prime_inj e)] at h1 h2
    rw [← h1, ← h2]

theorem texts_other {w : Word} (h : ∀ r ∈ rs, w ≠ r.x ∧ w ≠ prime r.x) : expressions (rs.flatMap entriesOf) w = none := by
  cases hq : expressions (rs.flatMap entriesOf) w with
  | none => rfl
  | some q =>
    obtain ⟨r, hr, h1, _⟩ := mem_expression.mp (expressions_mem hq)
    rcases h1 with ⟨e, _⟩ | ⟨e, _⟩
    · exact absurd e (h r hr).1
    · exact absurd e (h r hr).2

theorem lexes_name {bools : List Word} {w : Word} (h : NameLike w) (hb : w ∉ bools) : IsSum bools w (.var w) := by
  refine ⟨_, tokenize_lexes bools w, ?_⟩
  rw [tokenize_name h.1 h.2.1, nameTok_other h.2.2, if_neg hb]
  exact .one (.one (.var rfl))

theorem lexes_number {bools : List Word} {k : List Char} (h1 : k ≠ []) (h2 : ∀ c ∈ k, isDigit c = true) : IsSum bools k (.num (digitsVal k)) := by
  have := Lexes.number (bools := bools) (rest := []) h1 h2 (by simp) .nil
  rw [List.append_nil] at this
  exact ⟨_, this, .one (.one (.num (t := ⟨.numeral, k⟩) rfl))⟩

/-- The names that are put in are not Boolean. -/
structure TextsOk (rs : List Shift) (bools : List Word) : Prop where
  once : (rs.map Shift.x).Nodup
  x : ∀ r ∈ rs, Tidy r.x
  y : ∀ r ∈ rs, Tidy r.y ∧ r.y ∉ bools ∧ prime r.y ∉ bools
  k : ∀ r ∈ rs, r.k ≠ [] ∧ ∀ c ∈ r.k, isDigit c = true

theorem texts_terms {bools : List Word} (h : TextsOk rs bools) : TermsFor bools (expressions (rs.flatMap entriesOf)) (termsOf rs) := by
  intro w
  by_cases h1 : ∃ r ∈ rs, w = r.x
  · obtain ⟨r, hr, rfl⟩ := h1
    obtain ⟨y1, y2, _⟩ := h.y r hr
    exact .inr ⟨_, _, _, _, texts_now h.once h.x hr, terms_now h.once hr, lexes_name (nameLike_tidy y1) y2, lexes_number (h.k r hr).1 (h.k r hr).2⟩
  · by_cases h2 : ∃ r ∈ rs, w = prime r.x
    · obtain ⟨r, hr, rfl⟩ := h2
      obtain ⟨y1, _, y2⟩ := h.y r hr
      exact .inr ⟨_, _, _, _, texts_next h.once h.x hr, terms_next h.once h.x hr, lexes_name (nameLike_prime (nameLike_tidy y1) y1.2.2.1) y2,
        lexes_number (h.k r hr).1 (h.k r hr).2⟩
    · have : ∀ r ∈ rs, w ≠ r.x ∧ w ≠ prime r.x := fun r hr => ⟨fun e => h1 ⟨r, hr, e⟩, fun e => h2 ⟨r, hr, e⟩⟩
      exact .inl ⟨texts_other this, terms_other this⟩

theorem texts_solid {bools : List Word} (h : TextsOk rs bools) : SolidTexts (expressions (rs.flatMap entriesOf)) := by
  intro w a b e
  obtain ⟨r, hr, h1, h2⟩ := mem_expression.mp (expressions_mem e)
  have h1 : w = r.x ∧ a = r.y ∨ w = prime r.x ∧ a = prime r.y := h1
  have h2 : b = r.k := h2
  obtain ⟨y1, _, _⟩ := h.y r hr
  have hs : ∀ {w : Word}, NameLike w → Solid w := fun hw => solid_all (nameLike_plain hw).1 (nameLike_plain hw).2
  refine ⟨?_, ?_⟩
  · rcases h1 with ⟨_, rfl⟩ | ⟨_, rfl⟩
    · exact hs (nameLike_tidy y1)
    · exact hs (nameLike_prime (nameLike_tidy y1) y1.2.2.1)
  · subst h2
    exact solid_all (h.k r hr).1 fun c hc => plain_digit ((h.k r hr).2 c hc)

/-! ### Declarations -/

theorem declares_ok {line : List Char} {d : Decl} (h : Declares line d) : Tidy d.name ∧ ∀ lo hi, d.range = some (lo, hi) → lo ≤ hi := by
  cases h with
  | bool h => exact ⟨h, fun _ _ e => (by cases e)⟩
  | num h1 _ _ _ h2 => exact ⟨h1, fun _ _ e => (by cases e; exact h2)⟩

theorem declares_decl {line : List Char} {d : Decl} (h : Declares line d) (h0 : ∀ lo hi, d.range = some (lo, hi) → 0 ≤ lo) : IsDecl line d := by
  cases h with
  | bool h => exact .bool h
  | num h1 h2 h3 h4 h5 => exact .num h1 h2 h3 h4 (h0 _ _ rfl) h5

theorem decl_declares {line : List Char} {d : Decl} (h : IsDecl line d) : Declares line d := by
  cases h with
  | bool h => exact .bool h
  | num h1 h2 h3 h4 _ h5 => exact .num h1 h2 h3 h4 h5

theorem declares_colon {line : List Char} {d : Decl} (h : Declares line d) : (':' ∈ line ↔ d.range ≠ none) ∧ (d.range = none → line = d.name) := by
  cases h with
  | bool h => exact ⟨⟨fun hc => absurd rfl ((tidy_chars h).2 _ hc).2.1, fun hc => absurd rfl hc⟩, fun _ => rfl⟩
  | num => exact ⟨⟨fun _ => by simp, fun _ => by simp⟩, fun e => by cases e⟩

theorem number_no {a : List Char} {z : Int} (h : IsNumber a z) {c : Char} (h1 : c ≠ '-') (h2 : isDigit c = false) : c ∉ a := by
  obtain ⟨ds, _, hd, ⟨rfl, _⟩ | ⟨rfl, _⟩⟩ := h
  · intro hc
    rw [hd c hc] at h2
    cases h2
  · intro hc
    rcases List.mem_cons.mp hc with rfl | hc
    · exact h1 rfl
    · rw [hd c hc] at h2
      cases h2

theorem tidy_no {x : Word} (h : Tidy x) {c : Char} (hc : nameChar c = false) : c ∉ x := by
  intro hm
  rw [h.2.1 c hm] at hc
  cases hc

theorem declares_no {line : List Char} {d : Decl} (h : Declares line d) {c : Char} (h1 : c ≠ '-' ∧ c ≠ ':' ∧ c ≠ '.') (h2 : nameChar c = false)
    (h3 : pySpace c = false) : c ∉ line := by
  have h2' : isDigit c = false := by
    rw [nameChar, Bool.or_eq_false_iff] at h2
    exact h2.2
  cases h with
  | bool h => exact tidy_no h h2
  | @num x s1 s2 a s3 s4 b lo hi h hs ha hb _ =>
    have hsp : c ∉ s1 ++ s2 ++ s3 ++ s4 := by
      intro hm
      rw [hs c hm] at h3
      cases h3
    simp only [List.mem_append, not_or] at hsp
    have k1 := tidy_no h h2
    have k2 := number_no ha h1.1 h2'
    have k3 := number_no hb h1.1 h2'
    intro hm
    simp only [List.mem_append, List.mem_cons, List.not_mem_nil, or_false] at hm
    tauto

theorem declares_ends {line : List Char} {d : Decl} (h : Declares line d) : line ≠ [] ∧ (∀ c, line.head? = some c → plainChar c) ∧
    ∀ c, line.getLast? = some c → plainChar c := by
  have key : ∀ {x rest : List Char}, Tidy x → ∀ c, (x ++ rest).head? = some c → plainChar c := by
    intro x rest h c hc
    obtain ⟨⟨e, he, _⟩, h2, _⟩ := h
    cases x with
    | nil => cases he
    | cons y ys =>
      cases hc
      exact plain_name (h2 _ (by simp))
  cases h with
  | bool h =>
    have hp := nameLike_plain (nameLike_tidy h)
    exact ⟨hp.1, fun c hc => hp.2 c (List.mem_of_mem_head? hc), fun c hc => hp.2 c (List.mem_of_getLast? hc)⟩
  | @num x s1 s2 a s3 s4 b lo hi h hs ha hb _ =>
    refine ⟨by simp, ?_, ?_⟩
    · intro c hc
      rw [show x ++ s1 ++ ':' :: s2 ++ a ++ s3 ++ txt!"..." ++ s4 ++ b = x ++ (s1 ++ ':' :: s2 ++ a ++ s3 ++ txt!"..." ++ s4 ++ b) by simp] at hc
      exact key h c hc
    · intro c hc
      have hb' : b ≠ [] ∧ ∀ c, b.getLast? = some c → isDigit c = true := by
        obtain ⟨ds, hne, hd, ⟨rfl, _⟩ | ⟨rfl, _⟩⟩ := hb
        · exact ⟨hne, fun c hc => hd c (List.mem_of_getLast? hc)⟩
        · refine ⟨by simp, fun c hc => hd c ?_⟩
          rw [← List.singleton_append, List.getLast?_append_of_ne_nil _ hne] at hc
          exact List.mem_of_getLast? hc
      rw [List.getLast?_append_of_ne_nil _ hb'.1] at hc
      exact plain_digit (hb'.2 c hc)

/-! ### The sections -/

/-- What `readParts` collects: as for `readSections`, and without blank lines. -/
theorem readParts_collected {cur : Option Section} {ls : List (List Char)} {items : List (Section × List Char)} (h : SContent cur ls items)
    (hn : ∀ l ∈ ls, NoEnd l) : ∃ lines, readParts (modeOf cur) ls = some lines ∧ Collected lines items ∧ ∀ e ∈ lines, e.2 ≠ [] ∧ NoEnd e.2 := by
  have trim : ∀ {l : List Char}, NoEnd l → NoEnd (strip l) := fun hl => ⟨fun h => hl.1 (pyTrim_mem h), fun h => hl.2 (pyTrim_mem h)⟩
  have line : ∀ {s : Section} {l : List Char} {ls : List (List Char)}, strip l ≠ [] → (strip l).head? ≠ some '[' →
      readParts s.header (l :: ls) = (readParts s.header ls).map ((s.header, strip l) :: ·) := by
    intro s l ls h1 h2
    rw [readParts]
    rw [if_neg h1, if_neg h2, if_neg (fun h => header_ne s h.1), if_pos (header_mem s)]
  induction h with
  | nil => exact ⟨[], rfl, ⟨fun s => rfl, by simp⟩, by simp⟩
  | @skip cur l ls items h1 _ ih =>
    rw [List.forall_mem_cons] at hn
    obtain ⟨lines, h2, h3, h4⟩ := ih hn.2
    by_cases h0 : strip l = []
    · refine ⟨lines, ?_, h3, h4⟩
      rw [readParts]
      rw [if_pos h0]
      exact h2
    · have h1 : (strip l).head? = some '#' := h1.resolve_left h0
      have hb : (strip l).head? ≠ some '[' := by rw [h1]; simp
      have hi : isItem (strip l) = false := by
        rw [Bool.eq_false_iff]
        intro h
        exact (isItem_iff.mp h).2 h1
      cases cur with
      | none =>
        refine ⟨lines, ?_, h3, h4⟩
        rw [readParts]
        rw [if_neg h0, if_neg hb, if_pos ⟨rfl, h1⟩]
        exact h2
      | some s =>
        refine ⟨(s.header, strip l) :: lines, ?_, ⟨fun s' => ?_, ?_⟩, ?_⟩
        · change readParts s.header ls = some lines at h2
          change readParts s.header (l :: ls) = _
          rw [line h0 hb, h2]
          rfl
        · rw [linesOf_cons]
          split
          · rw [List.filter_cons_of_neg (by simp [hi])]; exact h3.items s'
          · exact h3.items s'
        · rw [List.forall_mem_cons]
          exact ⟨⟨⟨s, rfl⟩, pyTrim_tight hn.1.1, hb⟩, h3.lines⟩
        · rw [List.forall_mem_cons]
          exact ⟨⟨h0, trim hn.1⟩, h4⟩
  | @header cur l ls items s h1 _ ih =>
    rw [List.forall_mem_cons] at hn
    obtain ⟨lines, h2, h3⟩ := ih hn.2
    refine ⟨lines, ?_, h3⟩
    have h1 : strip l = s.header := h1
    rw [readParts]
    rw [h1, if_neg (header_ne s), if_pos (header_bracket s)]
    exact h2
  | @item s l ls items h1 h2 h3 _ ih =>
    rw [List.forall_mem_cons] at hn
    obtain ⟨lines, h4, h5, h6⟩ := ih hn.2
    have hi : isItem (strip l) = true := isItem_iff.mpr ⟨h1, h2⟩
    refine ⟨(s.header, strip l) :: lines, ?_, ⟨fun s' => ?_, ?_⟩, ?_⟩
    · change readParts s.header ls = some lines at h4
      change readParts s.header (l :: ls) = _
      rw [line h1 h3, h4]
      rfl
    · rw [linesOf_cons, itemsOf_cons]
      by_cases hs : s = s'
      · subst hs
        rw [if_pos rfl, if_pos rfl, List.filter_cons_of_pos hi, h5.items s]
        rfl
      · rw [if_neg (fun h => hs (header_inj h)), if_neg hs, h5.items s']
    · rw [List.forall_mem_cons]
      exact ⟨⟨⟨s, rfl⟩, pyTrim_tight hn.1.1, h3⟩, h5.lines⟩
    · rw [List.forall_mem_cons]
      exact ⟨⟨h1, trim hn.1⟩, h6⟩

theorem universal_clean : ∀ s : List Char, '\r' ∉ universal s := by
  intro s
  induction s using universal.induct with
  | case1 => simp [universal]
  | case2 cs ih => rw [universal]; simp [ih]
  | case3 c cs h ih =>
    rw [universal]
    · by_cases hc : c = '\r'
      · simp [hc, ih]
      · simp [hc, ih, Ne.symm hc]
    · exact h

theorem splitLinesAux_mem (s : List Char) : ∀ cur, ∀ l ∈ splitLinesAux cur s, ∀ c ∈ l, c ∈ cur ∨ c ∈ s := by
  induction s with
  | nil =>
    intro cur l hl c hc
    rw [splitLinesAux] at hl
    split at hl
    · cases hl
    · rw [List.mem_singleton.mp hl] at hc; exact .inl (by simpa using hc)
  | cons d s ih =>
    intro cur l hl c hc
    rw [splitLinesAux] at hl
    split at hl
    · rcases List.mem_cons.mp hl with rfl | hl
      · exact .inl (by simpa using hc)
      · rcases ih [] l hl c hc with h | h
        · cases h
        · exact .inr (by simp [h])
    · rcases ih (d :: cur) l hl c hc with h | h
      · rcases List.mem_cons.mp h with rfl | h
        · exact .inr (by simp)
        · exact .inl h
      · exact .inr (by simp [h])

theorem universal_lines (s : List Char) : ∀ l ∈ splitLines (universal s), NoEnd l := by
  intro l hl
  refine ⟨splitLines_clean _ l hl, fun hc => ?_⟩
  rcases splitLinesAux_mem _ [] l hl _ hc with h | h
  · cases h
  · exact universal_clean s h

theorem universal_self : ∀ {s : List Char}, '\r' ∉ s → universal s = s := by
  intro s
  induction s using universal.induct with
  | case1 => intro _; rfl
  | case2 cs ih => intro h; simp at h
  | case3 c cs h ih =>
    intro hn
    rw [List.mem_cons, not_or] at hn
    rw [universal, ih hn.2, if_neg (Ne.symm hn.1)]
    exact h

/-! ### The Boolean propositions -/

/-- The same words for names. -/
theorem lexes_same {b b' : List Word} (hm : ∀ w, (∀ c ∈ w, nameChar c = true) → (w ∈ b ↔ w ∈ b')) {s : List Char} {ts : List Tok} (h : Lexes b s ts) : Lexes b' s ts := by
  induction h with
  | nil => exact .nil
  | space hc _ ih => exact .space hc ih
  | @name c w rest ts hc hw hr _ ih =>
    have hall : ∀ d ∈ c :: w, nameChar d = true := by
      intro d hd
      rcases List.mem_cons.mp hd with rfl | hd
      · rw [nameChar, hc]; rfl
      · exact hw d hd
    have e : nameTok b (c :: w) = nameTok b' (c :: w) := by
      rw [← word_token, ← word_token]
      simp only [hm _ hall]
    rw [e]
    exact .name hc hw hr ih
  | number hw hd hr _ ih => exact .number hw hd hr ih
  | char h1 h2 h3 _ ih => exact .char h1 h2 h3 ih

theorem isFormula_same {b b' : List Word} (hm : ∀ w, (∀ c ∈ w, nameChar c = true) → (w ∈ b ↔ w ∈ b')) {s : List Char} {f : SFml} (h : IsFormula b s f) :
    IsFormula b' s f := by
  obtain ⟨ts, h1, h2⟩ := h
  exact ⟨ts, lexes_same hm h1, h2⟩

theorem name_hash {w : Word} (h : ∀ c ∈ w, nameChar c = true) : '#' ∉ w := by
  intro hc
  have := h _ hc
  revert this
  decide

/-- There is no `#` in a formula. -/
theorem lexes_hash {b : List Word} {s : List Char} {ts : List Tok} (h : Lexes b s ts) (hk : ∀ t ∈ ts, t.kind ≠ .other) : '#' ∉ s := by
  induction h with
  | nil => simp
  | space hc _ ih =>
    rw [List.mem_cons, not_or]
    refine ⟨?_, ih hk⟩
    rintro rfl
    revert hc
    decide
  | @name c w rest ts hc hw hr _ ih =>
    rw [List.forall_mem_cons] at hk
    rw [List.mem_append, not_or]
    refine ⟨name_hash fun d hd => ?_, ih hk.2⟩
    rcases List.mem_cons.mp hd with rfl | hd
    · rw [nameChar, hc]; rfl
    · exact hw d hd
  | number hw hd hr _ ih =>
    rw [List.forall_mem_cons] at hk
    rw [List.mem_append, not_or]
    refine ⟨fun hc => ?_, ih hk.2⟩
    have := hd _ hc
    revert this
    decide
  | char h1 h2 h3 _ ih =>
    rw [List.forall_mem_cons] at hk
    rw [List.mem_cons, not_or]
    refine ⟨?_, ih hk.2⟩
    rintro rfl
    exact hk.1 rfl

theorem stackSize_same {b b' : List Word} : ∀ (ws : List Word) (n : Nat), (∀ w ∈ ws, '#' ∉ w) → (∀ w, '#' ∉ w → (w ∈ b ↔ w ∈ b')) → stackSize b n ws = stackSize b' n ws
  | [], _, _, _ => rfl
  | w :: ws, n, h, hm => by
    rw [List.forall_mem_cons] at h
    have hw : '#' ∉ (if endsWithPrime w then w.dropLast else w) := by
      split
      · exact fun hc => h.1 (List.mem_of_mem_dropLast hc)
      · exact h.1
    rw [stackSize, stackSize]
    simp only [stackSize_same ws _ h.2 hm, hm _ hw]

theorem mem_split_word {s : List Char} {w : Word} (h : w ∈ split txt!" " s) : ∀ c ∈ w, c ∈ s := by
  have key : ∀ (s cur : List Char), ∀ w ∈ splitAux txt!" " 0 cur s, ∀ c ∈ w, c ∈ cur ∨ c ∈ s := by
    intro s
    induction s with
    | nil =>
      intro cur w hw c hc
      rw [splitAux, List.mem_singleton] at hw
      rw [hw] at hc
      exact .inl (by simpa using hc)
    | cons d s ih =>
      intro cur w hw c hc
      by_cases hd : d = ' '
      · subst hd
        rw [splitAux_blank, List.mem_cons] at hw
        rcases hw with rfl | hw
        · exact .inl (by simpa using hc)
        · rcases ih [] w hw c hc with h | h
          · cases h
          · exact .inr (by simp [h])
      · rw [splitAux_other cur hd] at hw
        rcases ih _ w hw c hc with h | h
        · rcases List.mem_cons.mp h with rfl | h
          · exact .inr (by simp)
          · exact .inl h
        · exact .inr (by simp [h])
  intro c hc
  rcases key s [] w h c hc with h | h
  · cases h
  · exact h

theorem isPrefix_same {b b' : List Word} (hm : ∀ w, '#' ∉ w → (w ∈ b ↔ w ∈ b')) {s : List Char} (hs : '#' ∉ s) :
    isPrefixLine b (split txt!" " s) = isPrefixLine b' (split txt!" " s) := by
  rw [isPrefixLine, isPrefixLine]
  rw [stackSize_same _ 0 ?_ hm]
  intro w hw hc
  rw [List.mem_reverse] at hw
  exact hs (mem_split_word (List.mem_filter.mp hw).1 _ hc)

/-- A formula in infix notation that is taken for one in the notation of slugs is a variable with negations. -/
theorem isPrefix_simple {bools : List Word} (hbools : ∀ w ∈ bools, NameLike w) (hc : ∀ w ∈ bools, unprimed w ∈ bools) {line : List Char} {f : SFml}
    (hf : IsFormula bools line f) (hp : isPrefixLine bools (split txt!" " line) = true) : ∃ ts, Simple ts f := by
  obtain ⟨ts, h1, h2⟩ := hf
  have e := lexes_words h1
  rw [isPrefixLine] at hp
  change (if txt!"$" ∈ blankWords line then true else stackSize bools 0 (blankWords line).reverse == some 1) = true at hp
  by_cases hd : txt!"$" ∈ blankWords line
  · exfalso
    have : (⟨.other, txt!"$"⟩ : Tok) ∈ ts := by
      rw [e]
      exact List.mem_flatMap.mpr ⟨_, hd, by rw [show tokenize bools txt!"$" = [⟨.other, txt!"$"⟩] from rfl]; simp⟩
    exact (infix_tokens h2 _ this).1 rfl
  · rw [if_neg hd, beq_iff_eq] at hp
    have hk : ∀ w ∈ blankWords line, WordKind bools w (tokenize bools w) := fun w hw => stackSize_kinds hbools _ hp w (by simpa using hw)
    obtain ⟨h3, h4⟩ := infix_simple h2 (by
      rw [e]
      intro t ht
      obtain ⟨w, hw, ht⟩ := List.mem_flatMap.mp ht
      exact keyless (hk w hw) t ht)
    have hfit := words_fit hk (by rw [← e]; exact h3)
    rw [← e] at hfit
    rcases h4 with h4 | ⟨pre, op, suf, g, rfl, h5, h6⟩
    · exact ⟨_, h4⟩
    · exfalso
      obtain ⟨u1, u2, hu, f1, f2⟩ := forall2_split hfit
      obtain ⟨w, u3, hw, f3, rfl⟩ := List.forall₂_cons_right_iff.mp f2
      obtain ⟨_, _, _, _, w5⟩ := simple_words hc h6 f3
      rw [hu, List.reverse_append, List.reverse_cons, List.append_assoc, w5] at hp
      have hwop : w = txt!"|" ∨ w = txt!"&" ∨ w = txt!"^" := by
        rcases hw.2 with h | h | h | h | h
        · exact .inl h.2
        · exact .inr (.inl h.2)
        · exact .inr (.inr h.2)
        · rw [h.1] at h5; simp at h5
        · rw [h.1] at h5; simp at h5
      rw [List.singleton_append, stackSize, if_pos hwop] at hp
      simp at hp

theorem simple_proper {ts : List Tok} {f : SFml} (h : Simple ts f) (bounds : Bounds) : f.Proper bounds false ∧ f.numbers false = [] := by
  induction h with
  | atom _ => exact ⟨fun h => (by cases h), rfl⟩
  | not _ _ ih => exact ih

theorem simple_holds {ts : List Tok} {f : SFml} (h : Simple ts f) (bounds bounds' : Bounds) (b : Word → Bool) (val val' : Word → Int) :
    f.holds bounds b val = f.holds bounds' b val' := by
  induction h with
  | atom _ => rfl
  | not _ _ ih => rw [SFml.holds, SFml.holds, ih]

end Slugs.Model.Substitutor
