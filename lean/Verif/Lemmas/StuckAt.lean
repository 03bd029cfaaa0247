import Verif.Model.StuckAt
import Verif.Spec.StuckAt
import Verif.Lemmas.Regroup
import Verif.Lemmas.Decoder

/-!
Files that `analyzeStuckAtConstant.py` reads and writes.
-/

namespace Slugs.Model.StuckAt

open Slugs.Spec Slugs.Spec.Structured Slugs.Model Slugs.Model.Structured Slugs.Model.Core

/-! ### White space -/

/-- The only white space is blanks, tabulators and line feeds. -/
def Simple (s : List Char) : Prop := ∀ c ∈ s, pySpace c = true → c = ' ' ∨ c = '\t' ∨ c = '\n'

theorem Simple.sub {s t : List Char} (h : Simple s) (hs : ∀ c ∈ t, c ∈ s) : Simple t := fun c hc => h c (hs c hc)

theorem space_py {c : Char} (h : isSpace c = true) : pySpace c = true := by
  by_contra hn
  rw [not_space (by simpa using hn)] at h
  cases h

theorem Simple.iff {s : List Char} (h : Simple s) : ∀ c ∈ s, pySpace c = isSpace c := by
  intro c hc
  cases h1 : pySpace c with
  | true => rcases h c hc h1 with rfl | rfl | rfl <;> decide
  | false => rw [not_space h1]

theorem dropWhile_congr {p q : Char → Bool} : ∀ {s : List Char}, (∀ c ∈ s, p c = q c) → s.dropWhile p = s.dropWhile q
  | [], _ => rfl
  | c :: s, h => by
    rw [List.forall_mem_cons] at h
    rw [List.dropWhile_cons, List.dropWhile_cons, h.1, dropWhile_congr h.2]

theorem Simple.trim {s : List Char} (h : Simple s) : trim s = pyTrim s := by
  rw [Slugs.Spec.trim, pyTrim, dropWhile_congr fun c hc => (h.iff c hc).symm, dropWhile_congr]
  intro c hc
  exact (h.iff c ((List.dropWhile_sublist _).subset (List.mem_reverse.mp hc))).symm

theorem Simple.no_cr {s : List Char} (h : Simple s) : '\r' ∉ s := fun hm => by
  have := h '\r' hm (by decide)
  revert this
  decide

theorem universal_self : ∀ {s : List Char}, '\r' ∉ s → universal s = s
  | [], _ => rfl
  | c :: s, h => by
    rw [List.mem_cons, not_or] at h
    have ih := universal_self h.2
    have hc : c ≠ '\r' := fun e => h.1 e.symm
    rw [universal.eq_def]
    split
    · rename_i e; cases e
    · rename_i e; cases e; exact absurd rfl hc
    · rename_i e; cases e; rw [if_neg hc, ih]

theorem splitLinesAux_sub (s : List Char) : ∀ cur, ∀ l ∈ splitLinesAux cur s, ∀ c ∈ l, c ∈ cur ∨ c ∈ s := by
  induction s with
  | nil =>
    intro cur l hl c hc
    rw [splitLinesAux] at hl
    split at hl
    · cases hl
    · rw [List.mem_singleton] at hl; subst hl; exact .inl (List.mem_reverse.mp hc)
  | cons d s ih =>
    intro cur l hl c hc
    rw [splitLinesAux] at hl
    split at hl
    · rcases List.mem_cons.mp hl with rfl | hl
      · exact .inl (List.mem_reverse.mp hc)
      · rcases ih [] l hl c hc with h | h
        · cases h
        · exact .inr (List.mem_cons_of_mem _ h)
    · rcases ih (d :: cur) l hl c hc with h | h
      · rcases List.mem_cons.mp h with rfl | h
        · exact .inr (List.mem_cons_self ..)
        · exact .inl h
      · exact .inr (List.mem_cons_of_mem _ h)

theorem splitLines_sub {s : List Char} {l : List Char} (hl : l ∈ splitLines s) : ∀ c ∈ l, c ∈ s := fun c hc =>
  (splitLinesAux_sub s [] l hl c hc).resolve_left (by simp)

/-! ### Reading -/

/-- The lines of a section that the program keeps. -/
structure Kept (l : List Char) : Prop where
  tight : Tight l
  ne : l ≠ []
  bracket : l.head? ≠ some '['
  simple : Simple l

theorem read_line {s : Section} {c : Categories} {l : List Char} {ls : List (List Char)} (h1 : trim l ≠ []) (h2 : (trim l).head? ≠ some '[') :
    readSlugsFile s.header c (l :: ls) = readSlugsFile s.header (c.add s (trim l)) ls := by
  rw [readSlugsFile]
  simp only [if_neg h1, if_neg h2, if_neg (fun h : s.header = [] ∧ _ => header_ne s h.1), headerOf_header]

theorem read_collected {cur : Option Section} {ls : List (List Char)} {items : List (Section × List Char)} (h : SContent cur ls items)
    (hn : ∀ l ∈ ls, '\n' ∉ l ∧ Simple l) : ∀ c : Categories, ∃ L : Categories, readSlugsFile (modeOf cur) c ls = some (fun s => c s ++ L s) ∧
      (∀ s, (L s).filter isItem = itemsOf s items) ∧ ∀ s, ∀ l ∈ L s, Kept l := by
  induction h with
  | nil => exact fun c => ⟨fun _ => [], by simp [readSlugsFile], fun s => rfl, by simp⟩
  | @skip cur l ls items h1 _ ih =>
    rw [List.forall_mem_cons] at hn
    intro c
    have ht := hn.1.2.trim
    rcases h1 with h1 | h1
    · obtain ⟨L, h2, h3⟩ := ih hn.2 c
      refine ⟨L, ?_, h3⟩
      rw [readSlugsFile]
      simp only [ht, h1, if_pos]
      exact h2
    · have hne : pyTrim l ≠ [] := by intro e; rw [e] at h1; cases h1
      have hb : (pyTrim l).head? ≠ some '[' := by rw [h1]; simp
      cases cur with
      | none =>
        obtain ⟨L, h2, h3⟩ := ih hn.2 c
        refine ⟨L, ?_, h3⟩
        rw [readSlugsFile]
        simp only [ht, if_neg hne, if_neg hb, h1, modeOf, true_and, if_pos]
        exact h2
      | some s =>
        obtain ⟨L, h2, h3, h4⟩ := ih hn.2 (c.add s (pyTrim l))
        refine ⟨fun s' => (if s' = s then [pyTrim l] else []) ++ L s', ?_, fun s' => ?_, fun s' l' hl' => ?_⟩
        · change readSlugsFile s.header c (l :: ls) = _
          rw [read_line (by rw [ht]; exact hne) (by rw [ht]; exact hb), ht]
          refine h2.trans ?_
          congr 1
          funext s'
          by_cases e : s' = s <;> simp [Categories.add, e]
        · rw [List.filter_append, h3 s']
          have hi : isItem (pyTrim l) = false := by
            rw [Bool.eq_false_iff]; intro h; exact (isItem_iff.mp h).2 h1
          by_cases e : s' = s <;> simp [e, hi]
        · rcases List.mem_append.mp hl' with hl' | hl'
          · by_cases e : s' = s
            · rw [if_pos e, List.mem_singleton] at hl'
              subst hl'
              exact ⟨pyTrim_tight hn.1.1, hne, hb, hn.1.2.sub fun c hc => pyTrim_mem hc⟩
            · rw [if_neg e] at hl'; cases hl'
          · exact h4 s' l' hl'
  | @header cur l ls items s h1 _ ih =>
    rw [List.forall_mem_cons] at hn
    intro c
    obtain ⟨L, h2, h3⟩ := ih hn.2 c
    refine ⟨L, ?_, h3⟩
    rw [readSlugsFile]
    simp only [hn.1.2.trim, h1, if_neg (header_ne s), if_pos (header_bracket s)]
    exact h2
  | @item s l ls items h1 h2 h3 _ ih =>
    rw [List.forall_mem_cons] at hn
    intro c
    have ht := hn.1.2.trim
    obtain ⟨L, h4, h5, h6⟩ := ih hn.2 (c.add s (pyTrim l))
    refine ⟨fun s' => (if s' = s then [pyTrim l] else []) ++ L s', ?_, fun s' => ?_, fun s' l' hl' => ?_⟩
    · change readSlugsFile s.header c (l :: ls) = _
      rw [read_line (by rw [ht]; exact h1) (by rw [ht]; exact h3), ht]
      refine h4.trans ?_
      congr 1
      funext s'
      by_cases e : s' = s <;> simp [Categories.add, e]
    · rw [List.filter_append, h5 s', itemsOf_cons]
      have hi : isItem (pyTrim l) = true := isItem_iff.mpr ⟨h1, h2⟩
      by_cases e : s' = s
      · simp [e, hi]
      · rw [if_neg e, if_neg fun h => e h.symm]; rfl
    · rcases List.mem_append.mp hl' with hl' | hl'
      · by_cases e : s' = s
        · rw [if_pos e, List.mem_singleton] at hl'
          subst hl'
          exact ⟨pyTrim_tight hn.1.1, h1, h3, hn.1.2.sub fun c hc => pyTrim_mem hc⟩
        · rw [if_neg e] at hl'; cases hl'
      · exact h6 s' l' hl'

/-! ### Writing -/

theorem scontent_lines {s : Section} {rest : List (List Char)} {items : List (Section × List Char)} (h : SContent (some s) rest items) :
    ∀ {L : List (List Char)}, (∀ l ∈ L, Kept l) → SContent (some s) (L ++ rest) ((L.filter isItem).map (fun l => (s, l)) ++ items)
  | [], _ => h
  | l :: L, ho => by
    rw [List.forall_mem_cons] at ho
    have e := ho.1.tight.pyTrim
    have ih := scontent_lines h ho.2
    by_cases hi : isItem l = true
    · rw [List.filter_cons_of_pos hi]
      have hi' := isItem_iff.mp hi
      have := SContent.item (s := s) (l := l) (by rw [e]; exact hi'.1) (by rw [e]; exact hi'.2) (by rw [e]; exact ho.1.bracket) ih
      rwa [e] at this
    · rw [List.filter_cons_of_neg hi]
      refine .skip (.inr ?_) ih
      rw [e]
      by_contra hc
      exact hi (isItem_iff.mpr ⟨ho.1.ne, hc⟩)

theorem scontent_sections {J : Categories} : ∀ (ss : List Section), (∀ s ∈ ss, ∀ l ∈ J s, Kept l) → ∀ cur,
    SContent cur (sectionLines [[]] ss J) (ss.flatMap fun s => ((J s).filter isItem).map fun l => (s, l))
  | [], _, _ => .nil
  | s :: ss, h, cur => by
    rw [List.forall_mem_cons] at h
    rw [sectionLines, List.flatMap_cons, List.flatMap_cons, List.cons_append, List.append_assoc]
    refine .header s ?_ (scontent_lines (.skip (.inl rfl) (scontent_sections ss h.2 _)) h.1)
    cases s <;> decide

theorem simple_header (s : Section) : Simple s.header := by
  cases s <;> (intro c hc h; revert h; revert c; decide)

/-- The items of a file that has been written. -/
theorem written_content {J : Categories} (h : ∀ s, ∀ l ∈ J s, Kept l) : ∃ items, SContent none (splitLines (universal (writeSlugsFile J))) items ∧
    ∀ s, itemsOf s items = (J s).filter isItem := by
  have hl : ∀ l ∈ sectionLines [[]] fileOrder J, '\n' ∉ l ∧ '\r' ∉ l := by
    intro l hl
    obtain ⟨s, _, hl⟩ := List.mem_flatMap.mp hl
    rcases List.mem_cons.mp hl with rfl | hl
    · exact ⟨(header_trim s).2, (simple_header s).no_cr⟩
    · rcases List.mem_append.mp hl with hl | hl
      · exact ⟨(h s l hl).tight.line, (h s l hl).simple.no_cr⟩
      · simp only [List.mem_singleton] at hl; subst hl; simp
  have hcr : '\r' ∉ writeSlugsFile J := by
    intro hm
    rw [writeSlugsFile, writeLines] at hm
    obtain ⟨l, h1, h2⟩ := List.mem_flatMap.mp hm
    rcases List.mem_append.mp h2 with h2 | h2
    · exact (hl l h1).2 h2
    · revert h2; decide
  refine ⟨_, ?_, fun s => itemsOf_blocks (F := fun s => (J s).filter isItem) (ss := fileOrder) s (by decide) (by cases s <;> decide)⟩
  rw [universal_self hcr, writeSlugsFile, writeLines_eq, splitLines_printLines _ fun l hl' => (hl l hl').1]
  exact scontent_sections fileOrder (fun s _ => h s) none

/-! ### Specifications with further constraints -/

/-- The specification with a further constraint in a section. -/
def addTo (S : SSpec) (s : Section) (k : Constraint) : SSpec where
  inputs := S.inputs
  outputs := S.outputs
  envInit := S.envInit ++ if s = .envInit then [k] else []
  sysInit := S.sysInit ++ if s = .sysInit then [k] else []
  envTrans := S.envTrans ++ if s = .envTrans then [k] else []
  sysTrans := S.sysTrans ++ if s = .sysTrans then [k] else []
  envLiveness := S.envLiveness ++ if s = .envLiveness then [k] else []
  sysLiveness := S.sysLiveness ++ if s = .sysLiveness then [k] else []

theorem constraintsOf_addTo (S : SSpec) {s : Section} (hs : s ∈ properties) (k : Constraint) (s' : Section) :
    constraintsOf (addTo S s k) s' = constraintsOf S s' ++ if s' = s then [k] else [] := by
  cases s <;> (try exact absurd hs (by decide)) <;> cases s' <;> simp [constraintsOf, addTo]

/-- The lines are those of a file for the specification. -/
structure Good (S : SSpec) (J : Categories) : Prop where
  kept : ∀ s, ∀ l ∈ J s, Kept l
  inputs : List.Forall₂ IsDecl ((J .input).filter isItem) S.inputs
  outputs : List.Forall₂ IsDecl ((J .output).filter isItem) S.outputs
  constraints : ∀ s ∈ properties, List.Forall₂ (IsConstraint S.bools) ((J s).filter isItem) (constraintsOf S s) ∧ ∀ c ∈ constraintsOf S s, S.Allows s c
  nodup : S.names.Nodup

theorem Good.denotes {S : SSpec} {J : Categories} (h : Good S J) : SDenotes (writeSlugsFile J) S := by
  obtain ⟨items, h1, h2⟩ := written_content h.kept
  have hc := h.constraints
  refine ⟨⟨items, h1, ?_, ?_, ?_, ?_, ?_, ?_, ?_, ?_⟩, h.nodup, (hc .envInit (by decide)).2, (hc .sysInit (by decide)).2, (hc .envTrans (by decide)).2,
    (hc .sysTrans (by decide)).2, (hc .envLiveness (by decide)).2, (hc .sysLiveness (by decide)).2⟩
  all_goals rw [h2]
  · exact h.inputs
  · exact h.outputs
  · exact (hc .envInit (by decide)).1
  · exact (hc .sysInit (by decide)).1
  · exact (hc .envTrans (by decide)).1
  · exact (hc .sysTrans (by decide)).1
  · exact (hc .envLiveness (by decide)).1
  · exact (hc .sysLiveness (by decide)).1

theorem Good.addTo {S : SSpec} {J : Categories} (h : Good S J) {s : Section} (hs : s ∈ properties) {line : List Char} {k : Constraint} (hk : Kept line)
    (hi : isItem line = true) (hc : IsConstraint S.bools line k) (ha : S.Allows s k) : Good (addTo S s k) (J.add s line) where
  kept s' l hl := by
    rw [Categories.add] at hl
    split at hl
    · rcases List.mem_append.mp hl with hl | hl
      · exact h.kept s' l hl
      · rw [List.mem_singleton] at hl; exact hl ▸ hk
    · exact h.kept s' l hl
  inputs := by
    rw [Categories.add, if_neg (by rintro rfl; exact absurd hs (by decide))]
    exact h.inputs
  outputs := by
    rw [Categories.add, if_neg (by rintro rfl; exact absurd hs (by decide))]
    exact h.outputs
  constraints s' hs' := by
    obtain ⟨h1, h2⟩ := h.constraints s' hs'
    rw [constraintsOf_addTo S hs]
    by_cases e : s' = s
    · subst e
      rw [Categories.add, if_pos rfl, if_pos rfl, List.filter_append, List.filter_cons_of_pos hi, List.filter_nil]
      refine ⟨List.rel_append h1 (.cons hc .nil), fun c hcm => ?_⟩
      rcases List.mem_append.mp hcm with hcm | hcm
      · exact h2 c hcm
      · rw [List.mem_singleton] at hcm; subst hcm; exact ha
    · rw [Categories.add, if_neg e, if_neg e, List.append_nil]
      exact ⟨h1, h2⟩
  nodup := h.nodup

/-- The file that has been read. -/
theorem good_of_denotes {S : SSpec} {text : List Char} (h : SDenotes text S) (hs : Simple text) :
    ∃ J, readSlugsFile [] (fun _ => []) (splitLines text) = some J ∧ Good S J := by
  obtain ⟨items, h0, h1, h2, h3⟩ := denotes_sections h
  rw [universal_self hs.no_cr] at h0
  obtain ⟨L, r1, r2, r3⟩ := read_collected h0 (fun l hl => ⟨splitLines_clean _ l hl, hs.sub (splitLines_sub hl)⟩) fun _ => []
  refine ⟨L, by simpa [modeOf] using r1, r3, by rw [r2]; exact h1, by rw [r2]; exact h2, fun s hs => by rw [r2]; exact h3 s hs, h.nodup⟩

/-! ### The constraints that fix a value -/

theorem nameTok_boolID {bools : List Word} {w : Word} (h : NameLike w) (hm : w ∈ bools) : nameTok bools w = ⟨.boolID, w⟩ := by
  rw [← word_token, if_neg h.2.2, if_pos hm]

theorem nameTok_numID {bools : List Word} {w : Word} (h : NameLike w) (hm : w ∉ bools) : nameTok bools w = ⟨.numID, w⟩ := by
  rw [← word_token, if_neg h.2.2, if_neg hm]

theorem lexes_name {bools : List Word} {w rest : List Char} {ts : List Tok} (h : NameLike w) (hr : ∀ d, rest.head? = some d → nameChar d = false) (hl : Lexes bools rest ts) :
    Lexes bools (w ++ rest) (nameTok bools w :: ts) := by
  obtain ⟨⟨c, h1, h2⟩, h3, _⟩ := h
  cases w with
  | nil => cases h1
  | cons d w =>
    cases h1
    rw [List.forall_mem_cons] at h3
    exact .name h2 h3.2 hr hl

theorem up5 {ts : List Tok} {f : SFml} (h : Infix 5 ts f) : Infix 0 ts f :=
  .up (by decide) (.up (by decide) (.up (by decide) (.up (by decide) (.up (by decide) h))))

theorem formula_atom {bools : List Word} {w : Word} (h : NameLike w) (hm : w ∈ bools) : IsFormula bools w (.atom w) := by
  have := lexes_name (bools := bools) (rest := []) h (by simp) .nil
  rw [List.append_nil, nameTok_boolID h hm] at this
  exact ⟨_, this, up5 (Infix.atom (t := ⟨.boolID, w⟩) rfl)⟩

theorem formula_not {bools : List Word} {w : Word} (h : NameLike w) (hm : w ∈ bools) : IsFormula bools (txt!"! " ++ w) (.not (.atom w)) := by
  have := lexes_name (bools := bools) (rest := []) h (by simp) .nil
  rw [List.append_nil, nameTok_boolID h hm] at this
  refine ⟨⟨.bang, txt!"!"⟩ :: [⟨.boolID, w⟩], .char (c := '!') (by decide) (by decide) (by decide) (.space (c := ' ') (by decide) this), ?_⟩
  refine .up (by decide) (.up (by decide) (.up (by decide) (.up (by decide) (.not (.inl rfl) (.up (by decide) ?_)))))
  exact Infix.atom (t := ⟨.boolID, w⟩) rfl

theorem formula_eq {bools : List Word} {w : Word} (h : NameLike w) (hm : w ∉ bools) (n : Nat) :
    IsFormula bools (w ++ txt!"=" ++ strNat n) (.cmp .eq (.var w) (.num (digitsVal (strNat n)))) := by
  have h1 : Lexes bools (strNat n) [⟨.numeral, strNat n⟩] := by
    have := Lexes.number (bools := bools) (w := strNat n) (rest := []) (strNat_digits n).1 (strNat_digits n).2 (by simp) .nil
    rwa [List.append_nil] at this
  have h2 := lexes_name (bools := bools) (rest := '=' :: strNat n) h (by simp; decide) (.char (by decide) (by decide) (by decide) h1)
  rw [nameTok_numID h hm] at h2
  refine ⟨_, by simpa using h2, up5 ?_⟩
  exact Infix.cmp (ts := [⟨.numID, w⟩]) (op := [⟨.equal, txt!"="⟩]) (us := [⟨.numeral, strNat n⟩]) .eq (.one (.one (InfixNumber.var (t := ⟨.numID, w⟩) rfl))) rfl
    (.one (.one (InfixNumber.num (t := ⟨.numeral, strNat n⟩) rfl)))

end Slugs.Model.StuckAt
