import Verif.Lemmas.StuckAt
import Verif.Lemmas.StructuredOutput
import Verif.Model.Report
import Verif.Spec.Analyze

/-! The files for which slugs is called when a report is made: the file of the compiler, and the file in which the liveness guarantees are replaced. -/

namespace Slugs.Model.Report

open Slugs.Spec Slugs.Spec.Structured Slugs.Model Slugs.Model.Structured
open Slugs.Model.Core (Categories writeLines sectionLines headerOf_header writeLines_eq header_trim)
open Slugs.Model.StuckAt (readSlugsFile writeSlugsFile fileOrder)

variable {S : SSpec}

/-! ### Marked lines -/

/-- The marked lines among the lines of a section. -/
def marks : Bool → List (List Char) → List (List Char)
  | _, [] => []
  | m, l :: ls => if l = [] then marks m ls else if l.head? = some '#' then marks (m || limitMark.isPrefixOf l) ls else (if m then [l] else []) ++ marks false ls

theorem marks_append {L : List (List Char)} (h : ∀ l ∈ L, limitMark.isPrefixOf l = false) (X : List (List Char)) : marks false (L ++ X) = marks false X := by
  induction L with
  | nil => rfl
  | cons l L ih =>
    rw [List.forall_mem_cons] at h
    rw [List.cons_append, marks, h.1]
    simp [ih h.2]

theorem marks_filter : ∀ (L : List (List Char)) (m : Bool), marks m (L.filter fun l => decide (l ≠ [])) = marks m L
  | [], _ => rfl
  | l :: L, m => by
    by_cases h : l = []
    · rw [List.filter_cons_of_neg (by simp [h]), marks_filter L, marks, if_pos h]
    · rw [List.filter_cons_of_pos (by simp [h]), marks, marks]
      simp only [marks_filter L]

theorem marks_item {l : List Char} (h : isItem l = true) (m : Bool) (X : List (List Char)) : marks m (l :: X) = (if m then [l] else []) ++ marks false X := by
  have := isItem_iff.mp h
  rw [marks, if_neg this.1, if_neg this.2]

theorem marks_note (p : List Char) (x : Word) (lo hi : Int) (m : Bool) (X : List (List Char)) : marks m (limitNote p x lo hi :: X) = marks true X := by
  have h1 : limitNote p x lo hi ≠ [] := by intro e; have := congrArg List.head? e; revert this; exact (by rw [show (limitNote p x lo hi).head? = some '#' from rfl]; simp)
  have h2 : limitMark.isPrefixOf (limitNote p x lo hi) = true := by
    rw [List.isPrefixOf_iff_prefix, limitNote, List.append_assoc, List.append_assoc]
    exact List.prefix_append _ _
  rw [marks, if_neg h1, if_pos (show (limitNote p x lo hi).head? = some '#' from rfl), h2, Bool.or_true]

theorem marked_lines {s : Section} {rest : List (List Char)} {X : List (Section × List Char)} (h : ∀ m, markedItems (some s) m rest = X) :
    ∀ {L : List (List Char)}, (∀ l ∈ L, OutLine l) → ∀ m, markedItems (some s) m (L ++ rest) = (marks m L).map (fun l => (s, l)) ++ X
  | [], _, m => h m
  | l :: L, ho, m => by
    rw [List.forall_mem_cons] at ho
    have ih := marked_lines h ho.2
    rw [List.cons_append, markedItems, marks, ho.1.tight.trim]
    split
    · exact ih m
    · split
      · exact ih _
      · rw [if_neg ho.1.header, ih]
        cases m <;> simp

theorem marked_section {s : Section} {rest : List (List Char)} {X : List (Section × List Char)} (h : ∀ cur m, markedItems cur m rest = X)
    {L : List (List Char)} (ho : ∀ l ∈ L, OutLine l) (cur : Option Section) (m : Bool) :
    markedItems cur m (s.header :: (L ++ [[]]) ++ rest) = (marks false L).map (fun l => (s, l)) ++ X := by
  have e : markedItems cur m (s.header :: ((L ++ [[]]) ++ rest)) = markedItems (some s) false ((L ++ [[]]) ++ rest) := by
    rw [markedItems, (header_trim s).1, if_neg (header_ne s), header_bracket, if_neg (by decide), if_pos rfl, headerOf_header]
    rfl
  rw [List.cons_append, e, List.append_assoc]
  refine marked_lines (fun m => ?_) ho false
  rw [List.cons_append, List.nil_append, markedItems, if_pos (show trim ([] : List Char) = [] from rfl), h]

theorem marked_blocks {J : Section → List (List Char)} : ∀ (ss : List Section), (∀ s ∈ ss, ∀ l ∈ J s, OutLine l) → ∀ cur m,
    markedItems cur m (ss.flatMap fun s => block s (J s)) = ss.flatMap fun s => (marks false (J s)).map fun l => (s, l)
  | [], _, _, _ => rfl
  | s :: ss, h, cur, m => by
    rw [List.forall_mem_cons] at h
    have ih := marked_blocks ss h.2
    rw [List.flatMap_cons, List.flatMap_cons, block]
    split
    · exact marked_section ih h.1 cur m
    · rename_i hn
      have : J s = [] := by simpa using hn
      rw [this, List.nil_append]
      exact ih cur m

theorem marked_sections {J : Categories} : ∀ (ss : List Section), (∀ s ∈ ss, ∀ l ∈ J s, OutLine l) → ∀ cur m,
    markedItems cur m (sectionLines [[]] ss J) = ss.flatMap fun s => (marks false (J s)).map fun l => (s, l)
  | [], _, _, _ => rfl
  | s :: ss, h, cur, m => by
    rw [List.forall_mem_cons] at h
    rw [sectionLines, List.flatMap_cons, List.flatMap_cons]
    exact marked_section (marked_sections ss h.2) h.1 cur m

theorem content_sections {J : Categories} : ∀ (ss : List Section), (∀ s ∈ ss, ∀ l ∈ J s, OutLine l) → ∀ cur,
    Content cur (sectionLines [[]] ss J) (ss.flatMap fun s => ((J s).filter isItem).map fun l => (s, l))
  | [], _, _ => .nil
  | s :: ss, h, cur => by
    rw [List.forall_mem_cons] at h
    rw [sectionLines, List.flatMap_cons, List.flatMap_cons, List.cons_append, List.append_assoc]
    exact .header s (header_trim s).1 (content_lines (.skip (.inl rfl) (content_sections ss h.2 _)) h.1)

/-! ### The marked lines of the compiler -/

theorem marks_decl (t : Bool) (dest h : List Char) {d : Decl} (hd : Tidy d.name) (hr : ∀ lo hi, d.range = some (lo, hi) → 0 ≤ lo ∧ lo ≤ hi)
    (X : List (List Char)) : marks false (linesOf h (extraOf t dest d) ++ X) = (if h = dest ++ txt!"_INIT]" then (limits [d] bitsOf).map Fml.text
      else if h = dest ++ txt!"_TRANS]" then (limitsT t [d]).map Fml.text else []) ++ marks false X := by
  rw [extraOf]
  simp only [limits, limitsT, List.flatMap_cons, List.flatMap_nil, List.append_nil]
  cases hq : d.range with
  | none => simp [linesOf]
  | some q =>
    obtain ⟨lo, hi⟩ := q
    obtain ⟨h0, h1⟩ := hr lo hi hq
    dsimp only
    by_cases hs : 2 ^ bitsFor (hi - lo) = sizeOf lo hi
    · simp [hs, linesOf]
    · simp only [if_neg hs]
      have b1 : ∀ x ∈ (limitF (bitsOf d) (sizeOf lo hi)).vars, NameLike x := fun x hx => nameLike_bit hd hr ((limit_syn _ _).2 x hx)
      have b2 : ∀ x ∈ (limitF ((bitsOf d).map prime) (sizeOf lo hi)).vars, NameLike x := by
        intro x hx
        obtain ⟨y, hy, rfl⟩ := List.mem_map.mp ((limit_syn _ _).2 x hx)
        exact nameLike_prime (nameLike_bit hd hr hy) (prime_not_bit hd hy)
      have t1 := (text_out b1).2.1
      have t2 := (text_out b2).2.1
      have ne : dest ++ txt!"_INIT]" ≠ dest ++ txt!"_TRANS]" := by
        intro e; have := List.append_cancel_left e; revert this; decide
      by_cases c1 : h = dest ++ txt!"_INIT]"
      · subst c1
        cases t <;> simp [linesOf, ne.symm, marks_note, marks_item t1]
      · by_cases c2 : h = dest ++ txt!"_TRANS]"
        · subst c2
          cases t <;> simp [linesOf, ne, marks_note, marks_item t1, marks_item t2]
        · have c1' : ¬ dest ++ txt!"_INIT]" = h := fun e => c1 e.symm
          have c2' : ¬ dest ++ txt!"_TRANS]" = h := fun e => c2 e.symm
          cases t <;> simp [linesOf, c1, c2, c1', c2']

theorem marks_decls (t : Bool) (dest h : List Char) : ∀ {ds : List Decl}, DeclsOk ds → ∀ X,
    marks false (linesOf h (ds.flatMap (extraOf t dest)) ++ X) = (if h = dest ++ txt!"_INIT]" then (limits ds bitsOf).map Fml.text
      else if h = dest ++ txt!"_TRANS]" then (limitsT t ds).map Fml.text else []) ++ marks false X
  | [], _, X => by simp [linesOf, limits, limitsT]
  | d :: ds, hok, X => by
    rw [List.flatMap_cons, linesOf_append, List.append_assoc, marks_decl t dest h (hok.tidy d (by simp)) (hok.range d (by simp)),
      marks_decls t dest h (DeclsOk.right (a := [d]) hok), ← List.append_assoc]
    congr 1
    have e1 : limits (d :: ds) bitsOf = limits [d] bitsOf ++ limits ds bitsOf := by simp [limits]
    have e2 : limitsT t (d :: ds) = limitsT t [d] ++ limitsT t ds := by simp [limitsT]
    rw [e1, e2, List.map_append, List.map_append]
    split
    · rfl
    · split <;> simp

theorem marks_extra (t : Bool) (io : List (List Char × List Char)) (hok : DeclsOk (S.inputs ++ S.outputs)) (s : Section) :
    marks false (linesOf s.header (specConv t S io).extra) = (limitsFor t S s).map Fml.text := by
  have h1 := marks_decls t txt!"[ENV" s.header hok.left
  have h3 := marks_decls t txt!"[SYS" s.header hok.right []
  rw [List.append_nil] at h3
  rw [specConv]
  dsimp only
  rw [linesOf_append, h1, h3]
  cases s <;> simp [Section.header, limitsFor, marks]

theorem readSections_sub : ∀ (ls : List (List Char)) (mode : List Char) {lines : List (List Char × List Char)}, readSections mode ls = some lines →
    ∀ e ∈ lines, ∃ l ∈ ls, e.2 = strip l
  | [], _, lines, h => by
    rw [readSections] at h; cases h; simp
  | l :: ls, mode, lines, h => by
    have up : ∀ {ls' : List (List Char × List Char)}, (∀ e ∈ ls', ∃ l ∈ ls, e.2 = strip l) → ∀ e ∈ ls', ∃ l' ∈ l :: ls, e.2 = strip l' :=
      fun h e he => let ⟨l', h1, h2⟩ := h e he; ⟨l', List.mem_cons_of_mem _ h1, h2⟩
    rw [readSections] at h
    split at h
    · exact up (readSections_sub ls _ h)
    · split at h
      · exact up (readSections_sub ls _ h)
      · split at h
        · split at h
          · rw [Option.map_eq_some_iff] at h
            obtain ⟨ls', h1, rfl⟩ := h
            intro e he
            rcases List.mem_cons.mp he with rfl | he
            · exact ⟨l, by simp, rfl⟩
            · exact up (readSections_sub ls _ h1) e he
          · cases h
        · exact up (readSections_sub ls _ h)

/-- The lines that are printed for the lines of a section: constraints are translated, and other lines are copied. -/
theorem convertLines_origin (t : Bool) (io : List (List Char × List Char)) (hok : DeclsOk (S.inputs ++ S.outputs)) {s : Section} :
    ∀ (L : List (List Char)) (cs : List Constraint), List.Forall₂ (IsConstraint S.bools) (L.filter isItem) cs → (∀ c ∈ cs, S.Allows s c) →
    (∀ l ∈ L, OutLine l) → ∃ J, convertLines (specConv t S io) L = .ok J ∧ List.Forall₂ (Converted S s) cs (J.filter isItem) ∧ (∀ l ∈ J, OutLine l) ∧
      ∀ l ∈ J, isItem l = true ∨ l ∈ L
  | [], cs, h, _, _ => by
    cases h
    exact ⟨[], rfl, .nil, by simp⟩
  | l :: L, cs, h, ha, ho => by
    rw [List.forall_mem_cons] at ho
    by_cases hi : isItem l = true
    · rw [List.filter_cons_of_pos hi] at h
      cases h with
      | @cons _ c _ cs h1 h2 =>
        rw [List.forall_mem_cons] at ha
        obtain ⟨J, k1, k2, k3, k4⟩ := convertLines_origin t io hok L cs h2 ha.2 ho.2
        obtain ⟨out, e1, e2, e3, e4⟩ := convert_constraint t io hok h1 ha.1 ho.1 hi
        refine ⟨out :: J, ?_, ?_, ?_, ?_⟩
        · rw [convertLines, e1, Py.bind, k1, Py.bind]
        · rw [List.filter_cons_of_pos e3]; exact .cons e4 k2
        · rw [List.forall_mem_cons]; exact ⟨e2, k3⟩
        · rw [List.forall_mem_cons]; exact ⟨.inl e3, fun l' hl => (k4 l' hl).imp_right (List.mem_cons_of_mem _)⟩
    · rw [List.filter_cons_of_neg hi] at h
      obtain ⟨J, k1, k2, k3, k4⟩ := convertLines_origin t io hok L cs h ha ho.2
      have e : convertLine (specConv t S io) l = .ok l := by
        rw [convertLine, if_pos ((skip_iff ho.1.tight).mpr (by simpa using hi))]
      refine ⟨l :: J, ?_, ?_, ?_, ?_⟩
      · rw [convertLines, e, Py.bind, k1, Py.bind]
      · rw [List.filter_cons_of_neg hi]; exact k2
      · rw [List.forall_mem_cons]; exact ⟨ho.1, k3⟩
      · rw [List.forall_mem_cons]; exact ⟨.inr (by simp), fun l' hl => (k4 l' hl).imp_right (List.mem_cons_of_mem _)⟩

/-- The sections in the order in which the compiler prints them. -/
def outOrder : List Section := [.input, .output] ++ properties

/-- The lines of the sections of a file that has been compiled. -/
structure Lines (t : Bool) (S : SSpec) (J : Section → List (List Char)) : Prop where
  out : ∀ s, ∀ l ∈ J s, OutLine l
  inputs : (J .input).filter isItem = flatNames S.inputs
  outputs : (J .output).filter isItem = flatNames S.outputs
  constraints : ∀ s ∈ properties, ∃ K, (J s).filter isItem = K ++ (limitsFor t S s).map Fml.text ∧ List.Forall₂ (Converted S s) (constraintsOf S s) K

/-- The constraints on limits are marked, and nothing else. -/
def Marked (t : Bool) (S : SSpec) (J : Section → List (List Char)) : Prop := ∀ s ∈ properties, marks false (J s) = (limitsFor t S s).map Fml.text

theorem item_unmarked {l : List Char} (h : isItem l = true) : limitMark.isPrefixOf l = false := by
  rw [Bool.eq_false_iff]
  intro hp
  rw [List.isPrefixOf_iff_prefix] at hp
  obtain ⟨r, rfl⟩ := hp
  exact (isItem_iff.mp h).2 rfl

/-- What the compiler prints. -/
theorem convert_lines (t : Bool) {text : List Char} (h : SDenotes text S) :
    ∃ J, convert t text = .ok (printLines (outOrder.flatMap fun s => block s (J s))) ∧ Lines t S J ∧
      ((∀ l ∈ splitLines (universal text), limitMark.isPrefixOf (pyTrim l) = false) → Marked t S J) := by
  have hok := denotes_decls h
  obtain ⟨items, h0, h1, h2, hc⟩ := denotes_sections h
  obtain ⟨lines, hr, hcol⟩ := readSections_collected h0 (splitLines_clean _)
  obtain ⟨J1, J2, hd, ⟨j1, o1⟩, j2, o2⟩ := declareAll_conv t hcol h1 h2
  set io := J1.map (fun l => (txt!"[INPUT]", l)) ++ J2.map (fun l => (txt!"[OUTPUT]", l)) with hio
  have hs : ∀ s, s ∈ properties → ∃ J K, convertLines (specConv t S io) (linesOf s.header (lines ++ (specConv t S io).extra)) = .ok J ∧ (∀ l ∈ J, OutLine l) ∧
      (J.filter isItem = K ++ (limitsFor t S s).map Fml.text ∧ List.Forall₂ (Converted S s) (constraintsOf S s) K) ∧
      ((∀ l ∈ splitLines (universal text), limitMark.isPrefixOf (pyTrim l) = false) → marks false J = (limitsFor t S s).map Fml.text) := by
    intro s hs
    have hh := (hc s hs).1
    rw [← hcol.items s] at hh
    obtain ⟨J, k1, k2, k3, k4⟩ := convertLines_origin t io hok _ _ hh (hc s hs).2 (linesOf_out hcol)
    obtain ⟨e1, e2⟩ := extra_section t io hok s
    refine ⟨J ++ linesOf s.header (specConv t S io).extra, J.filter isItem, ?_, ?_, ⟨?_, k2⟩, fun hm => ?_⟩
    · rw [linesOf_append]
      exact convertLines_append _ (convertLines_extra t io hok s) k1
    · intro l hl
      rcases List.mem_append.mp hl with hl | hl
      · exact k3 l hl
      · exact e2 l hl
    · rw [List.filter_append, e1]
    · rw [marks_append, marks_extra t io hok]
      intro l hl
      rcases k4 l hl with hi | hl
      · exact item_unmarked hi
      · rw [linesOf] at hl
        obtain ⟨e, he, rfl⟩ := List.mem_map.mp hl
        obtain ⟨l, h3, h4⟩ := readSections_sub _ _ hr e (List.mem_filter.mp he).1
        rw [h4, strip_eq]
        exact hm l h3
  choose! J0 K hJ hJo hJi hJm using hs
  set J : Section → List (List Char) := fun s => match s with | .input => J1 | .output => J2 | s => J0 s with hJdef
  have eJ : ∀ s ∈ properties, J s = J0 s := by
    intro s hs
    cases s with
    | input => exact absurd hs (by decide)
    | output => exact absurd hs (by decide)
    | _ => rfl
  refine ⟨J, ?_, ⟨?_, j1, j2, fun s hs => ⟨K s, ?_⟩⟩, fun hm s hs => ?_⟩
  · have hp : printProperties (specConv t S io) (lines ++ (specConv t S io).extra) propertyTypes = .ok (properties.flatMap fun s => block s (J s)) := by
      refine printProperties_eq _ _ J properties fun s hs => ?_
      rw [eJ s hs]; exact hJ s hs
    have hv : variableTypes.flatMap (printDeclarations (specConv t S io).io) = block .input J1 ++ block .output J2 := by
      change variableTypes.flatMap (printDeclarations io) = _
      have e : ∀ v, linesOf v io = (if v = txt!"[INPUT]" then J1 else []) ++ if v = txt!"[OUTPUT]" then J2 else [] := by
        intro v; rw [hio, linesOf_append, linesOf_tag, linesOf_tag]
      simp only [variableTypes, List.flatMap_cons, List.flatMap_nil, printDeclarations, e, block, Section.header]
      simp
    rw [convert, pyLines_eq]
    change readSections [] _ = _ at hr
    rw [hr, Py.ofOption, Py.bind, hd, Py.ofOption, Py.bind, hp, Py.bind, hv]
    congr 2
    rw [outOrder, List.flatMap_append]
    simp [hJdef]
  · intro s
    by_cases hs : s ∈ properties
    · rw [eJ s hs]; exact hJo s hs
    · cases s with
      | input => exact o1
      | output => exact o2
      | _ => exact absurd (by decide) hs
  · rw [eJ s hs]; exact hJi s hs
  · rw [eJ s hs]; exact hJm s hs hm

/-! ### The meaning of files with these lines -/

theorem lines_denote (t : Bool) (hok : DeclsOk (S.inputs ++ S.outputs)) {J : Section → List (List Char)} (h : Lines t S J) {text : List Char} {pp : List Section}
    (hnd : ([Section.input, Section.output] ++ pp).Nodup) (hall : ∀ s, s ∈ [Section.input, Section.output] ++ pp)
    (hcont : Content none (splitLines text) (([Section.input, Section.output] ++ pp).flatMap fun s => ((J s).filter isItem).map fun l => (s, l))) {cap : Nat}
    (hlen : ∀ s, ∀ l ∈ J s, l.length ≤ cap) (h32 : cap < 2 ^ 32) :
    ∃ e1 e2 e3 e4 e5 e6, Denotes text (fullSpec t S e1 e2 e3 e4 e5 e6) ∧ ProperFile cap text ∧ Embeds S.game (fullSpec t S e1 e2 e3 e4 e5 e6).game (eI S) (eO S) := by
  have hc := h.constraints
  choose! K hJi hJc using hc
  have j1 := h.inputs
  have j2 := h.outputs
  have hit : ∀ s, itemsOf s (([Section.input, Section.output] ++ pp).flatMap fun s => ((J s).filter isItem).map fun l => (s, l)) = (J s).filter isItem := by
    intro s
    exact itemsOf_blocks (F := fun s => (J s).filter isItem) s hnd (hall s)
  have he : ∀ s, s ∈ properties → ∃ es, List.Forall₂ (Tr S s) (constraintsOf S s) es ∧ List.Forall₂ ReadsLine (K s) es := by
    intro s hs
    refine converted_all (hJc s hs) fun l hl => ?_
    have : l ∈ (J s).filter isItem := by rw [hJi s hs]; exact List.mem_append_left _ hl
    have := hlen s l (List.mem_filter.mp this).1
    omega
  choose! es hT hR using he
  have hreads : ∀ s, s ∈ properties → List.Forall₂ ReadsLine ((J s).filter isItem) (es s ++ limitsFor t S s) := by
    intro s hs
    rw [hJi s hs]
    exact reads_append (hR s hs) (reads_map fun φ hφ => limitsFor_reads t hok hφ)
  refine ⟨es .envInit, es .sysInit, es .envTrans, es .sysTrans, es .envLiveness, es .sysLiveness, ?_, ?_, ?_⟩
  · refine ⟨_, hcont, ?_, ?_, ?_, ?_, ?_, ?_, ?_, ?_⟩
    · rw [hit]; exact j1.symm
    · rw [hit]; exact j2.symm
    · rw [hit]; exact hreads .envInit (by decide)
    · rw [hit]; exact hreads .sysInit (by decide)
    · rw [hit]; exact hreads .envTrans (by decide)
    · rw [hit]; exact hreads .sysTrans (by decide)
    · rw [hit]; have := hreads .envLiveness (by decide); simpa [limitsFor, fullSpec] using this
    · rw [hit]; have := hreads .sysLiveness (by decide); simpa [limitsFor, fullSpec] using this
  · refine ⟨_, hcont, ?_, ?_⟩
    · rw [hit, hit, j1, j2, List.append_assoc, ← List.map_append, ← flatNames_append, List.nodup_append]
      refine ⟨flatNames_nodup hok, (flatNames_nodup hok).map fun x y h => prime_inj h, ?_⟩
      rintro x hx y hy rfl
      obtain ⟨z, _, rfl⟩ := List.mem_map.mp hy
      exact flat_prime hok z hx
    · intro before s line after hsplit n1 n2
      have hsp : s ∈ properties := by cases s <;> first | decide | exact absurd rfl n1 | exact absurd rfl n2
      have hmem : line ∈ (J s).filter isItem := by
        rw [← hit s, hsplit, itemsOf]
        simp
      refine ⟨hlen s line (List.mem_filter.mp hmem).1, ?_⟩
      obtain ⟨φ, hφ, hrd⟩ := (forall2_mem (hreads s hsp)).1 line hmem
      have hwf : φ.Wf 0 ∧ ∀ x ∈ φ.vars, x ∈ usable s (flatNames S.inputs) (flatNames S.outputs) := by
        rcases List.mem_append.mp hφ with hφ | hφ
        · obtain ⟨c, _, hc⟩ := (forall2_mem (hT s hsp)).2 φ hφ
          exact ⟨hc.wf, hc.vars⟩
        · obtain ⟨k1, k2, _⟩ := limitsFor_vars t hφ
          exact ⟨k1, k2⟩
      refine ⟨φ, hrd, hwf.1, ?_⟩
      rw [List.flatMap_append] at hsplit
      obtain ⟨b, hb⟩ := before_block hsplit (by
        intro e he
        obtain ⟨r, hr, he⟩ := List.mem_flatMap.mp he
        obtain ⟨l, _, rfl⟩ := List.mem_map.mp he
        simpa using hr) ⟨n1, n2⟩
      have hA : ∀ r : Section, r = .input ∨ r = .output → (J r).filter isItem ⊆ itemsOf r before := by
        intro r hr l hl
        rw [hb, itemsOf]
        refine List.mem_map.mpr ⟨(r, l), List.mem_filter.mpr ⟨List.mem_append_left _ (List.mem_flatMap.mpr ⟨r, by simpa using hr, List.mem_map.mpr ⟨l, hl, rfl⟩⟩), by simp⟩, rfl⟩
      have i1 : flatNames S.inputs ⊆ itemsOf .input before := by rw [← j1]; exact hA .input (.inl rfl)
      have i2 : flatNames S.outputs ⊆ itemsOf .output before := by rw [← j2]; exact hA .output (.inr rfl)
      intro x hx
      exact usable_map (fun h => i1 h) (fun h => i2 h) (fun h => List.map_subset _ i1 h) (fun h => List.map_subset _ i2 h) (hwf.2 x hx)
  · exact full_embeds t hok (hT .envInit (by decide)) (hT .sysInit (by decide)) (hT .envTrans (by decide)) (hT .sysTrans (by decide))
      (hT .envLiveness (by decide)) (hT .sysLiveness (by decide))

/-- The constraints on limits that are marked. -/
def limitList (S : SSpec) : List Fml := limits S.inputs bitsOf ++ limits S.outputs bitsOf

theorem lines_limits (t : Bool) (hok : DeclsOk (S.inputs ++ S.outputs)) {J : Section → List (List Char)} (h : Marked t S J) {text : List Char} {ss : List Section}
    (hss : ss.filter (fun s => decide (s = .envInit ∨ s = .sysInit)) = [.envInit, .sysInit])
    (hm : markedItems none false (splitLines text) = ss.flatMap fun s => (marks false (J s)).map fun l => (s, l)) :
    DenotesLimits text (limitList S) ∧ ∀ p ∈ markedItems none false (splitLines text), p.1 ≠ .envLiveness ∧ p.1 ≠ .sysLiveness := by
  constructor
  · rw [DenotesLimits, hm]
    have e : ∀ ss : List Section, ((ss.flatMap fun s => (marks false (J s)).map fun l => (s, l)).filter fun p => p.1 = .envInit ∨ p.1 = .sysInit).map (fun p => p.2) =
        (ss.filter fun s => decide (s = .envInit ∨ s = .sysInit)).flatMap fun s => marks false (J s) := by
      intro ss
      induction ss with
      | nil => rfl
      | cons s ss ih =>
        rw [List.flatMap_cons, List.filter_append, List.map_append, ih]
        by_cases hs : s = .envInit ∨ s = .sysInit
        · rw [List.filter_cons_of_pos (by simpa using hs), List.flatMap_cons, List.filter_eq_self.mpr (by simpa using fun _ _ => hs)]
          simp [Function.comp_def]
        · rw [List.filter_cons_of_neg (by simpa using hs), List.filter_eq_nil_iff.mpr (by
            intro p hp
            obtain ⟨l, _, rfl⟩ := List.mem_map.mp hp
            simpa using hs)]
          rfl
    rw [e, hss]
    simp only [List.flatMap_cons, List.flatMap_nil, List.append_nil]
    rw [h .envInit (by decide), h .sysInit (by decide)]
    exact reads_append (reads_map fun φ hφ => limitsFor_reads t hok (s := .envInit) hφ) (reads_map fun φ hφ => limitsFor_reads t hok (s := .sysInit) hφ)
  · intro p hp
    rw [hm] at hp
    obtain ⟨s, _, hp⟩ := List.mem_flatMap.mp hp
    obtain ⟨l, hl, rfl⟩ := List.mem_map.mp hp
    constructor
    · rintro e
      change s = .envLiveness at e
      subst e
      rw [h .envLiveness (by decide)] at hl
      cases hl
    · rintro e
      change s = .sysLiveness at e
      subst e
      rw [h .sysLiveness (by decide)] at hl
      cases hl

/-! ### The file without liveness guarantees -/

/-- The specification in which the system must make the environment fail. -/
def noGuarantees (S : SSpec) : SSpec := { S with sysLiveness := [.plain (.const false)] }

/-- The lines of the modified file. -/
def modifiedLines (J : Section → List (List Char)) (s : Section) : List (List Char) :=
  if s = .sysLiveness then [txt!"0"] else (J s).filter fun l => decide (l ≠ [])

theorem read_section {s : Section} {rest : List (List Char)} : ∀ {L : List (List Char)}, (∀ l ∈ L, OutLine l) → ∀ c : Categories,
    readSlugsFile s.header c (L ++ rest) = readSlugsFile s.header (fun s' => c s' ++ if s' = s then L.filter fun l => decide (l ≠ []) else []) rest
  | [], _, c => by simp
  | l :: L, ho, c => by
    rw [List.forall_mem_cons] at ho
    have ih := read_section (s := s) (rest := rest) ho.2
    by_cases h : l = []
    · subst h
      rw [List.cons_append, readSlugsFile]
      simp only [show trim ([] : List Char) = [] from rfl, if_true]
      rw [ih, List.filter_cons_of_neg (by simp)]
    · rw [List.cons_append, StuckAt.read_line (by rw [ho.1.tight.trim]; exact h) (by rw [ho.1.tight.trim]; exact ho.1.header), ho.1.tight.trim, ih,
        List.filter_cons_of_pos (by simp [h])]
      congr 1
      funext s'
      by_cases e : s' = s <;> simp [Categories.add, e]

theorem read_blocks {J : Section → List (List Char)} : ∀ (ss : List Section), (∀ s ∈ ss, ∀ l ∈ J s, OutLine l) → ∀ (mode : List Char) (c : Categories),
    readSlugsFile mode c (ss.flatMap fun s => block s (J s)) = some fun s' => c s' ++ ss.flatMap fun s => if s' = s then (J s).filter fun l => decide (l ≠ []) else []
  | [], _, _, _ => by simp [readSlugsFile]
  | s :: ss, h, mode, c => by
    rw [List.forall_mem_cons] at h
    have ih := read_blocks ss h.2
    rw [List.flatMap_cons, block]
    split
    · rw [List.append_assoc, List.append_assoc, List.cons_append, List.nil_append, readSlugsFile]
      simp only [(header_trim s).1, if_neg (header_ne s), if_pos (header_bracket s)]
      rw [read_section h.1, List.cons_append, List.nil_append, readSlugsFile]
      simp only [show trim ([] : List Char) = [] from rfl, if_true]
      rw [ih]
      simp [List.append_assoc]
    · rename_i hn
      have : J s = [] := by simpa using hn
      rw [List.nil_append, ih]
      simp [this]

theorem block_lines {J : Section → List (List Char)} (h : ∀ s, ∀ l ∈ J s, OutLine l) : ∀ l ∈ outOrder.flatMap fun s => block s (J s), '\n' ∉ l := by
  intro l hl
  obtain ⟨s, hs, hl⟩ := List.mem_flatMap.mp hl
  rw [block] at hl
  split at hl
  · simp only [List.mem_append, List.mem_singleton] at hl
    rcases hl with (rfl | hl) | rfl
    · cases s <;> decide
    · exact (h s l hl).tight.line
    · simp
  · cases hl

theorem falsifyFile_eq {J : Section → List (List Char)} (h : ∀ s, ∀ l ∈ J s, OutLine l) :
    falsifyFile (printLines (outOrder.flatMap fun s => block s (J s))) = some (writeSlugsFile (modifiedLines J)) := by
  rw [falsifyFile, splitLines_printLines _ (block_lines h), read_blocks outOrder (fun s _ => h s), Option.map_some]
  congr 2
  funext s
  rw [Categories.put, modifiedLines]
  split
  · rfl
  · cases s <;> simp [outOrder, properties]

theorem zero_out : OutLine txt!"0" := ⟨⟨by decide, by decide, by decide⟩, by decide⟩

theorem modified_out {J : Section → List (List Char)} (h : ∀ s, ∀ l ∈ J s, OutLine l) : ∀ s, ∀ l ∈ modifiedLines J s, OutLine l := by
  intro s l hl
  rw [modifiedLines] at hl
  split at hl
  · rw [List.mem_singleton] at hl; subst hl; exact zero_out
  · exact h s l (List.mem_filter.mp hl).1

theorem modified_items (J : Section → List (List Char)) {s : Section} (hs : s ≠ .sysLiveness) : (modifiedLines J s).filter isItem = (J s).filter isItem := by
  rw [modifiedLines, if_neg hs, List.filter_filter]
  refine List.filter_congr fun l _ => ?_
  by_cases h : isItem l = true
  · simp [h, (isItem_iff.mp h).1]
  · simp [h]

theorem reads_zero : ReadsLine txt!"0" (.const false) :=
  ⟨[], reads_flat (.const false) trivial (Spells.joinWords _ (Fml.words_good (.const false) (by simp [Fml.vars]))) (by simp [Fml.vars]), by simp⟩

theorem modified_lines (t : Bool) {J : Section → List (List Char)} (h : Lines t S J) : Lines t (noGuarantees S) (modifiedLines J) where
  out := modified_out h.out
  inputs := by rw [modified_items J (by decide)]; exact h.inputs
  outputs := by rw [modified_items J (by decide)]; exact h.outputs
  constraints := by
    intro s hs
    by_cases e : s = .sysLiveness
    · subst e
      refine ⟨[txt!"0"], rfl, .cons (fun _ => ⟨.const false, reads_zero, ?_⟩) .nil⟩
      exact ⟨trivial, by simp [Fml.vars], fun p q => by simp [SpecFile.holds, SSpec.holds, Fml.eval]⟩
    · obtain ⟨K, h1, h2⟩ := h.constraints s hs
      refine ⟨K, ?_, ?_⟩
      · rw [modified_items J e, h1]
        cases s <;> rfl
      · have : constraintsOf (noGuarantees S) s = constraintsOf S s := by
          cases s <;> first | rfl | exact absurd rfl e
        rw [this]
        exact h2.imp fun c l hc hl => by
          obtain ⟨φ, k1, k2⟩ := hc hl
          exact ⟨φ, k1, k2.wf, k2.vars, k2.holds⟩

theorem modified_marked (t : Bool) {J : Section → List (List Char)} (h : Marked t S J) : Marked t (noGuarantees S) (modifiedLines J) := by
  intro s hs
  rw [modifiedLines]
  split
  · rename_i e; subst e; rfl
  · rw [marks_filter, h s hs]
    cases s <;> rfl

end Slugs.Model.Report
