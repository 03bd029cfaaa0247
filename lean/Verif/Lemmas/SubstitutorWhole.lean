import Verif.Lemmas.SubstitutorConstraint

/-!
The tool that replaces integer variables: the file that it prints.
-/

namespace Slugs.Model.Substitutor

open Slugs.Spec Slugs.Spec.Structured
open Slugs.Model.Structured

variable {rs : List Shift} {S : SSpec}

/-! ### The printed blocks -/

theorem scontent_lines {s : Section} {rest : List (List Char)} {items : List (Section × List Char)} (h : SContent (some s) rest items) :
    ∀ {L : List (List Char)}, (∀ l ∈ L, OutLine l) → SContent (some s) (L ++ rest) ((L.filter isItem).map (fun l => (s, l)) ++ items)
  | [], _ => h
  | l :: L, ho => by
    rw [List.forall_mem_cons] at ho
    have ih := scontent_lines h ho.2
    by_cases hi : isItem l = true
    · have := isItem_iff.mp hi
      rw [List.filter_cons_of_pos hi, List.map_cons, List.cons_append, List.cons_append]
      have e := ho.1.tight.pyTrim
      have := SContent.item (s := s) (l := l) (by rw [e]; exact this.1) (by rw [e]; exact this.2) (by rw [e]; exact ho.1.header) ih
      rwa [e] at this
    · rw [List.filter_cons_of_neg hi, List.cons_append]
      refine .skip ?_ ih
      rw [isItem_iff] at hi
      rw [ho.1.tight.pyTrim]
      tauto

theorem scontent_block {s : Section} {rest : List (List Char)} {items : List (Section × List Char)} (h : ∀ cur, SContent cur rest items) {L : List (List Char)}
    (ho : ∀ l ∈ L, OutLine l) (cur : Option Section) : SContent cur (block s L ++ rest) ((L.filter isItem).map (fun l => (s, l)) ++ items) := by
  rw [block]
  split
  · rw [List.append_assoc, List.append_assoc]
    refine .header s ?_ (scontent_lines (.skip (.inl rfl) (h _)) ho)
    cases s <;> decide
  · rename_i hn
    have : L = [] := by simpa using hn
    subst this
    exact h cur

theorem scontent_blocks {J : Section → List (List Char)} : ∀ (ss : List Section), (∀ s ∈ ss, ∀ l ∈ J s, OutLine l) → ∀ cur,
    SContent cur (ss.flatMap fun s => block s (J s)) (ss.flatMap fun s => ((J s).filter isItem).map fun l => (s, l))
  | [], _ => fun _ => .nil
  | s :: ss, h => by
    rw [List.forall_mem_cons] at h
    rw [List.flatMap_cons, List.flatMap_cons]
    exact scontent_block (scontent_blocks ss h.2) h.1

theorem header_noEnd (s : Section) : NoEnd s.header := by
  cases s <;> decide

theorem block_noEnd {s : Section} {L : List (List Char)} (h : ∀ l ∈ L, NoEnd l) : ∀ l ∈ block s L, NoEnd l := by
  intro l hl
  rw [block] at hl
  split at hl
  · simp only [List.mem_append, List.mem_singleton] at hl
    rcases hl with (rfl | hl) | rfl
    · exact header_noEnd s
    · exact h l hl
    · exact noEnd_nil
  · cases hl

theorem printLines_clean : ∀ {ls : List (List Char)}, (∀ l ∈ ls, NoEnd l) → '\r' ∉ printLines ls
  | [], _ => by simp [printLines]
  | l :: ls, h => by
    rw [List.forall_mem_cons] at h
    have := printLines_clean h.2
    rw [printLines]
    simp only [List.mem_append, List.mem_cons, not_or]
    exact ⟨h.1.2, by decide, this⟩

/-! ### The Boolean propositions -/

theorem mem_substBools {lines : List (List Char × List Char)} (hl : ∀ v, ∀ l ∈ linesOf v lines, OutLine l) {w : Word} :
    w ∈ substBools lines ↔ ∃ v ∈ variableTypes, ∃ l ∈ linesOf v lines, ':' ∉ l ∧ (w = l ∨ w = prime l) := by
  rw [substBools]
  simp only [List.mem_flatMap]
  constructor
  · rintro ⟨v, hv, l, hm, hw⟩
    rw [(hl v l hm).tight.strip] at hw
    split at hw
    · cases hw
    · rename_i hc
      simp only [List.mem_cons, List.not_mem_nil, or_false] at hw
      exact ⟨v, hv, l, hm, hc, hw⟩
  · rintro ⟨v, hv, l, hm, hc, hw⟩
    refine ⟨v, hv, l, hm, ?_⟩
    rw [(hl v l hm).tight.strip, if_neg hc]
    simp only [List.mem_cons, List.not_mem_nil, or_false]
    exact hw

theorem section_vars {v : List Char} (h : v ∈ variableTypes) : v = Section.input.header ∨ v = Section.output.header ∨ ∀ s : Section, s.header ≠ v := by
  simp only [variableTypes, List.mem_cons, List.not_mem_nil, or_false] at h
  rcases h with rfl | rfl | rfl | rfl | rfl
  · exact .inl rfl
  · exact .inr (.inl rfl)
  · exact .inr (.inr (by intro s; cases s <;> decide))
  · exact .inr (.inr (by intro s; cases s <;> decide))
  · exact .inr (.inr (by intro s; cases s <;> decide))

theorem boolsOk {lines : List (List Char × List Char)} {items : List (Section × List Char)} (hcol : Collected lines items) (hne : ∀ e ∈ lines, e.2 ≠ [])
    (h1 : List.Forall₂ Declares (itemsOf .input items) S.inputs) (h2 : List.Forall₂ Declares (itemsOf .output items) S.outputs) : BoolsOk S (substBools lines) := by
  have hl : ∀ v, ∀ l ∈ linesOf v lines, OutLine l := fun v => linesOf_out hcol
  have hne' : ∀ v, ∀ l ∈ linesOf v lines, l ≠ [] := by
    intro v l hm
    rw [linesOf] at hm
    obtain ⟨e, he, rfl⟩ := List.mem_map.mp hm
    exact hne e (List.mem_filter.mp he).1
  have item : ∀ {s : Section} {l : List Char}, l ∈ itemsOf s items → l ∈ linesOf s.header lines := by
    intro s l hm
    rw [← hcol.items s] at hm
    exact (List.mem_filter.mp hm).1
  have boolOf : ∀ {d : Decl}, d ∈ S.inputs ++ S.outputs → d.range = none → d.name ∈ SSpec.boolsOf (S.inputs ++ S.outputs) := by
    intro d hd hr
    rw [SSpec.boolsOf]
    exact List.mem_map.mpr ⟨d, List.mem_filter.mpr ⟨hd, by rw [hr]; rfl⟩, rfl⟩
  have decl : ∀ {s : Section} {ds : List Decl}, List.Forall₂ Declares (itemsOf s items) ds → (∀ d ∈ ds, d ∈ S.inputs ++ S.outputs) →
      ∀ {l : List Char} {w : Word}, l ∈ linesOf s.header lines → ':' ∉ l → (w = l ∨ w = prime l) → '#' ∉ w → w ∈ S.bools := by
    intro s ds hds hsub l w hm hc hw hh
    have hh' : '#' ∉ l := by
      rcases hw with rfl | rfl
      · exact hh
      · exact fun hx => hh (by simp [prime, hx])
    have hi : isItem l = true := isItem_iff.mpr ⟨hne' _ l hm, fun e => hh' (List.mem_of_head? e)⟩
    have hm' : l ∈ itemsOf s items := by
      rw [← hcol.items s]
      exact List.mem_filter.mpr ⟨hm, hi⟩
    obtain ⟨d, hd, hD⟩ := (forall2_mem hds).1 l hm'
    have hr : d.range = none := by
      by_contra hr
      exact hc ((declares_colon hD).1.mpr hr)
    have e := (declares_colon hD).2 hr
    have := boolOf (hsub d hd) hr
    rw [SSpec.bools]
    rcases hw with rfl | rfl
    · rw [e]; exact List.mem_append_left _ this
    · rw [e]; exact List.mem_append_right _ (List.mem_map.mpr ⟨_, this, rfl⟩)
  have back : ∀ {s : Section} {ds : List Decl}, List.Forall₂ Declares (itemsOf s items) ds → s.header ∈ variableTypes →
      ∀ {d : Decl} {w : Word}, d ∈ ds → d.range = none → (w = d.name ∨ w = prime d.name) → w ∈ substBools lines := by
    intro s ds hds hs d w hd hr hw
    obtain ⟨l, hm, hD⟩ := (forall2_mem hds).2 d hd
    have e := (declares_colon hD).2 hr
    refine (mem_substBools hl).mpr ⟨s.header, hs, l, item hm, fun hc => (declares_colon hD).1.mp hc hr, ?_⟩
    rwa [e]
  refine ⟨fun w hw => ⟨fun hm => ?_, fun hm => ?_⟩, fun x hx hp => ?_⟩
  · obtain ⟨v, hv, l, h3, h4, h5⟩ := (mem_substBools hl).mp hm
    rcases section_vars hv with rfl | rfl | hv
    · exact decl h1 (fun d hd => List.mem_append_left _ hd) h3 h4 h5 hw
    · exact decl h2 (fun d hd => List.mem_append_right _ hd) h3 h4 h5 hw
    · rw [linesOf_other hcol hv] at h3
      cases h3
  · obtain ⟨d, hd, hr, e⟩ := mem_bools_cases hm
    rcases List.mem_append.mp hd with hd | hd
    · exact back h1 (by decide) hd hr e
    · exact back h2 (by decide) hd hr e
  · obtain ⟨v, hv, l, h3, h4, h5⟩ := (mem_substBools hl).mp hx
    refine (mem_substBools hl).mpr ⟨v, hv, l, h3, h4, .inr ?_⟩
    rcases h5 with rfl | rfl
    · rfl
    · exact absurd (by simp [prime]) hp

/-! ### Declarations -/

theorem subst_declaration (h : Setup rs S) {d : Decl} (hd : d ∈ S.inputs ++ S.outputs) {l : List Char} (hD : Declares l d) (hO : OldLine rs l d) :
    IsDecl ((definitions (rs.flatMap entriesOf) l).getD l) (d.shift rs) ∧
      ((definitions (rs.flatMap entriesOf) l).getD l = l ∨ ∃ r ∈ rs, (definitions (rs.flatMap entriesOf) l).getD l = r.new) := by
  cases hq : definitions (rs.flatMap entriesOf) l with
  | none =>
    have hno : ∀ r ∈ rs, r.x ≠ d.name := by
      intro r hr e
      obtain ⟨q, hq'⟩ := definitions_some (mem_definition.mpr ⟨r, hr, ((hO r hr).mpr e).symm, rfl⟩)
      rw [hq] at hq'
      cases hq'
    refine ⟨?_, .inl rfl⟩
    rw [(shift_none hno).1]
    exact declares_decl hD fun lo hi hr => h.fit.rest d hd lo hi hr hno
  | some q =>
    obtain ⟨r, hr, e1, e2⟩ := mem_definition.mp (definitions_mem hq)
    have hx := (hO r hr).mp e1.symm
    refine ⟨?_, .inr ⟨r, hr, e2⟩⟩
    rcases h.cases hd with ⟨h1, _⟩ | ⟨r', hr', lo, hi, h1, h2, h3, h4, _⟩
    · exact absurd hx (h1 r hr)
    · have : r = r' := List.inj_on_of_nodup_map h.fit.once hr hr' (hx.trans h1.symm)
      subst this
      rw [h4]
      change IsDecl q _
      rw [e2]
      exact h3

theorem subst_declarations (h : Setup rs S) (hnew : ∀ r ∈ rs, NoEnd r.new) : ∀ (L : List (List Char)) (ds : List Decl), (∀ d ∈ ds, d ∈ S.inputs ++ S.outputs) →
    (∀ l ∈ L, OutLine l ∧ l ≠ [] ∧ NoEnd l) → List.Forall₂ (fun l d => Declares l d ∧ OldLine rs l d) (L.filter isItem) ds →
    (∀ l ∈ L.map (substDeclaration (rs.flatMap entriesOf)), OutLine l ∧ NoEnd l) ∧
      List.Forall₂ IsDecl ((L.map (substDeclaration (rs.flatMap entriesOf))).filter isItem) (ds.map (Decl.shift rs))
  | [], ds, _, _, hf => by
    cases hf
    exact ⟨by simp, .nil⟩
  | l :: L, ds, hs, hL, hf => by
    rw [List.forall_mem_cons] at hL
    have he : substDeclaration (rs.flatMap entriesOf) l = if l.head? = some '#' then l else (definitions (rs.flatMap entriesOf) l).getD l := by
      rw [substDeclaration, hL.1.1.tight.strip]
    by_cases hi : isItem l = true
    · rw [List.filter_cons_of_pos hi] at hf
      cases hf with
      | @cons _ d _ ds h1 h2 =>
        rw [List.forall_mem_cons] at hs
        obtain ⟨k1, k2⟩ := subst_declarations h hnew L ds hs.2 hL.2 h2
        rw [if_neg (isItem_iff.mp hi).2] at he
        obtain ⟨q1, q2⟩ := subst_declaration h hs.1 h1.1 h1.2
        rw [← he] at q1 q2
        have hend : NoEnd (substDeclaration (rs.flatMap entriesOf) l) := by
          rcases q2 with q2 | ⟨r, hr, q2⟩
          · rw [q2]; exact hL.1.2.2
          · rw [q2]; exact hnew r hr
        obtain ⟨e1, e2, e3⟩ := declares_ends (decl_declares q1)
        obtain ⟨o1, o2⟩ := outLine_of e2 e3 hend.1 e1
        rw [List.map_cons, List.forall_mem_cons, List.filter_cons_of_pos o2]
        exact ⟨⟨⟨o1, hend⟩, k1⟩, .cons q1 k2⟩
    · rw [List.filter_cons_of_neg hi] at hf
      obtain ⟨k1, k2⟩ := subst_declarations h hnew L ds hs hL.2 hf
      have : substDeclaration (rs.flatMap entriesOf) l = l := by
        rw [he]
        split
        · rfl
        · rename_i hh
          rw [isItem_iff, not_and_or, not_not, not_not] at hi
          rcases hi with hi | hi
          · exact absurd hi hL.1.2.1
          · exact absurd hi hh
      rw [List.map_cons, List.forall_mem_cons, this, List.filter_cons_of_neg hi]
      exact ⟨⟨⟨hL.1.1, hL.1.2.2⟩, k1⟩, k2⟩

/-! ### Properties -/

theorem subst_lines (h : Setup rs S) {T : List Word} (hT : BoolsOk S T) {s : Section} : ∀ (L outs : List (List Char)) (cs : List Constraint),
    (∀ l ∈ L, OutLine l ∧ l ≠ [] ∧ NoEnd l) → List.Forall₂ (IsConstraint S.bools) (L.filter isItem) cs → (∀ c ∈ cs, S.Uses s c) →
    substLines (rs.flatMap entriesOf) T L = .ok outs → (outs.length = L.length ∧ ∀ l ∈ outs, OutLine l ∧ NoEnd l) ∧
      ∃ cs', List.Forall₂ (IsConstraint S.bools) (outs.filter isItem) cs' ∧ (∀ c ∈ cs', (bare rs S).Allows s c) ∧ List.Forall₂ (SameHolds h.ok) cs cs'
  | [], outs, cs, _, hf, _, ho => by
    cases hf
    cases ho
    exact ⟨⟨rfl, by simp⟩, [], .nil, by simp, .nil⟩
  | l :: L, outs, cs, hL, hf, hu, ho => by
    rw [List.forall_mem_cons] at hL
    rw [substLines] at ho
    obtain ⟨o, ho1, ho2⟩ := Py.bind_ok.mp ho
    obtain ⟨os, ho3, ho4⟩ := Py.bind_ok.mp ho2
    cases ho4
    by_cases hi : isItem l = true
    · rw [List.filter_cons_of_pos hi] at hf
      cases hf with
      | @cons _ c _ cs h1 h2 =>
        rw [List.forall_mem_cons] at hu
        obtain ⟨⟨k1, k2⟩, cs', k3, k4, k5⟩ := subst_lines h hT L os cs hL.2 h2 hu.2 ho3
        obtain ⟨q1, q2, q3, c', q4, q5, q6⟩ := subst_constraint h hT hL.1.1 hi hL.1.2.2 h1 hu.1 ho1
        refine ⟨⟨by simp [k1], ?_⟩, c' :: cs', ?_, ?_, .cons q6 k5⟩
        · rw [List.forall_mem_cons]; exact ⟨⟨q1, q3⟩, k2⟩
        · rw [List.filter_cons_of_pos q2]; exact .cons q4 k3
        · rw [List.forall_mem_cons]; exact ⟨q5, k4⟩
    · rw [List.filter_cons_of_neg hi] at hf
      obtain ⟨⟨k1, k2⟩, cs', k3, k4, k5⟩ := subst_lines h hT L os cs hL.2 hf hu ho3
      have hh : l.take 1 = txt!"#" := by
        rw [isItem_iff, not_and_or, not_not, not_not] at hi
        rcases hi with hi | hi
        · exact absurd hi hL.1.2.1
        · cases l with
          | nil => cases hi
          | cons d l => simpa using hi
      rw [substProperty, hL.1.1.tight.strip, if_pos hh] at ho1
      cases ho1
      refine ⟨⟨by simp [k1], ?_⟩, cs', ?_, k4, k5⟩
      · rw [List.forall_mem_cons]; exact ⟨⟨hL.1.1, hL.1.2.2⟩, k2⟩
      · rw [List.filter_cons_of_neg hi]; exact k3

/-- The lines printed for a section with properties. -/
def resultOf (es : List Entry) (T : List Word) (lines : List (List Char × List Char)) (s : Section) : List (List Char) :=
  match substLines es T (linesOf s.header lines) with
  | .ok ls => ls
  | _ => []

theorem substLines_length {es : List Entry} {T : List Word} : ∀ {L outs : List (List Char)}, substLines es T L = .ok outs → outs.length = L.length
  | [], outs, h => by cases h; rfl
  | l :: L, outs, h => by
    rw [substLines] at h
    obtain ⟨o, ho1, ho2⟩ := Py.bind_ok.mp h
    obtain ⟨os, ho3, ho4⟩ := Py.bind_ok.mp ho2
    cases ho4
    simp [substLines_length ho3]

theorem subst_properties {es : List Entry} {T : List Word} {lines : List (List Char × List Char)} : ∀ (ss : List Section) (ps : List (List Char)),
    substProperties es T lines (ss.map Section.header) = .ok ps →
    (∀ s ∈ ss, substLines es T (linesOf s.header lines) = .ok (resultOf es T lines s)) ∧ ps = ss.flatMap fun s => block s (resultOf es T lines s)
  | [], ps, h => by
    cases h
    exact ⟨by simp, rfl⟩
  | s :: ss, ps, h => by
    rw [List.map_cons, substProperties] at h
    by_cases hl : (linesOf s.header lines).length > 0
    · rw [if_pos hl] at h
      obtain ⟨ls, h1, h2⟩ := Py.bind_ok.mp h
      obtain ⟨rest, h3, h4⟩ := Py.bind_ok.mp h2
      cases h4
      obtain ⟨k1, k2⟩ := subst_properties ss rest h3
      have e : resultOf es T lines s = ls := by rw [resultOf, h1]
      rw [List.forall_mem_cons, List.flatMap_cons, e, block, substLines_length h1, if_pos hl, ← k2]
      exact ⟨⟨h1, k1⟩, rfl⟩
    · rw [if_neg hl] at h
      obtain ⟨k1, k2⟩ := subst_properties ss ps h
      have hn : linesOf s.header lines = [] := by simpa using hl
      have e : resultOf es T lines s = [] := by rw [resultOf, hn]; rfl
      rw [List.forall_mem_cons, List.flatMap_cons, e, hn, ← k2]
      exact ⟨⟨rfl, k1⟩, rfl⟩

/-! ### The file -/

theorem source_decl {text : List Char} (D : SourceDenotes rs text S) : ∀ d ∈ S.inputs ++ S.outputs, ∃ l, NoEnd l ∧ Declares l d ∧ OldLine rs l d := by
  obtain ⟨items, h0, h1, h2, _⟩ := D.content
  have hn : ∀ {s : Section} {l : List Char}, l ∈ itemsOf s items → NoEnd l := by
    intro s l hl
    obtain ⟨lines, _, hcol, he⟩ := readParts_collected h0 (universal_lines _)
    rw [← hcol.items s] at hl
    have := (List.mem_filter.mp hl).1
    rw [linesOf] at this
    obtain ⟨e, hm, rfl⟩ := List.mem_map.mp this
    exact (he e (List.mem_filter.mp hm).1).2
  intro d hd
  rcases List.mem_append.mp hd with hd | hd
  · obtain ⟨l, hl, h3, h4⟩ := (forall2_mem h1).2 d hd; exact ⟨l, hn hl, h3, h4⟩
  · obtain ⟨l, hl, h3, h4⟩ := (forall2_mem h2).2 d hd; exact ⟨l, hn hl, h3, h4⟩

theorem source_setup {text : List Char} (D : SourceDenotes rs text S) (H : Shifts rs S) : Setup rs S := by
  refine ⟨H, D.nodup, fun d hd => ?_⟩
  obtain ⟨l, _, h1, _⟩ := source_decl D d hd
  exact (declares_ok h1).1

theorem source_commas {text : List Char} (D : SourceDenotes rs text S) (H : Shifts rs S) : ∀ r ∈ rs, NoComma r := by
  intro r hr
  have h := source_setup D H
  obtain ⟨lo, hi, h1, h2⟩ := H.declared r hr
  obtain ⟨l, _, h3, h4⟩ := source_decl D _ h1
  refine ⟨?_, declares_no (decl_declares h2) (by decide) (by decide) (by decide), tidy_no (h.x hr) (by decide), tidy_no (h.y hr) (by decide), ?_⟩
  · rw [(h4 r hr).mpr rfl]
    exact declares_no h3 (by decide) (by decide) (by decide)
  · intro hc
    have := (H.number r hr).2 _ hc
    revert this
    decide

theorem shift_lines_noEnd {repl : List Char} (hf : ShiftFile repl rs) : ∀ r ∈ rs, NoEnd r.new := by
  intro r hr
  have hm : r.old ++ ',' :: r.new ∈ rs.flatMap Shift.lines := List.mem_flatMap.mpr ⟨r, hr, by simp [Shift.lines]⟩
  rw [← hf] at hm
  obtain ⟨l, hl, e⟩ := List.mem_map.mp (List.mem_filter.mp hm).1
  have hn := universal_lines repl l hl
  have : NoEnd (r.old ++ ',' :: r.new) := by
    rw [← e]
    exact ⟨fun hc => hn.1 (pyTrim_mem hc), fun hc => hn.2 (pyTrim_mem hc)⟩
  exact ⟨fun hc => this.1 (by simp [hc]), fun hc => this.2 (by simp [hc])⟩

theorem source_sections {text : List Char} (D : SourceDenotes rs text S) : ∃ items, SContent none (splitLines (universal text)) items ∧
    List.Forall₂ (fun l d => Declares l d ∧ OldLine rs l d) (itemsOf .input items) S.inputs ∧
    List.Forall₂ (fun l d => Declares l d ∧ OldLine rs l d) (itemsOf .output items) S.outputs ∧
    ∀ s, s ∈ properties → List.Forall₂ (IsConstraint S.bools) (itemsOf s items) (constraintsOf S s) ∧ ∀ c ∈ constraintsOf S s, S.Uses s c := by
  obtain ⟨items, h0, h1, h2, c1, c2, c3, c4, c5, c6⟩ := D.content
  refine ⟨items, h0, h1, h2, fun s hs => ?_⟩
  cases s with
  | input => exact absurd hs (by decide)
  | output => exact absurd hs (by decide)
  | envInit => exact ⟨c1, D.envInit⟩
  | sysInit => exact ⟨c2, D.sysInit⟩
  | envTrans => exact ⟨c3, D.envTrans⟩
  | sysTrans => exact ⟨c4, D.sysTrans⟩
  | envLiveness => exact ⟨c5, D.envLiveness⟩
  | sysLiveness => exact ⟨c6, D.sysLiveness⟩

/-- The tool prints a structured specification with the same game, up to the names and the shifted values. -/
theorem subst_denotes {text repl out : List Char} (D : SourceDenotes rs text S) (H : Shifts rs S) (hf : ShiftFile repl rs) (ho : substFile text repl = .ok out) :
    ∃ S', SDenotes out S' ∧ S'.inputs = S.inputs.map (Decl.shift rs) ∧ S'.outputs = S.outputs.map (Decl.shift rs) ∧ ∃ f g, Embeds S.game S'.game f g := by
  have h := source_setup D H
  obtain ⟨items, h0, h1, h2, hc⟩ := source_sections D
  obtain ⟨lines, hr, hcol, he⟩ := readParts_collected h0 (universal_lines _)
  have hT : BoolsOk S (substBools lines) := boolsOk hcol (fun e hm => (he e hm).1) (h1.imp fun _ _ h => h.1) (h2.imp fun _ _ h => h.1)
  rw [substFile, pyLines_eq, readEntries_shifts (source_commas D H) hf] at ho
  change (Py.ofOption (readParts (modeOf none) _)).bind _ = _ at ho
  rw [hr] at ho
  change (substProperties _ _ lines (properties.map Section.header)).bind _ = _ at ho
  obtain ⟨ps, hps, ho⟩ := Py.bind_ok.mp ho
  obtain ⟨hp, rfl⟩ := subst_properties properties ps hps
  have hL : ∀ s : Section, ∀ l ∈ linesOf s.header lines, OutLine l ∧ l ≠ [] ∧ NoEnd l := by
    intro s l hl
    refine ⟨linesOf_out hcol l hl, ?_⟩
    rw [linesOf] at hl
    obtain ⟨e, hm, rfl⟩ := List.mem_map.mp hl
    exact he e (List.mem_filter.mp hm).1
  have hs : ∀ s, s ∈ properties → (∀ l ∈ resultOf (rs.flatMap entriesOf) (substBools lines) lines s, OutLine l ∧ NoEnd l) ∧
      ∃ cs', List.Forall₂ (IsConstraint S.bools) ((resultOf (rs.flatMap entriesOf) (substBools lines) lines s).filter isItem) cs' ∧
        (∀ c ∈ cs', (bare rs S).Allows s c) ∧ List.Forall₂ (SameHolds h.ok) (constraintsOf S s) cs' := by
    intro s hs
    have hh := (hc s hs).1
    rw [← hcol.items s] at hh
    obtain ⟨⟨_, k1⟩, k2⟩ := subst_lines h hT _ _ _ (hL s) hh (hc s hs).2 (hp s hs)
    exact ⟨k1, k2⟩
  have hso : ∀ s ∈ properties, ∀ l ∈ resultOf (rs.flatMap entriesOf) (substBools lines) lines s, OutLine l ∧ NoEnd l := fun s hm => (hs s hm).1
  have hsc := fun s hm => (hs s hm).2
  choose! K hK hKa hKs using hsc
  rw [← hcol.items] at h1 h2
  obtain ⟨o1, d1⟩ := subst_declarations h (shift_lines_noEnd hf) _ _ (fun d hd => List.mem_append_left _ hd) (hL .input) h1
  obtain ⟨o2, d2⟩ := subst_declarations h (shift_lines_noEnd hf) _ _ (fun d hd => List.mem_append_right _ hd) (hL .output) h2
  set J1 := (linesOf Section.input.header lines).map (substDeclaration (rs.flatMap entriesOf)) with hJ1
  set J2 := (linesOf Section.output.header lines).map (substDeclaration (rs.flatMap entriesOf)) with hJ2
  set J : Section → List (List Char) := fun s => match s with
    | .input => J1 | .output => J2 | s => resultOf (rs.flatMap entriesOf) (substBools lines) lines s with hJdef
  have eJ : ∀ s ∈ properties, J s = resultOf (rs.flatMap entriesOf) (substBools lines) lines s := by
    intro s hs
    cases s with
    | input => exact absurd hs (by decide)
    | output => exact absurd hs (by decide)
    | _ => rfl
  set ss : List Section := [.input, .output] ++ properties with hss
  have hJo : ∀ s ∈ ss, ∀ l ∈ J s, OutLine l ∧ NoEnd l := by
    intro s hm
    rw [hss] at hm
    rcases List.mem_append.mp hm with hm | hm
    · simp only [List.mem_cons, List.not_mem_nil, or_false] at hm
      rcases hm with rfl | rfl
      · exact o1
      · exact o2
    · rw [eJ s hm]; exact hso s hm
  have hcont := scontent_blocks ss (fun s hm l hl => (hJo s hm l hl).1) none
  have hend : ∀ l ∈ ss.flatMap fun s => block s (J s), NoEnd l := by
    intro l hl
    obtain ⟨s, hm, hl⟩ := List.mem_flatMap.mp hl
    exact block_noEnd (fun l hl => (hJo s hm l hl).2) l hl
  have hdec : ∀ s : Section, substDeclarations (rs.flatMap entriesOf) lines s.header = block s ((linesOf s.header lines).map (substDeclaration (rs.flatMap entriesOf))) := by
    intro s
    rw [substDeclarations, block, List.length_map]
  have hout : out = printLines (ss.flatMap fun s => block s (J s)) := by
    cases ho
    have hv : variableTypes.flatMap (substDeclarations (rs.flatMap entriesOf) lines) = block .input J1 ++ block .output J2 := by
      have e : ∀ v : List Char, (∀ s : Section, s.header ≠ v) → substDeclarations (rs.flatMap entriesOf) lines v = [] := by
        intro v hv
        rw [substDeclarations, linesOf_other hcol hv]
        rfl
      have e1 := hdec .input
      have e2 := hdec .output
      rw [← hJ1] at e1
      rw [← hJ2] at e2
      rw [variableTypes, List.flatMap_cons, List.flatMap_cons, List.flatMap_cons, List.flatMap_cons, List.flatMap_cons, List.flatMap_nil,
        e txt!"[OBSERVABLE_INPUT]" (by intro s; cases s <;> decide), e txt!"[UNOBSERVABLE_INPUT]" (by intro s; cases s <;> decide),
        e txt!"[CONTROLLABLE_INPUT]" (by intro s; cases s <;> decide)]
      change substDeclarations _ lines Section.input.header ++ (substDeclarations _ lines Section.output.header ++ _) = _
      rw [e1, e2]
      simp
    rw [hv, hss, List.flatMap_append]
    congr 2
    simp [hJdef]
  have hitems : ∀ s ∈ ss, itemsOf s (ss.flatMap fun s => ((J s).filter isItem).map fun l => (s, l)) = (J s).filter isItem :=
    fun s hm => itemsOf_blocks (F := fun s => (J s).filter isItem) s (by decide) hm
  have hK' : ∀ s ∈ properties, List.Forall₂ (IsConstraint S.bools) (itemsOf s (ss.flatMap fun s => ((J s).filter isItem).map fun l => (s, l))) (K s) := by
    intro s hm
    rw [hitems s (List.mem_append_right _ hm), eJ s hm]
    exact hK s hm
  have hb : (shifted rs S (K .envInit) (K .sysInit) (K .envTrans) (K .sysTrans) (K .envLiveness) (K .sysLiveness)).bools = S.bools := bools_shift (rs := rs) (S := S)
  refine ⟨shifted rs S (K .envInit) (K .sysInit) (K .envTrans) (K .sysTrans) (K .envLiveness) (K .sysLiveness), ?_, rfl, rfl, _, _,
    shifted_embeds h.ok (hKs .envInit (by decide)) (hKs .sysInit (by decide)) (hKs .envTrans (by decide)) (hKs .sysTrans (by decide)) (hKs .envLiveness (by decide))
      (hKs .sysLiveness (by decide))⟩
  refine ⟨⟨ss.flatMap fun s => ((J s).filter isItem).map fun l => (s, l), ?_, ?_, ?_, ?_, ?_, ?_, ?_, ?_, ?_⟩, ?_, hKa .envInit (by decide), hKa .sysInit (by decide),
    hKa .envTrans (by decide), hKa .sysTrans (by decide), hKa .envLiveness (by decide), hKa .sysLiveness (by decide)⟩
  · rw [hout, universal_self (printLines_clean hend), splitLines_printLines _ fun l hl => (hend l hl).1]
    exact hcont
  · rw [hitems .input (by simp [hss])]; exact d1
  · rw [hitems .output (by simp [hss])]; exact d2
  · rw [hb]; exact hK' .envInit (by decide)
  · rw [hb]; exact hK' .sysInit (by decide)
  · rw [hb]; exact hK' .envTrans (by decide)
  · rw [hb]; exact hK' .sysTrans (by decide)
  · rw [hb]; exact hK' .envLiveness (by decide)
  · rw [hb]; exact hK' .sysLiveness (by decide)
  · rw [shifted_names]; exact H.fresh

end Slugs.Model.Substitutor
