import Verif.Lemmas.LtlOutput
import Verif.Lemmas.NuSmvText

/-!
Reading the files of LTLMop and RATSY.
-/

namespace Slugs.Model.LtlText

open Slugs.Spec Slugs.Spec.LtlText
open Slugs.Model.Structured (split splitAux)

theorem rawLines_map (text : List Char) : (Aiger.rawLines text).map trim = (splitLines text).map trim := Aiger.rawLines_trim text []

/-- The numbers of the modes. -/
def modeOf : Option Bool → Nat
  | none => 0
  | some false => 1
  | some true => 2

/-! ### LTLMop -/

theorem ltlFile_spec {cur : Option Bool} {ls as gs : List (List Char)} (h : LtlParts cur ls as gs) : ∀ (raw : List (List Char)), raw.map trim = ls.map trim → ∀ a g,
    ltlFile (modeOf cur) a g raw = (a ++ as.flatMap (' ' :: ·), g ++ gs.flatMap (' ' :: ·)) := by
  have hne : txt!"LTLSPEC -- Guarantees" ≠ txt!"LTLSPEC -- Assumptions" := by decide
  induction h with
  | nil =>
    intro raw hr a g
    rw [List.map_nil, List.map_eq_nil_iff] at hr
    subst hr
    simp [ltlFile]
  | assumptions h _ ih =>
    rintro (_ | ⟨l', raw⟩) hr a g
    · cases hr
    rw [List.map_cons, List.map_cons, List.cons.injEq] at hr
    rw [ltlFile]
    simp only [hr.1, h, if_true]
    exact ih raw hr.2 a g
  | guarantees h _ ih =>
    rintro (_ | ⟨l', raw⟩) hr a g
    · cases hr
    rw [List.map_cons, List.map_cons, List.cons.injEq] at hr
    rw [ltlFile]
    simp only [hr.1, h, if_neg hne, if_true]
    exact ih raw hr.2 a g
  | skip h _ ih =>
    rintro (_ | ⟨l', raw⟩) hr a g
    · cases hr
    rw [List.map_cons, List.map_cons, List.cons.injEq] at hr
    simp only [List.mem_cons, List.not_mem_nil, or_false, not_or] at h
    rw [ltlFile]
    simp only [hr.1, if_neg h.1, if_neg h.2]
    exact ih raw hr.2 a g
  | @assumption l ls as gs h _ ih =>
    rintro (_ | ⟨l', raw⟩) hr a g
    · cases hr
    rw [List.map_cons, List.map_cons, List.cons.injEq] at hr
    simp only [List.mem_cons, List.not_mem_nil, or_false, not_or] at h
    rw [ltlFile]
    simp only [hr.1, if_neg h.1, if_neg h.2]
    have := ih raw hr.2 (a ++ txt!" " ++ trim l) g
    simp only [modeOf] at this
    rw [modeOf, if_pos rfl, this, List.flatMap_cons]
    simp only [List.append_assoc, List.cons_append, List.nil_append]
  | @guarantee l ls as gs h _ ih =>
    rintro (_ | ⟨l', raw⟩) hr a g
    · cases hr
    rw [List.map_cons, List.map_cons, List.cons.injEq] at hr
    simp only [List.mem_cons, List.not_mem_nil, or_false, not_or] at h
    rw [ltlFile]
    simp only [hr.1, if_neg h.1, if_neg h.2]
    have := ih raw hr.2 a (g ++ txt!" " ++ trim l)
    simp only [modeOf] at this
    rw [modeOf, if_neg (by decide), if_pos rfl, this, List.flatMap_cons]
    simp only [List.append_assoc, List.cons_append, List.nil_append]

/-- Every file has parts. -/
theorem ltlParts_total : ∀ (ls : List (List Char)) (cur : Option Bool), ∃ as gs, LtlParts cur ls as gs
  | [], _ => ⟨[], [], .nil⟩
  | l :: ls, cur => by
    by_cases h1 : trim l = txt!"LTLSPEC -- Assumptions"
    · obtain ⟨as, gs, h⟩ := ltlParts_total ls (some false)
      exact ⟨as, gs, .assumptions h1 h⟩
    by_cases h2 : trim l = txt!"LTLSPEC -- Guarantees"
    · obtain ⟨as, gs, h⟩ := ltlParts_total ls (some true)
      exact ⟨as, gs, .guarantees h2 h⟩
    have hn : trim l ∉ [txt!"LTLSPEC -- Assumptions", txt!"LTLSPEC -- Guarantees"] := by
      rw [List.mem_cons, List.mem_singleton]
      exact not_or.mpr ⟨h1, h2⟩
    obtain ⟨as, gs, h⟩ := ltlParts_total ls cur
    match cur, h with
    | none, h => exact ⟨as, gs, .skip hn h⟩
    | some false, h => exact ⟨_, gs, .assumption hn h⟩
    | some true, h => exact ⟨as, _, .guarantee hn h⟩

theorem find_decl (t : List Char) : ∀ x : List Char, ' ' ∉ x → find txt!" : " (x ++ txt!" : " ++ t) = some x.length
  | [], _ => by simp [find, List.isPrefixOf]
  | c :: x, h => by
    rw [List.mem_cons, not_or] at h
    rw [List.cons_append, List.cons_append, find, if_neg, find_decl t x h.2]
    · rfl
    · simp only [List.isPrefixOf, Bool.and_eq_true, beq_iff_eq]
      rintro ⟨e, _⟩
      exact h.1 e

theorem splitAux_decl (t : List Char) : ∀ (x cur : List Char), ' ' ∉ x → (splitAux txt!" : " 0 cur (x ++ txt!" : " ++ t)).headD [] = cur.reverse ++ x
  | [], cur, _ => by simp [splitAux, List.isPrefixOf]
  | c :: x, cur, h => by
    rw [List.mem_cons, not_or] at h
    rw [List.cons_append, List.cons_append, splitAux, if_neg, splitAux_decl t x (c :: cur) h.2]
    · simp
    · simp only [List.isPrefixOf, Bool.and_eq_true, beq_iff_eq]
      rintro ⟨e, _⟩
      exact h.1 e

theorem find_none {s : List Char} (h : ¬ txt!" : " <:+: s) : find txt!" : " s = none := by
  induction s with
  | nil => rfl
  | cons c s ih =>
    rw [find, if_neg, ih]
    · rfl
    · exact fun h' => h (h'.trans (List.suffix_cons c s).isInfix)
    · intro h'
      exact h (List.isPrefixOf_iff_prefix.mp h').isInfix

theorem decl_no_module {m x t : List Char} (hm : ' ' ∉ m) (c : Char) (r : List Char) (hc : c ≠ ':') (hx : ' ' ∉ x) : ¬ m ++ ' ' :: c :: r <+: x ++ txt!" : " ++ t := by
  rintro ⟨z, e⟩
  induction m generalizing x with
  | nil =>
    cases x with
    | nil => simp at e; exact hc e.1
    | cons d x => simp at e hx; exact hx.1 e.1
  | cons d m ih =>
    rw [List.mem_cons, not_or] at hm
    cases x with
    | nil => simp at e; exact hm.1 e.1.symm
    | cons d' x =>
      simp only [List.cons_append, List.cons.injEq] at e
      rw [List.mem_cons, not_or] at hx
      exact ih hm.2 hx.2 (by simpa using e.2)

theorem smvFile_spec {cur : Option Bool} {ls : List (List Char)} {is os : List Word} (h : SmvDecls cur ls is os) : ∀ (raw : List (List Char)), raw.map trim = ls.map trim → ∀ a g,
    smvFile (modeOf cur) a g raw = (a ++ is, g ++ os) := by
  have hse : ∀ l, txt!"MODULE sys" <+: l → ¬ txt!"MODULE env" <+: l := by
    rintro l ⟨z, rfl⟩ ⟨y, e⟩
    simp at e
  have hnm : ∀ x t : List Char, (∀ c ∈ x, isSpace c = false) → ¬ txt!"MODULE env" <+: x ++ txt!" : " ++ t ∧ ¬ txt!"MODULE sys" <+: x ++ txt!" : " ++ t := by
    intro x t hx
    have hx' : ' ' ∉ x := fun hm => absurd (hx _ hm) (by decide)
    exact ⟨decl_no_module (m := txt!"MODULE") (by decide) 'e' txt!"nv" (by decide) hx', decl_no_module (m := txt!"MODULE") (by decide) 's' txt!"ys" (by decide) hx'⟩
  induction h with
  | nil =>
    intro raw hr a g
    rw [List.map_nil, List.map_eq_nil_iff] at hr
    subst hr
    simp [smvFile]
  | env h _ ih =>
    rintro (_ | ⟨l', raw⟩) hr a g
    · cases hr
    rw [List.map_cons, List.map_cons, List.cons.injEq] at hr
    rw [smvFile]
    simp only [hr.1, List.isPrefixOf_iff_prefix, if_pos h]
    exact ih raw hr.2 a g
  | sys h _ ih =>
    rintro (_ | ⟨l', raw⟩) hr a g
    · cases hr
    rw [List.map_cons, List.map_cons, List.cons.injEq] at hr
    rw [smvFile]
    simp only [hr.1, List.isPrefixOf_iff_prefix, if_pos h, if_neg (hse _ h)]
    exact ih raw hr.2 a g
  | @skip cur l ls is os h1 h2 h3 _ ih =>
    rintro (_ | ⟨l', raw⟩) hr a g
    · cases hr
    rw [List.map_cons, List.map_cons, List.cons.injEq] at hr
    rw [smvFile]
    simp only [hr.1, List.isPrefixOf_iff_prefix, if_neg h1, if_neg h2]
    rcases h3 with h3 | rfl
    · rw [find_none h3]
      exact ih raw hr.2 a g
    · have := ih raw hr.2 a g
      simp only [modeOf] at this
      simp [modeOf, this]
  | @input l ls x t is os h1 h2 h3 _ ih =>
    rintro (_ | ⟨l', raw⟩) hr a g
    · cases hr
    rw [List.map_cons, List.map_cons, List.cons.injEq] at hr
    have hx : ' ' ∉ x := fun hm => absurd (h3 _ hm) (by decide)
    rw [smvFile]
    simp only [hr.1, h1, List.isPrefixOf_iff_prefix, if_neg (hnm x t h3).1, if_neg (hnm x t h3).2]
    rw [find_decl t x hx, if_pos (by simpa using List.length_pos_iff.mpr h2), split, splitAux_decl t x [] hx]
    have := ih raw hr.2 (a ++ [x]) g
    simp only [modeOf] at this
    simp [modeOf, this]
  | @output l ls x t is os h1 h2 h3 _ ih =>
    rintro (_ | ⟨l', raw⟩) hr a g
    · cases hr
    rw [List.map_cons, List.map_cons, List.cons.injEq] at hr
    have hx : ' ' ∉ x := fun hm => absurd (h3 _ hm) (by decide)
    rw [smvFile]
    simp only [hr.1, h1, List.isPrefixOf_iff_prefix, if_neg (hnm x t h3).1, if_neg (hnm x t h3).2]
    rw [find_decl t x hx, if_pos (by simpa using List.length_pos_iff.mpr h2), split, splitAux_decl t x [] hx]
    have := ih raw hr.2 a (g ++ [x])
    simp only [modeOf] at this
    simp [modeOf, this]

/-! ### RATSY -/

theorem ratsySection_header (s : Section) : ratsySection (ratsyHeader s) = some s := by cases s <;> decide

theorem ratsySection_none {l : List Char} (h : l.head? ≠ some '[') : ratsySection l = none := by
  have : ∀ s, l ≠ ratsyHeader s := by
    rintro s rfl
    cases s <;> exact h rfl
  rw [ratsySection, if_neg (show l ≠ txt!"[INPUT_VARIABLES]" from this .input), if_neg (show l ≠ txt!"[OUTPUT_VARIABLES]" from this .output),
    if_neg (show l ≠ txt!"[ENV_INITIAL]" from this .envInit), if_neg (show l ≠ txt!"[SYS_INITIAL]" from this .sysInit),
    if_neg (show l ≠ txt!"[ENV_TRANSITIONS]" from this .envTrans), if_neg (show l ≠ txt!"[SYS_TRANSITIONS]" from this .sysTrans),
    if_neg (show l ≠ txt!"[ENV_FAIRNESS]" from this .envLiveness), if_neg (show l ≠ txt!"[SYS_FAIRNESS]" from this .sysLiveness)]

theorem ratsySection_some {l : List Char} {s : Section} (h : ratsySection l = some s) : l = ratsyHeader s := by
  unfold ratsySection at h
  repeat' split at h
  all_goals first
    | (cases h; assumption)
    | cases h

theorem header_head (s : Section) : (ratsyHeader s).head? = some '[' := by cases s <;> rfl

theorem ratsyFile_spec {cur : Option Section} {ls : List (List Char)} {items : List (Section × List Char)} (h : RatsyContent cur ls items) :
    ∀ (raw : List (List Char)), raw.map trim = ls.map trim → ∀ strings, ratsyFile cur strings raw = some fun s => strings s ++ (itemsOf s items).flatten := by
  induction h with
  | nil =>
    intro raw hr strings
    rw [List.map_nil, List.map_eq_nil_iff] at hr
    subst hr
    simp [ratsyFile, itemsOf]
  | skip h _ ih =>
    rintro (_ | ⟨l', raw⟩) hr strings
    · cases hr
    rw [List.map_cons, List.map_cons, List.cons.injEq] at hr
    rw [ratsyFile.eq_def]
    dsimp only
    simp only [hr.1]
    rcases h with h | h
    · simp only [h, List.head?_nil, if_neg (show ¬ (none : Option Char) = some '#' by simp), if_true]
      exact ih raw hr.2 strings
    · simp only [h, if_true]
      exact ih raw hr.2 strings
  | header s h _ ih =>
    rintro (_ | ⟨l', raw⟩) hr strings
    · cases hr
    rw [List.map_cons, List.map_cons, List.cons.injEq] at hr
    rw [ratsyFile.eq_def]
    dsimp only
    simp only [hr.1, h, ratsySection_header, header_head]
    rw [if_neg (by decide), if_neg (by cases s <;> decide)]
    exact ih raw hr.2 strings
  | @item s l ls items h1 h2 h3 _ ih =>
    rintro (_ | ⟨l', raw⟩) hr strings
    · cases hr
    rw [List.map_cons, List.map_cons, List.cons.injEq] at hr
    rw [ratsyFile.eq_def]
    dsimp only
    simp only [hr.1, if_neg h1, if_neg h2, ratsySection_none h3, if_neg h3]
    rw [ih raw hr.2, Option.some_inj]
    funext t
    by_cases ht : t = s
    · subst ht
      simp [itemsOf]
    · simp [itemsOf, ht, Ne.symm ht]

/-- Whatever is read has such a content. -/
theorem ratsyFile_only : ∀ (raw : List (List Char)) (cur : Option Section) (strings : Section → List Char) {r : Section → List Char}, ratsyFile cur strings raw = some r →
    ∃ items, RatsyContent cur raw items
  | [], _, _, _, _ => ⟨[], .nil⟩
  | l :: raw, cur, strings, r, h => by
    rw [ratsyFile.eq_def] at h
    dsimp only at h
    by_cases h1 : (trim l).head? = some '#'
    · rw [if_pos h1] at h
      obtain ⟨items, hi⟩ := ratsyFile_only raw _ _ h
      exact ⟨items, .skip (.inr h1) hi⟩
    rw [if_neg h1] at h
    by_cases h2 : trim l = []
    · rw [if_pos h2] at h
      obtain ⟨items, hi⟩ := ratsyFile_only raw _ _ h
      exact ⟨items, .skip (.inl h2) hi⟩
    rw [if_neg h2] at h
    cases hs : ratsySection (trim l) with
    | some s =>
      simp only [hs] at h
      obtain ⟨items, hi⟩ := ratsyFile_only raw _ _ h
      exact ⟨items, .header s (ratsySection_some hs) hi⟩
    | none =>
      simp only [hs] at h
      by_cases h3 : (trim l).head? = some '['
      · rw [if_pos h3] at h; cases h
      rw [if_neg h3] at h
      cases cur with
      | none => cases h
      | some s =>
        obtain ⟨items, hi⟩ := ratsyFile_only raw _ _ h
        exact ⟨_, .item h2 h1 h3 hi⟩

/-- Only the trimmed lines matter. -/
theorem ratsyContent_trim {cur : Option Section} {ls : List (List Char)} {items : List (Section × List Char)} (h : RatsyContent cur ls items) :
    ∀ ls' : List (List Char), ls'.map trim = ls.map trim → RatsyContent cur ls' items := by
  induction h with
  | nil =>
    intro ls' e
    rw [List.map_nil, List.map_eq_nil_iff] at e
    subst e
    exact .nil
  | skip h _ ih =>
    rintro (_ | ⟨l', ls'⟩) e
    · cases e
    rw [List.map_cons, List.map_cons, List.cons.injEq] at e
    exact .skip (e.1 ▸ h) (ih _ e.2)
  | header s h _ ih =>
    rintro (_ | ⟨l', ls'⟩) e
    · cases e
    rw [List.map_cons, List.map_cons, List.cons.injEq] at e
    exact .header s (e.1 ▸ h) (ih _ e.2)
  | item h1 h2 h3 _ ih =>
    rintro (_ | ⟨l', ls'⟩) e
    · cases e
    rw [List.map_cons, List.map_cons, List.cons.injEq] at e
    rw [← e.1] at h1 h2 h3 ⊢
    exact .item h1 h2 h3 (ih _ e.2)

theorem ratsy_clean {cur : Option Section} {ls : List (List Char)} {items : List (Section × List Char)} (h : RatsyContent cur ls items) (hl : ∀ l ∈ ls, '\n' ∉ l) :
    ∀ i ∈ items, '\n' ∉ i.2 := by
  induction h with
  | nil => simp
  | skip _ _ ih => exact ih fun l hm => hl l (List.mem_cons_of_mem _ hm)
  | header _ _ _ ih => exact ih fun l hm => hl l (List.mem_cons_of_mem _ hm)
  | item _ _ _ _ ih =>
    rw [List.forall_mem_cons]
    exact ⟨fun hm => hl _ List.mem_cons_self (mem_of_mem_trim hm), ih fun l hm => hl l (List.mem_cons_of_mem _ hm)⟩

theorem split_semicolons : ∀ ps : List (List Char), ps ≠ [] → (∀ p ∈ ps, ';' ∉ p) → split [';'] (List.intercalate [';'] ps) = ps
  | [], h, _ => absurd rfl h
  | [p], _, h => by
    rw [show List.intercalate [';'] [p] = p by simp [List.intercalate], Decoder.split_none (h p (by simp))]
  | p :: q :: ps, _, h => by
    have e : List.intercalate [';'] (p :: q :: ps) = p ++ ';' :: List.intercalate [';'] (q :: ps) := by simp [List.intercalate]
    rw [e, Decoder.split_cons (h p (by simp)), split_semicolons (q :: ps) (by simp) fun x hx => h x (List.mem_cons_of_mem _ hx)]

theorem pieces_spec {text : List Char} {parts : List (List Char)} (h : Semicolons text parts) (hn : '\n' ∉ text) : Bits (pieces text) parts := by
  obtain ⟨ps, h1, h2, rfl, rfl⟩ := h
  have e : pieces (List.intercalate [';'] ps) = ps.map trim := by rw [pieces, split_semicolons ps h1 h2]
  refine ⟨by rw [e], fun b hb => ?_, fun b hb hm => hn ?_⟩
  · rw [e] at hb
    obtain ⟨p, _, rfl⟩ := List.mem_map.mp hb
    exact trim_trim p
  · rw [e] at hb
    obtain ⟨p, hp, rfl⟩ := List.mem_map.mp hb
    have := mem_of_mem_trim hm
    clear hn e h1
    induction ps with
    | nil => cases hp
    | cons q ps ih =>
      cases ps with
      | nil =>
        rw [List.mem_singleton] at hp
        subst hp
        simpa [List.intercalate] using this
      | cons q' ps =>
        have e : List.intercalate [';'] (q :: q' :: ps) = q ++ ';' :: List.intercalate [';'] (q' :: ps) := by simp [List.intercalate]
        rw [e]
        rcases List.mem_cons.mp hp with rfl | hp
        · exact List.mem_append_left _ this
        · exact List.mem_append_right _ (List.mem_cons_of_mem _ (ih (fun x hx => h2 x (List.mem_cons_of_mem _ hx)) hp (List.mem_map_of_mem hp)))

/-- Every text has such parts. -/
theorem semicolons_total (text : List Char) : ∃ parts, Semicolons text parts := by
  have : ∃ ps : List (List Char), ps ≠ [] ∧ (∀ p ∈ ps, ';' ∉ p) ∧ text = List.intercalate [';'] ps := by
    induction text with
    | nil => exact ⟨[[]], by simp, by simp, by simp [List.intercalate]⟩
    | cons c text ih =>
      obtain ⟨ps, h1, h2, h3⟩ := ih
      by_cases hc : c = ';'
      · subst hc
        refine ⟨[] :: ps, by simp, List.forall_mem_cons.mpr ⟨by simp, h2⟩, ?_⟩
        cases ps with
        | nil => exact absurd rfl h1
        | cons p ps => rw [h3]; simp [List.intercalate]
      · cases ps with
        | nil => exact absurd rfl h1
        | cons p ps =>
          rw [List.forall_mem_cons] at h2
          refine ⟨(c :: p) :: ps, by simp, List.forall_mem_cons.mpr ⟨by simp [Ne.symm hc, h2.1], h2.2⟩, ?_⟩
          rw [h3]
          cases ps <;> simp [List.intercalate]
  obtain ⟨ps, h⟩ := this
  exact ⟨_, ps, h.1, h.2.1, h.2.2, rfl⟩

theorem ratsy_file {text : List Char} {part : Section → List (List Char)} (h : RatsyFile text part) :
    ∃ strings, ratsyFile none (fun _ => []) (Aiger.rawLines text) = some strings ∧ ∀ s, Bits (pieces (strings s)) (part s) := by
  obtain ⟨items, hc, hp⟩ := h
  refine ⟨_, ratsyFile_spec hc _ (rawLines_map text) _, fun s => ?_⟩
  rw [List.nil_append]
  refine pieces_spec (hp s) fun hm => ?_
  obtain ⟨l, hl, hm⟩ := List.mem_flatten.mp hm
  obtain ⟨i, hi, rfl⟩ := List.mem_map.mp hl
  exact ratsy_clean hc (Structured.splitLines_clean text) i (List.mem_filter.mp hi).1 hm

end Slugs.Model.LtlText
