import Verif.Lemmas.ResilienceText

/-!
The first search of `kResilientRealizabilityChecker.py`.
-/

namespace Slugs.Model.Resilience

open Slugs.Spec Slugs.Model.Core

/-! ### Lines -/

theorem itemLine_of {l : List Char} (hne : l ≠ []) (h1 : ∀ c, l.head? = some c → isSpace c = false ∧ c ≠ '#' ∧ c ≠ '[')
    (h2 : ∀ c, l.getLast? = some c → isSpace c = false) (h3 : '\n' ∉ l) : ItemLine l where
  tight := Structured.trim_self (fun c hc => (h1 c hc).1) h2
  ne := hne
  comment := fun h => (h1 _ h).2.1 rfl
  header := fun h => (h1 _ h).2.2 rfl
  clean := h3

theorem itemLine_last {l : List Char} (h : ItemLine l) : ∀ c, l.getLast? = some c → isSpace c = false := by
  intro c hc
  refine (Structured.trimWith_ends isSpace l).2 c ?_
  have := h.tight
  rw [trim] at this
  rw [this]
  exact hc

theorem itemLine_head {l : List Char} (h : ItemLine l) : ∀ c, l.head? = some c → isSpace c = false ∧ c ≠ '#' ∧ c ≠ '[' := by
  intro c hc
  refine ⟨(Structured.trimWith_ends isSpace l).1 c ?_, ?_, ?_⟩
  · have := h.tight
    rw [trim] at this
    rw [this]
    exact hc
  · rintro rfl; exact h.comment hc
  · rintro rfl; exact h.header hc

theorem violationPrefix_head {as : List (List Char)} : as = [] ∧ violationPrefix as = [] ∨ ∃ t, violationPrefix as = '|' :: t := by
  rcases List.eq_nil_or_concat as with rfl | ⟨as, a, rfl⟩
  · exact .inl ⟨rfl, rfl⟩
  · right
    rw [violationPrefix, List.concat_eq_append, List.foldl_append]
    exact ⟨_, rfl⟩

theorem violationPrefix_clean {as : List (List Char)} (h : ∀ a ∈ as, '\n' ∉ a) : '\n' ∉ violationPrefix as := by
  induction as using List.reverseRecOn with
  | nil => simp [violationPrefix]
  | append_singleton as a ih =>
    rw [violationPrefix, List.foldl_append]
    simp only [List.foldl_cons, List.foldl_nil, List.mem_append, not_or]
    exact ⟨⟨⟨by decide, h a (by simp)⟩, by decide⟩, ih fun b hb => h b (by simp [hb])⟩

theorem prefixed_itemLine {as : List (List Char)} (h : ∀ a ∈ as, ItemLine a) {l : List Char} (hl : ItemLine l) : ItemLine (violationPrefix as ++ l) := by
  refine itemLine_of (by simp [hl.ne]) ?_ ?_ ?_
  · rcases violationPrefix_head (as := as) with ⟨-, e⟩ | ⟨t, e⟩ <;> rw [e]
    · exact itemLine_head hl
    · intro c hc
      cases hc
      decide
  · intro c hc
    rw [List.getLast?_append_of_ne_nil _ hl.ne] at hc
    exact itemLine_last hl c hc
  · rw [List.mem_append, not_or]
    exact ⟨violationPrefix_clean fun a ha => (h a ha).clean, hl.clean⟩

/-- The disjunction with the negations of the assumptions. -/
def orViolated (as : List Fml) (φ : Fml) : Fml := as.foldl (fun p a => .bin .or (.not a) p) φ

theorem writes_prefix {l : List Char} : ∀ {as : List (List Char)} {fs : List Fml} {p : List Char} {φ : Fml}, List.Forall₂ Writes as fs → Writes (p ++ l) φ →
    Writes (as.foldl (fun p a => txt!"| ! " ++ a ++ txt!" " ++ p) p ++ l) (orViolated fs φ)
  | [], _, _, _, .nil, h => h
  | a :: as, f :: fs, p, φ, .cons ha hs, h => by
    refine writes_prefix (p := txt!"| ! " ++ a ++ txt!" " ++ p) (φ := .bin .or (.not f) φ) hs ?_
    have := writes_bin .or (writes_not ha) h
    convert this using 1
    simp [BinOp.word]

theorem orViolated_wf : ∀ {as : List Fml} {φ : Fml}, (∀ a ∈ as, a.Wf 0) → φ.Wf 0 → (orViolated as φ).Wf 0
  | [], _, _, h => h
  | a :: as, φ, ha, h => by
    rw [List.forall_mem_cons] at ha
    exact orViolated_wf (φ := .bin .or (.not a) φ) ha.2 ⟨ha.1, h⟩

theorem orViolated_vars : ∀ (as : List Fml) (φ : Fml) (x : Word), x ∈ (orViolated as φ).vars ↔ x ∈ φ.vars ∨ ∃ a ∈ as, x ∈ a.vars
  | [], _, _ => by simp [orViolated]
  | a :: as, φ, x => by
    have := orViolated_vars as (.bin .or (.not a) φ) x
    rw [orViolated, List.foldl_cons]
    rw [orViolated] at this
    rw [this]
    simp only [Fml.vars, List.mem_append, List.mem_cons, exists_eq_or_imp]
    tauto

theorem yes_orViolated {ρ : Word → Bool} : ∀ {as : List Fml} {φ : Fml}, (∀ a ∈ as, a.Wf 0) → φ.Wf 0 → (Yes ρ (orViolated as φ) ↔ Yes ρ φ ∨ ∃ a ∈ as, ¬ Yes ρ a)
  | [], _, _, _ => by simp [orViolated]
  | a :: as, φ, ha, h => by
    rw [List.forall_mem_cons] at ha
    have := yes_orViolated (ρ := ρ) (φ := .bin .or (.not a) φ) ha.2 ⟨ha.1, h⟩
    rw [orViolated, List.foldl_cons]
    rw [orViolated] at this
    rw [this, yes_or (φ := .not a) ha.1 h, yes_not ha.1]
    simp only [List.mem_cons, exists_eq_or_imp]
    tauto

theorem forall₂_rdLine {ls : List (List Char)} {fs : List Fml} (h : List.Forall₂ ReadsLine ls fs) : fs = ls.map rdLine := by
  induction h with
  | nil => rfl
  | cons h _ ih => rw [List.map_cons, rdLine_eq h, ← ih]

theorem length_le_writeLines {l : List Char} {ls : List (List Char)} (h : l ∈ ls) : l.length ≤ (writeLines ls).length := by
  obtain ⟨a, b, rfl⟩ := List.append_of_mem h
  simp [writeLines]
  omega

/-! ### Levels -/

theorem atLevel_sub {β : Type} (d : β) (v : List β) (f : β → Bool) (c : List (List Char)) {l : List Char} (h : l ∈ atLevel d v f c) : l ∈ c := by
  rw [atLevel, levels, List.mem_map] at h
  obtain ⟨p, hp, rfl⟩ := h
  obtain ⟨q, hq, rfl⟩ := List.mem_map.mp (List.mem_filter.mp hp).1
  exact (List.mem_zipIdx hq).2.2 ▸ List.getElem_mem _

theorem levels_eq {β : Type} (d : β) {v : List β} {c : List (List Char)} (h : v.length = c.length) : levels d v c = c.zip v := by
  refine List.ext_getElem (by simp [levels, h]) fun i h1 h2 => ?_
  have : i < v.length := by simp at h2; omega
  simp [levels, List.getElem?_eq_getElem this]

theorem pick_lines {β : Type} (d : β) {v : List β} {c : List (List Char)} (h : v.length = c.length) (f : β → Bool) :
    (atLevel d v f c).map rdLine = pick f v (c.map rdLine) := by
  rw [atLevel, levels_eq d h, pick, List.zip_map_left, List.filter_map, List.map_map, List.map_map]
  rfl

/-! ### The specification in the file -/

/-- What has been read from a proper file. -/
structure Base (sp : SpecFile) (hard soft : List Fml) (ess : List (List Char)) (c : Categories) : Prop where
  line : ∀ s, ∀ l ∈ c s, ItemLine l
  essLine : ∀ l ∈ ess, ItemLine l
  names : (c .input ++ c .output ++ (c .input).map prime ++ (c .output).map prime).Nodup
  proper : ∀ s, s ≠ .input → s ≠ .output → ∀ l ∈ c s, ∃ φ, ReadsLine l φ ∧ φ.Wf 0 ∧ ∀ x ∈ φ.vars, x ∈ usable s (c .input) (c .output)
  essProper : ∀ l ∈ ess, ∃ φ, ReadsLine l φ ∧ φ.Wf 0 ∧ ∀ x ∈ φ.vars, x ∈ usable .envTrans (c .input) (c .output)
  inputs : sp.inputs = c .input
  outputs : sp.outputs = c .output
  envInit : sp.envInit = (c .envInit).map rdLine
  sysInit : sp.sysInit = (c .sysInit).map rdLine
  sysTrans : sp.sysTrans = (c .sysTrans).map rdLine
  envLiveness : sp.envLiveness = (c .envLiveness).map rdLine
  sysLiveness : sp.sysLiveness = (c .sysLiveness).map rdLine
  hardEq : hard = ess.map rdLine
  softEq : soft = (c .envTrans).map rdLine
  envTrans : ∀ φ, φ ∈ sp.envTrans ↔ φ ∈ hard ++ soft

theorem base_of {cap : Nat} {text : List Char} {sp : SpecFile} {hard soft : List Fml} (hf : ProperFile cap text) (hd : Denotes text sp) (ha : Assumes text hard soft) :
    ∃ ess c, readSpec [] false [] (fun _ => []) (splitLines text) = some (ess, c) ∧ Base sp hard soft ess c := by
  obtain ⟨items, hm, hh, hs⟩ := ha
  have hc := marked_content hm
  obtain ⟨items', hc', hg⟩ := goodLines_of hf
  obtain rfl := Content.det hc hc'
  obtain rfl := Denotes.det hd (hg.denotesItems hc fun s => rfl)
  have oth : ∀ s, s ≠ .envTrans → others items s = itemsOf s (items.map Prod.snd) := fun s h => others_eq items h
  have sub : ∀ s, ∀ l ∈ others items s, l ∈ itemsOf s (items.map Prod.snd) := by
    intro s l hl
    by_cases h : s = .envTrans
    · subst h
      rw [others_envTrans] at hl
      exact mem_marked hl
    · rwa [oth s h] at hl
  refine ⟨markedAssumptions true items, others items, ?_, ?_⟩
  · rw [readSpec_content hm [] [] _ (by simp)]
    simp
  · have ei : others items .input = itemsOf .input (items.map Prod.snd) := oth _ (by decide)
    have eo : others items .output = itemsOf .output (items.map Prod.snd) := oth _ (by decide)
    refine ⟨fun s l hl => hg.line s l (sub s l hl), fun l hl => hg.line .envTrans l (mem_marked hl), by rw [ei, eo]; exact hg.names, ?_, ?_, ei.symm, eo.symm, ?_, ?_, ?_, ?_, ?_,
      forall₂_rdLine hh, by rw [others_envTrans]; exact forall₂_rdLine hs, ?_⟩
    · intro s h1 h2 l hl
      obtain ⟨_, φ, h⟩ := hg.proper s h1 h2 l (sub s l hl)
      exact ⟨φ, by rw [ei, eo]; exact h⟩
    · intro l hl
      obtain ⟨_, φ, h⟩ := hg.proper .envTrans (by decide) (by decide) l (mem_marked hl)
      exact ⟨φ, by rw [ei, eo]; exact h⟩
    · rw [oth _ (by decide)]; rfl
    · rw [oth _ (by decide)]; rfl
    · rw [oth _ (by decide)]; rfl
    · rw [oth _ (by decide)]; rfl
    · rw [oth _ (by decide)]; rfl
    · intro φ
      rw [forall₂_rdLine hh, forall₂_rdLine hs, ← List.map_append]
      simp only [specLines, List.mem_map, List.mem_append]
      constructor
      · rintro ⟨l, hl, rfl⟩
        refine ⟨l, ?_, rfl⟩
        rw [mem_itemsOf, List.mem_map] at hl
        obtain ⟨⟨m, s, l'⟩, hp, e⟩ := hl
        obtain ⟨rfl, rfl⟩ : s = _ ∧ l' = l := by simpa using e
        cases m
        · right
          exact List.mem_map.mpr ⟨_, List.mem_filter.mpr ⟨hp, by simp⟩, rfl⟩
        · left
          exact List.mem_map.mpr ⟨_, List.mem_filter.mpr ⟨hp, by simp⟩, rfl⟩
      · rintro ⟨l, hl, rfl⟩
        exact ⟨l, hl.elim mem_marked mem_marked, rfl⟩

theorem assumes_exists {cap : Nat} {text : List Char} (hf : ProperFile cap text) : ∃ hard soft, Assumes text hard soft := by
  obtain ⟨items, hc, hg⟩ := goodLines_of hf
  obtain ⟨items', hm⟩ := marked_exists hc false
  obtain rfl := Content.det hc (marked_content hm)
  refine ⟨_, _, items', hm, reads_rdLine fun l hl => ?_, reads_rdLine fun l hl => ?_⟩ <;>
    obtain ⟨_, φ, h, _⟩ := hg.proper .envTrans (by decide) (by decide) l (mem_marked hl) <;> exact ⟨φ, h⟩

variable {sp : SpecFile} {hard soft : List Fml} {ess : List (List Char)} {c : Categories}

/-- What is known about the lines of the assumptions. -/
theorem Base.assumption (h : Base sp hard soft ess c) {l : List Char} (hl : l ∈ ess ++ c .envTrans) :
    ItemLine l ∧ Writes l (rdLine l) ∧ (rdLine l).Wf 0 ∧ ∀ x ∈ (rdLine l).vars, x ∈ usable .envTrans (c .input) (c .output) := by
  have : ItemLine l ∧ ∃ φ, ReadsLine l φ ∧ φ.Wf 0 ∧ ∀ x ∈ φ.vars, x ∈ usable .envTrans (c .input) (c .output) := by
    rcases List.mem_append.mp hl with hl | hl
    · exact ⟨h.essLine l hl, h.essProper l hl⟩
    · exact ⟨h.line _ l hl, h.proper _ (by decide) (by decide) l hl⟩
  obtain ⟨hi, φ, h1, h2, h3⟩ := this
  rw [rdLine_eq h1]
  exact ⟨hi, hi.writes h1, h2, h3⟩

theorem Base.constraint (h : Base sp hard soft ess c) {s : Section} (h1 : s ≠ .input) (h2 : s ≠ .output) {l : List Char} (hl : l ∈ c s) :
    ItemLine l ∧ Writes l (rdLine l) ∧ (rdLine l).Wf 0 ∧ ∀ x ∈ (rdLine l).vars, x ∈ usable s (c .input) (c .output) := by
  obtain ⟨φ, h3, h4, h5⟩ := h.proper s h1 h2 l hl
  rw [rdLine_eq h3]
  exact ⟨h.line s l hl, (h.line s l hl).writes h3, h4, h5⟩

/-- The lines of the file for the first search. -/
def inftyLines (ess : List (List Char)) (c : Categories) (v : List Bool) : Categories :=
  (c.put .envTrans (ess ++ atLevel false v (! ·) (c .envTrans))).put .sysLiveness ((c .sysLiveness).map (violationPrefix (atLevel false v id (c .envTrans)) ++ ·))

/-- The same lines, as they are written. -/
def inftyBlocks (ess : List (List Char)) (c : Categories) (v : List Bool) : List (Section × List (List Char)) :=
  [(.input, c .input ++ [[]]), (.output, c .output ++ [[]]), (.envLiveness, c .envLiveness ++ [[]]), (.envInit, c .envInit ++ [[]]), (.sysInit, c .sysInit ++ [[]]),
    (.sysTrans, c .sysTrans ++ [[]]), (.envTrans, ess ++ atLevel false v (! ·) (c .envTrans)),
    (.sysLiveness, (c .sysLiveness).map (violationPrefix (atLevel false v id (c .envTrans)) ++ ·))]

theorem inftyFile_eq (ess : List (List Char)) (c : Categories) (v : List Bool) : inftyFile ess c v = writeLines (blockLines (inftyBlocks ess c v)) := by
  rw [inftyFile, inftyBlocks]
  congr 1
  simp [blockLines, sectionLines, copiedOrder]

theorem inftyLines_of (ess : List (List Char)) (c : Categories) (v : List Bool) {s : Section} (h1 : s ≠ .envTrans) (h2 : s ≠ .sysLiveness) : inftyLines ess c v s = c s := by
  rw [inftyLines, Categories.put, if_neg h2, Categories.put, if_neg h1]

theorem inftyLines_envTrans (ess : List (List Char)) (c : Categories) (v : List Bool) :
    inftyLines ess c v .envTrans = ess ++ atLevel false v (! ·) (c .envTrans) := rfl

theorem inftyLines_sysLiveness (ess : List (List Char)) (c : Categories) (v : List Bool) :
    inftyLines ess c v .sysLiveness = (c .sysLiveness).map (violationPrefix (atLevel false v id (c .envTrans)) ++ ·) := rfl

/-- The liveness guarantees in the file. -/
theorem Base.prefixed (h : Base sp hard soft ess c) {as : List (List Char)} (has : ∀ a ∈ as, a ∈ c .envTrans) {l : List Char} (hl : l ∈ c .sysLiveness) :
    ItemLine (violationPrefix as ++ l) ∧ Writes (violationPrefix as ++ l) (orViolated (as.map rdLine) (rdLine l)) ∧ (orViolated (as.map rdLine) (rdLine l)).Wf 0 ∧
      ∀ x ∈ (orViolated (as.map rdLine) (rdLine l)).vars, x ∈ usable .sysLiveness (c .input) (c .output) := by
  obtain ⟨hi, hw, hwf, hv⟩ := h.constraint (s := .sysLiveness) (by decide) (by decide) hl
  have ha : ∀ a ∈ as, _ := fun a ha => h.assumption (List.mem_append_right ess (has a ha))
  refine ⟨prefixed_itemLine (fun a hm => (ha a hm).1) hi, writes_prefix (p := []) ?_ hw, orViolated_wf ?_ hwf, fun x hx => ?_⟩
  · rw [List.forall₂_map_right_iff, List.forall₂_same]
    exact fun a hm => (ha a hm).2.1
  · intro f hf
    obtain ⟨a, hm, rfl⟩ := List.mem_map.mp hf
    exact (ha a hm).2.2.1
  · rcases (orViolated_vars _ _ x).mp hx with hx | ⟨f, hf, hx⟩
    · exact hv x hx
    · obtain ⟨a, hm, rfl⟩ := List.mem_map.mp hf
      have := (ha a hm).2.2.2 x hx
      simp only [usable, List.mem_append] at this ⊢
      exact .inl this

theorem Base.inftyGood (h : Base sp hard soft ess c) (v : List Bool) {cap : Nat} (hcap : (inftyFile ess c v).length ≤ cap) : GoodLines cap (inftyLines ess c v) := by
  have mem : ∀ s, ∀ l ∈ inftyLines ess c v s, l.length ≤ cap := by
    intro s l hl
    refine (length_le_writeLines (ls := blockLines (inftyBlocks ess c v)) ?_).trans (by rwa [← inftyFile_eq])
    rw [blockLines, List.mem_flatMap]
    cases s
    case envTrans => exact ⟨(.envTrans, _), by simp [inftyBlocks], List.mem_cons_of_mem _ hl⟩
    case sysLiveness => exact ⟨(.sysLiveness, _), by simp [inftyBlocks], List.mem_cons_of_mem _ hl⟩
    case input => exact ⟨(.input, _), by simp [inftyBlocks]; rfl, List.mem_cons_of_mem _ (List.mem_append_left _ hl)⟩
    case output => exact ⟨(.output, _), by simp [inftyBlocks]; rfl, List.mem_cons_of_mem _ (List.mem_append_left _ hl)⟩
    case envInit => exact ⟨(.envInit, _), by simp [inftyBlocks]; rfl, List.mem_cons_of_mem _ (List.mem_append_left _ hl)⟩
    case sysInit => exact ⟨(.sysInit, _), by simp [inftyBlocks]; rfl, List.mem_cons_of_mem _ (List.mem_append_left _ hl)⟩
    case sysTrans => exact ⟨(.sysTrans, _), by simp [inftyBlocks]; rfl, List.mem_cons_of_mem _ (List.mem_append_left _ hl)⟩
    case envLiveness => exact ⟨(.envLiveness, _), by simp [inftyBlocks]; rfl, List.mem_cons_of_mem _ (List.mem_append_left _ hl)⟩
  have sub : ∀ l ∈ ess ++ atLevel false v (! ·) (c .envTrans), l ∈ ess ++ c .envTrans := by
    intro l hl
    rcases List.mem_append.mp hl with hl | hl
    · exact List.mem_append_left _ hl
    · exact List.mem_append_right _ (atLevel_sub _ _ _ _ hl)
  refine ⟨?_, ?_, ?_⟩
  · intro s l hl
    by_cases h1 : s = .envTrans
    · subst h1
      exact (h.assumption (sub l hl)).1
    by_cases h2 : s = .sysLiveness
    · subst h2
      obtain ⟨l', hl', rfl⟩ := List.mem_map.mp hl
      exact (h.prefixed (fun a ha => atLevel_sub _ _ _ _ ha) hl').1
    rw [inftyLines_of _ _ _ h1 h2] at hl
    exact h.line s l hl
  · rw [inftyLines_of _ _ _ (by decide) (by decide), inftyLines_of _ _ _ (by decide) (by decide)]
    exact h.names
  · intro s h1 h2 l hl
    refine ⟨mem s l hl, ?_⟩
    rw [inftyLines_of _ _ _ (by decide) (by decide), inftyLines_of _ _ _ (by decide) (by decide)]
    by_cases h3 : s = .envTrans
    · subst h3
      obtain ⟨_, h4, h5, h6⟩ := h.assumption (sub l hl)
      exact ⟨_, h4.line, h5, h6⟩
    by_cases h4 : s = .sysLiveness
    · subst h4
      obtain ⟨l', hl', rfl⟩ := List.mem_map.mp hl
      obtain ⟨_, h4, h5, h6⟩ := h.prefixed (fun a ha => atLevel_sub false v id (c .envTrans) ha) hl'
      exact ⟨_, h4.line, h5, h6⟩
    rw [inftyLines_of _ _ _ h3 h4] at hl
    exact h.proper s h1 h2 l hl

/-- The value of a formula that does not use next outputs. -/
theorem look_next {x : Word} (h : x ∈ usable .envTrans sp.inputs sp.outputs) (hn : sp.Unambiguous) (p q : Pos sp.In sp.Out) (o : sp.Out) :
    sp.look p q x = sp.look p (q.1, o) x := by
  simp only [usable, List.mem_append, List.mem_map] at h
  rw [SpecFile.look, SpecFile.look]
  by_cases hx : x ∈ sp.inputs ++ sp.outputs
  · rw [if_pos hx, if_pos hx]
  · rw [if_neg hx, if_neg hx]
    rcases h with h | ⟨y, hy, rfl⟩
    · exact absurd (by simpa using h) hx
    · have : (prime y).dropLast = y := by simp [prime]
      rw [this, SpecFile.now, SpecFile.now, dif_pos hy, dif_pos hy]

theorem Base.game_eq (h : Base sp hard soft ess c) {v : List Bool} (hv : v.length = soft.length) :
    (specLines (inftyLines ess c v)).game.Realizable ↔ (sp.tolerant hard soft v).Realizable := by
  have hlen : v.length = (c .envTrans).length := by rw [hv, h.softEq, List.length_map]
  have e : specLines (inftyLines ess c v) =
      { sp with envTrans := hard ++ pick (! ·) v soft, sysLiveness := sp.sysLiveness.map (orViolated (pick id v soft)) } := by
    rw [specLines, SpecFile.mk.injEq]
    refine ⟨h.inputs.symm, h.outputs.symm, h.envInit.symm, h.sysInit.symm, ?_, h.sysTrans.symm, h.envLiveness.symm, ?_⟩
    · rw [inftyLines_envTrans, List.map_append, pick_lines false hlen, h.hardEq, h.softEq]
    · rw [inftyLines_sysLiveness, h.sysLiveness, List.map_map, List.map_map]
      refine List.map_congr_left fun l hl => ?_
      rw [Function.comp, Function.comp, rdLine_eq (h.prefixed (fun a ha => atLevel_sub _ _ _ _ ha) hl).2.1.line, pick_lines false hlen, ← h.softEq]
  rw [e]
  have hun : sp.Unambiguous := by
    rw [SpecFile.Unambiguous, SpecFile.names, h.inputs, h.outputs]
    exact h.names
  have g : SpecFile.game { sp with envTrans := hard ++ pick (! ·) v soft, sysLiveness := sp.sysLiveness.map (orViolated (pick id v soft)) } = sp.tolerant hard soft v := by
    rw [SpecFile.tolerant, SpecFile.game, SpecFile.game]
    simp only [Game.mk.injEq]
    refine ⟨rfl, rfl, ?_, rfl, rfl, ?_⟩
    · funext p i
      refine propext (forall_congr' fun φ => forall_congr' fun _ => ?_)
      rw [SpecFile.violates]
      simp [SpecFile.holds]
      rfl
    · rw [List.map_map, List.map_map]
      refine List.map_congr_left fun φ hφ => ?_
      funext p q
      rw [h.sysLiveness] at hφ
      obtain ⟨l, hl, rfl⟩ := List.mem_map.mp hφ
      have hw := (h.constraint (s := .sysLiveness) (by decide) (by decide) hl).2.2.1
      have hp : ∀ a ∈ pick id v soft, a.Wf 0 ∧ ∀ x ∈ a.vars, x ∈ usable .envTrans sp.inputs sp.outputs := by
        intro a ha
        rw [h.softEq, ← pick_lines false hlen] at ha
        obtain ⟨l, hl, rfl⟩ := List.mem_map.mp ha
        obtain ⟨_, _, h1, h2⟩ := h.assumption (List.mem_append_right ess (atLevel_sub _ _ _ _ hl))
        rw [h.inputs, h.outputs]
        exact ⟨h1, h2⟩
      refine propext ((yes_orViolated (ρ := sp.look p q) (fun a ha => (hp a ha).1) hw).trans (or_congr Iff.rfl ?_))
      refine exists_congr fun a => and_congr_right fun ha => ?_
      rw [SpecFile.violates, Yes, Fml.eval_congr a [] fun x hx => look_next ((hp a ha).2 x hx) hun p q fun _ => false]
      simp
  have : (SpecFile.game { sp with envTrans := hard ++ pick (! ·) v soft, sysLiveness := sp.sysLiveness.map (orViolated (pick id v soft)) }).Realizable ↔
      (sp.tolerant hard soft v).Realizable := by rw [g]
  exact this

end Slugs.Model.Resilience
