import Verif.Lemmas.StructuredOutput
import Verif.Lemmas.MotionInit
import Verif.Props.Monotone
import Verif.Model.UnrealizableCore
import Verif.Spec.UnrealizableCore

/-! Files in which the lines of another file have been grouped by sections. -/

namespace Slugs.Model

open Slugs.Spec

/-- A line that is an item of its section as it stands. -/
structure ItemLine (l : List Char) : Prop where
  tight : trim l = l
  ne : l ≠ []
  comment : l.head? ≠ some '#'
  header : l.head? ≠ some '['
  clean : '\n' ∉ l

theorem trim_trim (s : List Char) : trim (trim s) = trim s :=
  Structured.trim_self (Structured.trimWith_ends isSpace s).1 (Structured.trimWith_ends isSpace s).2

theorem mem_of_mem_trim {s : List Char} {c : Char} (h : c ∈ trim s) : c ∈ s := by
  rw [trim, List.mem_reverse] at h
  have := (List.dropWhile_sublist _).subset h
  rw [List.mem_reverse] at this
  exact (List.dropWhile_sublist _).subset this

theorem content_itemLine {cur : Option Section} {ls : List (List Char)} {items : List (Section × List Char)} (h : Content cur ls items)
    (hc : ∀ l ∈ ls, '\n' ∉ l) : ∀ p ∈ items, ItemLine p.2 := by
  induction h with
  | nil => simp
  | skip _ _ ih => exact ih fun l hl => hc l (List.mem_cons_of_mem _ hl)
  | header _ _ _ ih => exact ih fun l hl => hc l (List.mem_cons_of_mem _ hl)
  | item h1 h2 h3 _ ih =>
    intro p hp
    rcases List.mem_cons.mp hp with rfl | hp
    · exact ⟨trim_trim _, h1, h2, h3, fun h => hc _ (List.mem_cons_self ..) (mem_of_mem_trim h)⟩
    · exact ih (fun l hl => hc l (List.mem_cons_of_mem _ hl)) p hp

theorem mem_itemsOf {s : Section} {l : List Char} {items : List (Section × List Char)} : l ∈ itemsOf s items ↔ (s, l) ∈ items := by
  simp [itemsOf]

namespace Core

theorem writeLines_eq : ∀ ls : List (List Char), writeLines ls = Structured.printLines ls
  | [] => rfl
  | l :: ls => by
    have := writeLines_eq ls
    rw [writeLines] at this ⊢
    rw [List.flatMap_cons, this, Structured.printLines]
    simp

/-- The items of a file that is written section by section. -/
def sectionItems (ss : List Section) (J : Categories) : List (Section × List Char) := ss.flatMap fun s => (J s).map fun l => (s, l)

theorem header_trim (s : Section) : trim s.header = s.header ∧ '\n' ∉ s.header := by cases s <;> decide

theorem content_section {s : Section} {rest : List (List Char)} {items : List (Section × List Char)} (h : Content (some s) rest items) :
    ∀ {L : List (List Char)}, (∀ l ∈ L, ItemLine l) → Content (some s) (L ++ rest) (L.map (fun l => (s, l)) ++ items)
  | [], _ => h
  | l :: L, ho => by
    rw [List.forall_mem_cons] at ho
    have e := ho.1.tight
    have := Content.item (s := s) (l := l) (by rw [e]; exact ho.1.ne) (by rw [e]; exact ho.1.comment) (by rw [e]; exact ho.1.header) (content_section h ho.2)
    rwa [e] at this

theorem content_gap {cur : Option Section} {rest : List (List Char)} {items : List (Section × List Char)} (h : Content cur rest items) :
    ∀ {gap : List (List Char)}, (∀ l ∈ gap, l = []) → Content cur (gap ++ rest) items
  | [], _ => h
  | l :: gap, hg => by
    rw [List.forall_mem_cons] at hg
    exact .skip (.inl (by rw [hg.1]; rfl)) (content_gap h hg.2)

theorem content_sections {gap : List (List Char)} (hg : ∀ l ∈ gap, l = []) {J : Categories} : ∀ (ss : List Section), (∀ s ∈ ss, ∀ l ∈ J s, ItemLine l) →
    ∀ cur, Content cur (sectionLines gap ss J) (sectionItems ss J)
  | [], _, _ => .nil
  | s :: ss, h, cur => by
    rw [List.forall_mem_cons] at h
    have ih := content_sections hg ss h.2
    rw [sectionLines, sectionItems, List.flatMap_cons, List.flatMap_cons, List.cons_append, List.append_assoc]
    exact .header s (header_trim s).1 (content_section (content_gap (ih _) hg) h.1)

theorem sections_content {gap : List (List Char)} (hg : ∀ l ∈ gap, l = []) {J : Categories} {ss : List Section} (h : ∀ s ∈ ss, ∀ l ∈ J s, ItemLine l) :
    Content none (splitLines (writeLines (sectionLines gap ss J))) (sectionItems ss J) := by
  rw [writeLines_eq, Structured.splitLines_printLines]
  · exact content_sections hg ss h none
  · intro l hl
    obtain ⟨s, hs, hl⟩ := List.mem_flatMap.mp hl
    rcases List.mem_cons.mp hl with rfl | hl
    · exact (header_trim s).2
    · rcases List.mem_append.mp hl with hl | hl
      · exact (h s hs l hl).clean
      · rw [hg l hl]; simp

theorem itemsOf_sections {J : Categories} {ss : List Section} (hn : ss.Nodup) {s : Section} (hs : s ∈ ss) : itemsOf s (sectionItems ss J) = J s :=
  Structured.itemsOf_blocks s hn hs

theorem mem_sections (s : Section) : s ∈ livenessOrder ∧ s ∈ safetyOrder := by cases s <;> decide

/-- The specification of the lines. -/
noncomputable def specLines (J : Categories) : SpecFile where
  inputs := J .input
  outputs := J .output
  envInit := (J .envInit).map rdLine
  sysInit := (J .sysInit).map rdLine
  envTrans := (J .envTrans).map rdLine
  sysTrans := (J .sysTrans).map rdLine
  envLiveness := (J .envLiveness).map rdLine
  sysLiveness := (J .sysLiveness).map rdLine

/-- The lines can be used in a file. -/
structure GoodLines (cap : Nat) (J : Categories) : Prop where
  line : ∀ s, ∀ l ∈ J s, ItemLine l
  names : (J .input ++ J .output ++ (J .input).map prime ++ (J .output).map prime).Nodup
  proper : ∀ s, s ≠ .input → s ≠ .output → ∀ l ∈ J s, l.length ≤ cap ∧ ∃ φ, ReadsLine l φ ∧ φ.Wf 0 ∧ ∀ x ∈ φ.vars, x ∈ usable s (J .input) (J .output)

theorem usable_mono {s : Section} {i i' o o' : List Word} (hi : ∀ x ∈ i, x ∈ i') (ho : ∀ x ∈ o, x ∈ o') {x : Word} (h : x ∈ usable s i o) : x ∈ usable s i' o' := by
  cases s <;> simp only [usable, List.mem_append, List.mem_map, List.not_mem_nil] at h ⊢
  · exact hi x h
  · exact h.imp (hi x) (ho x)
  · rcases h with (h | h) | ⟨y, h, rfl⟩
    · exact .inl (.inl (hi x h))
    · exact .inl (.inr (ho x h))
    · exact .inr ⟨y, hi y h, rfl⟩
  all_goals
    rcases h with ((h | h) | ⟨y, h, rfl⟩) | ⟨y, h, rfl⟩
    · exact .inl (.inl (.inl (hi x h)))
    · exact .inl (.inl (.inr (ho x h)))
    · exact .inl (.inr ⟨y, hi y h, rfl⟩)
    · exact .inr ⟨y, ho y h, rfl⟩

theorem itemsOf_append (s : Section) (a b : List (Section × List Char)) : itemsOf s (a ++ b) = itemsOf s a ++ itemsOf s b := by simp [itemsOf]

theorem goodLines_of {cap : Nat} {text : List Char} (h : ProperFile cap text) :
    ∃ items, Content none (splitLines text) items ∧ GoodLines cap fun s => itemsOf s items := by
  obtain ⟨items, hc, hn, hp⟩ := h
  refine ⟨items, hc, fun s l hl => content_itemLine hc (Structured.splitLines_clean text) (s, l) (mem_itemsOf.mp hl), hn, fun s h1 h2 l hl => ?_⟩
  obtain ⟨before, after, e⟩ := List.append_of_mem (mem_itemsOf.mp hl)
  obtain ⟨hlen, φ, hr, hw, hv⟩ := hp before s l after e h1 h2
  refine ⟨hlen, φ, hr, hw, fun x hx => usable_mono ?_ ?_ (hv x hx)⟩
  all_goals
    intro y hy
    rw [e, itemsOf_append]
    exact List.mem_append_left _ hy

theorem reads_rdLine {L : List (List Char)} (h : ∀ l ∈ L, ∃ φ, ReadsLine l φ) : List.Forall₂ ReadsLine L (L.map rdLine) := by
  induction L with
  | nil => exact .nil
  | cons l L ih =>
    rw [List.forall_mem_cons] at h
    obtain ⟨φ, hφ⟩ := h.1
    exact .cons (by rw [rdLine_eq hφ]; exact hφ) (ih h.2)

variable {cap : Nat} {J : Categories}

theorem GoodLines.reads (h : GoodLines cap J) (s : Section) (h1 : s ≠ .input) (h2 : s ≠ .output) : List.Forall₂ ReadsLine (J s) ((J s).map rdLine) :=
  reads_rdLine fun l hl => let ⟨_, φ, hr, _⟩ := h.proper s h1 h2 l hl; ⟨φ, hr⟩

theorem GoodLines.denotesItems (h : GoodLines cap J) {text : List Char} {items : List (Section × List Char)} (hc : Content none (splitLines text) items)
    (hi : ∀ s, itemsOf s items = J s) : Denotes text (specLines J) := by
  refine ⟨items, hc, (hi _).symm, (hi _).symm, ?_, ?_, ?_, ?_, ?_, ?_⟩ <;> rw [hi] <;> exact h.reads _ (by decide) (by decide)

theorem GoodLines.denotes (h : GoodLines cap J) {gap : List (List Char)} (hg : ∀ l ∈ gap, l = []) {ss : List Section} (hn : ss.Nodup) (hs : ∀ s, s ∈ ss) :
    Denotes (writeLines (sectionLines gap ss J)) (specLines J) :=
  h.denotesItems (sections_content hg fun s _ => h.line s) fun s => itemsOf_sections hn (hs s)

/-- The order starts with the declarations. -/
def DeclFirst (ss : List Section) : Prop := ∃ rest, ss = .input :: .output :: rest ∧ Section.input ∉ rest ∧ Section.output ∉ rest

theorem GoodLines.properFileOf (h : GoodLines cap J) {gap : List (List Char)} (hg : ∀ l ∈ gap, l = []) {ss : List Section}
    (hi : ∀ s, itemsOf s (sectionItems ss J) = J s) (hd : DeclFirst ss) : ProperFile cap (writeLines (sectionLines gap ss J)) := by
  refine ⟨_, sections_content hg fun s _ => h.line s, by rw [hi, hi]; exact h.names, ?_⟩
  intro before s line after e h1 h2
  have hm : line ∈ J s := by
    rw [← hi s, mem_itemsOf, e]; simp
  obtain ⟨hl, φ, hr, hw, hv⟩ := h.proper s h1 h2 line hm
  have key : ∀ t, t = Section.input ∨ t = Section.output → itemsOf t before = J t := by
    intro t ht
    obtain ⟨rest, e', r1, r2⟩ := hd
    have hrest : ∀ p ∈ sectionItems rest J, p.1 ≠ .input ∧ p.1 ≠ .output := by
      intro p hp
      obtain ⟨r, hr, hp⟩ := List.mem_flatMap.mp hp
      obtain ⟨l, _, rfl⟩ := List.mem_map.mp hp
      exact ⟨fun e => r1 (e ▸ hr), fun e => r2 (e ▸ hr)⟩
    have e2 : sectionItems ss J = ((J .input).map (fun l => (Section.input, l)) ++ (J .output).map (fun l => (Section.output, l))) ++ sectionItems rest J := by
      rw [e', sectionItems, sectionItems, List.flatMap_cons, List.flatMap_cons, List.append_assoc]
    have hh : ∀ p ∈ (J .input).map (fun l => (Section.input, l)) ++ (J .output).map (fun l => (Section.output, l)), p.1 = .input ∨ p.1 = .output := by
      intro p hp
      rcases List.mem_append.mp hp with hp | hp <;> obtain ⟨l, _, rfl⟩ := List.mem_map.mp hp
      · exact .inl rfl
      · exact .inr rfl
    have e3 := e2.symm.trans e
    have fin : ∃ x, before = ((J .input).map (fun l => (Section.input, l)) ++ (J .output).map (fun l => (Section.output, l))) ++ x ∧ ∀ p ∈ x, p ∈ sectionItems rest J := by
      rcases List.append_eq_append_iff.mp e3 with ⟨x, hx1, hx2⟩ | ⟨x, hx1, hx2⟩
      · exact ⟨x, hx1, fun p hp => by rw [hx2]; exact List.mem_append_left _ hp⟩
      · cases x with
        | nil => exact ⟨[], by rw [hx1]; simp, by simp⟩
        | cons p x =>
          rw [List.cons_append, List.cons.injEq] at hx2
          exfalso
          have := hh p (by rw [hx1]; simp)
          rw [← hx2.1] at this
          exact this.elim h1 h2
    obtain ⟨x, rfl, hx⟩ := fin
    have := hi t
    rw [e2, itemsOf_append] at this
    have none' : ∀ y : List (Section × List Char), (∀ p ∈ y, p ∈ sectionItems rest J) → itemsOf t y = [] := by
      intro y hy
      rw [itemsOf, List.filter_eq_nil_iff.mpr, List.map_nil]
      intro p hp
      have hx := hrest p (hy p hp)
      simp only [decide_eq_true_eq]
      rintro rfl
      exact ht.elim hx.1 hx.2
    rw [none' _ fun p hp => hp, List.append_nil] at this
    rw [itemsOf_append, none' x hx, List.append_nil, this]
  rw [key _ (.inl rfl), key _ (.inr rfl)]
  exact ⟨hl, φ, hr, hw, hv⟩

theorem GoodLines.properFile (h : GoodLines cap J) {gap : List (List Char)} (hg : ∀ l ∈ gap, l = []) {ss : List Section} (hn : ss.Nodup) (hs : ∀ s, s ∈ ss)
    (hd : DeclFirst ss) : ProperFile cap (writeLines (sectionLines gap ss J)) :=
  h.properFileOf hg (fun s => itemsOf_sections hn (hs s)) hd

/-- Lines for constraints can be left out. -/
theorem GoodLines.put (h : GoodLines cap J) {s : Section} (h1 : s ≠ .input) (h2 : s ≠ .output) {L : List (List Char)} (hL : L.Sublist (J s)) : GoodLines cap (J.put s L) := by
  have hm : ∀ t, ∀ l ∈ J.put s L t, l ∈ J t := by
    intro t l hl
    rw [Categories.put] at hl
    split at hl
    · rename_i e; subst e; exact hL.subset hl
    · exact hl
  have ei : J.put s L .input = J .input := if_neg h1.symm
  have eo : J.put s L .output = J .output := if_neg h2.symm
  refine ⟨fun t l hl => h.line t l (hm t l hl), ?_, fun t g1 g2 l hl => ?_⟩
  · rw [ei, eo]; exact h.names
  · rw [ei, eo]; exact h.proper t g1 g2 l (hm t l hl)

theorem put_sub {s : Section} (t : Section) {L L' : List (List Char)} (h : L.Sublist L') : (J.put s L t).Sublist (J.put s L' t) := by
  rw [Categories.put, Categories.put]
  split
  · exact h
  · exact List.Sublist.refl _

/-- Leaving out guarantees keeps realizability. -/
theorem specLines_part {J' : Categories} (h : ∀ s, (J' s).Sublist (J s)) (he : ∀ s, s ≠ .sysTrans → s ≠ .sysLiveness → J' s = J s) :
    (specLines J').PartOf (specLines J) := by
  refine ⟨he _ (by decide) (by decide), he _ (by decide) (by decide), ?_, ?_, ?_, ?_, (h _).map _, (h _).map _⟩ <;>
    simp only [specLines] <;> rw [he _ (by decide) (by decide)]

theorem part_realizable {sp sp' : SpecFile} (h : sp'.PartOf sp) (hr : sp.game.Realizable) : sp'.game.Realizable := by
  refine (Props.relaxes_wins ⟨h.inputs, h.outputs, fun φ hφ => h.envInit ▸ hφ, fun φ hφ => h.envTrans ▸ hφ, fun φ hφ => h.envLiveness ▸ hφ,
    fun φ hφ => h.sysTrans.subset hφ, fun φ hφ => h.sysLiveness.subset hφ⟩).1 (fun φ hφ => h.sysInit ▸ hφ) hr

/-! ### Reading -/

theorem headerOf_header (s : Section) : headerOf s.header = some s := by cases s <;> decide

theorem header_head (s : Section) : s.header.head? = some '[' := by cases s <;> rfl

theorem readLines_content {cur : Option Section} {ls : List (List Char)} {items : List (Section × List Char)} (h : Content cur ls items) :
    ∀ (t : List Char) (c : Categories), (∀ s, cur = some s → headerOf t = some s) → readLines t c ls = some fun s => c s ++ itemsOf s items := by
  induction h with
  | nil => intro t c _; simp [readLines, itemsOf]
  | skip h _ ih =>
    intro t c ht
    rw [readLines]
    rcases h with h | h
    · simp only [h]
      exact ih t c ht
    · simp only [h, if_true]
      exact ih t c ht
  | header s h _ ih =>
    intro t c ht
    rw [readLines]
    simp only [h, header_head]
    rw [if_neg (by decide), if_pos trivial]
    exact ih _ c fun s' hs => by cases hs; exact headerOf_header s
  | @item s l ls items h1 h2 h3 _ ih =>
    intro t c ht
    rw [readLines]
    rw [if_neg h2, if_neg h3, if_pos (List.length_pos_iff.mpr h1), ht s rfl]
    dsimp only
    rw [ih t _ ht]
    congr 1
    funext s'
    rw [Categories.add]
    split
    · rename_i e
      subst e
      simp [itemsOf]
    · rename_i e
      have : ¬ s = s' := fun h => e h.symm
      simp [itemsOf, this]

/-! ### The loops -/

/-- What a loop leaves, if the answers are monotone. -/
theorem shrink_spec {ask : List Char → Option Bool} {order : List Section} {s : Section} {c : Categories} (P : List (List Char) → Prop) (all : List (List Char))
    (yes : ∀ L, L.Sublist all → P L → ask (writeLines (sectionLines [] order (c.put s L))) = some true)
    (no : ∀ L, L.Sublist all → ¬ P L → ask (writeLines (sectionLines [] order (c.put s L))) = some false)
    (mono : ∀ L L', L.Sublist L' → P L' → P L) : ∀ (rest kept : List (List Char)), (kept ++ rest).Sublist all →
      ∃ R, shrink ask order s c kept rest = some (kept ++ R) ∧ R.Sublist rest ∧ (¬ P (kept ++ rest) → ¬ P (kept ++ R)) ∧ (P (kept ++ rest) → R = rest) ∧
        ∀ a l b, R = a ++ l :: b → P (kept ++ (a ++ b)) := by
  intro rest
  induction rest with
  | nil =>
    intro kept _
    exact ⟨[], by rw [shrink, List.append_nil], .refl _, fun h => h, fun _ => rfl, fun a l b h => by simp at h⟩
  | cons l rest ih =>
    intro kept hall
    have hsub : (kept ++ rest).Sublist (kept ++ l :: rest) := List.Sublist.append (.refl _) (List.sublist_cons_self ..)
    by_cases hp : P (kept ++ rest)
    · obtain ⟨R, h1, h2, h3, h4, h5⟩ := ih (kept ++ [l]) (by simpa using hall)
      refine ⟨l :: R, ?_, h2.cons₂ l, ?_, ?_, ?_⟩
      · rw [shrink, yes _ (hsub.trans hall) hp]
        dsimp only
        rw [h1]; simp
      · simpa using h3
      · intro h; rw [h4 (by simpa using h)]
      · intro a l' b e
        cases a with
        | nil =>
          rw [List.nil_append, List.cons.injEq] at e
          exact mono _ _ (List.Sublist.append (.refl _) (by rw [← e.2]; exact h2)) hp
        | cons x a =>
          rw [List.cons_append, List.cons.injEq] at e
          have := h5 a l' b e.2
          rw [e.1] at this
          simpa using this
    · obtain ⟨R, h1, h2, h3, h4, h5⟩ := ih kept (hsub.trans hall)
      refine ⟨R, ?_, h2.cons l, fun _ => h3 hp, fun h => absurd (mono _ _ hsub h) hp, h5⟩
      rw [shrink, no _ (hsub.trans hall) hp]
      exact h1

end Core
end Slugs.Model
