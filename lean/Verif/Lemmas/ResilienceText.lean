import Verif.Spec.Resilience
import Verif.Lemmas.Compose
import Verif.Lemmas.Frontier
import Verif.Props.TextToVerdict

/-!
The files that are written by `kResilientRealizabilityChecker.py`.
-/

namespace Slugs.Model.Resilience

open Slugs.Spec Slugs.Model.Core

/-! ### Sections in a file -/

theorem content_blockLines {s : Section} {rest : List (List Char)} {items : List (Section × List Char)} (h : Content (some s) rest items) :
    ∀ {L M : List (List Char)}, (L.map trim).filter (· ≠ []) = M → (∀ l ∈ M, ItemLine l) → Content (some s) (L ++ rest) (M.map (fun l => (s, l)) ++ items)
  | [], _, e, _ => by subst e; exact h
  | l :: L, M, e, hm => by
    rw [List.map_cons] at e
    by_cases hl : trim l = []
    · rw [List.filter_cons_of_neg (by simpa using hl)] at e
      exact .skip (.inl hl) (content_blockLines h e hm)
    · rw [List.filter_cons_of_pos (by simpa using hl)] at e
      subst e
      rw [List.forall_mem_cons] at hm
      exact .item hl hm.1.comment hm.1.header (content_blockLines h rfl hm.2)

/-- The lines of sections. -/
def blockLines (bs : List (Section × List (List Char))) : List (List Char) := bs.flatMap fun b => b.1.header :: b.2

theorem content_blocks {J : Categories} (hJ : ∀ s, ∀ l ∈ J s, ItemLine l) : ∀ (bs : List (Section × List (List Char))),
    (∀ b ∈ bs, (b.2.map trim).filter (· ≠ []) = J b.1) → ∀ cur, Content cur (blockLines bs) (sectionItems (bs.map Prod.fst) J)
  | [], _, _ => .nil
  | b :: bs, h, cur => by
    rw [List.forall_mem_cons] at h
    have e : blockLines (b :: bs) = b.1.header :: (b.2 ++ blockLines bs) := by simp [blockLines]
    have e' : sectionItems ((b :: bs).map Prod.fst) J = (J b.1).map (fun l => (b.1, l)) ++ sectionItems (bs.map Prod.fst) J := by simp [sectionItems]
    rw [e, e']
    exact .header b.1 (header_trim b.1).1 (content_blockLines (content_blocks hJ bs h.2 _) h.1 (hJ b.1))

theorem blocks_content {J : Categories} (hJ : ∀ s, ∀ l ∈ J s, ItemLine l) {bs : List (Section × List (List Char))}
    (h : ∀ b ∈ bs, (b.2.map trim).filter (· ≠ []) = J b.1) (hn : ∀ b ∈ bs, ∀ l ∈ b.2, '\n' ∉ l) :
    Content none (splitLines (writeLines (blockLines bs))) (sectionItems (bs.map Prod.fst) J) := by
  rw [writeLines_eq, Structured.splitLines_printLines]
  · exact content_blocks hJ bs h none
  · intro l hl
    obtain ⟨b, hb, hl⟩ := List.mem_flatMap.mp hl
    rcases List.mem_cons.mp hl with rfl | hl
    · exact (header_trim b.1).2
    · exact hn b hb l hl

theorem itemLine_filter {L : List (List Char)} (h : ∀ l ∈ L, ItemLine l) : (L.map trim).filter (· ≠ []) = L := by
  rw [List.map_congr_left (g := id) fun l hl => (h l hl).tight, List.map_id, List.filter_eq_self]
  intro l hl
  simpa using (h l hl).ne

/-- A file in which the declarations come first is proper. -/
theorem proper_sections {cap : Nat} {J : Categories} (h : GoodLines cap J) {text : List Char} {a b : Section} {rest : List Section}
    (hab : a = .input ∧ b = .output ∨ a = .output ∧ b = .input) (hn : (a :: b :: rest).Nodup) (hs : ∀ s, s ∈ a :: b :: rest)
    (hc : Content none (splitLines text) (sectionItems (a :: b :: rest) J)) : ProperFile cap text := by
  have hi : ∀ s, itemsOf s (sectionItems (a :: b :: rest) J) = J s := fun s => itemsOf_sections hn (hs s)
  refine ⟨_, hc, by rw [hi, hi]; exact h.names, ?_⟩
  intro before s line after e h1 h2
  have hm : line ∈ J s := by
    rw [← hi s, mem_itemsOf, e]; simp
  obtain ⟨hl, φ, hr, hw, hv⟩ := h.proper s h1 h2 line hm
  have dec : ∀ t, (t = .input ∨ t = .output) ↔ (t = a ∨ t = b) := by
    intro t
    rcases hab with ⟨rfl, rfl⟩ | ⟨rfl, rfl⟩
    · exact Iff.rfl
    · exact or_comm
  have key : ∀ t, t = Section.input ∨ t = Section.output → itemsOf t before = J t := by
    intro t ht
    have hrest : ∀ p ∈ sectionItems rest J, p.1 ≠ a ∧ p.1 ≠ b := by
      intro p hp
      obtain ⟨r, hr, hp⟩ := List.mem_flatMap.mp hp
      obtain ⟨l, _, rfl⟩ := List.mem_map.mp hp
      simp only [List.nodup_cons, List.mem_cons, not_or] at hn
      exact ⟨fun e => hn.1.2 (e ▸ hr), fun e => hn.2.1 (e ▸ hr)⟩
    have e2 : sectionItems (a :: b :: rest) J = ((J a).map (fun l => (a, l)) ++ (J b).map (fun l => (b, l))) ++ sectionItems rest J := by
      simp [sectionItems]
    have hh : ∀ p ∈ (J a).map (fun l => (a, l)) ++ (J b).map (fun l => (b, l)), p.1 = a ∨ p.1 = b := by
      intro p hp
      rcases List.mem_append.mp hp with hp | hp <;> obtain ⟨l, _, rfl⟩ := List.mem_map.mp hp
      · exact .inl rfl
      · exact .inr rfl
    have e3 := e2.symm.trans e
    have fin : ∃ x, before = ((J a).map (fun l => (a, l)) ++ (J b).map (fun l => (b, l))) ++ x ∧ ∀ p ∈ x, p ∈ sectionItems rest J := by
      rcases List.append_eq_append_iff.mp e3 with ⟨x, hx1, hx2⟩ | ⟨x, hx1, hx2⟩
      · exact ⟨x, hx1, fun p hp => by rw [hx2]; exact List.mem_append_left _ hp⟩
      · cases x with
        | nil => exact ⟨[], by rw [hx1]; simp, by simp⟩
        | cons p x =>
          rw [List.cons_append, List.cons.injEq] at hx2
          exfalso
          have := hh p (by rw [hx1]; simp)
          rw [← hx2.1] at this
          exact ((dec s).mpr this).elim h1 h2
    obtain ⟨x, rfl, hx⟩ := fin
    have := hi t
    rw [e2, itemsOf_append] at this
    have none' : ∀ y : List (Section × List Char), (∀ p ∈ y, p ∈ sectionItems rest J) → itemsOf t y = [] := by
      intro y hy
      rw [itemsOf, List.filter_eq_nil_iff.mpr, List.map_nil]
      intro p hp
      have hx := hrest p (hy p hp)
      simp only [decide_eq_true_eq]
      rintro rfl
      exact ((dec _).mp ht).elim hx.1 hx.2
    rw [none' _ fun p hp => hp, List.append_nil] at this
    rw [itemsOf_append, none' x hx, List.append_nil, this]
  rw [key _ (.inl rfl), key _ (.inr rfl)]
  exact ⟨hl, φ, hr, hw, hv⟩

/-- The verdict for a file in which the declarations come first. -/
theorem answer_sections (B : Type) [DecidableEq B] [BddLib B] (alg : Algorithm) {cap : Nat} (order : List Char → Bool) {J : Categories} (h : GoodLines cap J)
    {bs : List (Section × List (List Char))} {a b : Section} {rest : List Section} (e : bs.map Prod.fst = a :: b :: rest)
    (hab : a = .input ∧ b = .output ∨ a = .output ∧ b = .input) (hn : (a :: b :: rest).Nodup) (hs : ∀ s, s ∈ a :: b :: rest)
    (hb : ∀ b ∈ bs, (b.2.map trim).filter (· ≠ []) = J b.1) (hl : ∀ b ∈ bs, ∀ l ∈ b.2, '\n' ∉ l)
    {fuel : Nat} (hf : Nat.card (Pos (specLines J).In (specLines J).Out) + 1 ≤ fuel) :
    ((specLines J).game.Realizable → askSlugs B alg cap order fuel (writeLines (blockLines bs)) = some true) ∧
    (¬ (specLines J).game.Realizable → askSlugs B alg cap order fuel (writeLines (blockLines bs)) = some false) := by
  have hc := blocks_content h.line hb hl
  rw [e] at hc
  obtain ⟨⟨tab, c⟩, hr⟩ := Props.C24_proper_accepted (B := B) cap order _ (proper_sections h hab hn hs hc)
  obtain ⟨h1, h2, -, -⟩ := Props.C24_text_to_verdict alg hr _ (h.denotesItems hc fun s => itemsOf_sections hn (hs s)) fuel hf
  rw [askSlugs]
  exact ⟨fun g => by rw [h1 g], fun g => by rw [h2 g]⟩

/-! ### Reading -/

theorem marked_content {cur : Option Section} {m : Bool} {ls : List (List Char)} {items : List (Bool × Section × List Char)} (h : MarkedContent cur m ls items) :
    Content cur ls (items.map Prod.snd) := by
  induction h with
  | nil => exact .nil
  | blank h _ ih => exact .skip (.inl h) ih
  | limits h _ ih =>
    refine .skip (.inr ?_) ih
    obtain ⟨t, e⟩ := h
    rw [← e]
    rfl
  | comment h _ _ ih => exact .skip (.inr h) ih
  | header s h _ ih => exact .header s h ih
  | item h1 h2 h3 _ ih => exact .item h1 h2 h3 ih

/-- The lines of a section that are not in `essentialEnvTrans`. -/
def others (items : List (Bool × Section × List Char)) (s : Section) : List (List Char) :=
  (items.filter fun p => p.2.1 = s ∧ ¬ (p.1 = true ∧ s = .envTrans)).map fun p => p.2.2

theorem isLimitComment_iff (l : List Char) : isLimitComment l = true ↔ txt!"## Variable limits" <+: l := List.isPrefixOf_iff_prefix

theorem readSpec_content {cur : Option Section} {m : Bool} {ls : List (List Char)} {items : List (Bool × Section × List Char)} (h : MarkedContent cur m ls items) :
    ∀ (mode : List Char) (ess : List (List Char)) (c : Categories), (∀ s, cur = some s → headerOf mode = some s ∧ mode = s.header) →
      readSpec mode m ess c ls = some (ess ++ markedAssumptions true items, fun s => c s ++ others items s) := by
  induction h with
  | nil => intro mode ess c _; simp [readSpec, markedAssumptions, others]
  | blank h _ ih =>
    intro mode ess c hm
    rw [readSpec]
    simp only [h, if_true]
    exact ih mode ess c hm
  | @limits _ _ l _ _ h _ ih =>
    intro mode ess c hm
    rw [readSpec]
    have hl := (isLimitComment_iff _).mpr h
    have hh : (trim l).head? = some '#' ∧ trim l ≠ [] := by
      obtain ⟨t, e⟩ := h
      rw [← e]
      exact ⟨rfl, by simp⟩
    simp only [hh.2, hh.1, if_true, if_false, hl, Bool.or_true]
    exact ih mode ess c hm
  | @comment _ _ l _ _ h h' _ ih =>
    intro mode ess c hm
    rw [readSpec]
    have hl : isLimitComment (trim l) = false := by
      rw [← Bool.not_eq_true, isLimitComment_iff]
      exact h'
    have hh : trim l ≠ [] := by
      intro e
      rw [e] at h
      cases h
    simp only [hh, h, if_true, if_false, hl, Bool.or_false]
    exact ih mode ess c hm
  | header s h _ ih =>
    intro mode ess c hm
    rw [readSpec]
    simp only [h]
    rw [if_neg (by cases s <;> decide), if_neg (by rw [Core.header_head]; decide), if_pos (Core.header_head s)]
    exact ih _ ess c fun s' e => by
      cases e
      exact ⟨headerOf_header s, rfl⟩
  | @item s m l ls items h1 h2 h3 _ ih =>
    intro mode ess c hm
    rw [readSpec]
    obtain ⟨e1, e2⟩ := hm s rfl
    simp only [h1, h2, h3, if_false, e1]
    by_cases hc : m = true ∧ s = .envTrans
    · obtain ⟨rfl, rfl⟩ := hc
      rw [if_pos ⟨rfl, e2⟩, ih mode _ c hm]
      refine congrArg some (Prod.ext ?_ (funext fun s' => ?_))
      · simp [markedAssumptions]
      · have : others ((true, Section.envTrans, trim l) :: items) s' = others items s' := by
          rw [others, others, List.filter_cons_of_neg]
          simp only [decide_eq_true_eq, true_and, not_and, not_not]
          exact fun h => h.symm
        dsimp only
        rw [this]
    · have : ¬ (m = true ∧ mode = Section.envTrans.header) := by
        rintro ⟨h, h'⟩
        refine hc ⟨h, ?_⟩
        rw [h', headerOf_header] at e1
        simpa using e1.symm
      rw [if_neg this, ih mode ess _ hm]
      refine congrArg some (Prod.ext ?_ (funext fun s' => ?_))
      · have : ¬ (m = true ∧ s = .envTrans) := hc
        simp [markedAssumptions, this]
      · simp only [Categories.add]
        by_cases e : s' = s
        · subst e
          rw [if_pos rfl, others, others, List.filter_cons_of_pos (by simp only [decide_eq_true_eq]; exact ⟨trivial, hc⟩)]
          simp
        · rw [if_neg e]
          have : others ((m, s, trim l) :: items) s' = others items s' := by
            rw [others, others, List.filter_cons_of_neg]
            simp only [decide_eq_true_eq, not_and]
            exact fun h => absurd h.symm e
          rw [this]

theorem others_eq (items : List (Bool × Section × List Char)) {s : Section} (h : s ≠ .envTrans) : others items s = itemsOf s (items.map Prod.snd) := by
  rw [others, itemsOf, List.filter_map, List.map_map]
  congr 1
  exact List.filter_congr fun p _ => by simp [h]

theorem others_envTrans (items : List (Bool × Section × List Char)) : others items .envTrans = markedAssumptions false items := by
  rw [others, markedAssumptions]
  congr 1
  exact List.filter_congr fun p _ => by
    obtain ⟨m, s, l⟩ := p
    cases m <;> simp

theorem mem_marked {items : List (Bool × Section × List Char)} {m : Bool} {l : List Char} (h : l ∈ markedAssumptions m items) :
    l ∈ itemsOf .envTrans (items.map Prod.snd) := by
  rw [markedAssumptions, List.mem_map] at h
  obtain ⟨⟨m', s, l'⟩, hp, rfl⟩ := h
  rw [mem_itemsOf, List.mem_map]
  simp only [List.mem_filter, decide_eq_true_eq] at hp
  exact ⟨_, hp.1, by rw [← hp.2.2]⟩

/-- There is a marked content. -/
theorem marked_exists {cur : Option Section} {ls : List (List Char)} {items : List (Section × List Char)} (h : Content cur ls items) :
    ∀ m, ∃ items', MarkedContent cur m ls items' := by
  induction h with
  | nil => exact fun m => ⟨[], .nil⟩
  | @skip cur l ls items h _ ih =>
    intro m
    by_cases hl : txt!"## Variable limits" <+: trim l
    · obtain ⟨i, hi⟩ := ih true
      exact ⟨i, .limits hl hi⟩
    · obtain ⟨i, hi⟩ := ih m
      rcases h with h | h
      · exact ⟨i, .blank h hi⟩
      · exact ⟨i, .comment h hl hi⟩
  | header s h _ ih =>
    intro m
    obtain ⟨i, hi⟩ := ih m
    exact ⟨i, .header s h hi⟩
  | item h1 h2 h3 _ ih =>
    intro m
    obtain ⟨i, hi⟩ := ih false
    exact ⟨_, .item h1 h2 h3 hi⟩

end Slugs.Model.Resilience
