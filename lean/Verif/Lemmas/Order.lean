import Verif.Lemmas.TextGame

/-!
Which files are accepted, and how reading depends on the order of lines.
-/

namespace Slugs.Model

open Slugs.Spec

variable {B : Type} [DecidableEq B] [L : BddLib B]

/-! ### Ignored lines and headers -/

theorem sectionOf_eq_headerOf (l : List Char) : headerOf l = sectionOf l := by
  cases hs : sectionOf l with
  | some s =>
    rw [sectionOf_iff.mp hs]
    cases s <;> decide
  | none =>
    rw [headerOf, List.find?_eq_none]
    intro s _ h
    have : sectionOf l = some s := sectionOf_iff.mpr (by simpa using Eq.symm (of_decide_eq_true h))
    rw [hs] at this
    cases this

theorem openAfter_cons (cur : Option Section) (l : List Char) (ls : List (List Char)) :
    openAfter cur (l :: ls) = openAfter (match sectionOf (trim l) with | some s => some s | none => cur) ls := by
  rw [openAfter, sectionOf_eq_headerOf]
  cases sectionOf (trim l) <;> rfl

theorem initLine_mode {cap : Nat} {order : List Char → Bool} (st st' : InitState B) (l : List Char)
    (h : initLine cap order st l = .ok st') : st'.mode = (match sectionOf l with | some s => some s | none => st.mode) := by
  cases hs : sectionOf l with
  | some s =>
    rw [sectionOf_iff.mp hs, initLine_header] at h
    cases h; rfl
  | none =>
    by_cases h0 : l = [] ∨ l.head? = some '#'
    · rw [initLine_skip st h0] at h; cases h; rfl
    · simp only [not_or] at h0
      by_cases hb : l.head? = some '['
      · exfalso
        cases l with
        | nil => exact h0.1 rfl
        | cons c l =>
          simp only [List.head?_cons, Option.some.injEq] at hb
          subst hb
          rw [initLine] at h
          simp only [Char.reduceEq, if_false, if_true, hs] at h
          cases h
      · cases hm : st.mode with
        | none =>
          exfalso
          cases l with
          | nil => exact h0.1 rfl
          | cons c l =>
            simp only [List.head?_cons, Option.some.injEq] at hb h0
            rw [initLine] at h
            simp only [h0.2, hb, if_false, hm] at h
            cases h
        | some s => rw [(initLine_item st hm h0.1 h0.2 hb).2 st' h, hm]

theorem initLines_append {cap : Nat} {order : List Char → Bool} (ls ls' : List (List Char)) :
    ∀ (st : InitState B), initLines cap order st (ls ++ ls') =
      match initLines cap order st ls with
      | .ok st' => initLines cap order st' ls'
      | .err e => .err e
      | .ub => .ub
      | .stuck => .stuck := by
  induction ls with
  | nil => intro st; rfl
  | cons l ls ih =>
    intro st
    rw [List.cons_append, initLines, initLines]
    cases h : initLine cap order st (trim l) <;> simp only
    exact ih _

theorem initLines_mode {cap : Nat} {order : List Char → Bool} : ∀ (ls : List (List Char)) (st st' : InitState B),
    initLines cap order st ls = .ok st' → st'.mode = openAfter st.mode ls := by
  intro ls
  induction ls with
  | nil => intro st st' h; cases h; rfl
  | cons l ls ih =>
    intro st st' h
    rw [initLines] at h
    cases hl : initLine cap order st (trim l) with
    | ok st1 =>
      rw [hl] at h
      rw [ih _ _ h, initLine_mode _ _ _ hl, openAfter_cons]
    | err e => rw [hl] at h; cases h
    | ub => rw [hl] at h; cases h
    | stuck => rw [hl] at h; cases h

/-- Inserting a line that is ignored, or a header of the section that is open anyway. -/
theorem initLines_insert {cap : Nat} {order : List Char → Bool} (st : InitState B) (ls ls' : List (List Char))
    (l : List Char) (h : trim l = [] ∨ (trim l).head? = some '#' ∨ ∃ s, openAfter st.mode ls = some s ∧ trim l = s.header) :
    initLines cap order st (ls ++ l :: ls') = initLines cap order st (ls ++ ls') := by
  rw [initLines_append, initLines_append]
  cases hl : initLines cap order st ls with
  | ok st' =>
    simp only
    rw [initLines]
    have : initLine cap order st' (trim l) = .ok st' := by
      rcases h with h | h | ⟨s, h1, h2⟩
      · exact initLine_skip st' (.inl h)
      · exact initLine_skip st' (.inr h)
      · rw [h2, initLine_header, ← h1, ← initLines_mode _ _ _ hl]
    rw [this]
  | err e => rfl
  | ub => rfl
  | stuck => rfl

/-! ### Items -/

theorem initItems_append {cap : Nat} {order : List Char → Bool} (ps ps' : List (Section × List Char)) :
    ∀ (st : VarTable × Ctx B), initItems cap order st (ps ++ ps') =
      match initItems cap order st ps with
      | .ok st' => initItems cap order st' ps'
      | .err e => .err e
      | .ub => .ub
      | .stuck => .stuck := by
  induction ps with
  | nil => intro st; rfl
  | cons l ls ih =>
    intro st
    rw [List.cons_append, initItems, initItems]
    cases h : initItem cap order st l <;> simp only
    exact ih _

/-- A line that is read in a constraint section. -/
theorem initItem_constraint {cap : Nat} {order : List Char → Bool} {s : Section} (h1 : s ≠ .input) (h2 : s ≠ .output)
    (tab : VarTable) (c : Ctx B) (l : List Char) :
    initItem cap order (tab, c) (s, l) =
      match parseFormula tab (allowedIn s) cap order l with
      | .ok (some f) => .ok (tab, addConstraint c f s)
      | .ok none => .ub
      | .err e => .err (.formula e)
      | .ub => .ub
      | .stuck => .stuck := by
  cases s <;> first | exact absurd rfl h1 | exact absurd rfl h2 | rfl

/-- Reading a block of constraints. -/
theorem initItems_block {cap : Nat} {order : List Char → Bool} {s : Section} (h1 : s ≠ .input) (h2 : s ≠ .output)
    (tab : VarTable) : ∀ (ls : List (List Char)) (c : Ctx B) (r : VarTable × Ctx B),
    initItems cap order (tab, c) (ls.map (fun l => (s, l))) = .ok r ↔
      ∃ fs : List B, List.Forall₂ (fun l f => parseFormula tab (allowedIn s) cap order l = .ok (some f)) ls fs ∧
        r = (tab, fs.foldl (fun c f => addConstraint c f s) c) := by
  intro ls
  induction ls with
  | nil =>
    intro c r
    simp only [List.map_nil, initItems, Res.ok.injEq]
    constructor
    · rintro rfl; exact ⟨[], .nil, rfl⟩
    · rintro ⟨fs, hf, rfl⟩; cases hf; rfl
  | cons l ls ih =>
    intro c r
    rw [List.map_cons, initItems, initItem_constraint h1 h2]
    constructor
    · intro h
      cases hp : parseFormula (B := B) tab (allowedIn s) cap order l with
      | ok v =>
        cases v with
        | some f =>
          rw [hp] at h
          obtain ⟨fs, hf, hr⟩ := (ih _ r).mp h
          exact ⟨f :: fs, .cons hp hf, hr⟩
        | none => rw [hp] at h; cases h
      | err e => rw [hp] at h; cases h
      | ub => rw [hp] at h; cases h
      | stuck => rw [hp] at h; cases h
    · rintro ⟨fs, hf, hr⟩
      cases hf with
      | cons hp hf =>
        rw [hp]
        exact (ih _ r).mpr ⟨_, hf, hr⟩

theorem forall₂_perm {α β : Type} {R : α → β → Prop} {l l' : List α} (hp : l.Perm l') :
    ∀ {m : List β}, List.Forall₂ R l m → ∃ m', m.Perm m' ∧ List.Forall₂ R l' m' := by
  induction hp with
  | nil => intro m h; exact ⟨m, .refl m, h⟩
  | cons x _ ih =>
    intro m h
    cases h with
    | cons h1 h2 =>
      obtain ⟨m', hm, h'⟩ := ih h2
      exact ⟨_, .cons _ hm, .cons h1 h'⟩
  | swap x y l =>
    intro m h
    cases h with
    | cons h1 h2 =>
      cases h2 with
      | cons h2 h3 => exact ⟨_, .swap _ _ _, .cons h2 (.cons h1 h3)⟩
  | trans _ _ ih1 ih2 =>
    intro m h
    obtain ⟨m1, hm1, h1⟩ := ih1 h
    obtain ⟨m2, hm2, h2⟩ := ih2 h1
    exact ⟨m2, hm1.trans hm2, h2⟩

/-- In the four sections whose constraints are conjoined, the order does not matter. -/
theorem addConstraint_comm {s : Section} (hs : s ≠ .envLiveness ∧ s ≠ .sysLiveness) (c : Ctx B) (f g : B) :
    addConstraint (addConstraint c f s) g s = addConstraint (addConstraint c g s) f s := by
  have e : ∀ a : B, L.and (L.and a f) g = L.and (L.and a g) f := fun a => L.eval_inj _ _ fun v => by
    simp only [L.eval_and]
    cases L.eval a v <;> cases L.eval f v <;> cases L.eval g v <;> rfl
  cases s <;> simp only [addConstraint, e]
  · exact absurd rfl hs.1
  · exact absurd rfl hs.2

theorem foldl_addConstraint_perm {s : Section} (hs : s ≠ .envLiveness ∧ s ≠ .sysLiveness) {fs fs' : List B}
    (h : fs.Perm fs') (c : Ctx B) :
    fs.foldl (fun c f => addConstraint c f s) c = fs'.foldl (fun c f => addConstraint c f s) c :=
  h.foldl_eq' (fun x _ y _ c => addConstraint_comm hs c x y) c

/-! ### Declarations -/

/-- The declarations among the items. -/
def declsOf (items : List (Section × List Char)) : Decls :=
  items.filterMap fun p => match p.1 with | .input => some (true, p.2) | .output => some (false, p.2) | _ => none

theorem inputsOf_declsOf (items : List (Section × List Char)) : inputsOf (declsOf items) = itemsOf .input items := by
  induction items with
  | nil => rfl
  | cons p items ih =>
    obtain ⟨s, l⟩ := p
    cases s <;> simp_all [declsOf, inputsOf, itemsOf]

theorem outputsOf_declsOf (items : List (Section × List Char)) : outputsOf (declsOf items) = itemsOf .output items := by
  induction items with
  | nil => rfl
  | cons p items ih =>
    obtain ⟨s, l⟩ := p
    cases s <;> simp_all [declsOf, outputsOf, itemsOf]

theorem declsOf_append (i i' : List (Section × List Char)) : declsOf (i ++ i') = declsOf i ++ declsOf i' := by
  simp [declsOf]

theorem tableOf_append (ds ds' : Decls) : (tableOf (ds ++ ds')).names = (tableOf ds).names ++ (tableOf ds').names := by
  simp [tableOf, entriesOf]

theorem declared_usable {ds : Decls} (hn : (tableOf ds).names.Nodup) {s : Section} {x : Word}
    (h : x ∈ usable s (inputsOf ds) (outputsOf ds)) : Declared (tableOf ds) (allowedIn s) x := by
  have key : ∀ z : DSlot ds, (slotEntry z).2 ∈ allowedIn s → Declared (tableOf ds) (allowedIn s) (slotEntry z).1 := by
    intro z hz
    refine ⟨List.idxOf_lt_length_of_mem (slotName_mem z), (slotEntry z).2, ?_, hz⟩
    have := (getElem_slotCode hn (z := z)).mpr rfl
    simp only [tableOf, List.getElem?_map]
    rw [show List.idxOf (slotEntry z).1 (List.map Prod.fst (entriesOf ds)) = slotCode z from rfl, this]
    rfl
  have hci : x ∈ inputsOf ds → VarType.preInput ∈ allowedIn s → Declared (tableOf ds) (allowedIn s) x :=
    fun hx ha => key (.ci ⟨x, hx⟩) ha
  have hco : x ∈ outputsOf ds → VarType.preOutput ∈ allowedIn s → Declared (tableOf ds) (allowedIn s) x :=
    fun hx ha => key (.co ⟨x, hx⟩) ha
  have hni : x ∈ (inputsOf ds).map prime → VarType.postInput ∈ allowedIn s → Declared (tableOf ds) (allowedIn s) x := by
    intro hx ha
    obtain ⟨y, hy, rfl⟩ := List.mem_map.mp hx
    exact key (.ni ⟨y, hy⟩) ha
  have hno : x ∈ (outputsOf ds).map prime → VarType.postOutput ∈ allowedIn s → Declared (tableOf ds) (allowedIn s) x := by
    intro hx ha
    obtain ⟨y, hy, rfl⟩ := List.mem_map.mp hx
    exact key (.no ⟨y, hy⟩) ha
  cases s <;> simp only [usable, List.mem_append, List.not_mem_nil] at h
  · exact hci h (by decide)
  · rcases h with h | h
    · exact hci h (by decide)
    · exact hco h (by decide)
  · rcases h with (h | h) | h
    · exact hci h (by decide)
    · exact hco h (by decide)
    · exact hni h (by decide)
  all_goals
    rcases h with ((h | h) | h) | h
    · exact hci h (by decide)
    · exact hco h (by decide)
    · exact hni h (by decide)
    · exact hno h (by decide)

/-! ### Acceptance -/

theorem parseFormula_complete {tab : VarTable} {allowed : List VarType} {cap : Nat} {order : List Char → Bool}
    {line : List Char} {φ : Fml} (hr : ReadsLine line φ) (hwf : φ.Wf 0) (hd : ∀ x ∈ φ.vars, Declared tab allowed x)
    (hcap : line.length ≤ cap) : ∃ b : B, parseFormula tab allowed cap order line = .ok (some b) := by
  obtain ⟨rest, h1, h2⟩ := hr
  obtain ⟨b, hb⟩ := parse_complete (B := B) tab allowed cap order (line.length + 1) φ [] 0 line rest (Nat.lt_succ_self _)
    hcap h1 (by simpa using hwf) hd
  simp only [memOf, List.map_nil, List.replicate_zero, List.append_nil] at hb
  refine ⟨b, ?_⟩
  rw [parseFormula, hb]
  simp only [readWord_nil.mpr h2, if_true]

/-- Items that are read one after the other. -/
theorem initItems_complete {cap : Nat} {order : List Char → Bool} {items : List (Section × List Char)}
    (hn : (tableOf (declsOf items)).names.Nodup)
    (hall : ∀ before s line after, items = before ++ (s, line) :: after → s ≠ .input → s ≠ .output →
      line.length ≤ cap ∧ ∃ φ, ReadsLine line φ ∧ φ.Wf 0 ∧
        ∀ x ∈ φ.vars, x ∈ usable s (itemsOf .input before) (itemsOf .output before)) :
    ∀ (before after : List (Section × List Char)) (c : Ctx B), items = before ++ after →
      ∃ c', initItems cap order (tableOf (declsOf before), c) after = .ok (tableOf (declsOf items), c') := by
  intro before after
  induction after generalizing before with
  | nil => intro c h; rw [List.append_nil] at h; subst h; exact ⟨c, rfl⟩
  | cons p after ih =>
    intro c h
    have h' : items = (before ++ [p]) ++ after := by rw [h]; simp
    obtain ⟨s, line⟩ := p
    rw [initItems]
    by_cases h1 : s = .input
    · subst h1
      have : initItem cap order (tableOf (declsOf before), c) (.input, line) =
          .ok (tableOf (declsOf (before ++ [(.input, line)])), c) := by
        rw [declsOf_append]
        exact congrArg (fun t => Res.ok (t, c)) (tableOf_snoc_input (declsOf before) line).symm
      rw [this]
      exact ih _ c h'
    · by_cases h2 : s = .output
      · subst h2
        have : initItem cap order (tableOf (declsOf before), c) (.output, line) =
            .ok (tableOf (declsOf (before ++ [(.output, line)])), c) := by
          rw [declsOf_append]
          exact congrArg (fun t => Res.ok (t, c)) (tableOf_snoc_output (declsOf before) line).symm
        rw [this]
        exact ih _ c h'
      · obtain ⟨hlen, φ, hr, hwf, hv⟩ := hall before s line after h h1 h2
        have hnb : (tableOf (declsOf before)).names.Nodup := by
          rw [h, declsOf_append, tableOf_append] at hn
          exact (List.nodup_append.mp hn).1
        rw [← inputsOf_declsOf, ← outputsOf_declsOf] at hv
        obtain ⟨b, hb⟩ := parseFormula_complete (B := B) (order := order) hr hwf
          (fun x hx => declared_usable hnb (hv x hx)) hlen
        rw [initItem_constraint h1 h2, hb]
        have hds : declsOf (before ++ [(s, line)]) = declsOf before := by
          rw [declsOf_append]
          cases s <;> simp_all [declsOf]
        have := ih (before ++ [(s, line)]) (addConstraint c b s) h'
        rw [hds] at this
        exact this

theorem initContext_of_items {cap : Nat} {order : List Char → Bool} {text : List Char}
    {items : List (Section × List Char)} (hc : Content none (splitLines text) items) :
    initContext (B := B) cap order text =
      match initItems (B := B) cap order (⟨[], []⟩, (initStart (B := B)).ctx) items with
      | .ok (tab, c) =>
        if tab.names.Nodup then
          .ok (tab, { c with
            livenessAssumptions := if c.livenessAssumptions = [] then [L.tt] else c.livenessAssumptions
            livenessGuarantees := if c.livenessGuarantees = [] then [L.tt] else c.livenessGuarantees })
        else .err .duplicateNames
      | .err e => .err e
      | .ub => .ub
      | .stuck => .stuck := by
  have h := initLines_items (B := B) (cap := cap) (order := order) (splitLines text) initStart items hc
  change _ = initItems (B := B) cap order (⟨[], []⟩, (initStart (B := B)).ctx) items at h
  rw [← h, initContext]
  cases initLines (B := B) cap order initStart (splitLines text) <;> rfl

/-- Proper files are accepted. -/
theorem initContext_complete {cap : Nat} (order : List Char → Bool) {text : List Char} (h : ProperFile cap text) :
    ∃ r, initContext (B := B) cap order text = .ok r := by
  obtain ⟨items, hc, hn, hall⟩ := h
  have hn' : (tableOf (declsOf items)).names.Nodup := by
    refine (names_perm (declsOf items) (fun _ => [])).nodup_iff.mp ?_
    change (inputsOf (declsOf items) ++ outputsOf (declsOf items) ++ (inputsOf (declsOf items)).map prime ++
      (outputsOf (declsOf items)).map prime).Nodup
    rw [inputsOf_declsOf, outputsOf_declsOf]
    exact hn
  obtain ⟨c', h'⟩ := initItems_complete (B := B) (order := order) hn' hall [] items (initStart (B := B)).ctx rfl
  have : tableOf (declsOf []) = ⟨[], []⟩ := rfl
  rw [this] at h'
  rw [initContext_of_items hc, h']
  simp only [if_pos hn']
  exact ⟨_, rfl⟩

/-- Permuting a block of constraints: acceptance. -/
theorem initItems_perm {cap : Nat} {order : List Char → Bool} {s : Section} (h1 : s ≠ .input) (h2 : s ≠ .output)
    (hs : s ≠ .envLiveness ∧ s ≠ .sysLiveness) {ls ls' : List (List Char)} (hp : ls.Perm ls')
    (st : VarTable × Ctx B) {r : VarTable × Ctx B}
    (h : initItems cap order st (ls.map (fun l => (s, l))) = .ok r) :
    initItems cap order st (ls'.map (fun l => (s, l))) = .ok r := by
  obtain ⟨tab, c⟩ := st
  obtain ⟨fs, hf, rfl⟩ := (initItems_block h1 h2 tab ls c r).mp h
  obtain ⟨fs', hp', hf'⟩ := forall₂_perm hp hf
  rw [foldl_addConstraint_perm hs hp']
  exact (initItems_block h1 h2 tab ls' c _).mpr ⟨fs', hf', rfl⟩

/-! ### Content of concatenated files -/

theorem Content.append {cur : Option Section} {ls ls' : List (List Char)} {items items' : List (Section × List Char)}
    (h : Content cur ls items) (h' : Content (openAfter cur ls) ls' items') : Content cur (ls ++ ls') (items ++ items') := by
  induction h with
  | nil => exact h'
  | @skip cur l ls items h1 _ ih =>
    refine .skip h1 (ih ?_)
    have : sectionOf (trim l) = none := by
      cases hs : sectionOf (trim l) with
      | none => rfl
      | some s =>
        have := sectionOf_iff.mp hs
        rw [this] at h1
        have hh := header_head s
        rcases h1 with h1 | h1
        · exact absurd h1 hh.1
        · rw [hh.2] at h1; simp at h1
    rw [openAfter_cons, this] at h'
    exact h'
  | header s h1 _ ih =>
    refine .header s h1 (ih ?_)
    rw [openAfter_cons, sectionOf_iff.mpr h1] at h'
    exact h'
  | @item s l ls items h1 h2 h3 _ ih =>
    refine .item h1 h2 h3 (ih ?_)
    have : sectionOf (trim l) = none := by
      cases hs : sectionOf (trim l) with
      | none => rfl
      | some s => rw [sectionOf_iff.mp hs, (header_head s).2] at h3; exact absurd rfl h3
    rw [openAfter_cons, this] at h'
    exact h'

theorem Content.split {ls' : List (List Char)} : ∀ {ls : List (List Char)} {cur : Option Section}
    {items : List (Section × List Char)}, Content cur (ls ++ ls') items →
    ∃ i i', items = i ++ i' ∧ Content cur ls i ∧ Content (openAfter cur ls) ls' i' := by
  intro ls
  induction ls with
  | nil => intro cur items h; exact ⟨[], items, rfl, .nil, h⟩
  | cons l ls ih =>
    intro cur items h
    rw [List.cons_append] at h
    cases h with
    | skip h1 h2 =>
      obtain ⟨i, i', rfl, h3, h4⟩ := ih h2
      refine ⟨i, i', rfl, .skip h1 h3, ?_⟩
      have : sectionOf (trim l) = none := by
        cases hs : sectionOf (trim l) with
        | none => rfl
        | some s =>
          have := sectionOf_iff.mp hs
          rw [this] at h1
          have hh := header_head s
          rcases h1 with h1 | h1
          · exact absurd h1 hh.1
          · rw [hh.2] at h1; simp at h1
      rw [openAfter_cons, this]
      exact h4
    | header s h1 h2 =>
      obtain ⟨i, i', rfl, h3, h4⟩ := ih h2
      refine ⟨i, i', rfl, .header s h1 h3, ?_⟩
      rw [openAfter_cons, sectionOf_iff.mpr h1]
      exact h4
    | @item s _ _ items h1 h2 h3 h4 =>
      obtain ⟨i, i', rfl, h5, h6⟩ := ih h4
      refine ⟨(s, trim l) :: i, i', rfl, .item h1 h2 h3 h5, ?_⟩
      have : sectionOf (trim l) = none := by
        cases hs : sectionOf (trim l) with
        | none => rfl
        | some s => rw [sectionOf_iff.mp hs, (header_head s).2] at h3; exact absurd rfl h3
      rw [openAfter_cons, this]
      exact h6

/-- Lines with content in an open section. -/
theorem Content.block {s : Section} : ∀ {m : List (List Char)},
    (∀ l ∈ m, trim l ≠ [] ∧ (trim l).head? ≠ some '#' ∧ (trim l).head? ≠ some '[') →
    Content (some s) m (m.map fun l => (s, trim l)) ∧ openAfter (some s) m = some s := by
  intro m
  induction m with
  | nil => intro _; exact ⟨.nil, rfl⟩
  | cons l m ih =>
    intro h
    obtain ⟨h1, h2, h3⟩ := h l (by simp)
    obtain ⟨i1, i2⟩ := ih fun l hl => h l (by simp [hl])
    refine ⟨.item h1 h2 h3 i1, ?_⟩
    have : sectionOf (trim l) = none := by
      cases hs : sectionOf (trim l) with
      | none => rfl
      | some s => rw [sectionOf_iff.mp hs, (header_head s).2] at h3; exact absurd rfl h3
    rw [openAfter_cons, this]
    exact i2

/-- Whether items can be read does not depend on the constraints read before. -/
theorem initItems_ctx {cap : Nat} {order : List Char → Bool} : ∀ (ps : List (Section × List Char)) (tab : VarTable)
    (c c' : Ctx B) (r : VarTable × Ctx B), initItems cap order (tab, c) ps = .ok r →
    ∃ c'', initItems cap order (tab, c') ps = .ok (r.1, c'') := by
  intro ps
  induction ps with
  | nil => intro tab c c' r h; cases h; exact ⟨c', rfl⟩
  | cons p ps ih =>
    intro tab c c' r h
    rw [initItems] at h ⊢
    obtain ⟨s, line⟩ := p
    by_cases h1 : s = .input
    · subst h1; exact ih _ _ _ _ h
    · by_cases h2 : s = .output
      · subst h2; exact ih _ _ _ _ h
      · rw [initItem_constraint h1 h2] at h ⊢
        generalize parseFormula (B := B) tab (allowedIn s) cap order line = v at h ⊢
        rcases v with (_ | f) | e | _ | _
        · cases h
        · exact ih _ _ _ _ h
        · cases h
        · cases h
        · cases h

/-- Two games that only differ in how they are written down have the same verdict. -/
theorem realizable_congr {I O : Type} {g g' : Game I O} (h1 : g.initEnv = g'.initEnv) (h2 : g.initSys = g'.initSys)
    (he : g.safetyEnv = g'.safetyEnv) (hs : g.safetySys = g'.safetySys) (hl : ∀ p, g.Live p ↔ g'.Live p) :
    (g.Realizable ↔ g'.Realizable) ∧ (g.RoboticsRealizable ↔ g'.RoboticsRealizable) := by
  have hw : ∀ s, g.SysWins s ↔ g'.SysWins s := fun s =>
    ⟨sysWins_congr he hs fun p => (hl p).mp, sysWins_congr he.symm hs.symm fun p => (hl p).mpr⟩
  simp only [Game.Realizable, Game.RoboticsRealizable, hw, h1, h2, and_self]

/-- Two specifications that only differ in the order of constraints. -/
structure SameUpToOrder (sp sp' : SpecFile) : Prop where
  inputs : sp.inputs = sp'.inputs
  outputs : sp.outputs = sp'.outputs
  envInit : sp.envInit.Perm sp'.envInit
  sysInit : sp.sysInit.Perm sp'.sysInit
  envTrans : sp.envTrans.Perm sp'.envTrans
  sysTrans : sp.sysTrans.Perm sp'.sysTrans
  envLiveness : sp.envLiveness.Perm sp'.envLiveness
  sysLiveness : sp.sysLiveness.Perm sp'.sysLiveness

theorem SameUpToOrder.verdict {sp sp' : SpecFile} (h : SameUpToOrder sp sp') :
    (sp.game.Realizable ↔ sp'.game.Realizable) ∧ (sp.game.RoboticsRealizable ↔ sp'.game.RoboticsRealizable) ∧
    Nat.card (Pos sp.In sp.Out) = Nat.card (Pos sp'.In sp'.Out) := by
  obtain ⟨i1, o1, a1, b1, c1, d1, e1, f1⟩ := sp
  obtain ⟨i2, o2, a2, b2, c2, d2, e2, f2⟩ := sp'
  obtain ⟨h1, h2, h3, h4, h5, h6, h7, h8⟩ := h
  simp only at *
  subst h1 h2
  have key := @realizable_congr _ _ (SpecFile.game ⟨i1, o1, a1, b1, c1, d1, e1, f1⟩)
    (SpecFile.game ⟨i1, o1, a2, b2, c2, d2, e2, f2⟩) ?_ ?_ ?_ ?_ ?_
  · exact ⟨key.1, key.2, rfl⟩
  · funext i; exact propext (forall_congr' fun φ => imp_congr h3.mem_iff Iff.rfl)
  · funext p; exact propext (forall_congr' fun φ => imp_congr h4.mem_iff Iff.rfl)
  · funext p i; exact propext (forall_congr' fun φ => imp_congr h5.mem_iff Iff.rfl)
  · funext p q; exact propext (forall_congr' fun φ => imp_congr h6.mem_iff Iff.rfl)
  · intro p
    refine imp_congr (forall_congr' fun f => imp_congr ?_ Iff.rfl) (forall_congr' fun f => imp_congr ?_ Iff.rfl)
    · exact (h7.map _).mem_iff
    · exact (h8.map _).mem_iff

theorem forall₂_perm_unique {α β : Type} {R : α → β → Prop} (h : ∀ a b b', R a b → R a b' → b = b')
    {l l' : List α} {m m' : List β} (hp : l.Perm l') (h1 : List.Forall₂ R l m) (h2 : List.Forall₂ R l' m') : m.Perm m' := by
  obtain ⟨m'', hm, h3⟩ := forall₂_perm hp h1
  rw [forall₂_unique h h2 h3]
  exact hm

/-- Files with the same items up to order within sections. -/
theorem Denotes.sameUpToOrder {t t' : List Char} {sp sp' : SpecFile} {items items' : List (Section × List Char)}
    (hc : Content none (splitLines t) items) (hc' : Content none (splitLines t') items')
    (hin : itemsOf .input items = itemsOf .input items') (hout : itemsOf .output items = itemsOf .output items')
    (hp : ∀ s, (itemsOf s items).Perm (itemsOf s items')) (h : Denotes t sp) (h' : Denotes t' sp') :
    SameUpToOrder sp sp' := by
  obtain ⟨i, hi, h1, h2, h3, h4, h5, h6, h7, h8⟩ := h
  obtain ⟨i', hi', h1', h2', h3', h4', h5', h6', h7', h8'⟩ := h'
  have e1 := Content.det hc hi
  have e2 := Content.det hc' hi'
  subst e1 e2
  have u := @forall₂_perm_unique _ _ ReadsLine (fun _ _ _ => ReadsLine.det)
  exact ⟨by rw [h1, h1', hin], by rw [h2, h2', hout], u (hp _) h3 h3', u (hp _) h4 h4',
    u (hp _) h5 h5', u (hp _) h6 h6', u (hp _) h7 h7', u (hp _) h8 h8'⟩

end Slugs.Model
