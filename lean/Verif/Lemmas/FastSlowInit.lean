import Verif.Model.FastSlow
import Verif.Lemmas.Order

/-! The reader of `--IROSfastslow`: what an accepted file denotes. -/

namespace Slugs.Model

open Slugs.Spec

variable {B : Type} [DecidableEq B] [L : BddLib B]

/-! ### Lines and items -/

/-- Processing one item. -/
def fsItem (cap : Nat) (order : List Char → Bool) (st : VarTable × Ctx B) (p : FSSection × List Char) :
    Res InitErr (VarTable × Ctx B) :=
  match p.1 with
  | .input => .ok ((st.1.add .preInput p.2).add .postInput (p.2 ++ ['\'']), st.2)
  | .outputF => .ok ((st.1.add .preOutputFast p.2).add .postOutputFast (p.2 ++ ['\'']), st.2)
  | .outputS => .ok ((st.1.add .preOutputSlow p.2).add .postOutputSlow (p.2 ++ ['\'']), st.2)
  | m =>
    match parseFormula st.1 (fsAllowedIn m) cap order p.2 with
    | .ok (some f) => .ok (st.1, addConstraint st.2 f m.plain)
    | .ok none => .ub
    | .err e => .err (.formula e)
    | .ub => .ub
    | .stuck => .stuck

def fsItems (cap : Nat) (order : List Char → Bool) : VarTable × Ctx B → List (FSSection × List Char) →
    Res InitErr (VarTable × Ctx B)
  | st, [] => .ok st
  | st, p :: ps =>
    match fsItem cap order st p with
    | .ok st => fsItems cap order st ps
    | .err e => .err e
    | .ub => .ub
    | .stuck => .stuck

def dropFSMode : Res InitErr (FSState B) → Res InitErr (VarTable × Ctx B)
  | .ok st => .ok (st.table, st.ctx)
  | .err e => .err e
  | .ub => .ub
  | .stuck => .stuck

theorem fsSectionOf_iff {l : List Char} {s : FSSection} : fsSectionOf l = some s ↔ l = s.header := by
  constructor
  · intro h
    simp only [fsSectionOf] at h
    repeat' split at h
    all_goals first | (cases h; done) | (cases h; assumption)
  · rintro rfl; cases s <;> decide

theorem fsHeader_head (s : FSSection) : s.header ≠ [] ∧ s.header.head? = some '[' := by cases s <;> decide

theorem fsLine_skip {cap : Nat} {order : List Char → Bool} (st : FSState B) {l : List Char}
    (h : l = [] ∨ l.head? = some '#') : fsLine cap order st l = .ok st := by
  cases l with
  | nil => rfl
  | cons c l =>
    simp only [reduceCtorEq, List.head?_cons, Option.some.injEq, false_or] at h
    simp [fsLine, h]

theorem fsLine_header {cap : Nat} {order : List Char → Bool} (st : FSState B) (s : FSSection) :
    fsLine cap order st s.header = .ok { st with mode := some s } := by
  cases s <;> rfl

theorem fsLine_item {cap : Nat} {order : List Char → Bool} (st : FSState B) {s : FSSection} {l : List Char}
    (hm : st.mode = some s) (h0 : l ≠ []) (h1 : l.head? ≠ some '#') (h2 : l.head? ≠ some '[') :
    dropFSMode (fsLine cap order st l) = fsItem cap order (st.table, st.ctx) (s, l) ∧
    ∀ st', fsLine cap order st l = .ok st' → st'.mode = st.mode := by
  cases l with
  | nil => exact absurd rfl h0
  | cons c l =>
    simp only [List.head?_cons, ne_eq, Option.some.injEq] at h1 h2
    simp only [fsLine, h1, h2, if_false, hm, fsItem]
    cases s
    case input => exact ⟨rfl, by rintro _ ⟨⟩; rfl⟩
    case outputF => exact ⟨rfl, by rintro _ ⟨⟩; rfl⟩
    case outputS => exact ⟨rfl, by rintro _ ⟨⟩; rfl⟩
    all_goals
      dsimp only
      generalize parseFormula (B := B) _ _ _ _ _ = r
      rcases r with (_ | f) | e | _ | _
      all_goals exact ⟨rfl, by rintro _ ⟨⟩ <;> rfl⟩

theorem fsLines_items {cap : Nat} {order : List Char → Bool} : ∀ (ls : List (List Char)) (st : FSState B)
    (items : List (FSSection × List Char)), FSContent st.mode ls items →
    dropFSMode (fsLines cap order st ls) = fsItems cap order (st.table, st.ctx) items := by
  intro ls
  induction ls with
  | nil =>
    intro st items h
    generalize st.mode = cur at h
    cases h; rfl
  | cons l ls ih =>
    intro st items h
    rw [fsLines]
    generalize hcur : st.mode = cur at h
    cases h with
    | skip h1 h2 => rw [fsLine_skip st h1]; exact ih st items (hcur ▸ h2)
    | header s h1 h2 => rw [h1, fsLine_header st s]; exact ih { st with mode := some s } items h2
    | @item s _ _ items' h0 h1 h2 h3 =>
      obtain ⟨e1, e2⟩ := fsLine_item (cap := cap) (order := order) st hcur h0 h1 h2
      rw [fsItems]
      cases hl : fsLine cap order st (trim l) with
      | ok st' =>
        rw [hl] at e1
        simp only [dropFSMode] at e1
        rw [← e1]
        exact ih st' items' (by rw [e2 st' hl, hcur]; exact h3)
      | err e => rw [hl] at e1; simp only [dropFSMode] at e1 ⊢; rw [← e1]
      | ub => rw [hl] at e1; simp only [dropFSMode] at e1 ⊢; rw [← e1]
      | stuck => rw [hl] at e1; simp only [dropFSMode] at e1 ⊢; rw [← e1]

theorem fsLines_content {cap : Nat} {order : List Char → Bool} : ∀ (ls : List (List Char)) (st st' : FSState B),
    fsLines cap order st ls = .ok st' → ∃ items, FSContent st.mode ls items := by
  intro ls
  induction ls with
  | nil => intro st st' h; exact ⟨[], .nil⟩
  | cons l ls ih =>
    intro st st' h
    rw [fsLines] at h
    by_cases h0 : trim l = [] ∨ (trim l).head? = some '#'
    · rw [fsLine_skip st h0] at h
      obtain ⟨items, hc⟩ := ih st st' h
      exact ⟨items, .skip h0 hc⟩
    · simp only [not_or] at h0
      by_cases hb : (trim l).head? = some '['
      · cases hs : fsSectionOf (trim l) with
        | some s =>
          have := fsSectionOf_iff.mp hs
          rw [this, fsLine_header] at h
          obtain ⟨items, hc⟩ := ih _ st' h
          exact ⟨items, .header s this hc⟩
        | none =>
          exfalso
          generalize hl : trim l = t at *
          cases t with
          | nil => exact h0.1 rfl
          | cons c t =>
            simp only [List.head?_cons, Option.some.injEq] at hb
            subst hb
            rw [fsLine] at h
            simp only [Char.reduceEq, if_false, if_true, hs] at h
            cases h
      · cases hm : st.mode with
        | none =>
          exfalso
          generalize hl : trim l = t at *
          cases t with
          | nil => exact h0.1 rfl
          | cons c t =>
            simp only [List.head?_cons, Option.some.injEq] at hb h0
            rw [fsLine] at h
            simp only [h0.2, hb, if_false, hm] at h
            cases h
        | some s =>
          obtain ⟨e1, e2⟩ := fsLine_item (cap := cap) (order := order) st hm h0.1 h0.2 hb
          cases hl : fsLine cap order st (trim l) with
          | ok st1 =>
            rw [hl] at h
            obtain ⟨items, hc⟩ := ih st1 st' h
            rw [e2 st1 hl, hm] at hc
            exact ⟨_, .item h0.1 h0.2 hb hc⟩
          | err e => rw [hl] at h; cases h
          | ub => rw [hl] at h; cases h
          | stuck => rw [hl] at h; cases h

theorem FSContent.det {cur ls items items'} (h : FSContent cur ls items) (h' : FSContent cur ls items') : items = items' := by
  induction h generalizing items' with
  | nil => cases h'; rfl
  | skip h1 _ ih =>
    cases h' with
    | skip _ h2 => exact ih h2
    | header s h2 _ =>
      exfalso; rw [h2] at h1
      have := fsHeader_head s
      rcases h1 with h1 | h1
      · exact this.1 h1
      · rw [this.2] at h1; cases h1
    | item h2 h3 _ _ => exact absurd h1 (by simp [h2, h3])
  | header s h1 _ ih =>
    have hs := fsHeader_head s
    cases h' with
    | skip h2 _ =>
      exfalso; rw [h1] at h2
      rcases h2 with h2 | h2
      · exact hs.1 h2
      · rw [hs.2] at h2; cases h2
    | header s' h2 h3 =>
      have : some s = some s' := by rw [← fsSectionOf_iff.mpr h1, fsSectionOf_iff.mpr h2]
      cases this
      exact ih h3
    | item _ _ h2 _ => rw [h1] at h2; exact absurd hs.2 h2
  | item h0 h1 h2 _ ih =>
    cases h' with
    | skip h3 _ => exact absurd h3 (by simp [h0, h1])
    | header s' h3 _ => rw [h3] at h2; exact absurd (fsHeader_head s').2 h2
    | item _ _ _ h3 => rw [ih h3]

/-! ### Forgetting which outputs are fast -/

def coarse : VarType → VarType
  | .preOutputFast => .preOutput
  | .preOutputSlow => .preOutput
  | .postOutputFast => .postOutput
  | .postOutputSlow => .postOutput
  | t => t

def coarseTab (t : VarTable) : VarTable := ⟨t.names, t.types.map coarse⟩

def FSTy (t : VarType) : Prop :=
  t ∈ [VarType.preInput, .postInput, .preOutputFast, .preOutputSlow, .postOutputFast, .postOutputSlow]

theorem lookupVar_coarse (word : List Char) (al al' : List VarType) (rest : List Char) :
    ∀ (ns : List Name) (ts : List VarType) (i : Nat), (∀ t ∈ ts, al'.contains t = al.contains (coarse t)) →
    lookupVar (B := B) word al' rest i ns ts = lookupVar (B := B) word al rest i ns (ts.map coarse) := by
  intro ns
  induction ns with
  | nil => intro ts i _; simp [lookupVar]
  | cons n ns ih =>
    intro ts i h
    cases ts with
    | nil => simp [lookupVar]
    | cons t ts =>
      simp only [List.map_cons, lookupVar]
      rw [ih ts (i + 1) fun t ht => h t (by simp [ht]), h t (by simp)]

theorem parseRec_congr {tab tab' : VarTable} {al al' : List VarType} (cap : Nat) (order : List Char → Bool)
    (h : ∀ word rest, lookupVar (B := B) word al' rest 0 tab'.names tab'.types = lookupVar (B := B) word al rest 0 tab.names tab.types) :
    ∀ n, parseRec (B := B) tab' al' cap order n = parseRec (B := B) tab al cap order n := by
  intro n
  induction n with
  | zero => funext mem inp; rw [parseRec, parseRec]
  | succ n ih => funext mem inp; simp only [parseRec, ih, h]

theorem parseFormula_coarse {tab : VarTable} {al al' : List VarType} (cap : Nat) (order : List Char → Bool) (line : List Char)
    (h : ∀ t ∈ tab.types, al'.contains t = al.contains (coarse t)) :
    parseFormula (B := B) tab al' cap order line = parseFormula (B := B) (coarseTab tab) al cap order line := by
  rw [parseFormula, parseFormula, parseRec_congr (tab := coarseTab tab) (al := al) cap order
    fun word rest => lookupVar_coarse word al al' rest _ _ 0 h]

theorem allowed_coarse (m : FSSection) {t : VarType} (ht : FSTy t) : (fsAllowedIn m).contains t = (allowedIn m.plain).contains (coarse t) := by
  have h : ∀ t ∈ [VarType.preInput, .postInput, .preOutputFast, .preOutputSlow, .postOutputFast, .postOutputSlow],
      (fsAllowedIn m).contains t = (allowedIn m.plain).contains (coarse t) := by
    cases m <;> decide
  exact h t ht

def coarseRes : Res InitErr (VarTable × Ctx B) → Res InitErr (VarTable × Ctx B)
  | .ok (t, c) => .ok (coarseTab t, c)
  | .err e => .err e
  | .ub => .ub
  | .stuck => .stuck

def plainItem (p : FSSection × List Char) : Section × List Char := (p.1.plain, p.2)

theorem fsItem_coarse {cap : Nat} {order : List Char → Bool} (st : VarTable × Ctx B) (hst : ∀ t ∈ st.1.types, FSTy t)
    (p : FSSection × List Char) :
    coarseRes (fsItem cap order st p) = initItem cap order (coarseTab st.1, st.2) (plainItem p) ∧
    ∀ st', fsItem cap order st p = .ok st' → ∀ t ∈ st'.1.types, FSTy t := by
  obtain ⟨tab, c⟩ := st
  obtain ⟨s, l⟩ := p
  have hadd : ∀ a b x y, FSTy a → FSTy b → ∀ t ∈ ((tab.add a x).add b y).types, FSTy t := by
    intro a b x y ha hb t ht
    simp only [VarTable.add, List.append_assoc, List.mem_append, List.mem_cons, List.not_mem_nil, or_false] at ht
    rcases ht with ht | rfl | rfl
    · exact hst t ht
    · exact ha
    · exact hb
  cases s
  case input =>
    refine ⟨?_, ?_⟩
    · simp [fsItem, initItem, coarseRes, plainItem, FSSection.plain, coarseTab, VarTable.add, coarse]
    · rintro _ ⟨⟩; exact hadd _ _ _ _ (by simp [FSTy]) (by simp [FSTy])
  case outputF =>
    refine ⟨?_, ?_⟩
    · simp [fsItem, initItem, coarseRes, plainItem, FSSection.plain, coarseTab, VarTable.add, coarse]
    · rintro _ ⟨⟩; exact hadd _ _ _ _ (by simp [FSTy]) (by simp [FSTy])
  case outputS =>
    refine ⟨?_, ?_⟩
    · simp [fsItem, initItem, coarseRes, plainItem, FSSection.plain, coarseTab, VarTable.add, coarse]
    · rintro _ ⟨⟩; exact hadd _ _ _ _ (by simp [FSTy]) (by simp [FSTy])
  all_goals
    simp only [fsItem, initItem, plainItem, FSSection.plain]
    rw [parseFormula_coarse cap order l fun t ht => allowed_coarse _ (hst t ht)]
    simp only [FSSection.plain]
    generalize parseFormula (B := B) _ _ _ _ _ = r
    rcases r with (_ | f) | e | _ | _
    all_goals exact ⟨rfl, by rintro _ ⟨⟩ <;> exact hst⟩

theorem fsItems_coarse {cap : Nat} {order : List Char → Bool} : ∀ (ps : List (FSSection × List Char)) (st : VarTable × Ctx B),
    (∀ t ∈ st.1.types, FSTy t) →
    coarseRes (fsItems cap order st ps) = initItems cap order (coarseTab st.1, st.2) (ps.map plainItem) := by
  intro ps
  induction ps with
  | nil => intro st _; rfl
  | cons p ps ih =>
    intro st hst
    obtain ⟨h1, h2⟩ := fsItem_coarse (cap := cap) (order := order) st hst p
    rw [fsItems, List.map_cons, initItems, ← h1]
    cases hp : fsItem cap order st p with
    | ok st' => exact ih st' (h2 st' hp)
    | err e => rfl
    | ub => rfl
    | stuck => rfl

/-! ### The table -/

/-- The entries that an item adds to the table. -/
def fsEntry (p : FSSection × List Char) : List (Name × VarType) :=
  match p.1 with
  | .input => [(p.2, .preInput), (prime p.2, .postInput)]
  | .outputF => [(p.2, .preOutputFast), (prime p.2, .postOutputFast)]
  | .outputS => [(p.2, .preOutputSlow), (prime p.2, .postOutputSlow)]
  | _ => []

theorem fsItem_table {cap : Nat} {order : List Char → Bool} {st st' : VarTable × Ctx B} {p : FSSection × List Char}
    (h : fsItem cap order st p = .ok st') :
    st'.1 = ⟨st.1.names ++ (fsEntry p).map Prod.fst, st.1.types ++ (fsEntry p).map Prod.snd⟩ := by
  obtain ⟨s, l⟩ := p
  cases s
  case input => cases h; simp [VarTable.add, fsEntry, prime]
  case outputF => cases h; simp [VarTable.add, fsEntry, prime]
  case outputS => cases h; simp [VarTable.add, fsEntry, prime]
  all_goals
    simp only [fsItem] at h
    split at h
    · cases h; simp [fsEntry]
    all_goals cases h

theorem fsItems_table {cap : Nat} {order : List Char → Bool} : ∀ (ps : List (FSSection × List Char)) (st st' : VarTable × Ctx B),
    fsItems cap order st ps = .ok st' →
    st'.1 = ⟨st.1.names ++ (ps.flatMap fsEntry).map Prod.fst, st.1.types ++ (ps.flatMap fsEntry).map Prod.snd⟩ := by
  intro ps
  induction ps with
  | nil => intro st st' h; cases h; simp
  | cons p ps ih =>
    intro st st' h
    rw [fsItems] at h
    cases hp : fsItem cap order st p with
    | err e => simp [hp] at h
    | ub => simp [hp] at h
    | stuck => simp [hp] at h
    | ok st1 =>
      simp only [hp] at h
      rw [ih st1 st' h, fsItem_table hp]
      simp

/-- The type of a table entry when the outputs in `P` are slow. -/
def fsType (P : Name → Bool) (e : Name × VarType) : VarType :=
  match e.2 with
  | .preOutput => if P e.1 then .preOutputSlow else .preOutputFast
  | .postOutput => if P e.1.dropLast then .postOutputSlow else .postOutputFast
  | t => t

def fsTypes (ds : Decls) (P : Name → Bool) : List VarType := (entriesOf ds).map (fsType P)

theorem fsEntry_type {items : List (FSSection × List Char)} (hn : ((items.flatMap fsEntry).map Prod.fst).Nodup)
    {e : Name × VarType} (he : e ∈ items.flatMap fsEntry) :
    fsType (fun x => decide (x ∈ fsItemsOf .outputS items)) (e.1, coarse e.2) = e.2 := by
  obtain ⟨⟨s, l⟩, hp, he'⟩ := List.mem_flatMap.mp he
  have hslow : l ∈ fsItemsOf .outputS items ↔ (FSSection.outputS, l) ∈ items := by
    simp only [fsItemsOf, List.mem_map, List.mem_filter, decide_eq_true_eq]
    constructor
    · rintro ⟨⟨s', l'⟩, ⟨h1, h2⟩, h3⟩
      simp only at h2 h3
      rw [← h2, ← h3]; exact h1
    · intro h; exact ⟨_, ⟨h, rfl⟩, rfl⟩
  cases s
  case outputF =>
    have hno : ¬ l ∈ fsItemsOf .outputS items := by
      intro hm
      have hm' := hslow.mp hm
      have h1 : (l, VarType.preOutputSlow) ∈ items.flatMap fsEntry := List.mem_flatMap.mpr ⟨_, hm', by simp [fsEntry]⟩
      have h2 : (l, VarType.preOutputFast) ∈ items.flatMap fsEntry := List.mem_flatMap.mpr ⟨_, hp, by simp [fsEntry]⟩
      have := List.inj_on_of_nodup_map hn h1 h2 rfl
      cases this
    simp only [fsEntry, List.mem_cons, List.not_mem_nil, or_false] at he'
    rcases he' with rfl | rfl <;> simp [fsType, coarse, hno, prime]
  case outputS =>
    have hyes := hslow.mpr hp
    simp only [fsEntry, List.mem_cons, List.not_mem_nil, or_false] at he'
    rcases he' with rfl | rfl <;> simp [fsType, coarse, hyes, prime]
  case input =>
    simp only [fsEntry, List.mem_cons, List.not_mem_nil, or_false] at he'
    rcases he' with rfl | rfl <;> rfl
  all_goals simp [fsEntry] at he'

/-! ### Accepted files -/

theorem fsInit_of_items {cap : Nat} {order : List Char → Bool} {text : List Char}
    {items : List (FSSection × List Char)} (hc : FSContent none (splitLines text) items) :
    fsInit (B := B) cap order text =
      match fsItems (B := B) cap order (⟨[], []⟩, (initStart (B := B)).ctx) items with
      | .ok (tab, c) =>
        if tab.names.Nodup then
          .ok (tab, { c with
            livenessAssumptions := if c.livenessAssumptions = [] then [L.tt] else c.livenessAssumptions
            livenessGuarantees := if c.livenessGuarantees = [] then [L.tt] else c.livenessGuarantees })
        else .err .duplicateNames
      | .err e => .err e
      | .ub => .ub
      | .stuck => .stuck := by
  have h := fsLines_items (B := B) (cap := cap) (order := order) (splitLines text)
    { table := (initStart (B := B)).table, ctx := (initStart (B := B)).ctx, mode := none } items hc
  change _ = fsItems (B := B) cap order (⟨[], []⟩, (initStart (B := B)).ctx) items at h
  rw [← h, fsInit]
  cases fsLines (B := B) cap order _ (splitLines text) <;> rfl

theorem itemsOf_plain (items : List (FSSection × List Char)) (s : FSSection) (h1 : s ≠ .outputF) (h2 : s ≠ .outputS) :
    itemsOf s.plain (items.map plainItem) = fsItemsOf s items := by
  induction items with
  | nil => rfl
  | cons p items ih =>
    obtain ⟨s', l⟩ := p
    simp only [itemsOf, fsItemsOf] at ih ⊢
    cases s <;> first | contradiction | (cases s' <;> simp_all [plainItem, FSSection.plain])

theorem itemsOf_plain_output (items : List (FSSection × List Char)) :
    itemsOf .output (items.map plainItem) = (items.filter fun p => p.1 = .outputF ∨ p.1 = .outputS).map (fun p => p.2) := by
  induction items with
  | nil => rfl
  | cons p items ih =>
    obtain ⟨s', l⟩ := p
    simp only [itemsOf] at ih ⊢
    cases s' <;> simp_all [plainItem, FSSection.plain]

theorem FSDenotes.det {text : List Char} {sp sp' : SpecFile} {slow slow' : List Word} (h : FSDenotes text sp slow)
    (h' : FSDenotes text sp' slow') : sp = sp' ∧ slow = slow' := by
  obtain ⟨items, hc, h1, h2, h0, h3, h4, h5, h6, h7, h8⟩ := h
  obtain ⟨items', hc', h1', h2', h0', h3', h4', h5', h6', h7', h8'⟩ := h'
  have := FSContent.det hc hc'
  subst this
  cases sp; cases sp'
  simp only at *
  have u := @forall₂_unique _ _ ReadsLine fun _ _ _ => ReadsLine.det
  rw [h1, h1', h2, h2', u h3 h3', u h4 h4', u h5 h5', u h6 h6', u h7 h7', u h8 h8', h0, h0']
  exact ⟨rfl, rfl⟩

theorem coarse_slotTypes (ds : Decls) (P : Name → Bool) : (fsTypes ds P).map coarse = (tableOf ds).types := by
  simp only [fsTypes, tableOf, List.map_map]
  refine List.map_congr_left fun e he => ?_
  obtain ⟨z, rfl⟩ := mem_entriesOf.mp he
  rcases z with z | z | z | z <;> simp only [slotEntry, Function.comp, fsType]
  · rfl
  · by_cases h : P z.1 = true <;> simp [h, coarse]
  · rfl
  · by_cases h : P (prime z.1).dropLast = true <;> simp [h, coarse]

/-- Everything about an accepted file. -/
theorem fsInit_ok {cap : Nat} {order : List Char → Bool} {text : List Char} {tab : VarTable} {c : Ctx B}
    (h : fsInit cap order text = .ok (tab, c)) :
    ∃ (ds : Decls) (F : Section → List Fml) (slow : List Word) (hn : (tableOf ds).names.Nodup),
      tab = ⟨(tableOf ds).names, fsTypes ds fun x => decide (x ∈ slow)⟩ ∧
      FSDenotes text (specOf ds F) slow ∧ (∀ x ∈ slow, x ∈ outputsOf ds) ∧
      c = (gameCtx (padGame (specOf ds F).game)).map ((tableLayout ds hn).enc B) := by
  have hcont : ∃ items, FSContent none (splitLines text) items := by
    rw [fsInit] at h
    cases hl : fsLines (B := B) cap order { table := (initStart (B := B)).table, ctx := (initStart (B := B)).ctx, mode := none }
        (splitLines text) with
    | err e => simp [hl] at h
    | ub => simp [hl] at h
    | stuck => simp [hl] at h
    | ok st => exact fsLines_content _ _ _ hl
  obtain ⟨items, hc⟩ := hcont
  rw [fsInit_of_items hc] at h
  cases hi : fsItems (B := B) cap order (⟨[], []⟩, (initStart (B := B)).ctx) items with
  | err e => rw [hi] at h; cases h
  | ub => rw [hi] at h; cases h
  | stuck => rw [hi] at h; cases h
  | ok st =>
    obtain ⟨tab', c0⟩ := st
    rw [hi] at h
    simp only at h
    split at h
    · rename_i hn
      simp only [Res.ok.injEq, Prod.mk.injEq] at h
      obtain ⟨rfl, rfl⟩ := h
      have hco := fsItems_coarse (B := B) (cap := cap) (order := order) items (⟨[], []⟩, (initStart (B := B)).ctx) (by simp)
      rw [hi] at hco
      obtain ⟨ds, F, hinv⟩ := initItems_inv _ _ _ _ _ _ ItemsInv.start hco.symm
      rw [List.nil_append] at hinv
      have htab := fsItems_table _ _ _ hi
      simp only [List.nil_append] at htab
      have ht : coarseTab tab' = tableOf ds := hinv.table
      have hn' : (tableOf ds).names.Nodup := by rw [← ht]; exact hn
      have hent : entriesOf ds = (items.flatMap fsEntry).map fun e => (e.1, coarse e.2) := by
        have h1 : (entriesOf ds).map Prod.fst = (items.flatMap fsEntry).map Prod.fst := by
          have := congrArg VarTable.names ht
          rw [htab] at this
          exact this.symm
        have h2 : (entriesOf ds).map Prod.snd = ((items.flatMap fsEntry).map Prod.snd).map coarse := by
          have := congrArg VarTable.types ht
          rw [htab] at this
          exact this.symm
        have e := List.zip_of_prod h1 h2
        rw [e]
        rw [List.map_map, List.zip_map, List.zip_eq_zipWith]
        simp [List.zipWith_self, Function.comp_def]
      refine ⟨ds, F, fsItemsOf .outputS items, hn', ?_, ?_, ?_, ctx_eq hinv hn'⟩
      · rw [htab] at hn
        have h1 : (tableOf ds).names = (items.flatMap fsEntry).map Prod.fst := by
          rw [← ht, htab]; rfl
        have h2 : fsTypes ds (fun x => decide (x ∈ fsItemsOf .outputS items)) = (items.flatMap fsEntry).map Prod.snd := by
          rw [fsTypes, hent, List.map_map]
          exact List.map_congr_left fun e he => fsEntry_type hn he
        rw [h1, h2, htab]
      · refine ⟨items, hc, ?_, ?_, rfl, ?_, ?_, ?_, ?_, ?_, ?_⟩
        · exact hinv.inputs.trans (itemsOf_plain items .input (by decide) (by decide))
        · exact hinv.outputs.trans (itemsOf_plain_output items)
        · have := hinv.reads .envInit (by decide) (by decide)
          rwa [show itemsOf .envInit (items.map plainItem) = _ from itemsOf_plain items .envInit (by decide) (by decide)] at this
        · have := hinv.reads .sysInit (by decide) (by decide)
          rwa [show itemsOf .sysInit (items.map plainItem) = _ from itemsOf_plain items .sysInit (by decide) (by decide)] at this
        · have := hinv.reads .envTrans (by decide) (by decide)
          rwa [show itemsOf .envTrans (items.map plainItem) = _ from itemsOf_plain items .envTrans (by decide) (by decide)] at this
        · have := hinv.reads .sysTrans (by decide) (by decide)
          rwa [show itemsOf .sysTrans (items.map plainItem) = _ from itemsOf_plain items .sysTrans (by decide) (by decide)] at this
        · have := hinv.reads .envLiveness (by decide) (by decide)
          rwa [show itemsOf .envLiveness (items.map plainItem) = _ from itemsOf_plain items .envLiveness (by decide) (by decide)] at this
        · have := hinv.reads .sysLiveness (by decide) (by decide)
          rwa [show itemsOf .sysLiveness (items.map plainItem) = _ from itemsOf_plain items .sysLiveness (by decide) (by decide)] at this
      · intro x hx
        rw [hinv.outputs, itemsOf_plain_output]
        simp only [fsItemsOf, List.mem_map, List.mem_filter, decide_eq_true_eq] at hx ⊢
        obtain ⟨p, ⟨h1, h2⟩, h3⟩ := hx
        exact ⟨p, ⟨h1, .inr h2⟩, h3⟩
    · cases h

theorem plainItem_split {items : List (FSSection × List Char)} {before after : List (Section × List Char)} {s : Section} {line : List Char}
    (h : items.map plainItem = before ++ (s, line) :: after) :
    ∃ before' s' after', items = before' ++ (s', line) :: after' ∧ before = before'.map plainItem ∧ s = s'.plain := by
  obtain ⟨l1, l2, rfl, h1, h2⟩ := List.map_eq_append_iff.mp h
  obtain ⟨⟨s', l⟩, l3, rfl, h3, h4⟩ := List.map_eq_cons_iff.mp h2
  simp only [plainItem, Prod.mk.injEq] at h3
  obtain ⟨rfl, rfl⟩ := h3
  exact ⟨l1, s', l3, rfl, h1.symm, rfl⟩

/-- Proper files are accepted. -/
theorem fsInit_complete {cap : Nat} (order : List Char → Bool) {text : List Char} (h : FSProperFile cap text) :
    ∃ r, fsInit (B := B) cap order text = .ok r := by
  obtain ⟨items, hc, hn, hall⟩ := h
  have hn' : (tableOf (declsOf (items.map plainItem))).names.Nodup := by
    refine (names_perm (declsOf (items.map plainItem)) (fun _ => [])).nodup_iff.mp ?_
    change (inputsOf (declsOf (items.map plainItem)) ++ outputsOf (declsOf (items.map plainItem)) ++
      (inputsOf (declsOf (items.map plainItem))).map prime ++ (outputsOf (declsOf (items.map plainItem))).map prime).Nodup
    rw [inputsOf_declsOf, outputsOf_declsOf, itemsOf_plain_output,
      show itemsOf .input (items.map plainItem) = _ from itemsOf_plain items .input (by decide) (by decide)]
    exact hn
  obtain ⟨c', h'⟩ := initItems_complete (B := B) (cap := cap) (order := order) hn' (by
    intro before s line after h h1 h2
    obtain ⟨before', s', after', h3, rfl, rfl⟩ := plainItem_split h
    have := hall before' s' line after' h3 (by rintro rfl; exact h1 rfl) (by rintro rfl; exact h2 rfl) (by rintro rfl; exact h2 rfl)
    rw [itemsOf_plain_output,
      show itemsOf .input (before'.map plainItem) = _ from itemsOf_plain before' .input (by decide) (by decide)]
    exact this) [] (items.map plainItem) (initStart (B := B)).ctx rfl
  have hco := fsItems_coarse (B := B) (cap := cap) (order := order) items (⟨[], []⟩, (initStart (B := B)).ctx) (by simp)
  have e : initItems cap order (coarseTab ⟨[], []⟩, (initStart (B := B)).ctx) (items.map plainItem) = _ := h'
  rw [e] at hco
  rw [fsInit_of_items hc]
  cases hi : fsItems (B := B) cap order (⟨[], []⟩, (initStart (B := B)).ctx) items with
  | err e => rw [hi] at hco; cases hco
  | ub => rw [hi] at hco; cases hco
  | stuck => rw [hi] at hco; cases hco
  | ok st =>
    obtain ⟨tab, c⟩ := st
    rw [hi] at hco
    simp only [coarseRes, Res.ok.injEq, Prod.mk.injEq] at hco
    have : tab.names.Nodup := by
      have := congrArg VarTable.names hco.1
      rw [← this] at hn'
      exact hn'
    simp only [if_pos this]
    exact ⟨_, rfl⟩

end Slugs.Model
