import Verif.Model.Estimator
import Verif.Lemmas.FastSlowInit

/-! The reader of `--computeIncompleteInformationEstimator`: what an accepted file denotes. -/

namespace Slugs.Model

open Slugs.Spec

variable {B : Type} [DecidableEq B] [L : BddLib B]

/-! ### Lines and items -/

/-- Processing one item. -/
def eItem (cap : Nat) (order : List Char → Bool) (st : VarTable × Ctx B) (p : ESection × List Char) :
    Res InitErr (VarTable × Ctx B) :=
  match p.1 with
  | .observable => .ok ((st.1.add .observablePre p.2).add .observablePost (p.2 ++ ['\'']), st.2)
  | .unobservable => .ok ((st.1.add .unobservablePre p.2).add .unobservablePost (p.2 ++ ['\'']), st.2)
  | .controllable => .ok ((st.1.add .controllablePre p.2).add .controllablePost (p.2 ++ ['\'']), st.2)
  | .output => .ok ((st.1.add .estimationPre p.2).add .estimationPost (p.2 ++ ['\'']), st.2)
  | m =>
    match parseFormula st.1 (eAllowedIn m) cap order p.2 with
    | .ok (some f) => .ok (st.1, addConstraint st.2 f m.plain)
    | .ok none => .ub
    | .err e => .err (.formula e)
    | .ub => .ub
    | .stuck => .stuck

def eItems (cap : Nat) (order : List Char → Bool) : VarTable × Ctx B → List (ESection × List Char) →
    Res InitErr (VarTable × Ctx B)
  | st, [] => .ok st
  | st, p :: ps =>
    match eItem cap order st p with
    | .ok st => eItems cap order st ps
    | .err e => .err e
    | .ub => .ub
    | .stuck => .stuck

def dropEMode : Res InitErr (EState B) → Res InitErr (VarTable × Ctx B)
  | .ok st => .ok (st.table, st.ctx)
  | .err e => .err e
  | .ub => .ub
  | .stuck => .stuck

theorem eSectionOf_iff {l : List Char} {s : ESection} : eSectionOf l = some s ↔ l = s.header := by
  constructor
  · intro h
    simp only [eSectionOf] at h
    repeat' split at h
    all_goals first | (cases h; done) | (cases h; assumption)
  · rintro rfl; cases s <;> decide

theorem eHeader_head (s : ESection) : s.header ≠ [] ∧ s.header.head? = some '[' := by cases s <;> decide

theorem eLine_skip {cap : Nat} {order : List Char → Bool} (st : EState B) {l : List Char}
    (h : l = [] ∨ l.head? = some '#') : eLine cap order st l = .ok st := by
  cases l with
  | nil => rfl
  | cons c l =>
    simp only [reduceCtorEq, List.head?_cons, Option.some.injEq, false_or] at h
    simp [eLine, h]

theorem eLine_header {cap : Nat} {order : List Char → Bool} (st : EState B) (s : ESection) :
    eLine cap order st s.header = .ok { st with mode := some s } := by
  cases s <;> rfl

theorem eLine_item {cap : Nat} {order : List Char → Bool} (st : EState B) {s : ESection} {l : List Char}
    (hm : st.mode = some s) (h0 : l ≠ []) (h1 : l.head? ≠ some '#') (h2 : l.head? ≠ some '[') :
    dropEMode (eLine cap order st l) = eItem cap order (st.table, st.ctx) (s, l) ∧
    ∀ st', eLine cap order st l = .ok st' → st'.mode = st.mode := by
  cases l with
  | nil => exact absurd rfl h0
  | cons c l =>
    simp only [List.head?_cons, ne_eq, Option.some.injEq] at h1 h2
    simp only [eLine, h1, h2, if_false, hm, eItem]
    cases s
    case observable => exact ⟨rfl, by rintro _ ⟨⟩; rfl⟩
    case unobservable => exact ⟨rfl, by rintro _ ⟨⟩; rfl⟩
    case controllable => exact ⟨rfl, by rintro _ ⟨⟩; rfl⟩
    case output => exact ⟨rfl, by rintro _ ⟨⟩; rfl⟩
    all_goals
      dsimp only
      generalize parseFormula (B := B) _ _ _ _ _ = r
      rcases r with (_ | f) | e | _ | _
      all_goals exact ⟨rfl, by rintro _ ⟨⟩ <;> rfl⟩

theorem eLines_items {cap : Nat} {order : List Char → Bool} : ∀ (ls : List (List Char)) (st : EState B)
    (items : List (ESection × List Char)), EContent st.mode ls items →
    dropEMode (eLines cap order st ls) = eItems cap order (st.table, st.ctx) items := by
  intro ls
  induction ls with
  | nil =>
    intro st items h
    generalize st.mode = cur at h
    cases h; rfl
  | cons l ls ih =>
    intro st items h
    rw [eLines]
    generalize hcur : st.mode = cur at h
    cases h with
    | skip h1 h2 => rw [eLine_skip st h1]; exact ih st items (hcur ▸ h2)
    | header s h1 h2 => rw [h1, eLine_header st s]; exact ih { st with mode := some s } items h2
    | @item s _ _ items' h0 h1 h2 h3 =>
      obtain ⟨e1, e2⟩ := eLine_item (cap := cap) (order := order) st hcur h0 h1 h2
      rw [eItems]
      cases hl : eLine cap order st (trim l) with
      | ok st' =>
        rw [hl] at e1
        simp only [dropEMode] at e1
        rw [← e1]
        exact ih st' items' (by rw [e2 st' hl, hcur]; exact h3)
      | err e => rw [hl] at e1; simp only [dropEMode] at e1 ⊢; rw [← e1]
      | ub => rw [hl] at e1; simp only [dropEMode] at e1 ⊢; rw [← e1]
      | stuck => rw [hl] at e1; simp only [dropEMode] at e1 ⊢; rw [← e1]

theorem eLines_content {cap : Nat} {order : List Char → Bool} : ∀ (ls : List (List Char)) (st st' : EState B),
    eLines cap order st ls = .ok st' → ∃ items, EContent st.mode ls items := by
  intro ls
  induction ls with
  | nil => intro st st' h; exact ⟨[], .nil⟩
  | cons l ls ih =>
    intro st st' h
    rw [eLines] at h
    by_cases h0 : trim l = [] ∨ (trim l).head? = some '#'
    · rw [eLine_skip st h0] at h
      obtain ⟨items, hc⟩ := ih st st' h
      exact ⟨items, .skip h0 hc⟩
    · simp only [not_or] at h0
      by_cases hb : (trim l).head? = some '['
      · cases hs : eSectionOf (trim l) with
        | some s =>
          have := eSectionOf_iff.mp hs
          rw [this, eLine_header] at h
          obtain ⟨items, hc⟩ := ih _ st' h
          exact ⟨items, .header s this hc⟩
        | none =>
          exfalso
          generalize hl : trim l = t at *
          cases t with
          | nil => exact h0.1 rfl
          | cons c t =>
            simp only [List.head?_cons, Option.some.injEq] at hb
            subst hb
            rw [eLine] at h
            simp only [Char.reduceEq, if_false, if_true, hs] at h
            cases h
      · cases hm : st.mode with
        | none =>
          exfalso
          generalize hl : trim l = t at *
          cases t with
          | nil => exact h0.1 rfl
          | cons c t =>
            simp only [List.head?_cons, Option.some.injEq] at hb h0
            rw [eLine] at h
            simp only [h0.2, hb, if_false, hm] at h
            cases h
        | some s =>
          obtain ⟨e1, e2⟩ := eLine_item (cap := cap) (order := order) st hm h0.1 h0.2 hb
          cases hl : eLine cap order st (trim l) with
          | ok st1 =>
            rw [hl] at h
            obtain ⟨items, hc⟩ := ih st1 st' h
            rw [e2 st1 hl, hm] at hc
            exact ⟨_, .item h0.1 h0.2 hb hc⟩
          | err e => rw [hl] at h; cases h
          | ub => rw [hl] at h; cases h
          | stuck => rw [hl] at h; cases h

theorem EContent.det {cur ls items items'} (h : EContent cur ls items) (h' : EContent cur ls items') : items = items' := by
  induction h generalizing items' with
  | nil => cases h'; rfl
  | skip h1 _ ih =>
    cases h' with
    | skip _ h2 => exact ih h2
    | header s h2 _ =>
      exfalso; rw [h2] at h1
      have := eHeader_head s
      rcases h1 with h1 | h1
      · exact this.1 h1
      · rw [this.2] at h1; cases h1
    | item h2 h3 _ _ => exact absurd h1 (by simp [h2, h3])
  | header s h1 _ ih =>
    have hs := eHeader_head s
    cases h' with
    | skip h2 _ =>
      exfalso; rw [h1] at h2
      rcases h2 with h2 | h2
      · exact hs.1 h2
      · rw [hs.2] at h2; cases h2
    | header s' h2 h3 =>
      have : some s = some s' := by rw [← eSectionOf_iff.mpr h1, eSectionOf_iff.mpr h2]
      cases this
      exact ih h3
    | item _ _ h2 _ => rw [h1] at h2; exact absurd hs.2 h2
  | item h0 h1 h2 _ ih =>
    cases h' with
    | skip h3 _ => exact absurd h3 (by simp [h0, h1])
    | header s' h3 _ => rw [h3] at h2; exact absurd (eHeader_head s').2 h2
    | item _ _ _ h3 => rw [ih h3]

/-! ### Forgetting which inputs are observable -/

def eCoarse : VarType → VarType
  | .observablePre => .preInput
  | .unobservablePre => .preInput
  | .controllablePre => .preInput
  | .estimationPre => .preOutput
  | .observablePost => .postInput
  | .unobservablePost => .postInput
  | .controllablePost => .postInput
  | .estimationPost => .postOutput
  | t => t

def eCoarseTab (t : VarTable) : VarTable := ⟨t.names, t.types.map eCoarse⟩

def ETy (t : VarType) : Prop :=
  t ∈ [VarType.observablePre, .observablePost, .unobservablePre, .unobservablePost, .controllablePre, .controllablePost, .estimationPre, .estimationPost]

theorem lookupVar_eCoarse (word : List Char) (al al' : List VarType) (rest : List Char) :
    ∀ (ns : List Name) (ts : List VarType) (i : Nat), (∀ t ∈ ts, al'.contains t = al.contains (eCoarse t)) →
    lookupVar (B := B) word al' rest i ns ts = lookupVar (B := B) word al rest i ns (ts.map eCoarse) := by
  intro ns
  induction ns with
  | nil => intro ts i _; simp [lookupVar]
  | cons n ns ih =>
    intro ts i h
    cases ts with
    | nil => simp [lookupVar]
    | cons t ts =>
      simp only [List.map_cons, lookupVar]
      rw [ih ts (i + 1) fun t ht => h t (by simp [ht]), h t (by simp)]

theorem parseFormula_eCoarse {tab : VarTable} {al al' : List VarType} (cap : Nat) (order : List Char → Bool) (line : List Char)
    (h : ∀ t ∈ tab.types, al'.contains t = al.contains (eCoarse t)) :
    parseFormula (B := B) tab al' cap order line = parseFormula (B := B) (eCoarseTab tab) al cap order line := by
  rw [parseFormula, parseFormula, parseRec_congr (tab := eCoarseTab tab) (al := al) cap order
    fun word rest => lookupVar_eCoarse word al al' rest _ _ 0 h]

theorem allowed_eCoarse (m : ESection) {t : VarType} (ht : ETy t) : (eAllowedIn m).contains t = (allowedIn m.plain).contains (eCoarse t) := by
  have h : ∀ t ∈ [VarType.observablePre, .observablePost, .unobservablePre, .unobservablePost, .controllablePre, .controllablePost, .estimationPre, .estimationPost],
      (eAllowedIn m).contains t = (allowedIn m.plain).contains (eCoarse t) := by
    cases m <;> decide
  exact h t ht

def eCoarseRes : Res InitErr (VarTable × Ctx B) → Res InitErr (VarTable × Ctx B)
  | .ok (t, c) => .ok (eCoarseTab t, c)
  | .err e => .err e
  | .ub => .ub
  | .stuck => .stuck

def ePlainItem (p : ESection × List Char) : Section × List Char := (p.1.plain, p.2)

theorem eItem_coarse {cap : Nat} {order : List Char → Bool} (st : VarTable × Ctx B) (hst : ∀ t ∈ st.1.types, ETy t)
    (p : ESection × List Char) :
    eCoarseRes (eItem cap order st p) = initItem cap order (eCoarseTab st.1, st.2) (ePlainItem p) ∧
    ∀ st', eItem cap order st p = .ok st' → ∀ t ∈ st'.1.types, ETy t := by
  obtain ⟨tab, c⟩ := st
  obtain ⟨s, l⟩ := p
  have hadd : ∀ a b x y, ETy a → ETy b → ∀ t ∈ ((tab.add a x).add b y).types, ETy t := by
    intro a b x y ha hb t ht
    simp only [VarTable.add, List.append_assoc, List.mem_append, List.mem_cons, List.not_mem_nil, or_false] at ht
    rcases ht with ht | rfl | rfl
    · exact hst t ht
    · exact ha
    · exact hb
  cases s
  case observable =>
    refine ⟨?_, ?_⟩
    · simp [eItem, initItem, eCoarseRes, ePlainItem, ESection.plain, eCoarseTab, VarTable.add, eCoarse]
    · rintro _ ⟨⟩; exact hadd _ _ _ _ (by simp [ETy]) (by simp [ETy])
  case unobservable =>
    refine ⟨?_, ?_⟩
    · simp [eItem, initItem, eCoarseRes, ePlainItem, ESection.plain, eCoarseTab, VarTable.add, eCoarse]
    · rintro _ ⟨⟩; exact hadd _ _ _ _ (by simp [ETy]) (by simp [ETy])
  case controllable =>
    refine ⟨?_, ?_⟩
    · simp [eItem, initItem, eCoarseRes, ePlainItem, ESection.plain, eCoarseTab, VarTable.add, eCoarse]
    · rintro _ ⟨⟩; exact hadd _ _ _ _ (by simp [ETy]) (by simp [ETy])
  case output =>
    refine ⟨?_, ?_⟩
    · simp [eItem, initItem, eCoarseRes, ePlainItem, ESection.plain, eCoarseTab, VarTable.add, eCoarse]
    · rintro _ ⟨⟩; exact hadd _ _ _ _ (by simp [ETy]) (by simp [ETy])
  all_goals
    simp only [eItem, initItem, ePlainItem, ESection.plain]
    rw [parseFormula_eCoarse cap order l fun t ht => allowed_eCoarse _ (hst t ht)]
    simp only [ESection.plain]
    generalize parseFormula (B := B) _ _ _ _ _ = r
    rcases r with (_ | f) | e | _ | _
    all_goals exact ⟨rfl, by rintro _ ⟨⟩ <;> exact hst⟩

theorem eItems_coarse {cap : Nat} {order : List Char → Bool} : ∀ (ps : List (ESection × List Char)) (st : VarTable × Ctx B),
    (∀ t ∈ st.1.types, ETy t) →
    eCoarseRes (eItems cap order st ps) = initItems cap order (eCoarseTab st.1, st.2) (ps.map ePlainItem) := by
  intro ps
  induction ps with
  | nil => intro st _; rfl
  | cons p ps ih =>
    intro st hst
    obtain ⟨h1, h2⟩ := eItem_coarse (cap := cap) (order := order) st hst p
    rw [eItems, List.map_cons, initItems, ← h1]
    cases hp : eItem cap order st p with
    | ok st' => exact ih st' (h2 st' hp)
    | err e => rfl
    | ub => rfl
    | stuck => rfl

/-! ### The table -/

/-- The entries that an item adds to the table. -/
def eEntry (p : ESection × List Char) : List (Name × VarType) :=
  match p.1 with
  | .observable => [(p.2, .observablePre), (prime p.2, .observablePost)]
  | .unobservable => [(p.2, .unobservablePre), (prime p.2, .unobservablePost)]
  | .controllable => [(p.2, .controllablePre), (prime p.2, .controllablePost)]
  | .output => [(p.2, .estimationPre), (prime p.2, .estimationPost)]
  | _ => []

theorem eItem_table {cap : Nat} {order : List Char → Bool} {st st' : VarTable × Ctx B} {p : ESection × List Char}
    (h : eItem cap order st p = .ok st') :
    st'.1 = ⟨st.1.names ++ (eEntry p).map Prod.fst, st.1.types ++ (eEntry p).map Prod.snd⟩ := by
  obtain ⟨s, l⟩ := p
  cases s
  case observable => cases h; simp [VarTable.add, eEntry, prime]
  case unobservable => cases h; simp [VarTable.add, eEntry, prime]
  case controllable => cases h; simp [VarTable.add, eEntry, prime]
  case output => cases h; simp [VarTable.add, eEntry, prime]
  all_goals
    simp only [eItem] at h
    split at h
    · cases h; simp [eEntry]
    all_goals cases h

theorem eItems_table {cap : Nat} {order : List Char → Bool} : ∀ (ps : List (ESection × List Char)) (st st' : VarTable × Ctx B),
    eItems cap order st ps = .ok st' →
    st'.1 = ⟨st.1.names ++ (ps.flatMap eEntry).map Prod.fst, st.1.types ++ (ps.flatMap eEntry).map Prod.snd⟩ := by
  intro ps
  induction ps with
  | nil => intro st st' h; cases h; simp
  | cons p ps ih =>
    intro st st' h
    rw [eItems] at h
    cases hp : eItem cap order st p with
    | err e => simp [hp] at h
    | ub => simp [hp] at h
    | stuck => simp [hp] at h
    | ok st1 =>
      simp only [hp] at h
      rw [ih st1 st' h, eItem_table hp]
      simp

/-- The type of a table entry when the inputs in `U` cannot be observed and the inputs in `C` can be controlled. -/
def eType (U C : Name → Bool) (e : Name × VarType) : VarType :=
  match e.2 with
  | .preInput => if U e.1 then .unobservablePre else if C e.1 then .controllablePre else .observablePre
  | .postInput => if U e.1.dropLast then .unobservablePost else if C e.1.dropLast then .controllablePost else .observablePost
  | .preOutput => .estimationPre
  | .postOutput => .estimationPost
  | t => t

def eTypes (ds : Decls) (U C : Name → Bool) : List VarType := (entriesOf ds).map (eType U C)

theorem mem_eItemsOf {items : List (ESection × List Char)} {s : ESection} {l : List Char} : l ∈ eItemsOf s items ↔ (s, l) ∈ items := by
  simp only [eItemsOf, List.mem_map, List.mem_filter, decide_eq_true_eq]
  constructor
  · rintro ⟨⟨s', l'⟩, ⟨h1, h2⟩, h3⟩
    simp only at h2 h3
    rw [← h2, ← h3]; exact h1
  · intro h; exact ⟨_, ⟨h, rfl⟩, rfl⟩

theorem eEntry_disjoint {items : List (ESection × List Char)} (hn : ((items.flatMap eEntry).map Prod.fst).Nodup) {s s' : ESection} {l : List Char}
    {t t' : VarType} (h : (s, l) ∈ items) (h' : (s', l) ∈ items) (ht : (l, t) ∈ eEntry (s, l)) (ht' : (l, t') ∈ eEntry (s', l)) : t = t' := by
  have h1 : (l, t) ∈ items.flatMap eEntry := List.mem_flatMap.mpr ⟨_, h, ht⟩
  have h2 : (l, t') ∈ items.flatMap eEntry := List.mem_flatMap.mpr ⟨_, h', ht'⟩
  have := List.inj_on_of_nodup_map hn h1 h2 rfl
  exact congrArg Prod.snd this

theorem eEntry_type {items : List (ESection × List Char)} (hn : ((items.flatMap eEntry).map Prod.fst).Nodup)
    {e : Name × VarType} (he : e ∈ items.flatMap eEntry) :
    eType (fun x => decide (x ∈ eItemsOf .unobservable items)) (fun x => decide (x ∈ eItemsOf .controllable items)) (e.1, eCoarse e.2) = e.2 := by
  obtain ⟨⟨s, l⟩, hp, he'⟩ := List.mem_flatMap.mp he
  cases s
  case observable =>
    have h1 : ¬ l ∈ eItemsOf .unobservable items := fun hm => by
      cases eEntry_disjoint hn hp (mem_eItemsOf.mp hm) (t := .observablePre) (t' := .unobservablePre) (by simp [eEntry]) (by simp [eEntry])
    have h2 : ¬ l ∈ eItemsOf .controllable items := fun hm => by
      cases eEntry_disjoint hn hp (mem_eItemsOf.mp hm) (t := .observablePre) (t' := .controllablePre) (by simp [eEntry]) (by simp [eEntry])
    simp only [eEntry, List.mem_cons, List.not_mem_nil, or_false] at he'
    rcases he' with rfl | rfl <;> simp [eType, eCoarse, h1, h2, prime]
  case unobservable =>
    have h1 := mem_eItemsOf.mpr hp
    simp only [eEntry, List.mem_cons, List.not_mem_nil, or_false] at he'
    rcases he' with rfl | rfl <;> simp [eType, eCoarse, h1, prime]
  case controllable =>
    have h1 : ¬ l ∈ eItemsOf .unobservable items := fun hm => by
      cases eEntry_disjoint hn hp (mem_eItemsOf.mp hm) (t := .controllablePre) (t' := .unobservablePre) (by simp [eEntry]) (by simp [eEntry])
    have h2 := mem_eItemsOf.mpr hp
    simp only [eEntry, List.mem_cons, List.not_mem_nil, or_false] at he'
    rcases he' with rfl | rfl <;> simp [eType, eCoarse, h1, h2, prime]
  case output =>
    simp only [eEntry, List.mem_cons, List.not_mem_nil, or_false] at he'
    rcases he' with rfl | rfl <;> rfl
  all_goals simp [eEntry] at he'

/-! ### Accepted files -/

theorem eInit_of_items {cap : Nat} {order : List Char → Bool} {text : List Char}
    {items : List (ESection × List Char)} (hc : EContent none (splitLines text) items) :
    eInit (B := B) cap order text =
      match eItems (B := B) cap order (⟨[], []⟩, (initStart (B := B)).ctx) items with
      | .ok (tab, c) => if tab.names.Nodup then .ok (tab, c) else .err .duplicateNames
      | .err e => .err e
      | .ub => .ub
      | .stuck => .stuck := by
  have h := eLines_items (B := B) (cap := cap) (order := order) (splitLines text)
    { table := (initStart (B := B)).table, ctx := (initStart (B := B)).ctx, mode := none } items hc
  change _ = eItems (B := B) cap order (⟨[], []⟩, (initStart (B := B)).ctx) items at h
  rw [← h, eInit]
  cases eLines (B := B) cap order _ (splitLines text) <;> rfl

theorem itemsOf_ePlain (items : List (ESection × List Char)) (s : ESection) (h1 : s ≠ .observable) (h2 : s ≠ .unobservable) (h3 : s ≠ .controllable) :
    itemsOf s.plain (items.map ePlainItem) = eItemsOf s items := by
  induction items with
  | nil => rfl
  | cons p items ih =>
    obtain ⟨s', l⟩ := p
    simp only [itemsOf, eItemsOf] at ih ⊢
    cases s <;> first | contradiction | (cases s' <;> simp_all [ePlainItem, ESection.plain])

theorem itemsOf_ePlain_input (items : List (ESection × List Char)) : itemsOf .input (items.map ePlainItem) = eInputs items := by
  induction items with
  | nil => rfl
  | cons p items ih =>
    obtain ⟨s', l⟩ := p
    simp only [itemsOf, eInputs] at ih ⊢
    cases s' <;> simp_all [ePlainItem, ESection.plain]

theorem itemsOf_ePlain_live (items : List (ESection × List Char)) :
    itemsOf .envLiveness (items.map ePlainItem) = [] ∧ itemsOf .sysLiveness (items.map ePlainItem) = [] := by
  have key : ∀ s : ESection, s.plain ≠ .envLiveness ∧ s.plain ≠ .sysLiveness := by intro s; cases s <;> decide
  constructor
  · simp only [itemsOf, List.map_eq_nil_iff, List.filter_eq_nil_iff, decide_eq_true_eq]
    intro a ha h
    obtain ⟨p, -, rfl⟩ := List.mem_map.mp ha
    exact (key p.1).1 h
  · simp only [itemsOf, List.map_eq_nil_iff, List.filter_eq_nil_iff, decide_eq_true_eq]
    intro a ha h
    obtain ⟨p, -, rfl⟩ := List.mem_map.mp ha
    exact (key p.1).2 h

theorem EDenotes.det {text : List Char} {sp sp' : SpecFile} {unobs unobs' ctrl ctrl' : List Word} (h : EDenotes text sp unobs ctrl)
    (h' : EDenotes text sp' unobs' ctrl') : sp = sp' ∧ unobs = unobs' ∧ ctrl = ctrl' := by
  obtain ⟨items, hc, h1, h2, h0, h9, h3, h4, h5, h6, h7, h8⟩ := h
  obtain ⟨items', hc', h1', h2', h0', h9', h3', h4', h5', h6', h7', h8'⟩ := h'
  have := EContent.det hc hc'
  subst this
  cases sp; cases sp'
  simp only at *
  have u := @forall₂_unique _ _ ReadsLine fun _ _ _ => ReadsLine.det
  rw [h1, h1', h2, h2', u h3 h3', u h4 h4', u h5 h5', u h6 h6', h7, h7', h8, h8', h0, h0', h9, h9']
  exact ⟨rfl, rfl, rfl⟩

/-- Everything about an accepted file. -/
theorem eInit_ok {cap : Nat} {order : List Char → Bool} {text : List Char} {tab : VarTable} {c : Ctx B}
    (h : eInit cap order text = .ok (tab, c)) :
    ∃ (ds : Decls) (F : Section → List Fml) (unobs ctrl : List Word) (hn : (tableOf ds).names.Nodup),
      tab = ⟨(tableOf ds).names, eTypes ds (fun x => decide (x ∈ unobs)) (fun x => decide (x ∈ ctrl))⟩ ∧
      EDenotes text (specOf ds F) unobs ctrl ∧ (∀ x ∈ unobs, x ∉ ctrl) ∧
      { c with
        livenessAssumptions := if c.livenessAssumptions = [] then [L.tt] else c.livenessAssumptions
        livenessGuarantees := if c.livenessGuarantees = [] then [L.tt] else c.livenessGuarantees } =
        (gameCtx (padGame (specOf ds F).game)).map ((tableLayout ds hn).enc B) := by
  have hcont : ∃ items, EContent none (splitLines text) items := by
    rw [eInit] at h
    cases hl : eLines (B := B) cap order { table := (initStart (B := B)).table, ctx := (initStart (B := B)).ctx, mode := none }
        (splitLines text) with
    | err e => simp [hl] at h
    | ub => simp [hl] at h
    | stuck => simp [hl] at h
    | ok st => exact eLines_content _ _ _ hl
  obtain ⟨items, hc⟩ := hcont
  rw [eInit_of_items hc] at h
  cases hi : eItems (B := B) cap order (⟨[], []⟩, (initStart (B := B)).ctx) items with
  | err e => rw [hi] at h; cases h
  | ub => rw [hi] at h; cases h
  | stuck => rw [hi] at h; cases h
  | ok st =>
    obtain ⟨tab', c0⟩ := st
    rw [hi] at h
    simp only at h
    split at h
    · rename_i hn
      simp only [Res.ok.injEq, Prod.mk.injEq] at h
      obtain ⟨rfl, rfl⟩ := h
      have hco := eItems_coarse (B := B) (cap := cap) (order := order) items (⟨[], []⟩, (initStart (B := B)).ctx) (by simp)
      rw [hi] at hco
      obtain ⟨ds, F, hinv⟩ := initItems_inv _ _ _ _ _ _ ItemsInv.start hco.symm
      rw [List.nil_append] at hinv
      have htab := eItems_table _ _ _ hi
      simp only [List.nil_append] at htab
      have ht : eCoarseTab tab' = tableOf ds := hinv.table
      have hn' : (tableOf ds).names.Nodup := by rw [← ht]; exact hn
      have hent : entriesOf ds = (items.flatMap eEntry).map fun e => (e.1, eCoarse e.2) := by
        have h1 : (entriesOf ds).map Prod.fst = (items.flatMap eEntry).map Prod.fst := by
          have := congrArg VarTable.names ht
          rw [htab] at this
          exact this.symm
        have h2 : (entriesOf ds).map Prod.snd = ((items.flatMap eEntry).map Prod.snd).map eCoarse := by
          have := congrArg VarTable.types ht
          rw [htab] at this
          exact this.symm
        have e := List.zip_of_prod h1 h2
        rw [e]
        rw [List.map_map, List.zip_map, List.zip_eq_zipWith]
        simp [List.zipWith_self, Function.comp_def]
      rw [htab] at hn
      obtain ⟨hl1, hl2⟩ := itemsOf_ePlain_live items
      refine ⟨ds, F, eItemsOf .unobservable items, eItemsOf .controllable items, hn', ?_, ?_, ?_, ctx_eq hinv hn'⟩
      · have h1 : (tableOf ds).names = (items.flatMap eEntry).map Prod.fst := by
          rw [← ht, htab]; rfl
        have h2 : eTypes ds (fun x => decide (x ∈ eItemsOf .unobservable items)) (fun x => decide (x ∈ eItemsOf .controllable items)) =
            (items.flatMap eEntry).map Prod.snd := by
          rw [eTypes, hent, List.map_map]
          exact List.map_congr_left fun e he => eEntry_type hn he
        rw [h1, h2, htab]
      · refine ⟨items, hc, ?_, ?_, rfl, rfl, ?_, ?_, ?_, ?_, ?_, ?_⟩
        · exact hinv.inputs.trans (itemsOf_ePlain_input items)
        · exact hinv.outputs.trans (itemsOf_ePlain items .output (by decide) (by decide) (by decide))
        · have := hinv.reads .envInit (by decide) (by decide)
          rwa [show itemsOf .envInit (items.map ePlainItem) = _ from itemsOf_ePlain items .envInit (by decide) (by decide) (by decide)] at this
        · have := hinv.reads .sysInit (by decide) (by decide)
          rwa [show itemsOf .sysInit (items.map ePlainItem) = _ from itemsOf_ePlain items .sysInit (by decide) (by decide) (by decide)] at this
        · have := hinv.reads .envTrans (by decide) (by decide)
          rwa [show itemsOf .envTrans (items.map ePlainItem) = _ from itemsOf_ePlain items .envTrans (by decide) (by decide) (by decide)] at this
        · have := hinv.reads .sysTrans (by decide) (by decide)
          rwa [show itemsOf .sysTrans (items.map ePlainItem) = _ from itemsOf_ePlain items .sysTrans (by decide) (by decide) (by decide)] at this
        · have := hinv.reads .envLiveness (by decide) (by decide)
          rw [hl1] at this
          exact List.forall₂_nil_left_iff.mp this
        · have := hinv.reads .sysLiveness (by decide) (by decide)
          rw [hl2] at this
          exact List.forall₂_nil_left_iff.mp this
      · intro x hx hx'
        cases eEntry_disjoint hn (mem_eItemsOf.mp hx) (mem_eItemsOf.mp hx') (t := .unobservablePre) (t' := .controllablePre) (by simp [eEntry])
          (by simp [eEntry])
    · cases h

theorem ePlainItem_split {items : List (ESection × List Char)} {before after : List (Section × List Char)} {s : Section} {line : List Char}
    (h : items.map ePlainItem = before ++ (s, line) :: after) :
    ∃ before' s' after', items = before' ++ (s', line) :: after' ∧ before = before'.map ePlainItem ∧ s = s'.plain := by
  obtain ⟨l1, l2, rfl, h1, h2⟩ := List.map_eq_append_iff.mp h
  obtain ⟨⟨s', l⟩, l3, rfl, h3, h4⟩ := List.map_eq_cons_iff.mp h2
  simp only [ePlainItem, Prod.mk.injEq] at h3
  obtain ⟨rfl, rfl⟩ := h3
  exact ⟨l1, s', l3, rfl, h1.symm, rfl⟩

/-- Proper files are accepted. -/
theorem eInit_complete {cap : Nat} (order : List Char → Bool) {text : List Char} (h : EProperFile cap text) :
    ∃ r, eInit (B := B) cap order text = .ok r := by
  obtain ⟨items, hc, hn, hall⟩ := h
  have ho : ∀ items : List (ESection × List Char), itemsOf .output (items.map ePlainItem) = eItemsOf .output items :=
    fun items => itemsOf_ePlain items .output (by decide) (by decide) (by decide)
  have hn' : (tableOf (declsOf (items.map ePlainItem))).names.Nodup := by
    refine (names_perm (declsOf (items.map ePlainItem)) (fun _ => [])).nodup_iff.mp ?_
    change (inputsOf (declsOf (items.map ePlainItem)) ++ outputsOf (declsOf (items.map ePlainItem)) ++
      (inputsOf (declsOf (items.map ePlainItem))).map prime ++ (outputsOf (declsOf (items.map ePlainItem))).map prime).Nodup
    rw [inputsOf_declsOf, outputsOf_declsOf, itemsOf_ePlain_input, ho]
    exact hn
  obtain ⟨c', h'⟩ := initItems_complete (B := B) (cap := cap) (order := order) hn' (by
    intro before s line after h h1 h2
    obtain ⟨before', s', after', h3, rfl, rfl⟩ := ePlainItem_split h
    have := hall before' s' line after' h3 (by rintro rfl; exact h1 rfl) (by rintro rfl; exact h1 rfl) (by rintro rfl; exact h1 rfl)
      (by rintro rfl; exact h2 rfl)
    rw [itemsOf_ePlain_input, ho]
    exact this) [] (items.map ePlainItem) (initStart (B := B)).ctx rfl
  have hco := eItems_coarse (B := B) (cap := cap) (order := order) items (⟨[], []⟩, (initStart (B := B)).ctx) (by simp)
  have e : initItems cap order (eCoarseTab ⟨[], []⟩, (initStart (B := B)).ctx) (items.map ePlainItem) = _ := h'
  rw [e] at hco
  rw [eInit_of_items hc]
  cases hi : eItems (B := B) cap order (⟨[], []⟩, (initStart (B := B)).ctx) items with
  | err e => rw [hi] at hco; cases hco
  | ub => rw [hi] at hco; cases hco
  | stuck => rw [hi] at hco; cases hco
  | ok st =>
    obtain ⟨tab, c⟩ := st
    rw [hi] at hco
    simp only [eCoarseRes, Res.ok.injEq, Prod.mk.injEq] at hco
    have : tab.names.Nodup := by
      have := congrArg VarTable.names hco.1
      rw [← this] at hn'
      exact hn'
    simp only [if_pos this]
    exact ⟨_, rfl⟩

end Slugs.Model
