import Verif.Lemmas.MotionParse
import Verif.Lemmas.TextGame
import Verif.Lemmas.InterleaveText

/-! The variable table of `--nonDeterministicMotion`. -/

namespace Slugs.Model

open Slugs.Spec

/-! ### Types -/

/-- The type of a table entry when the outputs in `P` are motion state outputs. -/
def mType (P : Name → Bool) (e : Name × VarType) : VarType :=
  match e.2 with
  | .preOutput => if P e.1 then .preMotionState else .preMotionControlOutput
  | .postOutput => if P e.1.dropLast then .postMotionState else .postMotionControlOutput
  | t => t

def mTypes (ds : Decls) (P : Name → Bool) : List VarType := (entriesOf ds).map (mType P)

def mTab (ds : Decls) (P : Name → Bool) : VarTable := ⟨(tableOf ds).names, mTypes ds P⟩

theorem mem_varsOfType_m {ds : Decls} (hn : (tableOf ds).names.Nodup) (P : Name → Bool) {ty : VarType} {k : Nat} :
    k ∈ varsOfType (mTypes ds P) ty ↔ ∃ z : DSlot ds, slotCode z = k ∧ ty ∈ (mType P (slotEntry z)).closure := by
  simp only [varsOfType, List.mem_filter, List.mem_range]
  constructor
  · rintro ⟨hk, h⟩
    have hk' : k < (entriesOf ds).length := by simpa [mTypes] using hk
    obtain ⟨z, hz⟩ := mem_entriesOf.mp (List.getElem_mem hk')
    refine ⟨z, (getElem_slotCode hn).mp (by rw [List.getElem?_eq_getElem hk', hz]), ?_⟩
    simp only [mTypes, List.getElem?_map, List.getElem?_eq_getElem hk', Option.map_some, ← hz] at h
    simpa using h
  · rintro ⟨z, hz, ht⟩
    have h := (getElem_slotCode hn).mpr hz
    have hk' : k < (entriesOf ds).length := by
      by_contra hk; rw [List.getElem?_eq_none (by omega)] at h; cases h
    refine ⟨by simpa [mTypes] using hk', ?_⟩
    simp only [mTypes, List.getElem?_map, h, Option.map_some]
    simpa using ht

theorem varsOfType_m (ds : Decls) (P : Name → Bool) {ty : VarType} (h : ty ∈ [VarType.preInput, .preOutput, .postInput, .postOutput]) :
    varsOfType (mTypes ds P) ty = varsOfType (tableOf ds).types ty := by
  have hl : (mTypes ds P).length = (tableOf ds).types.length := by simp [mTypes, tableOf]
  simp only [varsOfType, hl]
  refine List.filter_congr fun k _ => ?_
  simp only [mTypes, tableOf, List.getElem?_map]
  cases he : (entriesOf ds)[k]? with
  | none => rfl
  | some e =>
    obtain ⟨z, rfl⟩ := mem_entriesOf.mp (List.mem_of_getElem? he)
    simp only [Option.map_some]
    have key : ∀ (Q R : Bool) (t : VarType), t ∈ [VarType.preInput, .preOutput, .postInput, .postOutput] →
        ∀ ty ∈ [VarType.preInput, .preOutput, .postInput, .postOutput],
        ((match t with
          | .preOutput => if Q then .preMotionState else .preMotionControlOutput
          | .postOutput => if R then .postMotionState else .postMotionControlOutput
          | t => t : VarType).closure.contains ty) = t.closure.contains ty := by decide
    refine key _ _ _ ?_ ty h
    rcases z with z | z | z | z <;> simp [slotEntry]

theorem bddMgr_m (B : Type) [DecidableEq B] [BddLib B] (ds : Decls) (P : Name → Bool) : bddMgr B (mTypes ds P) = bddMgr B (tableOf ds).types := by
  have h1 := varsOfType_m ds P (ty := .preInput) (by decide)
  have h2 := varsOfType_m ds P (ty := .preOutput) (by decide)
  have h3 := varsOfType_m ds P (ty := .postInput) (by decide)
  have h4 := varsOfType_m ds P (ty := .postOutput) (by decide)
  simp only [bddMgr, varsOfTypes, List.flatMap_cons, List.flatMap_nil, h1, h2, h3, h4]

theorem mType_slot {ds : Decls} (P : Name → Bool) (z : DSlot ds) : mType P (slotEntry z) =
    match z with
    | .ci _ => .preInput
    | .ni _ => .postInput
    | .co x => if P x.1 then .preMotionState else .preMotionControlOutput
    | .no x => if P x.1 then .postMotionState else .postMotionControlOutput := by
  rcases z with z | z | z | z
  · rfl
  · rfl
  · rfl
  · have e : (prime z.1).dropLast = z.1 := by simp [prime]
    simp [mType, slotEntry, e]

theorem mem_motionPre {ds : Decls} (hn : (tableOf ds).names.Nodup) (P : Name → Bool) (k : Nat) :
    k ∈ varsOfType (mTypes ds P) .preMotionState ↔ ∃ z : DSlot ds, (∃ x, P x.1 = true ∧ z = .co x) ∧ slotCode z = k := by
  rw [mem_varsOfType_m hn]
  constructor
  · rintro ⟨z, h, h'⟩
    rw [mType_slot] at h'
    rcases z with z | z | z | z
    · exact absurd h' (by dsimp only; decide)
    · refine ⟨_, ⟨z, ?_, rfl⟩, h⟩
      by_contra hP
      simp only [hP, if_false] at h'
      exact absurd h' (by decide)
    · exact absurd h' (by dsimp only; decide)
    · by_cases hP : P z.1 = true
      · simp only [hP, if_true] at h'
        exact absurd h' (by decide)
      · simp only [hP, if_false] at h'
        exact absurd h' (by decide)
  · rintro ⟨_, ⟨x, hP, rfl⟩, h⟩
    exact ⟨_, h, by rw [mType_slot]; simp only [hP, if_true]; decide⟩

theorem mem_motionPost {ds : Decls} (hn : (tableOf ds).names.Nodup) (P : Name → Bool) (k : Nat) :
    k ∈ varsOfType (mTypes ds P) .postMotionState ↔ ∃ z : DSlot ds, (∃ x, P x.1 = true ∧ z = .no x) ∧ slotCode z = k := by
  rw [mem_varsOfType_m hn]
  constructor
  · rintro ⟨z, h, h'⟩
    rw [mType_slot] at h'
    rcases z with z | z | z | z
    · exact absurd h' (by dsimp only; decide)
    · by_cases hP : P z.1 = true
      · simp only [hP, if_true] at h'
        exact absurd h' (by decide)
      · simp only [hP, if_false] at h'
        exact absurd h' (by decide)
    · exact absurd h' (by dsimp only; decide)
    · refine ⟨_, ⟨z, ?_, rfl⟩, h⟩
      by_contra hP
      simp only [hP, if_false] at h'
      exact absurd h' (by decide)
  · rintro ⟨_, ⟨x, hP, rfl⟩, h⟩
    exact ⟨_, h, by rw [mType_slot]; simp only [hP, if_true]; decide⟩

theorem mem_controlPost {ds : Decls} (hn : (tableOf ds).names.Nodup) (P : Name → Bool) (k : Nat) :
    k ∈ varsOfType (mTypes ds P) .postMotionControlOutput ↔ ∃ z : DSlot ds, (∃ x, ¬ P x.1 = true ∧ z = .no x) ∧ slotCode z = k := by
  rw [mem_varsOfType_m hn]
  constructor
  · rintro ⟨z, h, h'⟩
    rw [mType_slot] at h'
    rcases z with z | z | z | z
    · exact absurd h' (by dsimp only; decide)
    · by_cases hP : P z.1 = true
      · simp only [hP, if_true] at h'
        exact absurd h' (by decide)
      · simp only [hP, if_false] at h'
        exact absurd h' (by decide)
    · exact absurd h' (by dsimp only; decide)
    · refine ⟨_, ⟨z, ?_, rfl⟩, h⟩
      intro hP
      simp only [hP, if_true] at h'
      exact absurd h' (by decide)
  · rintro ⟨_, ⟨x, hP, rfl⟩, h⟩
    exact ⟨_, h, by rw [mType_slot]; simp only [hP, if_false]; decide⟩

/-! ### Lists of variables -/

theorem filter_range_idx {E T' : Type} (nm : E → Name) (g : E → T') (q : T' → Bool) : ∀ es : List E, (es.map nm).Nodup →
    (List.range es.length).filter (fun i => (es.map g)[i]?.any q) =
      (es.filter fun e => q (g e)).map fun e => (es.map nm).idxOf (nm e) := by
  intro es
  induction es using List.reverseRecOn with
  | nil => intro _; rfl
  | append_singleton es e ih =>
    intro hn
    rw [List.map_append, List.nodup_append] at hn
    obtain ⟨h1, -, h3⟩ := hn
    have hne : nm e ∉ es.map nm := fun hm => h3 _ hm _ (by simp) rfl
    have e1 : ((es ++ [e]).map g)[es.length]? = some (g e) := by simp
    have e2 : ((es ++ [e]).map nm).idxOf (nm e) = es.length := by
      rw [List.map_append, List.idxOf_append_of_notMem hne]; simp
    have e3 : (List.range es.length).filter (fun i => ((es ++ [e]).map g)[i]?.any q) =
        (List.range es.length).filter (fun i => (es.map g)[i]?.any q) := by
      refine List.filter_congr fun i hi => ?_
      rw [List.map_append, List.getElem?_append_left (by simpa using hi)]
    have e4 : (es.filter fun e => q (g e)).map (fun e' => ((es ++ [e]).map nm).idxOf (nm e')) =
        (es.filter fun e => q (g e)).map (fun e' => (es.map nm).idxOf (nm e')) := by
      refine List.map_congr_left fun x hx => ?_
      have hm : nm x ∈ es.map nm := List.mem_map_of_mem (List.mem_filter.mp hx).1
      rw [List.map_append, List.idxOf_append_of_mem hm]
    rw [List.length_append, List.length_singleton, List.range_succ, List.filter_append, List.filter_append, List.map_append (l₁ := es.filter _), e3, e4, ih h1]
    congr 1
    simp only [List.filter_cons, List.filter_nil, e1]
    cases hq : q (g e)
    · simp [hq]
    · simp only [Option.any_some, hq, if_true, List.map_cons, List.map_nil, e2]

theorem mTab_vars {ds : Decls} (hn : (tableOf ds).names.Nodup) (P : Name → Bool) (q : VarType → Bool) :
    (List.range (mTypes ds P).length).filter (fun i => (mTypes ds P)[i]?.any q) =
      ((entriesOf ds).filter fun e => q (mType P e)).map fun e => (tableOf ds).names.idxOf e.1 := by
  have := filter_range_idx Prod.fst (mType P) q (entriesOf ds) hn
  rw [show (mTypes ds P).length = (entriesOf ds).length by simp [mTypes]]
  exact this

theorem entries_filter (P : Name → Bool) (ds : Decls) :
    (entriesOf ds).filter (fun e => decide (mType P e = .preMotionState)) = ((outputsOf ds).filter P).map (fun x => (x, .preOutput)) ∧
    (entriesOf ds).filter (fun e => decide (mType P e = .postMotionState)) = ((outputsOf ds).filter P).map (fun x => (prime x, .postOutput)) ∧
    (entriesOf ds).filter (fun e => decide (mType P e = .postMotionControlOutput)) =
      ((outputsOf ds).filter fun x => !P x).map (fun x => (prime x, .postOutput)) := by
  induction ds with
  | nil => exact ⟨rfl, rfl, rfl⟩
  | cons d ds ih =>
    obtain ⟨b, x⟩ := d
    have e : (prime x).dropLast = x := by simp [prime]
    have e1 : entriesOf ((b, x) :: ds) = declPair (b, x) ++ entriesOf ds := rfl
    rw [e1]
    simp only [List.filter_append, ih.1, ih.2.1, ih.2.2]
    cases b
    · have e2 : outputsOf ((false, x) :: ds) = x :: outputsOf ds := rfl
      rw [e2]
      cases hP : P x <;> simp [declPair, mType, e, hP]
    · have e2 : outputsOf ((true, x) :: ds) = outputsOf ds := rfl
      rw [e2]
      simp [declPair, mType]

theorem varsDown_eq {ds : Decls} (hn : (tableOf ds).names.Nodup) (P : Name → Bool) :
    varsDown (mTypes ds P) .preMotionState = ((outputsOf ds).filter P).reverse.map (fun x => (tableOf ds).names.idxOf x) ∧
    varsDown (mTypes ds P) .postMotionState = ((outputsOf ds).filter P).reverse.map (fun x => (tableOf ds).names.idxOf (prime x)) ∧
    varsDown (mTypes ds P) .postMotionControlOutput =
      ((outputsOf ds).filter fun x => !P x).reverse.map (fun x => (tableOf ds).names.idxOf (prime x)) := by
  have key : ∀ ty, varsDown (mTypes ds P) ty =
      (((entriesOf ds).filter fun e => decide (mType P e = ty)).map fun e => (tableOf ds).names.idxOf e.1).reverse := by
    intro ty
    rw [← mTab_vars hn P fun t => decide (t = ty), varsDown]
    congr 1
    refine List.filter_congr fun i _ => ?_
    cases (mTypes ds P)[i]? <;> simp
  rw [key, key, key, (entries_filter P ds).1, (entries_filter P ds).2.1, (entries_filter P ds).2.2]
  simp [List.map_map, Function.comp_def]

theorem vars_eq {ds : Decls} (hn : (tableOf ds).names.Nodup) (P : Name → Bool) :
    varsOfType (mTypes ds P) .preMotionState = ((outputsOf ds).filter P).map (fun x => (tableOf ds).names.idxOf x) ∧
    varsOfType (mTypes ds P) .postMotionState = ((outputsOf ds).filter P).map (fun x => (tableOf ds).names.idxOf (prime x)) := by
  have key : ∀ t ∈ [VarType.preInput, .postInput, .preMotionState, .preMotionControlOutput, .postMotionState, .postMotionControlOutput],
      t.closure.contains .preMotionState = decide (t = .preMotionState) ∧ t.closure.contains .postMotionState = decide (t = .postMotionState) := by decide
  have h1 : ∀ (e : Name × VarType), e ∈ entriesOf ds → (mType P e).closure.contains .preMotionState = decide (mType P e = .preMotionState) ∧
      (mType P e).closure.contains .postMotionState = decide (mType P e = .postMotionState) := by
    intro e he
    obtain ⟨z, rfl⟩ := mem_entriesOf.mp he
    refine key _ ?_
    rw [mType_slot]
    rcases z with z | z | z | z <;> dsimp only
    · simp
    · by_cases h : P z.1 = true <;> simp [h]
    · simp
    · by_cases h : P z.1 = true <;> simp [h]
  have hv : ∀ ty, varsOfType (mTypes ds P) ty = ((entriesOf ds).filter fun e => (mType P e).closure.contains ty).map fun e => (tableOf ds).names.idxOf e.1 := by
    intro ty
    rw [← mTab_vars hn P fun t => t.closure.contains ty, varsOfType]
    refine List.filter_congr fun i _ => ?_
    cases (mTypes ds P)[i]? <;> rfl
  rw [hv, hv, List.filter_congr fun e he => (h1 e he).1, List.filter_congr fun e he => (h1 e he).2, (entries_filter P ds).1, (entries_filter P ds).2.1]
  simp [List.map_map, Function.comp_def]

theorem declared_m {ds : Decls} (hn : (tableOf ds).names.Nodup) (P : Name → Bool) {al : List VarType} (z : DSlot ds)
    (h : mType P (slotEntry z) ∈ al) : Declared (mTab ds P) al (slotEntry z).1 := by
  refine ⟨List.idxOf_lt_length_of_mem (slotName_mem z), mType P (slotEntry z), ?_, h⟩
  have := (getElem_slotCode hn (z := z)).mpr rfl
  simp only [mTab, mTypes, List.getElem?_map]
  rw [slotCode] at this
  rw [this]; rfl

/-! ### Prefixes -/

theorem names_append (ds es : Decls) : (tableOf (ds ++ es)).names = (tableOf ds).names ++ (tableOf es).names := by
  simp [tableOf, entriesOf]

/-- A role in a longer list of declarations. -/
def liftSlot {ds : Decls} (es : Decls) : DSlot ds → DSlot (ds ++ es)
  | .ci x => .ci ⟨x.1, mem_inputsOf.mpr (List.mem_append_left _ (mem_inputsOf.mp x.2))⟩
  | .co x => .co ⟨x.1, mem_outputsOf.mpr (List.mem_append_left _ (mem_outputsOf.mp x.2))⟩
  | .ni x => .ni ⟨x.1, mem_inputsOf.mpr (List.mem_append_left _ (mem_inputsOf.mp x.2))⟩
  | .no x => .no ⟨x.1, mem_outputsOf.mpr (List.mem_append_left _ (mem_outputsOf.mp x.2))⟩

theorem liftSlot_entry {ds : Decls} (es : Decls) (z : DSlot ds) : slotEntry (liftSlot es z) = slotEntry z := by cases z <;> rfl

theorem liftSlot_code {ds : Decls} (es : Decls) (z : DSlot ds) : slotCode (liftSlot es z) = slotCode z := by
  rw [slotCode, slotCode, liftSlot_entry, names_append, List.idxOf_append_of_mem (slotName_mem z)]

/-- The declaration made by an item. -/
def mDecl (p : MSection × List Char) : Option (Bool × Name) :=
  match p.1 with
  | .input => some (true, p.2)
  | .motionState | .motionControl => some (false, p.2)
  | _ => none

def mDecls (items : List (MSection × List Char)) : Decls := items.filterMap mDecl

theorem inputsOf_m (items : List (MSection × List Char)) : inputsOf (mDecls items) = mItemsOf .input items := by
  induction items with
  | nil => rfl
  | cons p items ih =>
    obtain ⟨s, l⟩ := p
    cases s <;> first | exact ih | exact congrArg (List.cons l) ih

theorem outputsOf_m (items : List (MSection × List Char)) : outputsOf (mDecls items) = mOutputs items := by
  induction items with
  | nil => rfl
  | cons p items ih =>
    obtain ⟨s, l⟩ := p
    cases s <;> first | exact ih | exact congrArg (List.cons l) ih

theorem mDecls_append (a b : List (MSection × List Char)) : mDecls (a ++ b) = mDecls a ++ mDecls b := List.filterMap_append

theorem mItemsOf_append (s : MSection) (a b : List (MSection × List Char)) : mItemsOf s (a ++ b) = mItemsOf s a ++ mItemsOf s b := by
  simp [mItemsOf]

/-- The outputs divided by `P`. -/
theorem filter_outputs {P : Name → Bool} : ∀ {items : List (MSection × List Char)},
    (∀ l, (MSection.motionState, l) ∈ items → P l = true) → (∀ l, (MSection.motionControl, l) ∈ items → P l = false) →
    (mOutputs items).filter P = mItemsOf .motionState items ∧ ((mOutputs items).filter fun x => !P x) = mItemsOf .motionControl items := by
  intro items
  induction items with
  | nil => intro _ _; exact ⟨rfl, rfl⟩
  | cons p items ih =>
    intro h1 h2
    obtain ⟨i1, i2⟩ := ih (fun l hl => h1 l (by simp [hl])) (fun l hl => h2 l (by simp [hl]))
    obtain ⟨s, l⟩ := p
    cases s
    case motionState =>
      have := h1 l (by simp)
      have e : mOutputs ((.motionState, l) :: items) = l :: mOutputs items := rfl
      rw [e, List.filter_cons, List.filter_cons, this, i1, i2]
      exact ⟨rfl, rfl⟩
    case motionControl =>
      have := h2 l (by simp)
      have e : mOutputs ((.motionControl, l) :: items) = l :: mOutputs items := rfl
      rw [e, List.filter_cons, List.filter_cons, this, i1, i2]
      exact ⟨rfl, rfl⟩
    all_goals exact ⟨i1, i2⟩

/-- The motion states of a list of items. -/
def isMotionIn (items : List (MSection × List Char)) (x : Name) : Bool := decide ((MSection.motionState, x) ∈ items)

theorem isMotionIn_motion (items : List (MSection × List Char)) (l : Name) (h : (MSection.motionState, l) ∈ items) : isMotionIn items l = true := by
  simp [isMotionIn, h]

theorem isMotionIn_control {items : List (MSection × List Char)} (hn : (mOutputs items).Nodup) (l : Name) (h : (MSection.motionControl, l) ∈ items) :
    isMotionIn items l = false := by
  rw [isMotionIn, decide_eq_false_iff_not]
  intro h'
  have := List.inj_on_of_nodup_map hn (x := (.motionState, l)) (y := (.motionControl, l)) (by simp [h']) (by simp [h]) rfl
  cases this

end Slugs.Model
