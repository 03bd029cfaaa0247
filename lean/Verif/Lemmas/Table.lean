import Verif.Lemmas.Layout
import Verif.Spec.SpecFile
import Mathlib.Data.List.Nodup
import Mathlib.Data.List.Induction

/-!
The variable table built from a list of declarations.
-/

namespace Slugs.Model

open Slugs.Spec

/-- Declarations in the order of the file; the flag says whether it is an input. -/
abbrev Decls := List (Bool × Name)

def declPair (d : Bool × Name) : List (Name × VarType) :=
  [(d.2, if d.1 then .preInput else .preOutput), (prime d.2, if d.1 then .postInput else .postOutput)]

def entriesOf (ds : Decls) : List (Name × VarType) := ds.flatMap declPair

def tableOf (ds : Decls) : VarTable := ⟨(entriesOf ds).map Prod.fst, (entriesOf ds).map Prod.snd⟩

def inputsOf (ds : Decls) : List Name := (ds.filter (fun d => d.1)).map Prod.snd
def outputsOf (ds : Decls) : List Name := (ds.filter (fun d => !d.1)).map Prod.snd

theorem mem_inputsOf {ds : Decls} {x : Name} : x ∈ inputsOf ds ↔ (true, x) ∈ ds := by
  simp only [inputsOf, List.mem_map, List.mem_filter]
  constructor
  · rintro ⟨⟨b, y⟩, ⟨h1, h2⟩, rfl⟩; simp at h2; subst h2; exact h1
  · intro h; exact ⟨_, ⟨h, rfl⟩, rfl⟩

theorem mem_outputsOf {ds : Decls} {x : Name} : x ∈ outputsOf ds ↔ (false, x) ∈ ds := by
  simp only [outputsOf, List.mem_map, List.mem_filter]
  constructor
  · rintro ⟨⟨b, y⟩, ⟨h1, h2⟩, rfl⟩; simp at h2; subst h2; exact h1
  · intro h; exact ⟨_, ⟨h, rfl⟩, rfl⟩

theorem prime_inj {x y : Name} (h : prime x = prime y) : x = y := List.append_cancel_right h

abbrev DSlot (ds : Decls) := Slot {x // x ∈ inputsOf ds} {x // x ∈ outputsOf ds}

/-- The table entry of a role. -/
def slotEntry {ds : Decls} : DSlot ds → Name × VarType
  | .ci x => (x.1, .preInput)
  | .co x => (x.1, .preOutput)
  | .ni x => (prime x.1, .postInput)
  | .no x => (prime x.1, .postOutput)

theorem slotEntry_inj {ds : Decls} : Function.Injective (slotEntry (ds := ds)) := by
  intro z z' h
  rcases z with z | z | z | z <;> rcases z' with z' | z' | z' | z' <;>
    simp only [slotEntry, Prod.mk.injEq, reduceCtorEq, and_false, and_true] at h
  · rw [Subtype.ext h]
  · rw [Subtype.ext h]
  · rw [Subtype.ext (prime_inj h)]
  · rw [Subtype.ext (prime_inj h)]

theorem mem_entriesOf {ds : Decls} {e : Name × VarType} : e ∈ entriesOf ds ↔ ∃ z : DSlot ds, slotEntry z = e := by
  simp only [entriesOf, List.mem_flatMap]
  constructor
  · rintro ⟨⟨b, x⟩, hd, he⟩
    cases b
    · simp only [declPair, Bool.false_eq_true, if_false, List.mem_cons, List.not_mem_nil, or_false] at he
      rcases he with rfl | rfl
      · exact ⟨.co ⟨x, mem_outputsOf.mpr hd⟩, rfl⟩
      · exact ⟨.no ⟨x, mem_outputsOf.mpr hd⟩, rfl⟩
    · simp only [declPair, if_true, List.mem_cons, List.not_mem_nil, or_false] at he
      rcases he with rfl | rfl
      · exact ⟨.ci ⟨x, mem_inputsOf.mpr hd⟩, rfl⟩
      · exact ⟨.ni ⟨x, mem_inputsOf.mpr hd⟩, rfl⟩
  · rintro ⟨z, rfl⟩
    rcases z with ⟨x, hx⟩ | ⟨x, hx⟩ | ⟨x, hx⟩ | ⟨x, hx⟩
    · exact ⟨(true, x), mem_inputsOf.mp hx, by simp [declPair, slotEntry]⟩
    · exact ⟨(false, x), mem_outputsOf.mp hx, by simp [declPair, slotEntry]⟩
    · exact ⟨(true, x), mem_inputsOf.mp hx, by simp [declPair, slotEntry]⟩
    · exact ⟨(false, x), mem_outputsOf.mp hx, by simp [declPair, slotEntry]⟩

/-- The number of the variable with the role. -/
def slotCode {ds : Decls} (z : DSlot ds) : Nat := (tableOf ds).names.idxOf (slotEntry z).1

theorem slotName_mem {ds : Decls} (z : DSlot ds) : (slotEntry z).1 ∈ (tableOf ds).names :=
  List.mem_map.mpr ⟨_, mem_entriesOf.mpr ⟨z, rfl⟩, rfl⟩

theorem slotName_inj {ds : Decls} (hn : (tableOf ds).names.Nodup) {z z' : DSlot ds}
    (h : (slotEntry z).1 = (slotEntry z').1) : z = z' :=
  slotEntry_inj (List.inj_on_of_nodup_map hn (mem_entriesOf.mpr ⟨z, rfl⟩) (mem_entriesOf.mpr ⟨z', rfl⟩) h)

theorem slotCode_inj {ds : Decls} (hn : (tableOf ds).names.Nodup) : Function.Injective (slotCode (ds := ds)) := by
  intro z z' h
  exact slotName_inj hn ((List.idxOf_inj (slotName_mem z)).mp h)

theorem getElem_slotCode {ds : Decls} (hn : (tableOf ds).names.Nodup) {k : Nat} {z : DSlot ds} :
    (entriesOf ds)[k]? = some (slotEntry z) ↔ slotCode z = k := by
  constructor
  · intro h
    have hk : k < (entriesOf ds).length := by
      by_contra hk; rw [List.getElem?_eq_none (by omega)] at h; cases h
    have : (tableOf ds).names[k]'(by simpa [tableOf] using hk) = (slotEntry z).1 := by
      simp only [tableOf, List.getElem_map]
      rw [List.getElem?_eq_getElem hk] at h
      rw [Option.some.inj h]
    rw [slotCode, ← this, hn.idxOf_getElem]
  · rintro rfl
    have hk : slotCode z < (tableOf ds).names.length := List.idxOf_lt_length_of_mem (slotName_mem z)
    have hk' : slotCode z < (entriesOf ds).length := by simpa [tableOf] using hk
    have h1 : (tableOf ds).names[slotCode z] = (slotEntry z).1 := List.getElem_idxOf hk
    rw [List.getElem?_eq_getElem hk']
    obtain ⟨z', hz'⟩ := mem_entriesOf.mp (List.getElem_mem hk')
    rw [← hz']
    congr 2
    apply slotName_inj hn
    rw [← h1, hz']
    simp [tableOf]

theorem mem_varsOfType {ds : Decls} (hn : (tableOf ds).names.Nodup) {ty : VarType} {k : Nat} :
    k ∈ varsOfType (tableOf ds).types ty ↔ ∃ z : DSlot ds, slotCode z = k ∧ ty ∈ (slotEntry z).2.closure := by
  simp only [varsOfType, List.mem_filter, List.mem_range]
  constructor
  · rintro ⟨hk, h⟩
    have hk' : k < (entriesOf ds).length := by simpa [tableOf] using hk
    obtain ⟨z, hz⟩ := mem_entriesOf.mp (List.getElem_mem hk')
    refine ⟨z, (getElem_slotCode hn).mp (by rw [List.getElem?_eq_getElem hk', hz]), ?_⟩
    simp only [tableOf, List.getElem?_map, List.getElem?_eq_getElem hk', Option.map_some, ← hz] at h
    simpa using h
  · rintro ⟨z, hz, ht⟩
    have h := (getElem_slotCode hn).mpr hz
    have hk' : k < (entriesOf ds).length := by
      by_contra hk; rw [List.getElem?_eq_none (by omega)] at h; cases h
    refine ⟨by simpa [tableOf] using hk', ?_⟩
    simp only [tableOf, List.getElem?_map, h, Option.map_some]
    simpa using ht

/-! ### Exchanging current and next variables -/

theorem swapPerm_notMem : ∀ (xs ys : List Nat) (p : Nat → Nat) (k : Nat), k ∉ xs → k ∉ ys → swapPerm xs ys p k = p k
  | [], _, _, _, _, _ => by simp [swapPerm]
  | _ :: _, [], _, _, _, _ => by simp [swapPerm]
  | x :: xs, y :: ys, p, k, h1, h2 => by
    simp only [List.mem_cons, not_or] at h1 h2
    rw [swapPerm, swapPerm_notMem xs ys _ k h1.2 h2.2]
    simp [h1.1, h2.1]

theorem swapPerm_map (f : Nat → Nat) : ∀ (xs : List Nat) (p : Nat → Nat), (xs ++ xs.map f).Nodup → ∀ u ∈ xs,
    swapPerm xs (xs.map f) p u = f u ∧ swapPerm xs (xs.map f) p (f u) = u
  | [], _, _, _, h => by cases h
  | x :: xs, p, hn, u, hu => by
    simp only [List.map_cons, List.cons_append] at hn
    have hn' : (xs ++ xs.map f).Nodup := by
      have h1 := (List.nodup_cons.mp hn).2
      have h2 := (List.perm_middle (l₁ := xs) (l₂ := xs.map f) (a := f x)).nodup_iff.mp h1
      exact (List.nodup_cons.mp h2).2
    have hx := (List.nodup_cons.mp hn).1
    have hfx : f x ∉ xs ++ xs.map f := by
      have h1 := (List.nodup_cons.mp hn).2
      have h2 := (List.perm_middle (l₁ := xs) (l₂ := xs.map f) (a := f x)).nodup_iff.mp h1
      exact (List.nodup_cons.mp h2).1
    simp only [List.mem_append, List.mem_cons, not_or] at hx hfx
    rw [List.map_cons, swapPerm]
    by_cases hm : u ∈ xs
    · exact swapPerm_map f xs _ hn' u hm
    · have : u = x := (List.mem_cons.mp hu).resolve_right hm
      subst this
      rw [swapPerm_notMem xs _ _ u hx.1 hx.2.2, swapPerm_notMem xs _ _ (f u) hfx.1 hfx.2]
      simp [hx.2.1]

theorem varsOfType_append (ts us : List VarType) (ty : VarType) :
    varsOfType (ts ++ us) ty = varsOfType ts ty ++ (varsOfType us ty).map (fun k => ts.length + k) := by
  simp only [varsOfType, List.length_append, List.range_add, List.filter_append, List.filter_map]
  congr 1
  · apply List.filter_congr
    intro k hk
    rw [List.getElem?_append_left (by simpa using hk)]
  · congr 1
    apply List.filter_congr
    intro k hk
    simp only [Function.comp]
    rw [List.getElem?_append_right (by omega)]
    simp

theorem varsOfType_post (ds : Decls) :
    varsOfType (tableOf ds).types .postInput = (varsOfType (tableOf ds).types .preInput).map (· + 1) ∧
    varsOfType (tableOf ds).types .postOutput = (varsOfType (tableOf ds).types .preOutput).map (· + 1) := by
  induction ds using List.reverseRecOn with
  | nil => exact ⟨rfl, rfl⟩
  | append_singleton ds d ih =>
    have e : (tableOf (ds ++ [d])).types = (tableOf ds).types ++
        [if d.1 then .preInput else .preOutput, if d.1 then .postInput else .postOutput] := by
      simp [tableOf, entriesOf, declPair]
    rw [e]
    simp only [varsOfType_append, List.map_append, List.map_map]
    rw [ih.1, ih.2]
    obtain ⟨b, x⟩ := d
    cases b <;> exact ⟨congrArg _ rfl, congrArg _ rfl⟩

theorem idxOf_prime {ds : Decls} (hn : (tableOf ds).names.Nodup) {b : Bool} {x : Name} (h : (b, x) ∈ ds) :
    (tableOf ds).names.idxOf (prime x) = (tableOf ds).names.idxOf x + 1 := by
  obtain ⟨l1, l2, rfl⟩ := List.append_of_mem h
  have e : (tableOf (l1 ++ (b, x) :: l2)).names = (tableOf l1).names ++ x :: prime x :: (tableOf l2).names := by
    simp [tableOf, entriesOf, declPair]
  rw [e] at hn ⊢
  have hx : x ∉ (tableOf l1).names := fun hm =>
    (List.nodup_append.mp hn).2.2 x hm x (by simp) rfl
  have hx' : prime x ∉ (tableOf l1).names := fun hm =>
    (List.nodup_append.mp hn).2.2 (prime x) hm (prime x) (by simp) rfl
  rw [List.idxOf_append_of_notMem hx, List.idxOf_append_of_notMem hx']
  have hne : x ≠ prime x := by
    intro e'
    have := congrArg List.length e'
    simp [prime] at this
  simp [List.idxOf_cons, beq_eq_false_iff_ne.mpr hne]

/-- The layout of the table. -/
def tableLayout (ds : Decls) (hn : (tableOf ds).names.Nodup) :
    Layout {x // x ∈ inputsOf ds} {x // x ∈ outputsOf ds} (tableOf ds).types :=
  have hpre : varsOfTypes (tableOf ds).types [.preInput, .preOutput] =
      varsOfType (tableOf ds).types .preInput ++ varsOfType (tableOf ds).types .preOutput := by
    simp [varsOfTypes]
  have hpost : varsOfTypes (tableOf ds).types [.postInput, .postOutput] =
      (varsOfTypes (tableOf ds).types [.preInput, .preOutput]).map (· + 1) := by
    simp [varsOfTypes, varsOfType_post]
  have hci : ∀ x, slotCode (ds := ds) (.ci x) ∈ varsOfTypes (tableOf ds).types [.preInput, .preOutput] := fun x => by
    rw [hpre, List.mem_append]
    exact .inl ((mem_varsOfType hn).mpr ⟨_, rfl, by simp only [slotEntry]; decide⟩)
  have hco : ∀ x, slotCode (ds := ds) (.co x) ∈ varsOfTypes (tableOf ds).types [.preInput, .preOutput] := fun x => by
    rw [hpre, List.mem_append]
    exact .inr ((mem_varsOfType hn).mpr ⟨_, rfl, by simp only [slotEntry]; decide⟩)
  have hni : ∀ x, slotCode (ds := ds) (.ni x) = slotCode (ds := ds) (.ci x) + 1 := fun x =>
    idxOf_prime hn (mem_inputsOf.mp x.2)
  have hno : ∀ x, slotCode (ds := ds) (.no x) = slotCode (ds := ds) (.co x) + 1 := fun x =>
    idxOf_prime hn (mem_outputsOf.mp x.2)
  have hnodup : (varsOfTypes (tableOf ds).types [.preInput, .preOutput] ++
      (varsOfTypes (tableOf ds).types [.preInput, .preOutput]).map (· + 1)).Nodup := by
    have hv : ∀ ty, (varsOfType (tableOf ds).types ty).Nodup := fun ty => List.Nodup.filter _ List.nodup_range
    have hd : ∀ ty ty', (∀ z : DSlot ds, ¬ (ty ∈ (slotEntry z).2.closure ∧ ty' ∈ (slotEntry z).2.closure)) →
        ∀ a ∈ varsOfType (tableOf ds).types ty, ∀ b ∈ varsOfType (tableOf ds).types ty', a ≠ b := by
      intro ty ty' h a ha b hb hab
      obtain ⟨z, hz, h1⟩ := (mem_varsOfType hn).mp ha
      obtain ⟨z', hz', h2⟩ := (mem_varsOfType hn).mp hb
      have : z = z' := slotCode_inj hn (by rw [hz, hz', hab])
      subst this
      exact h z ⟨h1, h2⟩
    rw [← hpost, hpre]
    have e : varsOfTypes (tableOf ds).types [.postInput, .postOutput] =
      varsOfType (tableOf ds).types .postInput ++ varsOfType (tableOf ds).types .postOutput := by
      simp [varsOfTypes]
    rw [e, List.nodup_append, List.nodup_append, List.nodup_append]
    refine ⟨⟨hv _, hv _, hd _ _ ?_⟩, ⟨hv _, hv _, hd _ _ ?_⟩, ?_⟩
    · rintro (z | z | z | z) <;> simp only [slotEntry] <;> decide
    · rintro (z | z | z | z) <;> simp only [slotEntry] <;> decide
    · intro a ha b hb
      simp only [List.mem_append] at ha hb
      rcases ha with ha | ha <;> rcases hb with hb | hb <;> refine hd _ _ ?_ a ha b hb <;>
        rintro (z | z | z | z) <;> simp only [slotEntry] <;> decide
  have hswap := swapPerm_map (· + 1) (varsOfTypes (tableOf ds).types [.preInput, .preOutput]) id hnodup
  { code := slotCode
    inj := slotCode_inj hn
    bound := fun z => by
      have := List.idxOf_lt_length_of_mem (slotName_mem z)
      simpa [tableOf, slotCode] using this
    preInput := fun k => by
      rw [mem_varsOfType hn]
      constructor
      · rintro ⟨z | z | z | z, h, h'⟩ <;> simp only [slotEntry] at h'
        · exact ⟨z, h⟩
        all_goals exact absurd h' (by decide)
      · rintro ⟨x, h⟩; exact ⟨_, h, by simp only [slotEntry]; decide⟩
    preOutput := fun k => by
      rw [mem_varsOfType hn]
      constructor
      · rintro ⟨z | z | z | z, h, h'⟩ <;> simp only [slotEntry] at h'
        case co => exact ⟨z, h⟩
        all_goals exact absurd h' (by decide)
      · rintro ⟨x, h⟩; exact ⟨_, h, by simp only [slotEntry]; decide⟩
    postInput := fun k => by
      rw [mem_varsOfType hn]
      constructor
      · rintro ⟨z | z | z | z, h, h'⟩ <;> simp only [slotEntry] at h'
        case ni => exact ⟨z, h⟩
        all_goals exact absurd h' (by decide)
      · rintro ⟨x, h⟩; exact ⟨_, h, by simp only [slotEntry]; decide⟩
    postOutput := fun k => by
      rw [mem_varsOfType hn]
      constructor
      · rintro ⟨z | z | z | z, h, h'⟩ <;> simp only [slotEntry] at h'
        case no => exact ⟨z, h⟩
        all_goals exact absurd h' (by decide)
      · rintro ⟨x, h⟩; exact ⟨_, h, by simp only [slotEntry]; decide⟩
    swap_ci := fun x => by rw [hpost, hni]; exact (hswap _ (hci x)).1
    swap_co := fun x => by rw [hpost, hno]; exact (hswap _ (hco x)).1
    swap_ni := fun x => by rw [hpost, hni]; exact (hswap _ (hci x)).2
    swap_no := fun x => by rw [hpost, hno]; exact (hswap _ (hco x)).2 }

end Slugs.Model
