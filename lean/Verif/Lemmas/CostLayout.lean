import Verif.Model.TwoDimensionalCost
import Verif.Lemmas.ExplicitSpec
import Mathlib.Data.Fintype.Basic

/-!
The layout of the table with the additional variables of `--twoDimensionalCost`.
-/

namespace Slugs.Model

open Slugs.Spec

/-! ### The types of the additional variables -/

/-- Types of the counter bits. -/
def counterTypes (m : Nat) : List VarType :=
  (List.replicate m [VarType.currentLivenessAssumptionCounterPre, VarType.currentLivenessAssumptionCounterPost]).flatten

/-- Types of the additional bits that are kept in the strategy. -/
def bitTypes (m : Nat) : List VarType := counterTypes m ++ [.isInftyCostPre, .isInftyCostPost]

theorem counterTypes_succ (m : Nat) :
    counterTypes (m + 1) = counterTypes m ++ [VarType.currentLivenessAssumptionCounterPre, VarType.currentLivenessAssumptionCounterPost] := by
  simp [counterTypes, List.replicate_succ']

theorem counterTypes_length (m : Nat) : (counterTypes m).length = 2 * m := by
  simp [counterTypes]; omega

theorem bitTypes_length (m : Nat) : (bitTypes m).length = 2 * m + 2 := by
  simp [bitTypes, counterTypes_length]

theorem varsOfType_counter (m : Nat) (ty : VarType) :
    varsOfType (counterTypes m) ty =
      (List.range m).flatMap fun j =>
        (if ty ∈ VarType.closure .currentLivenessAssumptionCounterPre then [2 * j] else []) ++
        (if ty ∈ VarType.closure .currentLivenessAssumptionCounterPost then [2 * j + 1] else []) := by
  induction m with
  | zero => rfl
  | succ m ih =>
    rw [counterTypes_succ, varsOfType_append, ih, List.range_succ, List.flatMap_append, counterTypes_length]
    congr 1
    cases ty <;> simp [varsOfType, VarType.closure, VarType.closureAux, VarType.parent, List.range_succ, List.range_zero]

theorem varsOfType_inf (ty : VarType) :
    varsOfType [.isInftyCostPre, .isInftyCostPost] ty =
      (if ty ∈ VarType.closure .isInftyCostPre then [0] else []) ++ (if ty ∈ VarType.closure .isInftyCostPost then [1] else []) := by
  cases ty <;> decide

theorem varsOfType_bits (m : Nat) :
    varsOfType (bitTypes m) .preInput = [] ∧ varsOfType (bitTypes m) .postInput = [] ∧
    varsOfType (bitTypes m) .preOutput = (List.range (m + 1)).map (2 * ·) ∧
    varsOfType (bitTypes m) .postOutput = (List.range (m + 1)).map (2 * · + 1) ∧
    varsOfType (bitTypes m) .pre = (List.range (m + 1)).map (2 * ·) ∧
    varsOfType (bitTypes m) .post = (List.range (m + 1)).map (2 * · + 1) ∧
    varsOfType (bitTypes m) .currentLivenessAssumptionCounterPre = (List.range m).map (2 * ·) ∧
    varsOfType (bitTypes m) .currentLivenessAssumptionCounterPost = (List.range m).map (2 * · + 1) ∧
    varsOfType (bitTypes m) .isInftyCostPre = [2 * m] ∧
    varsOfType (bitTypes m) .isInftyCostPost = [2 * m + 1] ∧
    varsOfType (bitTypes m) .transitiveClosureIntermediateVariables = [] := by
  have e1 : ∀ l : List Nat, (l.flatMap fun j => [2 * j]) = l.map (2 * ·) := fun l => by
    induction l with
    | nil => rfl
    | cons a l ih => simp [ih]
  have e2 : ∀ l : List Nat, (l.flatMap fun j => [2 * j + 1]) = l.map (2 * · + 1) := fun l => by
    induction l with
    | nil => rfl
    | cons a l ih => simp [ih]
  have e0 : ∀ l : List Nat, (l.flatMap fun _ => ([] : List Nat)) = [] := fun l => by simp
  refine ⟨?_, ?_, ?_, ?_, ?_, ?_, ?_, ?_, ?_, ?_, ?_⟩ <;>
    rw [bitTypes, varsOfType_append, varsOfType_counter, varsOfType_inf, counterTypes_length] <;>
    simp [VarType.closure, VarType.closureAux, VarType.parent, List.range_succ, e1, e2]

theorem varsOfType_trans (p : Nat) (ty : VarType) (h : ty ≠ .transitiveClosureIntermediateVariables) :
    varsOfType (List.replicate p .transitiveClosureIntermediateVariables) ty = [] := by
  simp only [varsOfType, List.length_replicate, List.filter_eq_nil_iff, List.mem_range]
  intro k hk
  rw [List.getElem?_replicate_of_lt hk]
  cases ty <;> simp_all [VarType.closure, VarType.closureAux, VarType.parent]

/-- Types of the table with the additional variables. -/
def extTypes (ds : Decls) (m p : Nat) : List VarType :=
  (tableOf ds).types ++ (bitTypes m ++ List.replicate p .transitiveClosureIntermediateVariables)

theorem varsOfType_ext (ds : Decls) (m p : Nat) (ty : VarType) (h : ty ≠ .transitiveClosureIntermediateVariables) :
    varsOfType (extTypes ds m p) ty =
      varsOfType (tableOf ds).types ty ++ (varsOfType (bitTypes m) ty).map fun k => (tableOf ds).types.length + k := by
  rw [extTypes, varsOfType_append, varsOfType_append, varsOfType_trans p ty h]
  simp

/-- The table with the counter bits. -/
def withCounters (tab : VarTable) (l : List Nat) : VarTable :=
  l.foldl (fun (t : VarTable) i =>
    (t.add .currentLivenessAssumptionCounterPre (txt!"_l_a_c_v_" ++ decimal i)).add .currentLivenessAssumptionCounterPost (txt!"_l_a_c_v_" ++ decimal i ++ txt!"'")) tab

/-- The table with the bits that are kept in the strategy. -/
def extBits (tab : VarTable) (n : Nat) : VarTable :=
  ((withCounters tab (counterBits n 1 n)).add .isInftyCostPre txt!"_is_infty_cost_Pre").add .isInftyCostPost txt!"_is_infty_cost_Post"

theorem costTable_eq (tab : VarTable) (n : Nat) :
    costTable tab n = (varsOfType (extBits tab n).types .pre).foldl (fun (t : VarTable) k =>
      t.add .transitiveClosureIntermediateVariables ((extBits tab n).names.getD k [] ++ txt!"__trans")) (extBits tab n) := rfl

theorem withCounters_types (tab : VarTable) (l : List Nat) : (withCounters tab l).types = tab.types ++ counterTypes l.length := by
  unfold withCounters
  induction l generalizing tab with
  | nil => simp [counterTypes]
  | cons i l ih =>
    rw [List.foldl_cons, ih]
    simp [VarTable.add, counterTypes, List.replicate_succ]

theorem add_trans_types (tab : VarTable) (l : List Nat) (f : Nat → Name) :
    (l.foldl (fun (t : VarTable) k => t.add .transitiveClosureIntermediateVariables (f k)) tab).types =
      tab.types ++ List.replicate l.length .transitiveClosureIntermediateVariables := by
  induction l generalizing tab with
  | nil => simp
  | cons i l ih =>
    rw [List.foldl_cons, ih]
    simp [VarTable.add, List.replicate_succ]

theorem costTable_types (ds : Decls) (n : Nat) :
    ∃ p, (costTable (tableOf ds) n).types = extTypes ds (counterBits n 1 n).length p := by
  refine ⟨(varsOfType (extBits (tableOf ds) n).types .pre).length, ?_⟩
  rw [costTable_eq, add_trans_types]
  conv_lhs =>
    arg 1
    rw [extBits, VarTable.add, VarTable.add]
    simp only
    rw [withCounters_types]
  simp only [extTypes, bitTypes, List.append_assoc, List.cons_append, List.nil_append]

/-! ### The names -/

theorem withCounters_names (tab : VarTable) (l : List Nat) : ∃ ns, (withCounters tab l).names = tab.names ++ ns := by
  unfold withCounters
  induction l generalizing tab with
  | nil => exact ⟨[], by simp⟩
  | cons i l ih =>
    obtain ⟨ns, h⟩ := ih ((tab.add .currentLivenessAssumptionCounterPre (txt!"_l_a_c_v_" ++ decimal i)).add .currentLivenessAssumptionCounterPost
      (txt!"_l_a_c_v_" ++ decimal i ++ txt!"'"))
    rw [List.foldl_cons, h]
    simp only [VarTable.add, List.append_assoc]
    exact ⟨_, rfl⟩

theorem add_trans_names (tab : VarTable) (l : List Nat) (f : Nat → Name) :
    ∃ ns, (l.foldl (fun (t : VarTable) k => t.add .transitiveClosureIntermediateVariables (f k)) tab).names = tab.names ++ ns := by
  induction l generalizing tab with
  | nil => exact ⟨[], by simp⟩
  | cons i l ih =>
    obtain ⟨ns, h⟩ := ih (tab.add .transitiveClosureIntermediateVariables (f i))
    exact ⟨f i :: ns, by rw [List.foldl_cons, h]; simp [VarTable.add]⟩

theorem costTable_names (tab : VarTable) (n : Nat) : ∃ ns, (costTable tab n).names = tab.names ++ ns := by
  rw [costTable_eq]
  obtain ⟨n1, h1⟩ := withCounters_names tab (counterBits n 1 n)
  obtain ⟨n2, h2⟩ := add_trans_names (extBits tab n) (varsOfType (extBits tab n).types .pre) fun k => (extBits tab n).names.getD k [] ++ txt!"__trans"
  rw [h2]
  refine ⟨n1 ++ ([txt!"_is_infty_cost_Pre", txt!"_is_infty_cost_Post"] ++ n2), ?_⟩
  rw [extBits, VarTable.add, VarTable.add]
  simp only
  rw [h1]
  simp only [List.append_assoc, List.cons_append, List.nil_append]

/-! ### The layout -/

/-- Declared variables and additional bits. -/
abbrev ExtX (ds : Decls) := {x // x ∈ inputsOf ds}
abbrev ExtY (ds : Decls) (m : Nat) := {x // x ∈ outputsOf ds} ⊕ Fin (m + 1)

/-- The number of the variable with the role. -/
def extCode (ds : Decls) (m : Nat) : Slot (ExtX ds) (ExtY ds m) → Nat
  | .ci x => slotCode (.ci x : DSlot ds)
  | .co (.inl y) => slotCode (.co y : DSlot ds)
  | .co (.inr j) => (tableOf ds).types.length + 2 * j
  | .ni x => slotCode (.ni x : DSlot ds)
  | .no (.inl y) => slotCode (.no y : DSlot ds)
  | .no (.inr j) => (tableOf ds).types.length + (2 * j + 1)

theorem slotCode_lt {ds : Decls} (z : DSlot ds) : slotCode z < (tableOf ds).types.length := by
  have := List.idxOf_lt_length_of_mem (slotName_mem z)
  simpa [tableOf, slotCode] using this

theorem extCode_inj {ds : Decls} (hn : (tableOf ds).names.Nodup) (m : Nat) : Function.Injective (extCode ds m) := by
  intro z z' h
  have hl := fun z : DSlot ds => slotCode_lt z
  rcases z with z | (z | z) | z | (z | z) <;> rcases z' with z' | (z' | z') | z' | (z' | z') <;> simp only [extCode] at h <;>
    first
    | (have := slotCode_inj hn h; simp only [Slot.ci.injEq, Slot.co.injEq, Slot.ni.injEq, Slot.no.injEq, reduceCtorEq] at this; subst this; rfl)
    | (exact absurd (slotCode_inj hn h) (by simp))
    | (exfalso; have := hl (.ci z); omega)
    | (exfalso; have := hl (.co z); omega)
    | (exfalso; have := hl (.ni z); omega)
    | (exfalso; have := hl (.no z); omega)
    | (exfalso; have := hl (.ci z'); omega)
    | (exfalso; have := hl (.co z'); omega)
    | (exfalso; have := hl (.ni z'); omega)
    | (exfalso; have := hl (.no z'); omega)
    | (exfalso; omega)
    | (have : z = z' := Fin.ext (by omega)
       rw [this])

theorem mem_typed (types : List VarType) (ty : VarType) (k : Nat) : k ∈ varsOfType types ty ↔ ∃ t, types[k]? = some t ∧ ty ∈ t.closure := by
  simp only [varsOfType, List.mem_filter, List.mem_range]
  constructor
  · rintro ⟨h, h'⟩
    rw [List.getElem?_eq_getElem h] at h' ⊢
    exact ⟨_, rfl, by simpa using h'⟩
  · rintro ⟨t, h, h'⟩
    have hk : k < types.length := by
      by_contra hk
      rw [List.getElem?_eq_none (by omega)] at h
      simp at h
    refine ⟨hk, ?_⟩
    rw [h]; simpa using h'

theorem nodup_swapped (types : List VarType) :
    (varsOfTypes types [.preInput, .preOutput] ++ varsOfTypes types [.postInput, .postOutput]).Nodup := by
  have hv : ∀ ty, (varsOfType types ty).Nodup := fun ty => List.Nodup.filter _ List.nodup_range
  have hd : ∀ ty ty', (∀ t : VarType, ¬ (ty ∈ t.closure ∧ ty' ∈ t.closure)) →
      ∀ a ∈ varsOfType types ty, ∀ b ∈ varsOfType types ty', a ≠ b := by
    rintro ty ty' h a ha b hb rfl
    obtain ⟨t, h1, h2⟩ := (mem_typed types ty a).mp ha
    obtain ⟨t', h1', h2'⟩ := (mem_typed types ty' a).mp hb
    rw [h1] at h1'
    cases h1'
    exact h t ⟨h2, h2'⟩
  simp only [varsOfTypes, List.flatMap_cons, List.flatMap_nil, List.append_nil]
  rw [List.nodup_append, List.nodup_append, List.nodup_append]
  refine ⟨⟨hv _, hv _, hd _ _ ?_⟩, ⟨hv _, hv _, hd _ _ ?_⟩, ?_⟩
  · intro t; cases t <;> decide
  · intro t; cases t <;> decide
  · intro a ha b hb
    simp only [List.mem_append] at ha hb
    rcases ha with ha | ha <;> rcases hb with hb | hb <;> refine hd _ _ ?_ a ha b hb <;> intro t <;> cases t <;> decide

theorem ext_post (ds : Decls) (m p : Nat) :
    varsOfTypes (extTypes ds m p) [.postInput, .postOutput] = (varsOfTypes (extTypes ds m p) [.preInput, .preOutput]).map (· + 1) := by
  have hb := varsOfType_bits m
  simp only [varsOfTypes, List.flatMap_cons, List.flatMap_nil, List.append_nil]
  rw [varsOfType_ext _ _ _ _ (by decide), varsOfType_ext _ _ _ _ (by decide), varsOfType_ext _ _ _ _ (by decide), varsOfType_ext _ _ _ _ (by decide),
    (varsOfType_post ds).1, (varsOfType_post ds).2, hb.1, hb.2.1, hb.2.2.1, hb.2.2.2.1]
  simp only [List.map_nil, List.append_nil, List.map_append, List.map_map, List.append_cancel_left_eq]
  rfl

theorem extCode_post {ds : Decls} (hn : (tableOf ds).names.Nodup) (m : Nat) :
    (∀ x, extCode ds m (.ni x) = extCode ds m (.ci x) + 1) ∧ ∀ y, extCode ds m (.no y) = extCode ds m (.co y) + 1 := by
  refine ⟨fun x => idxOf_prime hn (mem_inputsOf.mp x.2), ?_⟩
  rintro (y | j)
  · exact idxOf_prime hn (mem_outputsOf.mp y.2)
  · simp only [extCode]; omega

theorem mem_ext {ds : Decls} (hn : (tableOf ds).names.Nodup) (m p k : Nat) :
    (k ∈ varsOfType (extTypes ds m p) .preInput ↔ ∃ x, extCode ds m (.ci x) = k) ∧
    (k ∈ varsOfType (extTypes ds m p) .preOutput ↔ ∃ x, extCode ds m (.co x) = k) ∧
    (k ∈ varsOfType (extTypes ds m p) .postInput ↔ ∃ x, extCode ds m (.ni x) = k) ∧
    (k ∈ varsOfType (extTypes ds m p) .postOutput ↔ ∃ x, extCode ds m (.no x) = k) := by
  have hb := varsOfType_bits m
  have h0 := tableLayout ds hn
  rw [varsOfType_ext _ _ _ _ (by decide), varsOfType_ext _ _ _ _ (by decide), varsOfType_ext _ _ _ _ (by decide), varsOfType_ext _ _ _ _ (by decide),
    hb.1, hb.2.1, hb.2.2.1, hb.2.2.2.1]
  simp only [List.mem_append, (tableLayout ds hn).preInput, (tableLayout ds hn).preOutput, (tableLayout ds hn).postInput, (tableLayout ds hn).postOutput,
    List.map_nil, List.not_mem_nil, or_false, List.mem_map, List.mem_range, Sum.exists]
  refine ⟨Iff.rfl, or_congr Iff.rfl ?_, Iff.rfl, or_congr Iff.rfl ?_⟩
  · constructor
    · rintro ⟨_, ⟨j, hj, rfl⟩, rfl⟩
      exact ⟨⟨j, hj⟩, rfl⟩
    · rintro ⟨j, rfl⟩
      exact ⟨_, ⟨j, j.2, rfl⟩, rfl⟩
  · constructor
    · rintro ⟨_, ⟨j, hj, rfl⟩, rfl⟩
      exact ⟨⟨j, hj⟩, rfl⟩
    · rintro ⟨j, rfl⟩
      exact ⟨_, ⟨j, j.2, rfl⟩, rfl⟩

/-- The layout of the table with the additional variables. -/
def extLayout (ds : Decls) (hn : (tableOf ds).names.Nodup) (m p : Nat) : Layout (ExtX ds) (ExtY ds m) (extTypes ds m p) :=
  have hnd : (varsOfTypes (extTypes ds m p) [.preInput, .preOutput] ++ (varsOfTypes (extTypes ds m p) [.preInput, .preOutput]).map (· + 1)).Nodup := by
    rw [← ext_post]; exact nodup_swapped _
  have hswap := swapPerm_map (· + 1) (varsOfTypes (extTypes ds m p) [.preInput, .preOutput]) id hnd
  have hci : ∀ x, extCode ds m (.ci x) ∈ varsOfTypes (extTypes ds m p) [.preInput, .preOutput] := fun x => by
    simp only [varsOfTypes, List.flatMap_cons, List.flatMap_nil, List.append_nil, List.mem_append]
    exact .inl ((mem_ext hn m p _).1.mpr ⟨x, rfl⟩)
  have hco : ∀ x, extCode ds m (.co x) ∈ varsOfTypes (extTypes ds m p) [.preInput, .preOutput] := fun x => by
    simp only [varsOfTypes, List.flatMap_cons, List.flatMap_nil, List.append_nil, List.mem_append]
    exact .inr ((mem_ext hn m p _).2.1.mpr ⟨x, rfl⟩)
  { code := extCode ds m
    inj := extCode_inj hn m
    bound := fun z => by
      have hl : (extTypes ds m p).length = (tableOf ds).types.length + (2 * m + 2 + p) := by
        simp [extTypes, bitTypes_length]
      have hs := fun z : DSlot ds => slotCode_lt z
      rw [hl]
      rcases z with z | (z | z) | z | (z | z)
      · have := hs (.ci z); simp only [extCode]; omega
      · have := hs (.co z); simp only [extCode]; omega
      · have := z.2; simp only [extCode]; omega
      · have := hs (.ni z); simp only [extCode]; omega
      · have := hs (.no z); simp only [extCode]; omega
      · have := z.2; simp only [extCode]; omega
    preInput := fun k => (mem_ext hn m p k).1
    preOutput := fun k => (mem_ext hn m p k).2.1
    postInput := fun k => (mem_ext hn m p k).2.2.1
    postOutput := fun k => (mem_ext hn m p k).2.2.2
    swap_ci := fun x => by rw [ext_post, (hswap _ (hci x)).1, (extCode_post hn m).1]
    swap_co := fun x => by rw [ext_post, (hswap _ (hco x)).1, (extCode_post hn m).2]
    swap_ni := fun x => by rw [ext_post, (extCode_post hn m).1, (hswap _ (hci x)).2]
    swap_no := fun x => by rw [ext_post, (extCode_post hn m).2, (hswap _ (hco x)).2] }

end Slugs.Model
