import Verif.Lemmas.FastSlowInit
import Verif.Lemmas.InterleaveText

/-! The computation of `--IROSfastslow` on an accepted file, in terms of the game. -/

namespace Slugs.Model

open Slugs.Spec

/-! ### Variable types -/

theorem fsTypes_append (d1 d2 : Decls) (P : Name → Bool) : fsTypes (d1 ++ d2) P = fsTypes d1 P ++ fsTypes d2 P := by
  simp [fsTypes, entriesOf]

theorem mem_varsOfType_fs {ds : Decls} (hn : (tableOf ds).names.Nodup) (P : Name → Bool) {ty : VarType} {k : Nat} :
    k ∈ varsOfType (fsTypes ds P) ty ↔ ∃ z : DSlot ds, slotCode z = k ∧ ty ∈ (fsType P (slotEntry z)).closure := by
  simp only [varsOfType, List.mem_filter, List.mem_range]
  constructor
  · rintro ⟨hk, h⟩
    have hk' : k < (entriesOf ds).length := by simpa [fsTypes] using hk
    obtain ⟨z, hz⟩ := mem_entriesOf.mp (List.getElem_mem hk')
    refine ⟨z, (getElem_slotCode hn).mp (by rw [List.getElem?_eq_getElem hk', hz]), ?_⟩
    simp only [fsTypes, List.getElem?_map, List.getElem?_eq_getElem hk', Option.map_some, ← hz] at h
    simpa using h
  · rintro ⟨z, hz, ht⟩
    have h := (getElem_slotCode hn).mpr hz
    have hk' : k < (entriesOf ds).length := by
      by_contra hk; rw [List.getElem?_eq_none (by omega)] at h; cases h
    refine ⟨by simpa [fsTypes] using hk', ?_⟩
    simp only [fsTypes, List.getElem?_map, h, Option.map_some]
    simpa using ht

theorem varsOfType_fs (ds : Decls) (P : Name → Bool) {ty : VarType}
    (h : ty ∈ [VarType.preInput, .preOutput, .postInput, .postOutput, .pre, .post]) :
    varsOfType (fsTypes ds P) ty = varsOfType (tableOf ds).types ty := by
  have hl : (fsTypes ds P).length = (tableOf ds).types.length := by simp [fsTypes, tableOf]
  simp only [varsOfType, hl]
  refine List.filter_congr fun k _ => ?_
  simp only [fsTypes, tableOf, List.getElem?_map]
  cases he : (entriesOf ds)[k]? with
  | none => rfl
  | some e =>
    obtain ⟨z, rfl⟩ := mem_entriesOf.mp (List.mem_of_getElem? he)
    simp only [Option.map_some]
    have key : ∀ (Q R : Bool) (t : VarType), t ∈ [VarType.preInput, .preOutput, .postInput, .postOutput] →
        ∀ ty ∈ [VarType.preInput, .preOutput, .postInput, .postOutput, .pre, .post],
        ((match t with
          | .preOutput => if Q then .preOutputSlow else .preOutputFast
          | .postOutput => if R then .postOutputSlow else .postOutputFast
          | t => t : VarType).closure.contains ty) = t.closure.contains ty := by decide
    refine key _ _ _ ?_ ty h
    rcases z with z | z | z | z <;> simp [slotEntry]

theorem bddMgr_fs (B : Type) [DecidableEq B] [BddLib B] (ds : Decls) (P : Name → Bool) : bddMgr B (fsTypes ds P) = bddMgr B (tableOf ds).types := by
  have h1 := varsOfType_fs ds P (ty := .preInput) (by decide)
  have h2 := varsOfType_fs ds P (ty := .preOutput) (by decide)
  have h3 := varsOfType_fs ds P (ty := .postInput) (by decide)
  have h4 := varsOfType_fs ds P (ty := .postOutput) (by decide)
  simp only [bddMgr, varsOfTypes, List.flatMap_cons, List.flatMap_nil, h1, h2, h3, h4]

theorem tableVars_fs (B : Type) [DecidableEq B] [BddLib B] (ds : Decls) (P : Name → Bool) :
    tableVars B ⟨(tableOf ds).names, fsTypes ds P⟩ = tableVars B (tableOf ds) := by
  simp only [tableVars, varsOfType_fs ds P (ty := .pre) (by decide), varsOfType_fs ds P (ty := .post) (by decide),
    varsOfType_fs ds P (ty := .preInput) (by decide), varsOfType_fs ds P (ty := .postInput) (by decide)]

/-- The variable numbers of slow and fast outputs. -/
theorem mem_fs {ds : Decls} (hn : (tableOf ds).names.Nodup) (P : Name → Bool) (k : Nat) :
    (k ∈ varsOfType (fsTypes ds P) .preOutputSlow ↔ ∃ z : DSlot ds, (∃ x, P x.1 = true ∧ z = .co x) ∧ slotCode z = k) ∧
    (k ∈ varsOfType (fsTypes ds P) .preOutputFast ↔ ∃ z : DSlot ds, (∃ x, ¬ P x.1 = true ∧ z = .co x) ∧ slotCode z = k) ∧
    (k ∈ varsOfType (fsTypes ds P) .postOutputSlow ↔ ∃ z : DSlot ds, (∃ x, P x.1 = true ∧ z = .no x) ∧ slotCode z = k) ∧
    (k ∈ varsOfType (fsTypes ds P) .postOutputFast ↔ ∃ z : DSlot ds, (∃ x, ¬ P x.1 = true ∧ z = .no x) ∧ slotCode z = k) := by
  have e : ∀ x : Name, (prime x).dropLast = x := fun x => by simp [prime]
  have hco : ∀ x : {x // x ∈ outputsOf ds}, fsType P (slotEntry (ds := ds) (.co x)) = if P x.1 then .preOutputSlow else .preOutputFast :=
    fun _ => rfl
  have hno : ∀ x : {x // x ∈ outputsOf ds}, fsType P (slotEntry (ds := ds) (.no x)) = if P x.1 then .postOutputSlow else .postOutputFast :=
    fun x => by simp only [fsType, slotEntry, e]
  have hci : ∀ x : {x // x ∈ inputsOf ds}, fsType P (slotEntry (ds := ds) (.ci x)) = .preInput := fun _ => rfl
  have hni : ∀ x : {x // x ∈ inputsOf ds}, fsType P (slotEntry (ds := ds) (.ni x)) = .postInput := fun _ => rfl
  simp only [mem_varsOfType_fs hn]
  refine ⟨⟨?_, ?_⟩, ⟨?_, ?_⟩, ⟨?_, ?_⟩, ⟨?_, ?_⟩⟩
  all_goals first
    | (rintro ⟨z | z | z | z, h, h'⟩
       · rw [hci] at h'; exact absurd h' (by decide)
       · by_cases hP : P z.1 = true
         · simp only [hco, hP, if_true] at h'
           first | exact absurd h' (by decide) | exact ⟨_, ⟨z, hP, rfl⟩, h⟩
         · simp only [hco, hP, if_false] at h'
           first | exact absurd h' (by decide) | exact ⟨_, ⟨z, hP, rfl⟩, h⟩
       · rw [hni] at h'; exact absurd h' (by decide)
       · by_cases hP : P z.1 = true
         · simp only [hno, hP, if_true] at h'
           first | exact absurd h' (by decide) | exact ⟨_, ⟨z, hP, rfl⟩, h⟩
         · simp only [hno, hP, if_false] at h'
           first | exact absurd h' (by decide) | exact ⟨_, ⟨z, hP, rfl⟩, h⟩)
    | (rintro ⟨_, ⟨x, hP, rfl⟩, h⟩
       first
         | exact ⟨_, h, by simp only [hco, hP, if_true]; decide⟩
         | exact ⟨_, h, by simp only [hco, hP, if_false]; decide⟩
         | exact ⟨_, h, by simp only [hno, hP, if_true]; decide⟩
         | exact ⟨_, h, by simp only [hno, hP, if_false]; decide⟩)

theorem varsOfType_postSlow (ds : Decls) (P : Name → Bool) :
    varsOfType (fsTypes ds P) .postOutputSlow = (varsOfType (fsTypes ds P) .preOutputSlow).map (· + 1) := by
  induction ds using List.reverseRecOn with
  | nil => rfl
  | append_singleton ds d ih =>
    rw [fsTypes_append]
    simp only [varsOfType_append, List.map_append, List.map_map]
    rw [ih]
    obtain ⟨b, x⟩ := d
    have e : fsTypes [(b, x)] P = [if b then .preInput else if P x then .preOutputSlow else .preOutputFast,
        if b then .postInput else if P x then .postOutputSlow else .postOutputFast] := by
      cases b <;> simp [fsTypes, entriesOf, declPair, fsType, prime]
    rw [e]
    cases b <;> cases P x <;> exact congrArg _ rfl

/-! ### Operations on BDDs -/

section
variable (B : Type) [DecidableEq B] [L : BddLib B] {ds : Decls} (hn : (tableOf ds).names.Nodup) (P : Name → Bool)

theorem exist_exist (xs ys : List Nat) (b : B) : L.exist xs (L.exist ys b) = L.exist (xs ++ ys) b := by
  refine L.eval_inj _ _ fun v => ?_
  rw [Bool.eq_iff_iff, L.eval_exist, L.eval_exist]
  constructor
  · rintro ⟨w, h1, h2⟩
    obtain ⟨w', h3, h4⟩ := L.eval_exist ys b w |>.mp h2
    refine ⟨w', fun k hk => ?_, h4⟩
    simp only [List.mem_append, not_or] at hk
    rw [h1 k hk.1, h3 k hk.2]
  · rintro ⟨w, h1, h2⟩
    refine ⟨fun k => if k ∈ xs then w k else v k, fun k hk => by simp [hk], ?_⟩
    refine (L.eval_exist ys b _).mpr ⟨w, fun k hk => ?_, h2⟩
    by_cases hx : k ∈ xs
    · simp [hx]
    · simp only [hx, if_false]
      exact h1 k (by simp [hx, hk])

theorem exist_congr {xs ys : List Nat} (h : ∀ k, k ∈ xs ↔ k ∈ ys) (b : B) : L.exist xs b = L.exist ys b := by
  refine L.eval_inj _ _ fun v => ?_
  rw [Bool.eq_iff_iff, L.eval_exist, L.eval_exist]
  simp only [AgreeOff, h]

include hn in
theorem fsMgr_eq : fsMgr B (fsTypes ds P) = bddMgr B (tableOf ds).types := by
  have hm := mem_fs hn P
  have h1 : ∀ b : B, L.exist (varsOfType (fsTypes ds P) .postOutputSlow) (L.exist (varsOfType (fsTypes ds P) .postOutputFast) b) =
      (bddMgr B (tableOf ds).types).exPostOutput b := by
    intro b
    rw [exist_exist]
    refine exist_congr B (fun k => ?_) b
    rw [List.mem_append, (hm k).2.2.1, (hm k).2.2.2, ((tableLayout ds hn).mem_vars (k := k)).2.2.2.1]
    constructor
    · rintro (⟨_, ⟨x, _, rfl⟩, h⟩ | ⟨_, ⟨x, _, rfl⟩, h⟩) <;> exact ⟨_, ⟨x, rfl⟩, h⟩
    · rintro ⟨_, ⟨x, rfl⟩, h⟩
      by_cases hP : P x.1 = true
      · exact .inl ⟨_, ⟨x, hP, rfl⟩, h⟩
      · exact .inr ⟨_, ⟨x, hP, rfl⟩, h⟩
  have h2 : ∀ b : B, L.exist (varsOfType (fsTypes ds P) .preOutputSlow) (L.exist (varsOfType (fsTypes ds P) .preOutputFast) b) =
      (bddMgr B (tableOf ds).types).exPreOutput b := by
    intro b
    rw [exist_exist]
    refine exist_congr B (fun k => ?_) b
    rw [List.mem_append, (hm k).1, (hm k).2.1, ((tableLayout ds hn).mem_vars (k := k)).2.1]
    constructor
    · rintro (⟨_, ⟨x, _, rfl⟩, h⟩ | ⟨_, ⟨x, _, rfl⟩, h⟩) <;> exact ⟨_, ⟨x, rfl⟩, h⟩
    · rintro ⟨_, ⟨x, rfl⟩, h⟩
      by_cases hP : P x.1 = true
      · exact .inl ⟨_, ⟨x, hP, rfl⟩, h⟩
      · exact .inr ⟨_, ⟨x, hP, rfl⟩, h⟩
  rw [fsMgr, bddMgr_fs, funext h1, funext h2]

/-- Exchanging the current and the next values of the slow outputs. -/
theorem swapSlow_enc (f : T ({x // x ∈ inputsOf ds} → Bool) ({x // x ∈ outputsOf ds} → Bool)) :
    L.swap (varsOfType (fsTypes ds P) .postOutputSlow) (varsOfType (fsTypes ds P) .preOutputSlow) ((tableLayout ds hn).enc B f) =
      (tableLayout ds hn).enc B (fun s t => f (s.1, fun x => if P x.1 then t.2 x else s.2 x) (t.1, fun x => if P x.1 then s.2 x else t.2 x)) := by
  have hm := mem_fs hn P
  have hno : ∀ x, slotCode (ds := ds) (.no x) = slotCode (ds := ds) (.co x) + 1 := fun x => idxOf_prime hn (mem_outputsOf.mp x.2)
  have hpre : varsOfType (fsTypes ds P) .preOutputSlow = (varsOfType (fsTypes ds P) .postOutputSlow).map (· - 1) := by
    rw [varsOfType_postSlow, List.map_map]
    simp [Function.comp_def]
  have hv : ∀ ty, (varsOfType (fsTypes ds P) ty).Nodup := fun ty => List.Nodup.filter _ List.nodup_range
  have hnodup : (varsOfType (fsTypes ds P) .postOutputSlow ++ (varsOfType (fsTypes ds P) .postOutputSlow).map (· - 1)).Nodup := by
    rw [← hpre]
    refine List.nodup_append.mpr ⟨hv _, hv _, ?_⟩
    rintro a ha b hb rfl
    obtain ⟨_, ⟨x, _, rfl⟩, h1⟩ := (hm a).2.2.1.mp ha
    obtain ⟨_, ⟨y, _, rfl⟩, h2⟩ := (hm a).1.mp hb
    cases slotCode_inj hn (h1.trans h2.symm)
  have hswap := swapPerm_map (· - 1) _ id hnodup
  rw [← hpre] at hswap
  -- where the roles go
  have hz : ∀ z : DSlot ds, swapPerm (varsOfType (fsTypes ds P) .postOutputSlow) (varsOfType (fsTypes ds P) .preOutputSlow) id (slotCode z) =
      slotCode (match z with
        | .co x => if P x.1 = true then .no x else .co x
        | .no x => if P x.1 = true then .co x else .no x
        | z => z) := by
    have hmem1 : ∀ z : DSlot ds, slotCode z ∈ varsOfType (fsTypes ds P) .postOutputSlow ↔ ∃ x, P x.1 = true ∧ z = .no x := by
      intro z
      rw [(hm _).2.2.1]
      constructor
      · rintro ⟨z', h, h'⟩; rw [← slotCode_inj hn h']; exact h
      · intro h; exact ⟨z, h, rfl⟩
    have hmem2 : ∀ z : DSlot ds, slotCode z ∈ varsOfType (fsTypes ds P) .preOutputSlow ↔ ∃ x, P x.1 = true ∧ z = .co x := by
      intro z
      rw [(hm _).1]
      constructor
      · rintro ⟨z', h, h'⟩; rw [← slotCode_inj hn h']; exact h
      · intro h; exact ⟨z, h, rfl⟩
    rintro (x | x | x | x)
    · exact swapPerm_notMem _ _ _ _ (by rw [hmem1]; simp) (by rw [hmem2]; simp)
    · by_cases hP : P x.1 = true
      · simp only [hP, if_true]
        have := (hswap (slotCode (ds := ds) (.no x)) ((hmem1 _).mpr ⟨x, hP, rfl⟩)).2
        rw [hno x] at this ⊢
        exact this
      · simp only [hP]
        exact swapPerm_notMem _ _ _ _ (by rw [hmem1]; simp) (by rw [hmem2]; simpa using hP)
    · exact swapPerm_notMem _ _ _ _ (by rw [hmem1]; simp) (by rw [hmem2]; simp)
    · by_cases hP : P x.1 = true
      · simp only [hP, if_true]
        have := (hswap (slotCode (ds := ds) (.no x)) ((hmem1 _).mpr ⟨x, hP, rfl⟩)).1
        rw [this, hno x]
        rfl
      · simp only [hP]
        exact swapPerm_notMem _ _ _ _ (by rw [hmem1]; simpa using hP) (by rw [hmem2]; simp)
  refine (tableLayout ds hn).eq_enc B fun a => ?_
  rw [L.eval_swap, (tableLayout ds hn).eval_enc]
  have hget : ∀ z : DSlot ds, (tableLayout ds hn).get (fun k => a (swapPerm (varsOfType (fsTypes ds P) .postOutputSlow)
      (varsOfType (fsTypes ds P) .preOutputSlow) id k)) z = (tableLayout ds hn).get a (match z with
        | .co x => if P x.1 = true then .no x else .co x
        | .no x => if P x.1 = true then .co x else .no x
        | z => z) := by
    intro z
    exact congrArg a (hz z)
  have e1 : curPos ((tableLayout ds hn).get (fun k => a (swapPerm (varsOfType (fsTypes ds P) .postOutputSlow)
      (varsOfType (fsTypes ds P) .preOutputSlow) id k))) =
      ((curPos ((tableLayout ds hn).get a)).1, fun x => if P x.1 = true then (nxtPos ((tableLayout ds hn).get a)).2 x
        else (curPos ((tableLayout ds hn).get a)).2 x) := by
    refine Prod.ext (funext fun x => hget (.ci x)) (funext fun x => (hget (.co x)).trans ?_)
    by_cases hP : P x.1 = true <;> simp [hP, curPos, nxtPos]
  have e2 : nxtPos ((tableLayout ds hn).get (fun k => a (swapPerm (varsOfType (fsTypes ds P) .postOutputSlow)
      (varsOfType (fsTypes ds P) .preOutputSlow) id k))) =
      ((nxtPos ((tableLayout ds hn).get a)).1, fun x => if P x.1 = true then (curPos ((tableLayout ds hn).get a)).2 x
        else (nxtPos ((tableLayout ds hn).get a)).2 x) := by
    refine Prod.ext (funext fun x => hget (.ni x)) (funext fun x => (hget (.no x)).trans ?_)
    by_cases hP : P x.1 = true <;> simp [hP, curPos, nxtPos]
  rw [e1, e2]

theorem newSafetySys_enc (f : T ({x // x ∈ inputsOf ds} → Bool) ({x // x ∈ outputsOf ds} → Bool)) :
    newSafetySys (fsTypes ds P) ((tableLayout ds hn).enc B f) =
      (tableLayout ds hn).enc B (fun s t => f s t ∧ (∃ q, f (t.1, fun x => if P x.1 then s.2 x else t.2 x) q) ∧
        ∃ q, f q (t.1, fun x => if P x.1 then s.2 x else t.2 x)) := by
  have H := (tableLayout ds hn).hom B
  have hm := mem_fs hn P
  have h1 : L.exist (varsOfType (fsTypes ds P) .postOutputFast) (L.exist (varsOfType (fsTypes ds P) .postOutputSlow)
      ((bddMgr B (fsTypes ds P)).exPostInput ((tableLayout ds hn).enc B f))) = (tableLayout ds hn).enc B (fun s _ => ∃ q, f s q) := by
    rw [bddMgr_fs, exist_exist, H.exPostInput]
    refine (tableLayout ds hn).exist_enc B _ (fun z => ∃ x, z = .no x) (fun k => ?_) _ _ fun v => ?_
    · rw [List.mem_append, (hm k).2.2.1, (hm k).2.2.2]
      constructor
      · rintro (⟨_, ⟨x, _, rfl⟩, h⟩ | ⟨_, ⟨x, _, rfl⟩, h⟩) <;> exact ⟨_, ⟨x, rfl⟩, h⟩
      · rintro ⟨_, ⟨x, rfl⟩, h⟩
        by_cases hP : P x.1 = true
        · exact .inr ⟨_, ⟨x, hP, rfl⟩, h⟩
        · exact .inl ⟨_, ⟨x, hP, rfl⟩, h⟩
    · constructor
      · rintro ⟨u, hu, i, hf⟩
        have : curPos u = curPos v := Prod.ext (funext fun x => hu _ (by simp)) (funext fun x => hu _ (by simp))
        rw [this] at hf
        exact ⟨_, hf⟩
      · rintro ⟨q, hq⟩
        refine ⟨slots (curPos v) ((nxtPos v).1, q.2), ?_, q.1, hq⟩
        rintro (x | x | x | x) h
        · rfl
        · rfl
        · rfl
        · exact absurd ⟨x, rfl⟩ h
  have h2 : L.exist (varsOfType (fsTypes ds P) .preOutputFast) (L.exist (varsOfType (fsTypes ds P) .preOutputSlow)
      ((bddMgr B (fsTypes ds P)).exPreInput ((tableLayout ds hn).enc B f))) = (tableLayout ds hn).enc B (fun _ t => ∃ q, f q t) := by
    rw [bddMgr_fs, exist_exist, H.exPreInput]
    refine (tableLayout ds hn).exist_enc B _ (fun z => ∃ x, z = .co x) (fun k => ?_) _ _ fun v => ?_
    · rw [List.mem_append, (hm k).1, (hm k).2.1]
      constructor
      · rintro (⟨_, ⟨x, _, rfl⟩, h⟩ | ⟨_, ⟨x, _, rfl⟩, h⟩) <;> exact ⟨_, ⟨x, rfl⟩, h⟩
      · rintro ⟨_, ⟨x, rfl⟩, h⟩
        by_cases hP : P x.1 = true
        · exact .inr ⟨_, ⟨x, hP, rfl⟩, h⟩
        · exact .inl ⟨_, ⟨x, hP, rfl⟩, h⟩
    · constructor
      · rintro ⟨u, hu, i, hf⟩
        have : nxtPos u = nxtPos v := Prod.ext (funext fun x => hu _ (by simp)) (funext fun x => hu _ (by simp))
        rw [this] at hf
        exact ⟨_, hf⟩
      · rintro ⟨q, hq⟩
        refine ⟨slots ((curPos v).1, q.2) (nxtPos v), ?_, q.1, hq⟩
        rintro (x | x | x | x) h
        · rfl
        · exact absurd ⟨x, rfl⟩ h
        · rfl
        · rfl
  simp only [newSafetySys]
  rw [h1, h2, bddMgr_fs, H.swap, H.and, H.swap, swapSlow_enc, H.and]
  rfl

end

/-! ### Formulas for predicates on steps -/

/-- Every predicate that depends on finitely many variables is expressed by a formula. -/
theorem exists_fml (xs : List Word) : ∀ (Q : (Word → Bool) → Prop), (∀ ρ ρ', (∀ x ∈ xs, ρ x = ρ' x) → (Q ρ ↔ Q ρ')) →
    ∃ φ : Fml, ∀ ρ, ∃ b, φ.eval ρ [] = some b ∧ (b = true ↔ Q ρ) := by
  induction xs with
  | nil =>
    intro Q hQ
    classical
    refine ⟨.const (decide (Q fun _ => false)), fun ρ => ⟨_, rfl, ?_⟩⟩
    simp only [decide_eq_true_eq]
    exact hQ _ _ (by simp)
  | cons x xs ih =>
    intro Q hQ
    have hb : ∀ b : Bool, ∃ φ : Fml, ∀ ρ, ∃ b', φ.eval ρ [] = some b' ∧ (b' = true ↔ Q (Function.update ρ x b)) := by
      intro b
      refine ih (fun ρ => Q (Function.update ρ x b)) fun ρ ρ' h => hQ _ _ fun y hy => ?_
      by_cases hyx : y = x
      · subst hyx; simp
      · simp only [Function.update_of_ne hyx]
        exact h y ((List.mem_cons.mp hy).resolve_left hyx)
    obtain ⟨φ1, h1⟩ := hb true
    obtain ⟨φ0, h0⟩ := hb false
    refine ⟨.bin .or (.bin .and (.var x) φ1) (.bin .and (.not (.var x)) φ0), fun ρ => ?_⟩
    obtain ⟨b1, e1, q1⟩ := h1 ρ
    obtain ⟨b0, e0, q0⟩ := h0 ρ
    refine ⟨BinOp.or.apply (BinOp.and.apply (ρ x) b1) (BinOp.and.apply (!ρ x) b0), by simp [Fml.eval, e1, e0], ?_⟩
    have hu : Function.update ρ x (ρ x) = ρ := Function.update_eq_self x ρ
    cases hx : ρ x
    · rw [hx] at hu
      rw [hu] at q0
      simp [BinOp.apply, q0]
    · rw [hx] at hu
      rw [hu] at q1
      simp [BinOp.apply, q1]

/-- Every further condition on steps is expressed by a constraint. -/
theorem exists_spec (ds : Decls) (F : Section → List Fml) (hn : (tableOf ds).names.Nodup) (Q : T (specOf ds F).In (specOf ds F).Out) :
    ∃ F' : Section → List Fml,
      (specOf ds F').game = { (specOf ds F).game with safetySys := fun p q => (specOf ds F).game.safetySys p q ∧ Q p q } := by
  let back : (Word → Bool) → Pos (specOf ds F).In (specOf ds F).Out × Pos (specOf ds F).In (specOf ds F).Out := fun ρ =>
    ((fun x => ρ x.1, fun x => ρ x.1), (fun x => ρ (prime x.1), fun x => ρ (prime x.1)))
  obtain ⟨φ, hφ⟩ := exists_fml (tableOf ds).names (fun ρ => Q (back ρ).1 (back ρ).2) (by
    intro ρ ρ' h
    have hz : ∀ z : DSlot ds, ρ (slotEntry z).1 = ρ' (slotEntry z).1 := fun z => h _ (slotName_mem z)
    have e : back ρ = back ρ' :=
      Prod.ext (Prod.ext (funext fun x => hz (.ci x)) (funext fun x => hz (.co x)))
        (Prod.ext (funext fun x => hz (.ni x)) (funext fun x => hz (.no x)))
    rw [e])
  refine ⟨fun s => if s = .sysTrans then F s ++ [φ] else F s, ?_⟩
  have hlook : ∀ p q, (specOf ds F).holds p q φ ↔ Q p q := by
    intro p q
    obtain ⟨b, h1, h2⟩ := hφ ((specOf ds F).look p q)
    have e : back ((specOf ds F).look p q) = (p, q) :=
      Prod.ext (Prod.ext (funext fun x => look_slot F hn p q (.ci x)) (funext fun x => look_slot F hn p q (.co x)))
        (Prod.ext (funext fun x => look_slot F hn p q (.ni x)) (funext fun x => look_slot F hn p q (.no x)))
    rw [e] at h2
    rw [SpecFile.holds, h1, ← h2]
    simp
  have hs : ∀ p q, ((specOf ds (fun s => if s = .sysTrans then F s ++ [φ] else F s)).game.safetySys p q ↔
      (specOf ds F).game.safetySys p q ∧ Q p q) := by
    intro p q
    have e : (specOf ds (fun s => if s = .sysTrans then F s ++ [φ] else F s)).sysTrans = (specOf ds F).sysTrans ++ [φ] := rfl
    have e1 : ∀ ψ, (specOf ds (fun s => if s = .sysTrans then F s ++ [φ] else F s)).holds p q ψ ↔ (specOf ds F).holds p q ψ :=
      fun ψ => Iff.rfl
    simp only [SpecFile.game, e, List.mem_append, List.mem_singleton]
    constructor
    · intro h; exact ⟨fun ψ hψ => h ψ (.inl hψ), (hlook p q).mp (h φ (.inr rfl))⟩
    · rintro ⟨h1, h2⟩ ψ (hψ | rfl)
      · exact h1 ψ hψ
      · exact (hlook p q).mpr h2
  have hs' : (specOf ds (fun s => if s = .sysTrans then F s ++ [φ] else F s)).game.safetySys =
      fun p q => (specOf ds F).game.safetySys p q ∧ Q p q := funext fun p => funext fun q => propext (hs p q)
  have key : (specOf ds (fun s => if s = .sysTrans then F s ++ [φ] else F s)).game = { (specOf ds F).game with
      safetySys := (specOf ds (fun s => if s = .sysTrans then F s ++ [φ] else F s)).game.safetySys } := rfl
  rw [key, hs']
  rfl

/-- The context with which the winning positions are computed represents a specification. -/
theorem fs_context {B : Type} [DecidableEq B] [L : BddLib B] (ds : Decls) (F : Section → List Fml) (hn : (tableOf ds).names.Nodup)
    (slow : List Word) :
    ∃ F' : Section → List Fml, (specOf ds F').game = (specOf ds F).fsGame slow ∧
      { (gameCtx (padGame (specOf ds F).game)).map ((tableLayout ds hn).enc B) with
        safetySys := newSafetySys (fsTypes ds fun x => decide (x ∈ slow))
          ((gameCtx (padGame (specOf ds F).game)).map ((tableLayout ds hn).enc B)).safetySys } =
        (gameCtx (padGame (specOf ds F').game)).map ((tableLayout ds hn).enc B) := by
  obtain ⟨F', hF'⟩ := exists_spec ds F hn fun p q => (specOf ds F).SafePos ((specOf ds F).between slow p q)
  refine ⟨F', hF', ?_⟩
  have e' : (gameCtx (padGame (specOf ds F').game)).map ((tableLayout ds hn).enc B) =
      (gameCtx (padGame ((specOf ds F).fsGame slow))).map ((tableLayout ds hn).enc B) := by
    have h : (specOf ds F').game = (specOf ds F).fsGame slow := hF'
    exact congrArg (fun g : Game ({x // x ∈ inputsOf ds} → Bool) ({x // x ∈ outputsOf ds} → Bool) =>
      (gameCtx (padGame g)).map ((tableLayout ds hn).enc B)) h
  rw [e']
  simp only [Ctx.map, gameCtx, padGame, SpecFile.fsGame, Ctx.mk.injEq]
  refine ⟨trivial, trivial, trivial, trivial, trivial, (newSafetySys_enc B hn _ _).trans ?_⟩
  congr 1
  funext p q
  simp only [SpecFile.SafePos, SpecFile.between, decide_eq_true_eq]
  rfl

end Slugs.Model
