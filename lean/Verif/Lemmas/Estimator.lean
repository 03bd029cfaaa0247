import Verif.Lemmas.EstimatorInit
import Verif.Lemmas.EstimatorPrint
import Verif.Lemmas.FastSlow

/-! The computation of `--computeIncompleteInformationEstimator` on an accepted file, in terms of the specification. -/

namespace Slugs.Model

open Slugs.Spec

/-! ### Variable types -/

/-- The type of a role. -/
def eSlotType {ds : Decls} (U C : Name → Bool) : DSlot ds → VarType
  | .ci x => if U x.1 then .unobservablePre else if C x.1 then .controllablePre else .observablePre
  | .co _ => .estimationPre
  | .ni x => if U x.1 then .unobservablePost else if C x.1 then .controllablePost else .observablePost
  | .no _ => .estimationPost

theorem eType_slot {ds : Decls} (U C : Name → Bool) (z : DSlot ds) : eType U C (slotEntry z) = eSlotType U C z := by
  rcases z with z | z | z | z
  · rfl
  · rfl
  · simp only [eType, slotEntry, prime, List.dropLast_concat, eSlotType]
  · rfl

theorem mem_varsOfType_e {ds : Decls} (hn : (tableOf ds).names.Nodup) (U C : Name → Bool) {ty : VarType} {k : Nat} :
    k ∈ varsOfType (eTypes ds U C) ty ↔ ∃ z : DSlot ds, slotCode z = k ∧ ty ∈ (eType U C (slotEntry z)).closure := by
  simp only [varsOfType, List.mem_filter, List.mem_range]
  constructor
  · rintro ⟨hk, h⟩
    have hk' : k < (entriesOf ds).length := by simpa [eTypes] using hk
    obtain ⟨z, hz⟩ := mem_entriesOf.mp (List.getElem_mem hk')
    refine ⟨z, (getElem_slotCode hn).mp (by rw [List.getElem?_eq_getElem hk', hz]), ?_⟩
    simp only [eTypes, List.getElem?_map, List.getElem?_eq_getElem hk', Option.map_some, ← hz] at h
    simpa using h
  · rintro ⟨z, hz, ht⟩
    have h := (getElem_slotCode hn).mpr hz
    have hk' : k < (entriesOf ds).length := by
      by_contra hk; rw [List.getElem?_eq_none (by omega)] at h; cases h
    refine ⟨by simpa [eTypes] using hk', ?_⟩
    simp only [eTypes, List.getElem?_map, h, Option.map_some]
    simpa using ht

theorem varsOfType_e (ds : Decls) (U C : Name → Bool) {ty : VarType}
    (h : ty ∈ [VarType.preInput, .preOutput, .postInput, .postOutput]) :
    varsOfType (eTypes ds U C) ty = varsOfType (tableOf ds).types ty := by
  have hl : (eTypes ds U C).length = (tableOf ds).types.length := by simp [eTypes, tableOf]
  simp only [varsOfType, hl]
  refine List.filter_congr fun k _ => ?_
  simp only [eTypes, tableOf, List.getElem?_map]
  cases he : (entriesOf ds)[k]? with
  | none => rfl
  | some e =>
    obtain ⟨z, rfl⟩ := mem_entriesOf.mp (List.mem_of_getElem? he)
    simp only [Option.map_some, eType_slot]
    have key : ∀ (Q R : Bool), ∀ ty ∈ [VarType.preInput, .preOutput, .postInput, .postOutput],
        ((if Q then .unobservablePre else if R then .controllablePre else .observablePre : VarType).closure.contains ty =
          VarType.preInput.closure.contains ty) ∧
        ((if Q then .unobservablePost else if R then .controllablePost else .observablePost : VarType).closure.contains ty =
          VarType.postInput.closure.contains ty) ∧
        (VarType.estimationPre.closure.contains ty = VarType.preOutput.closure.contains ty) ∧
        (VarType.estimationPost.closure.contains ty = VarType.postOutput.closure.contains ty) := by decide
    rcases z with z | z | z | z
    · exact (key _ _ ty h).1
    · exact (key true true ty h).2.2.1
    · exact (key _ _ ty h).2.1
    · exact (key true true ty h).2.2.2

theorem bddMgr_e (B : Type) [DecidableEq B] [BddLib B] (ds : Decls) (U C : Name → Bool) : bddMgr B (eTypes ds U C) = bddMgr B (tableOf ds).types := by
  have h1 := varsOfType_e ds U C (ty := .preInput) (by decide)
  have h2 := varsOfType_e ds U C (ty := .preOutput) (by decide)
  have h3 := varsOfType_e ds U C (ty := .postInput) (by decide)
  have h4 := varsOfType_e ds U C (ty := .postOutput) (by decide)
  simp only [bddMgr, varsOfTypes, List.flatMap_cons, List.flatMap_nil, h1, h2, h3, h4]

theorem mem_unobs {ds : Decls} (hn : (tableOf ds).names.Nodup) (U C : Name → Bool) (k : Nat) :
    k ∈ varsOfTypes (eTypes ds U C) [.unobservablePre, .unobservablePost] ↔
      ∃ z : DSlot ds, (∃ x, U x.1 = true ∧ (z = .ci x ∨ z = .ni x)) ∧ slotCode z = k := by
  simp only [varsOfTypes, List.flatMap_cons, List.flatMap_nil, List.append_nil, List.mem_append, mem_varsOfType_e hn, eType_slot]
  constructor
  · rintro (⟨z | z | z | z, h, h'⟩ | ⟨z | z | z | z, h, h'⟩)
    all_goals dsimp only [eSlotType] at h'
    all_goals first
      | exact absurd h' (by decide)
      | (by_cases hU : U z.1 = true
         · exact ⟨_, ⟨z, hU, by simp⟩, h⟩
         · rw [if_neg hU] at h'
           by_cases hC : C z.1 = true
           · rw [if_pos hC] at h'; exact absurd h' (by decide)
           · rw [if_neg hC] at h'; exact absurd h' (by decide))
  · rintro ⟨z, ⟨x, hU, rfl | rfl⟩, h⟩
    · exact .inl ⟨_, h, by simp only [eSlotType, hU, if_true]; decide⟩
    · exact .inr ⟨_, h, by simp only [eSlotType, hU, if_true]; decide⟩

theorem mem_estPost {ds : Decls} (hn : (tableOf ds).names.Nodup) (U C : Name → Bool) (k : Nat) :
    k ∈ varsOfType (eTypes ds U C) .estimationPost ↔ ∃ z : DSlot ds, (∃ y, z = .no y) ∧ slotCode z = k := by
  simp only [mem_varsOfType_e hn, eType_slot]
  constructor
  · rintro ⟨z | z | z | z, h, h'⟩
    all_goals dsimp only [eSlotType] at h'
    · by_cases hU : U z.1 = true <;> by_cases hC : C z.1 = true <;> simp only [hU, hC, if_true, if_false] at h' <;> exact absurd h' (by decide)
    · exact absurd h' (by decide)
    · by_cases hU : U z.1 = true <;> by_cases hC : C z.1 = true <;> simp only [hU, hC, if_true, if_false] at h' <;> exact absurd h' (by decide)
    · exact ⟨_, ⟨z, rfl⟩, h⟩
  · rintro ⟨_, ⟨y, rfl⟩, h⟩
    exact ⟨_, h, by simp only [eSlotType]; decide⟩

theorem mem_hidden {ds : Decls} (hn : (tableOf ds).names.Nodup) (U C : Name → Bool) (k : Nat) :
    k ∈ varsOfTypes (eTypes ds U C) [.unobservablePre, .unobservablePost, .estimationPost, .controllablePost] ↔
      ∃ z : DSlot ds, ((∃ x, U x.1 = true ∧ z = .ci x) ∨ (∃ x, (U x.1 = true ∨ C x.1 = true) ∧ z = .ni x) ∨ ∃ y, z = .no y) ∧ slotCode z = k := by
  have h1 := mem_unobs hn U C k
  have h2 := mem_estPost hn U C k
  have h3 : k ∈ varsOfType (eTypes ds U C) .controllablePost ↔ ∃ z : DSlot ds, (∃ x, U x.1 ≠ true ∧ C x.1 = true ∧ z = .ni x) ∧ slotCode z = k := by
    simp only [mem_varsOfType_e hn, eType_slot]
    constructor
    · rintro ⟨z | z | z | z, h, h'⟩
      all_goals dsimp only [eSlotType] at h'
      · by_cases hU : U z.1 = true <;> by_cases hC : C z.1 = true <;> simp only [hU, hC, if_true, if_false] at h' <;> exact absurd h' (by decide)
      · exact absurd h' (by decide)
      · by_cases hU : U z.1 = true <;> by_cases hC : C z.1 = true <;> simp only [hU, hC, if_true, if_false] at h' <;>
          first | exact absurd h' (by decide) | exact ⟨_, ⟨z, hU, hC, rfl⟩, h⟩
      · exact absurd h' (by decide)
    · rintro ⟨_, ⟨x, hU, hC, rfl⟩, h⟩
      exact ⟨_, h, by simp only [eSlotType, hU, hC, if_true, if_false]; decide⟩
  have e : k ∈ varsOfTypes (eTypes ds U C) [.unobservablePre, .unobservablePost, .estimationPost, .controllablePost] ↔
      k ∈ varsOfTypes (eTypes ds U C) [.unobservablePre, .unobservablePost] ∨ k ∈ varsOfType (eTypes ds U C) .estimationPost ∨
        k ∈ varsOfType (eTypes ds U C) .controllablePost := by
    simp only [varsOfTypes, List.flatMap_cons, List.flatMap_nil, List.append_nil, List.mem_append, or_assoc]
  rw [e, h1, h2, h3]
  constructor
  · rintro (⟨z, ⟨x, hU, rfl | rfl⟩, h⟩ | ⟨z, ⟨y, rfl⟩, h⟩ | ⟨z, ⟨x, hU, hC, rfl⟩, h⟩)
    · exact ⟨_, .inl ⟨x, hU, rfl⟩, h⟩
    · exact ⟨_, .inr (.inl ⟨x, .inl hU, rfl⟩), h⟩
    · exact ⟨_, .inr (.inr ⟨y, rfl⟩), h⟩
    · exact ⟨_, .inr (.inl ⟨x, .inr hC, rfl⟩), h⟩
  · rintro ⟨z, (⟨x, hU, rfl⟩ | ⟨x, hU, rfl⟩ | ⟨y, rfl⟩), h⟩
    · exact .inl ⟨_, ⟨x, hU, .inl rfl⟩, h⟩
    · by_cases hU' : U x.1 = true
      · exact .inl ⟨_, ⟨x, hU', .inr rfl⟩, h⟩
      · exact .inr (.inr ⟨_, ⟨x, hU', hU.resolve_left hU', rfl⟩, h⟩)
    · exact .inr (.inl ⟨_, ⟨y, rfl⟩, h⟩)

/-! ### Operations on BDDs -/

/-- Current or next positions of a table. -/
abbrev DPos (ds : Decls) := Pos ({x // x ∈ inputsOf ds} → Bool) ({x // x ∈ outputsOf ds} → Bool)

def sameObs {ds : Decls} (U : Name → Bool) (p p' : DPos ds) : Prop := p'.2 = p.2 ∧ ∀ x, U x.1 ≠ true → p'.1 x = p.1 x

section
variable (B : Type) [DecidableEq B] [L : BddLib B] {ds : Decls} (hn : (tableOf ds).names.Nodup) (U C : Name → Bool)

theorem exist_unobs (f : T ({x // x ∈ inputsOf ds} → Bool) ({x // x ∈ outputsOf ds} → Bool)) :
    L.exist (varsOfTypes (eTypes ds U C) [.unobservablePre, .unobservablePost]) ((tableLayout ds hn).enc B f) =
      (tableLayout ds hn).enc B fun p q => ∃ p' q', sameObs U p p' ∧ sameObs U q q' ∧ f p' q' := by
  refine (tableLayout ds hn).exist_enc B _ _ (mem_unobs hn U C) _ _ fun v => ?_
  constructor
  · rintro ⟨u, h, hf⟩
    refine ⟨curPos u, nxtPos u, ⟨?_, ?_⟩, ⟨?_, ?_⟩, hf⟩
    · funext y; exact h (.co y) (by rintro ⟨x, _, h | h⟩ <;> cases h)
    · intro x hx; exact h (.ci x) (by rintro ⟨x', h', h | h⟩ <;> cases h; exact hx h')
    · funext y; exact h (.no y) (by rintro ⟨x, _, h | h⟩ <;> cases h)
    · intro x hx; exact h (.ni x) (by rintro ⟨x', h', h | h⟩ <;> cases h; exact hx h')
  · rintro ⟨p', q', ⟨h1, h2⟩, ⟨h3, h4⟩, hf⟩
    refine ⟨slots p' q', ?_, hf⟩
    rintro (z | z | z | z) hz
    · exact h2 z fun hU => hz ⟨z, hU, .inl rfl⟩
    · exact congrFun h1 z
    · exact h4 z fun hU => hz ⟨z, hU, .inr rfl⟩
    · exact congrFun h3 z

theorem exist_estPost (f : T ({x // x ∈ inputsOf ds} → Bool) ({x // x ∈ outputsOf ds} → Bool)) :
    L.exist (varsOfType (eTypes ds U C) .estimationPost) ((tableLayout ds hn).enc B f) =
      (tableLayout ds hn).enc B fun p q => ∃ o, f p (q.1, o) := by
  refine (tableLayout ds hn).exist_enc B _ _ (mem_estPost hn U C) _ _ fun v => ?_
  constructor
  · rintro ⟨u, h, hf⟩
    have h1 : curPos u = curPos v := Prod.ext (funext fun x => h (.ci x) (by rintro ⟨_, h⟩; cases h)) (funext fun x => h (.co x) (by rintro ⟨_, h⟩; cases h))
    have h2 : (nxtPos u).1 = (nxtPos v).1 := funext fun x => h (.ni x) (by rintro ⟨_, h⟩; cases h)
    exact ⟨(nxtPos u).2, by rw [← h1, ← h2]; exact hf⟩
  · rintro ⟨o, hf⟩
    refine ⟨slots (curPos v) ((nxtPos v).1, o), ?_, hf⟩
    rintro (z | z | z | z) hz
    · rfl
    · rfl
    · rfl
    · exact absurd ⟨z, rfl⟩ hz

theorem univ_estPost (f : T ({x // x ∈ inputsOf ds} → Bool) ({x // x ∈ outputsOf ds} → Bool)) :
    L.univ (varsOfType (eTypes ds U C) .estimationPost) ((tableLayout ds hn).enc B f) =
      (tableLayout ds hn).enc B fun p q => ∀ o, f p (q.1, o) := by
  have e : L.univ (varsOfType (eTypes ds U C) .estimationPost) ((tableLayout ds hn).enc B f) =
      L.not (L.exist (varsOfType (eTypes ds U C) .estimationPost) (L.not ((tableLayout ds hn).enc B f))) := by
    refine L.eval_inj _ _ fun v => ?_
    rw [Bool.eq_iff_iff, L.eval_univ, L.eval_not, Bool.not_eq_true', ← Bool.not_eq_true, L.eval_exist]
    simp only [L.eval_not, Bool.not_eq_true', not_exists, not_and, Bool.not_eq_false]
  rw [e, Layout.not_enc, exist_estPost B hn U C, Layout.not_enc]
  congr 1
  funext p q
  simp

theorem exist_hidden (f : T ({x // x ∈ inputsOf ds} → Bool) ({x // x ∈ outputsOf ds} → Bool)) :
    L.exist (varsOfTypes (eTypes ds U C) [.unobservablePre, .unobservablePost, .estimationPost, .controllablePost]) ((tableLayout ds hn).enc B f) =
      (tableLayout ds hn).enc B fun p q => ∃ p' q', sameObs U p p' ∧ (∀ x, U x.1 ≠ true → C x.1 ≠ true → q'.1 x = q.1 x) ∧ f p' q' := by
  refine (tableLayout ds hn).exist_enc B _ _ (mem_hidden hn U C) _ _ fun v => ?_
  constructor
  · rintro ⟨u, h, hf⟩
    refine ⟨curPos u, nxtPos u, ⟨?_, ?_⟩, ?_, hf⟩
    · funext y; exact h (.co y) (by rintro (⟨x, _, h⟩ | ⟨x, _, h⟩ | ⟨x, h⟩) <;> cases h)
    · intro x hx; exact h (.ci x) (by rintro (⟨x', h', h⟩ | ⟨x', h', h⟩ | ⟨x', h⟩) <;> cases h; exact hx h')
    · intro x hx hx2
      exact h (.ni x) (by
        rintro (⟨x', h', h⟩ | ⟨x', h', h⟩ | ⟨x', h⟩) <;> cases h
        exact h'.elim hx hx2)
  · rintro ⟨p', q', ⟨h1, h2⟩, h3, hf⟩
    refine ⟨slots p' q', ?_, hf⟩
    rintro (z | z | z | z) hz
    · exact h2 z fun hU => hz (.inl ⟨z, hU, rfl⟩)
    · exact congrFun h1 z
    · exact h3 z (fun hU => hz (.inr (.inl ⟨z, .inl hU, rfl⟩))) (fun hC => hz (.inr (.inl ⟨z, .inr hC, rfl⟩)))
    · exact absurd (.inr (.inr ⟨z, rfl⟩)) hz

theorem var_next (y : {x // x ∈ outputsOf ds}) :
    L.var (slotCode (ds := ds) (.no y)) = (tableLayout ds hn).enc B fun _ q => q.2 y = true := by
  refine (tableLayout ds hn).eq_enc B fun a => ?_
  rw [L.eval_var]
  rfl

end

/-! ### Reachable positions -/

/-- The positions that can be reached from `init`. -/
inductive Clo {I O : Type} (init : Pos I O → Prop) (step : Pos I O → Pos I O → Prop) : Pos I O → Prop
  | start {p} : init p → Clo init step p
  | step {p q} : Clo init step p → step p q → Clo init step q

open Classical in
theorem eReachLoop_hom {B : Type} [DecidableEq B] {I O : Type} [Fintype I] [Fintype O] {M : Mgr B} {h : T I O → B} (H : MgrHom (semMgr I O) M h)
    (init : Pos I O → Prop) (trans : T I O) : ∀ (n : Nat) (R R0 : Pos I O → Prop), (∀ p, init p → R p) → (∀ p, R p → Clo init trans p) →
      (∀ p, R0 p → R p) → (∀ p q, R0 p → trans p q → R q) → (Finset.univ.filter fun p => ¬ R0 p).card < n →
      eReachLoop M (h trans) n (h fun p _ => R p) (h fun p _ => R0 p) = some (h fun p _ => Clo init trans p) := by
  intro n
  induction n with
  | zero => intro R R0 _ _ _ _ h; exact absurd h (Nat.not_lt_zero _)
  | succ n ih =>
    intro R R0 h1 h2 h3 h4 h5
    rw [eReachLoop]
    by_cases he : (h fun p _ => R p) = h fun p _ => R0 p
    · rw [if_pos he]
      have heq : ∀ p, R p ↔ R0 p := fun p => iff_of_eq (congrFun (congrFun (H.inj he) p) p)
      have : (fun p (_ : Pos I O) => R p) = fun p _ => Clo init trans p := by
        funext p _
        refine propext ⟨h2 p, fun hc => ?_⟩
        induction hc with
        | start hp => exact h1 _ hp
        | step _ hs ih' => exact h4 _ _ ((heq _).mp ih') hs
      rw [this]
    · rw [if_neg he, H.and, H.exPre, H.swap, H.or]
      refine ih (fun p => R p ∨ ∃ s, R s ∧ trans s p) R (fun p hp => .inl (h1 p hp)) ?_ (fun p hp => .inl hp) (fun p q hp hs => .inr ⟨p, hp, hs⟩) ?_
      · rintro p (hp | ⟨s, hs, ht⟩)
        · exact h2 p hp
        · exact .step (h2 s hs) ht
      · obtain ⟨p, hp, hp0⟩ : ∃ p, R p ∧ ¬ R0 p := by
          by_contra hno
          push Not at hno
          apply he
          congr 1
          funext p _
          exact propext ⟨hno p, h3 p⟩
        have : (Finset.univ.filter fun p => ¬ R p) ⊂ Finset.univ.filter fun p => ¬ R0 p := by
          refine Finset.ssubset_iff_of_subset (fun q hq => ?_) |>.mpr ⟨p, by simp [hp0], by simp [hp]⟩
          simp only [Finset.mem_filter, Finset.mem_univ, true_and] at hq ⊢
          exact fun hq0 => hq (h3 q hq0)
        have := Finset.card_lt_card this
        omega

/-- The loop from the initial positions. -/
theorem eReachLoop_start {B : Type} [DecidableEq B] {I O : Type} [Fintype I] [Fintype O] {M : Mgr B} {h : T I O → B} (H : MgrHom (semMgr I O) M h)
    (init : Pos I O → Prop) (trans : T I O) {n : Nat} (hn : Fintype.card (Pos I O) < n) :
    eReachLoop M (h trans) n (h fun p _ => init p) M.ff = some (h fun p _ => Clo init trans p) := by
  classical
  have := eReachLoop_hom H init trans n init (fun _ => False) (fun _ h => h) (fun _ h => .start h) (fun _ h => h.elim) (fun _ _ h => h.elim)
    (by simpa using hn)
  rw [← this, H.ff]
  rfl

theorem eReachLoop_more {B : Type} [DecidableEq B] {M : Mgr B} {trans b : B} : ∀ {n k : Nat} {r o : B}, eReachLoop M trans n r o = some b →
    eReachLoop M trans (n + k) r o = some b := by
  intro n
  induction n with
  | zero => intro k r o h; cases h
  | succ n ih =>
    intro k r o h
    rw [Nat.succ_add, eReachLoop]
    rw [eReachLoop] at h
    by_cases he : r = o
    · rwa [if_pos he] at h ⊢
    · rw [if_neg he] at h ⊢
      exact ih h

/-! ### Preferred values -/

section
variable {ds : Decls}

def valOf (o : {x // x ∈ outputsOf ds} → Bool) (y : Name) : Bool := if h : y ∈ outputsOf ds then o ⟨y, h⟩ else false

def prefSem (y : Name) (S : DPos ds → DPos ds → Prop) : DPos ds → DPos ds → Prop :=
  match preferred y with
  | none => S
  | some b => fun p q => S p q ∧ (¬ (∃ o, S p (q.1, o) ∧ valOf o y = b) ∨ valOf q.2 y = b)

def prefAll : List Name → (DPos ds → DPos ds → Prop) → DPos ds → DPos ds → Prop
  | [], S => S
  | y :: l, S => prefAll l (prefSem y S)

def BetterL : List Name → ({x // x ∈ outputsOf ds} → Bool) → ({x // x ∈ outputsOf ds} → Bool) → Prop
  | [], _, _ => False
  | y :: l, o', o => (∃ b, preferred y = some b ∧ valOf o' y = b ∧ valOf o y ≠ b) ∨ ((preferred y ≠ none → valOf o' y = valOf o y) ∧ BetterL l o' o)

theorem prefAll_iff : ∀ (l : List Name) (S : DPos ds → DPos ds → Prop) (p q : DPos ds),
    prefAll l S p q ↔ S p q ∧ ∀ o, S p (q.1, o) → ¬ BetterL l o q.2
  | [], S, p, q => by simp [prefAll, BetterL]
  | y :: l, S, p, q => by
    rw [prefAll, prefAll_iff l]
    cases hb : preferred y with
    | none => simp [prefSem, hb, BetterL]
    | some b =>
      simp only [prefSem, hb, BetterL]
      constructor
      · rintro ⟨⟨h1, h2⟩, h3⟩
        refine ⟨h1, fun o ho => ?_⟩
        rintro (⟨b', hb', h4, h5⟩ | ⟨h4, h5⟩)
        · cases hb'
          rcases h2 with h2 | h2
          · exact h2 ⟨o, ho, h4⟩
          · exact h5 h2
        · have h4 := h4 (by simp)
          refine h3 o ⟨ho, ?_⟩ h5
          rw [h4]
          exact h2
      · rintro ⟨h1, h2⟩
        have h3 : ¬ (∃ o, S p (q.1, o) ∧ valOf o y = b) ∨ valOf q.2 y = b := by
          by_contra hno
          push Not at hno
          obtain ⟨⟨o, ho, hv⟩, hq⟩ := hno
          exact h2 o ho (.inl ⟨b, rfl, hv, hq⟩)
        refine ⟨⟨h1, h3⟩, ?_⟩
        rintro o ⟨ho, ho'⟩ hbet
        refine h2 o ho (.inr ⟨fun _ => ?_, hbet⟩)
        rcases h3 with h3 | h3
        · have e1 : valOf o y ≠ b := fun e => h3 ⟨o, ho, e⟩
          have e2 : valOf q.2 y ≠ b := fun e => h3 ⟨q.2, h1, e⟩
          revert e1 e2
          cases valOf o y <;> cases valOf q.2 y <;> cases b <;> simp
        · rw [h3]
          rcases ho' with ho' | ho'
          · exact absurd ⟨q.2, h1, h3⟩ ho'
          · exact ho'

theorem prefAll_exists : ∀ (l : List Name) (S : DPos ds → DPos ds → Prop) (p : DPos ds) (i : {x // x ∈ inputsOf ds} → Bool),
    (∃ o, S p (i, o)) → ∃ o, prefAll l S p (i, o)
  | [], _, _, _, h => h
  | y :: l, S, p, i, ⟨o, ho⟩ => by
    rw [prefAll]
    refine prefAll_exists l _ p i ?_
    cases hb : preferred y with
    | none => exact ⟨o, by simpa [prefSem, hb] using ho⟩
    | some b =>
      simp only [prefSem, hb]
      by_cases h : ∃ o, S p (i, o) ∧ valOf o y = b
      · obtain ⟨o', h1, h2⟩ := h
        exact ⟨o', h1, .inr h2⟩
      · exact ⟨o, ho, .inl h⟩

theorem BetterL_iff (l : List Name) (o' o : {x // x ∈ outputsOf ds} → Bool) : BetterL l o' o ↔
    ∃ l1 x l2 b, l = l1 ++ x :: l2 ∧ preferred x = some b ∧ valOf o' x = b ∧ valOf o x ≠ b ∧ ∀ y ∈ l1, preferred y ≠ none → valOf o' y = valOf o y := by
  induction l with
  | nil => simp [BetterL]
  | cons y l ih =>
    rw [BetterL, ih]
    constructor
    · rintro (⟨b, h1, h2, h3⟩ | ⟨h0, l1, x, l2, b, rfl, h1, h2, h3, h4⟩)
      · exact ⟨[], y, l, b, rfl, h1, h2, h3, by simp⟩
      · exact ⟨y :: l1, x, l2, b, rfl, h1, h2, h3, by
          intro z hz
          rcases List.mem_cons.mp hz with rfl | hz
          · exact h0
          · exact h4 z hz⟩
    · rintro ⟨l1, x, l2, b, e, h1, h2, h3, h4⟩
      cases l1 with
      | nil => cases e; exact .inl ⟨b, h1, h2, h3⟩
      | cons z l1 =>
        cases e
        exact .inr ⟨h4 _ (by simp), l1, x, l2, b, rfl, h1, h2, h3, fun w hw => h4 w (List.mem_cons_of_mem _ hw)⟩

variable (B : Type) [DecidableEq B] [L : BddLib B] (hn : (tableOf ds).names.Nodup) (U C : Name → Bool)

/-- The table that the program has built. -/
def eTable (ds : Decls) (U C : Name → Bool) : VarTable := ⟨(tableOf ds).names, eTypes ds U C⟩

theorem e_entries_even : ∀ (ds : Decls) (m : Nat), (entriesOf ds)[2 * m]? = ds[m]?.map (fun d => (d.2, if d.1 then VarType.preInput else .preOutput)) ∧
    (entriesOf ds)[2 * m + 1]? = ds[m]?.map (fun d => (prime d.2, if d.1 then VarType.postInput else .postOutput))
  | [], m => by simp [entriesOf]
  | d :: ds, 0 => by simp [entriesOf, declPair]
  | d :: ds, m + 1 => by
    have := e_entries_even ds m
    rw [show entriesOf (d :: ds) = declPair d ++ entriesOf ds from rfl, declPair]
    rw [show 2 * (m + 1) = 2 * m + 2 from rfl]
    simpa using this

theorem eTable_get (k : Nat) : (eTable ds U C).names[k]? = (entriesOf ds)[k]?.map Prod.fst ∧
    (eTable ds U C).types[k]? = (entriesOf ds)[k]?.map (eType U C) := by
  simp [eTable, eTypes, tableOf]

theorem preferStep_skip {k : Nat} (b : B) (h : ∀ e, (entriesOf ds)[k]? = some e → e.2 ≠ .preOutput) : preferStep (eTable ds U C) k b = b := by
  obtain ⟨h1, h2⟩ := eTable_get (ds := ds) U C k
  rw [preferStep, h1, h2]
  cases he : (entriesOf ds)[k]? with
  | none => rfl
  | some e =>
    have hne := h e he
    obtain ⟨z, rfl⟩ := mem_entriesOf.mp (List.mem_of_getElem? he)
    simp only [Option.map_some, eType_slot]
    have hf : (eSlotType U C z).closure.contains VarType.estimationPre = false := by
      rcases z with z | z | z | z
      · rw [eSlotType]; split <;> [decide; (split <;> decide)]
      · exact absurd rfl hne
      · rw [eSlotType]; split <;> [decide; (split <;> decide)]
      · rfl
    rw [hf]
    rfl

theorem preferStep_output {m : Nat} {y : Name} (h : ds[m]? = some (false, y)) (S : DPos ds → DPos ds → Prop) :
    preferStep (eTable ds U C) (2 * m) ((tableLayout ds hn).enc B S) = (tableLayout ds hn).enc B (prefSem y S) := by
  have H := (tableLayout ds hn).hom B
  obtain ⟨e1, e2⟩ := e_entries_even ds m
  rw [h] at e1 e2
  simp only [Option.map_some, Bool.false_eq_true, if_false] at e1 e2
  have hy : y ∈ outputsOf ds := mem_outputsOf.mpr (List.mem_of_getElem? h)
  have hcode : slotCode (ds := ds) (.no ⟨y, hy⟩) = 2 * m + 1 := (getElem_slotCode hn).mp e2
  obtain ⟨h1, h2⟩ := eTable_get (ds := ds) U C (2 * m)
  have hv : ∀ o : {x // x ∈ outputsOf ds} → Bool, valOf o y = o ⟨y, hy⟩ := fun o => by simp [valOf, hy]
  have hand : ∀ f g, L.and ((tableLayout ds hn).enc B f) ((tableLayout ds hn).enc B g) = (tableLayout ds hn).enc B fun p q => f p q ∧ g p q := H.and
  have hor : ∀ f g, L.or ((tableLayout ds hn).enc B f) ((tableLayout ds hn).enc B g) = (tableLayout ds hn).enc B fun p q => f p q ∨ g p q := H.or
  have hex := exist_estPost B hn U C
  rw [preferStep, h1, h2, e1]
  simp only [Option.map_some, eType]
  rw [if_pos (by decide), ← hcode, var_next B hn]
  by_cases hmin : y.take 4 = txt!"min_"
  · rw [if_pos hmin]
    simp only [show (eTable ds U C).types = eTypes ds U C from rfl, hand, hex, hor, Layout.not_enc]
    congr 1
    funext p q
    simp [prefSem, preferred, hmin, hv]
  · rw [if_neg hmin]
    by_cases hmax : y.take 4 = txt!"max_"
    · rw [if_pos hmax]
      simp only [show (eTable ds U C).types = eTypes ds U C from rfl, hand, hex, hor, Layout.not_enc]
      congr 1
      funext p q
      simp [prefSem, preferred, hmax, hv]
    · rw [if_neg hmax]
      simp [prefSem, preferred, hmin, hmax]

theorem preferLoop_enc : ∀ (m : Nat) (S : DPos ds → DPos ds → Prop), m ≤ ds.length →
    preferLoop (eTable ds U C) (2 * m) ((tableLayout ds hn).enc B S) = (tableLayout ds hn).enc B (prefAll (outputsOf (ds.take m)).reverse S) := by
  intro m
  induction m with
  | zero => intro S _; rfl
  | succ m ih =>
    intro S hm
    have hlt : m < ds.length := hm
    obtain ⟨e1, e2⟩ := e_entries_even ds m
    rw [show 2 * (m + 1) = (2 * m + 1) + 1 from rfl, preferLoop, preferLoop]
    rw [preferStep_skip (k := 2 * m + 1) B U C _ (by
      intro e he
      rw [e2, List.getElem?_eq_getElem hlt] at he
      cases he
      dsimp only
      split <;> simp)]
    rw [List.take_succ_eq_append_getElem hlt]
    cases hd : ds[m] with
    | mk b y =>
      cases b with
      | true =>
        rw [preferStep_skip (k := 2 * m) B U C _ (by
          intro e he
          rw [e1, List.getElem?_eq_getElem hlt, hd] at he
          cases he
          simp)]
        rw [ih S (Nat.le_of_lt hlt)]
        simp [outputsOf]
      | false =>
        rw [preferStep_output B hn U C (m := m) (y := y) (by rw [List.getElem?_eq_getElem hlt, hd])]
        rw [ih _ (Nat.le_of_lt hlt)]
        simp [outputsOf, prefAll]

theorem eTable_length (ds : Decls) (U C : Name → Bool) : (eTable ds U C).names.length = 2 * ds.length := by
  simp only [eTable, tableOf, List.length_map, entriesOf, List.length_flatMap, declPair, List.length_cons, List.length_nil]
  induction ds with
  | nil => rfl
  | cons d ds ih => simp at ih ⊢; omega

end

end Slugs.Model
