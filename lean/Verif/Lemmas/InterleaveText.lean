import Verif.Lemmas.Interleave
import Verif.Lemmas.TraceText

/-! The analysis of `--analyzeInterleaving` on an accepted file, in terms of the game. -/

namespace Slugs.Model

open Slugs.Spec

/-! ### Variable types -/

/-- The type of a table entry when the outputs in `P` are set before the input is read. -/
def baType (P : Name → Bool) (e : Name × VarType) : VarType :=
  match e.2 with
  | .preOutput => if P e.1 then .preOutputBefore else .preOutputAfter
  | .postOutput => if P e.1.dropLast then .postOutputBefore else .postOutputAfter
  | t => t

def baTypes (ds : Decls) (P : Name → Bool) : List VarType := (entriesOf ds).map (baType P)

theorem baTypes_append (d1 d2 : Decls) (P : Name → Bool) : baTypes (d1 ++ d2) P = baTypes d1 P ++ baTypes d2 P := by
  simp [baTypes, entriesOf]

theorem baTypes_cons (d : Bool × Name) (ds : Decls) (P : Name → Bool) : baTypes (d :: ds) P =
    (if d.1 then .preInput else if P d.2 then .preOutputBefore else .preOutputAfter) ::
    (if d.1 then .postInput else if P d.2 then .postOutputBefore else .postOutputAfter) :: baTypes ds P := by
  obtain ⟨b, x⟩ := d
  cases b <;> simp [baTypes, entriesOf, declPair, baType, prime]

theorem baTypes_length (ds : Decls) (P : Name → Bool) : (baTypes ds P).length = 2 * ds.length := by
  induction ds with
  | nil => rfl
  | cons d ds ih => rw [baTypes_cons]; simp [ih]; omega

theorem baTypes_congr {ds : Decls} {P Q : Name → Bool} (h : ∀ x ∈ outputsOf ds, P x = Q x) : baTypes ds P = baTypes ds Q := by
  induction ds with
  | nil => rfl
  | cons d ds ih =>
    obtain ⟨b, x⟩ := d
    rw [baTypes_cons, baTypes_cons, ih]
    · cases b
      · rw [h x (by simp [outputsOf])]
      · rfl
    · intro y hy
      refine h y ?_
      rw [mem_outputsOf] at hy ⊢
      exact List.mem_cons_of_mem _ hy

theorem mem_varsOfType_ba {ds : Decls} (hn : (tableOf ds).names.Nodup) (P : Name → Bool) {ty : VarType} {k : Nat} :
    k ∈ varsOfType (baTypes ds P) ty ↔ ∃ z : DSlot ds, slotCode z = k ∧ ty ∈ (baType P (slotEntry z)).closure := by
  simp only [varsOfType, List.mem_filter, List.mem_range]
  constructor
  · rintro ⟨hk, h⟩
    have hk' : k < (entriesOf ds).length := by simpa [baTypes] using hk
    obtain ⟨z, hz⟩ := mem_entriesOf.mp (List.getElem_mem hk')
    refine ⟨z, (getElem_slotCode hn).mp (by rw [List.getElem?_eq_getElem hk', hz]), ?_⟩
    simp only [baTypes, List.getElem?_map, List.getElem?_eq_getElem hk', Option.map_some, ← hz] at h
    simpa using h
  · rintro ⟨z, hz, ht⟩
    have h := (getElem_slotCode hn).mpr hz
    have hk' : k < (entriesOf ds).length := by
      by_contra hk; rw [List.getElem?_eq_none (by omega)] at h; cases h
    refine ⟨by simpa [baTypes] using hk', ?_⟩
    simp only [baTypes, List.getElem?_map, h, Option.map_some]
    simpa using ht

theorem varsOfType_ba (ds : Decls) (P : Name → Bool) {ty : VarType} (h : ty ∈ [VarType.preInput, .preOutput, .postInput, .postOutput]) :
    varsOfType (baTypes ds P) ty = varsOfType (tableOf ds).types ty := by
  have hl : (baTypes ds P).length = (tableOf ds).types.length := by simp [baTypes, tableOf]
  simp only [varsOfType, hl]
  refine List.filter_congr fun k _ => ?_
  simp only [baTypes, tableOf, List.getElem?_map]
  cases he : (entriesOf ds)[k]? with
  | none => rfl
  | some e =>
    obtain ⟨z, rfl⟩ := mem_entriesOf.mp (List.mem_of_getElem? he)
    simp only [Option.map_some]
    have key : ∀ (Q R : Bool) (t : VarType), t ∈ [VarType.preInput, .preOutput, .postInput, .postOutput] →
        ∀ ty ∈ [VarType.preInput, .preOutput, .postInput, .postOutput],
        ((match t with
          | .preOutput => if Q then .preOutputBefore else .preOutputAfter
          | .postOutput => if R then .postOutputBefore else .postOutputAfter
          | t => t : VarType).closure.contains ty) = t.closure.contains ty := by decide
    refine key _ _ _ ?_ ty h
    rcases z with z | z | z | z <;> simp [slotEntry]

theorem bddMgr_ba (B : Type) [DecidableEq B] [BddLib B] (ds : Decls) (P : Name → Bool) : bddMgr B (baTypes ds P) = bddMgr B (tableOf ds).types := by
  have h1 := varsOfType_ba ds P (ty := .preInput) (by decide)
  have h2 := varsOfType_ba ds P (ty := .preOutput) (by decide)
  have h3 := varsOfType_ba ds P (ty := .postInput) (by decide)
  have h4 := varsOfType_ba ds P (ty := .postOutput) (by decide)
  simp only [bddMgr, varsOfTypes, List.flatMap_cons, List.flatMap_nil, h1, h2, h3, h4]

theorem mem_before {ds : Decls} (hn : (tableOf ds).names.Nodup) (P : Name → Bool) (k : Nat) :
    k ∈ varsOfType (baTypes ds P) .postOutputBefore ↔ ∃ z : DSlot ds, (∃ x, P x.1 = true ∧ z = .no x) ∧ slotCode z = k := by
  rw [mem_varsOfType_ba hn]
  constructor
  · rintro ⟨z | z | z | z, h, h'⟩
    · exact absurd h' (by simp only [baType, slotEntry]; decide)
    · by_cases hP : P z.1 = true
      · simp only [baType, slotEntry, hP, if_true] at h'
        exact absurd h' (by decide)
      · simp only [baType, slotEntry, hP, if_false] at h'
        exact absurd h' (by decide)
    · exact absurd h' (by simp only [baType, slotEntry]; decide)
    · refine ⟨_, ⟨z, ?_, rfl⟩, h⟩
      by_contra hP
      have e : (prime z.1).dropLast = z.1 := by simp [prime]
      simp only [baType, slotEntry, e, hP, if_false] at h'
      exact absurd h' (by decide)
  · rintro ⟨_, ⟨x, hP, rfl⟩, h⟩
    have e : (prime x.1).dropLast = x.1 := by simp [prime]
    exact ⟨_, h, by simp only [baType, slotEntry, e, hP, if_true]; decide⟩

theorem mem_after {ds : Decls} (hn : (tableOf ds).names.Nodup) (P : Name → Bool) (k : Nat) :
    k ∈ varsOfType (baTypes ds P) .postOutputAfter ↔ ∃ z : DSlot ds, (∃ x, ¬ P x.1 = true ∧ z = .no x) ∧ slotCode z = k := by
  rw [mem_varsOfType_ba hn]
  constructor
  · rintro ⟨z | z | z | z, h, h'⟩
    · exact absurd h' (by simp only [baType, slotEntry]; decide)
    · by_cases hP : P z.1 = true
      · simp only [baType, slotEntry, hP, if_true] at h'
        exact absurd h' (by decide)
      · simp only [baType, slotEntry, hP, if_false] at h'
        exact absurd h' (by decide)
    · exact absurd h' (by simp only [baType, slotEntry]; decide)
    · refine ⟨_, ⟨z, ?_, rfl⟩, h⟩
      intro hP
      have e : (prime z.1).dropLast = z.1 := by simp [prime]
      simp only [baType, slotEntry, e, hP, if_true] at h'
      exact absurd h' (by decide)
  · rintro ⟨_, ⟨x, hP, rfl⟩, h⟩
    have e : (prime x.1).dropLast = x.1 := by simp [prime]
    exact ⟨_, h, by simp only [baType, slotEntry, e, hP, if_false]; decide⟩

/-! ### The enforceable predecessor operator on BDDs -/

theorem mergeOut_merge {Y : Type} (S : Y → Prop) (b c a : Y → Bool) : mergeOut S (mergeOut S b c) a = mergeOut S b a := by
  funext y; by_cases h : S y <;> simp [mergeOut, h]

section
variable (B : Type) [DecidableEq B] [L : BddLib B] {ds : Decls} (hn : (tableOf ds).names.Nodup) (P : Name → Bool)

theorem exist_after (f : T ({x // x ∈ inputsOf ds} → Bool) ({x // x ∈ outputsOf ds} → Bool)) :
    L.exist (varsOfType (baTypes ds P) .postOutputAfter) ((tableLayout ds hn).enc B f) =
      (tableLayout ds hn).enc B (fun s t => ∃ a, f s (t.1, mergeOut (fun y => P y.1 = true) t.2 a)) := by
  refine (tableLayout ds hn).exist_enc B _ _ (mem_after hn P) f _ fun v => ⟨?_, ?_⟩
  · rintro ⟨u, hu, hf⟩
    refine ⟨(nxtPos u).2, ?_⟩
    have h1 : curPos u = curPos v := Prod.ext (funext fun x => hu _ (by simp)) (funext fun x => hu _ (by simp))
    have h2 : nxtPos u = ((nxtPos v).1, mergeOut (fun y => P y.1 = true) (nxtPos v).2 (nxtPos u).2) := by
      refine Prod.ext (funext fun x => hu _ (by simp)) (funext fun x => ?_)
      by_cases hx : P x.1 = true
      · simp only [mergeOut, hx, if_true]
        exact hu _ (by simp [hx])
      · simp [mergeOut, hx]
    rw [h1, h2] at hf
    exact hf
  · rintro ⟨a, ha⟩
    refine ⟨slots (curPos v) ((nxtPos v).1, mergeOut (fun y => P y.1 = true) (nxtPos v).2 a), ?_, ha⟩
    rintro (x | x | x | x) h
    · rfl
    · rfl
    · rfl
    · have hx : P x.1 = true := by
        by_contra hx
        exact h ⟨x, hx, rfl⟩
      simp [slots, mergeOut, hx, nxtPos]

theorem exist_before (f : T ({x // x ∈ inputsOf ds} → Bool) ({x // x ∈ outputsOf ds} → Bool)) :
    L.exist (varsOfType (baTypes ds P) .postOutputBefore) ((tableLayout ds hn).enc B f) =
      (tableLayout ds hn).enc B (fun s t => ∃ b, f s (t.1, mergeOut (fun y => P y.1 = true) b t.2)) := by
  refine (tableLayout ds hn).exist_enc B _ _ (mem_before hn P) f _ fun v => ⟨?_, ?_⟩
  · rintro ⟨u, hu, hf⟩
    refine ⟨(nxtPos u).2, ?_⟩
    have h1 : curPos u = curPos v := Prod.ext (funext fun x => hu _ (by simp)) (funext fun x => hu _ (by simp))
    have h2 : nxtPos u = ((nxtPos v).1, mergeOut (fun y => P y.1 = true) (nxtPos u).2 (nxtPos v).2) := by
      refine Prod.ext (funext fun x => hu _ (by simp)) (funext fun x => ?_)
      by_cases hx : P x.1 = true
      · simp [mergeOut, hx]
      · simp only [mergeOut, hx, if_false]
        exact hu _ (by simp [hx])
    rw [h1, h2] at hf
    exact hf
  · rintro ⟨a, ha⟩
    refine ⟨slots (curPos v) ((nxtPos v).1, mergeOut (fun y => P y.1 = true) a (nxtPos v).2), ?_, ha⟩
    rintro (x | x | x | x) h
    · rfl
    · rfl
    · rfl
    · have hx : ¬ P x.1 = true := fun hx => h ⟨x, hx, rfl⟩
      simp [slots, mergeOut, hx, nxtPos]

theorem ctlBA_enc (g : Game ({x // x ∈ inputsOf ds} → Bool) ({x // x ∈ outputsOf ds} → Bool))
    (R : T ({x // x ∈ inputsOf ds} → Bool) ({x // x ∈ outputsOf ds} → Bool)) :
    ctlBA B (baTypes ds P) ((gameCtx g).map ((tableLayout ds hn).enc B)) ((tableLayout ds hn).enc B R) =
      (tableLayout ds hn).enc B (fun s _ => CoxBA (fun y => P y.1 = true) g R s) := by
  have H := (tableLayout ds hn).hom B
  rw [ctlBA, bddMgr_ba]
  simp only [Ctx.map]
  rw [H.and, H.imp, exist_after B hn P, H.allPostInput, exist_before B hn P]
  congr 1
  funext s t
  apply propext
  simp only [semMgr, Mgr.imp, gameCtx, mergeOut_merge, CoxBA]
  refine exists_congr fun b => forall_congr' fun i => ?_
  constructor
  · rintro ⟨a, ha⟩ hi
    exact ⟨a, ha.resolve_left (not_not_intro hi)⟩
  · intro h
    by_cases hi : g.safetyEnv s i
    · obtain ⟨a, ha⟩ := h hi
      exact ⟨a, .inr ha⟩
    · exact ⟨fun _ => false, .inl hi⟩

theorem checkRealizabilityBA_enc (g : Game ({x // x ∈ inputsOf ds} → Bool) ({x // x ∈ outputsOf ds} → Bool)) (fuel : Nat) :
    checkRealizabilityBA (bddMgr B (baTypes ds P)) (ctlBA B (baTypes ds P) ((gameCtx g).map ((tableLayout ds hn).enc B)))
        ((gameCtx g).map ((tableLayout ds hn).enc B)) fuel =
      checkRealizabilityBA (semMgr _ _) (fun R s _ => CoxBA (fun y => P y.1 = true) g R s) (gameCtx g) fuel := by
  have H := (tableLayout ds hn).hom B
  have H' : CtlHom (semMgr _ _) (bddMgr B (baTypes ds P)) (fun R s _ => CoxBA (fun y => P y.1 = true) g R s)
      (ctlBA B (baTypes ds P) ((gameCtx g).map ((tableLayout ds hn).enc B))) ((tableLayout ds hn).enc B) := by
    have hc := ctlBA_enc B hn P g
    rw [bddMgr_ba]
    exact ⟨H.inj, H.tt, H.ff, H.and, H.or, H.not, H.swap, hc⟩
  rw [checkRealizabilityBA, checkRealizabilityBA]
  have e := computeWinningPositionsBA_hom H' (gameCtx g).livenessAssumptions (gameCtx g).livenessGuarantees fuel
  rw [show ((gameCtx g).map ((tableLayout ds hn).enc B)).livenessAssumptions = (gameCtx g).livenessAssumptions.map ((tableLayout ds hn).enc B) from rfl,
    show ((gameCtx g).map ((tableLayout ds hn).enc B)).livenessGuarantees = (gameCtx g).livenessGuarantees.map ((tableLayout ds hn).enc B) from rfl, e]
  cases computeWinningPositionsBA (semMgr _ _) (fun R s _ => CoxBA (fun y => P y.1 = true) g R s) (gameCtx g).livenessAssumptions
      (gameCtx g).livenessGuarantees fuel with
  | none => rfl
  | some r =>
    obtain ⟨W, ⟨⟩⟩ := r
    simp only [Option.map_some, Prod.map_apply, Ctx.map]
    rw [bddMgr_ba, H.and, H.exPreOutput, H.imp, H.allPreInput, verdictOf_hom H]

end

/-! ### The game of a file -/

theorem padGame_sysWinning {I O : Type} (g : Game I O) (σ : SysStrategy I O) (s : Pos I O) : (padGame g).SysWinning σ s ↔ g.SysWinning σ s := by
  have hh : ∀ h, (padGame g).SysHist σ s h ↔ g.SysHist σ s h := by
    intro h
    constructor
    · intro hh
      induction hh with
      | start => exact .start
      | step _ hi ih => exact .step ih hi
    · intro hh
      induction hh with
      | start => exact .start
      | step _ hi ih => exact .step ih hi
  simp only [Game.SysWinning, hh, padGame_live]
  rfl

/-- Realizable although the outputs in `P` are set before the input is read. -/
def BAReal (sp : SpecFile) (P : Name → Bool) : Prop :=
  ∀ i, sp.game.initEnv i → ∃ o, sp.game.initSys (i, o) ∧
    ∃ σ, BlindFor (fun y : {x // x ∈ sp.outputs} => P y.1 = true) σ ∧ sp.game.SysWinning σ (i, o)

theorem BAReal.anti {sp : SpecFile} {P Q : Name → Bool} (h : ∀ x ∈ sp.outputs, Q x = true → P x = true) (hP : BAReal sp P) : BAReal sp Q := by
  intro i hi
  obtain ⟨o, ho, σ, h1, h2⟩ := hP i hi
  exact ⟨o, ho, σ, fun h' i i' y hy => h1 h' i i' y (h y.1 y.2 hy), h2⟩

theorem checkBA_spec (B : Type) [DecidableEq B] [L : BddLib B] {ds : Decls} (F : Section → List Fml) (hn : (tableOf ds).names.Nodup) (fuel : Nat)
    (hf : Nat.card (Pos ((specOf ds F).Out → (specOf ds F).In) (specOf ds F).Out) < fuel) (P : Name → Bool) :
    (BAReal (specOf ds F) P → checkBA B ((gameCtx (padGame (specOf ds F).game)).map ((tableLayout ds hn).enc B)) fuel (baTypes ds P) = .ok true) ∧
    (¬ BAReal (specOf ds F) P → checkBA B ((gameCtx (padGame (specOf ds F).game)).map ((tableLayout ds hn).enc B)) fuel (baTypes ds P) = .ok false) := by
  obtain ⟨v, hv, h1, h2⟩ := checkRealizabilityBA_sem (fun y : {x // x ∈ (specOf ds F).outputs} => P y.1 = true) (padGame (specOf ds F).game)
    (padGame_assumptions _) (padGame_guarantees _) fuel hf
  simp only [padGame_sysWinning] at h1 h2
  have e := checkRealizabilityBA_enc B hn P (padGame (specOf ds F).game) fuel
  have e' := e.trans hv
  constructor
  · intro h
    exact (congrArg checkResult e').trans (congrArg (fun v => checkResult (some v)) (h1.mpr h))
  · intro h
    exact (congrArg checkResult e').trans (congrArg (fun v => checkResult (some v)) (h2.mpr h))

/-! ### The loop over the variables -/

/-- Adding an output. -/
def addOut (P : Name → Bool) (x : Name) : Name → Bool := fun y => P y || decide (y = x)

theorem outputsOf_append (d1 d2 : Decls) : outputsOf (d1 ++ d2) = outputsOf d1 ++ outputsOf d2 := by simp [outputsOf]

theorem set_here {α : Type} (l : List α) (a b c d : α) (r : List α) :
    ((l ++ a :: b :: r).set l.length c).set (l.length + 1) d = l ++ c :: d :: r := by
  induction l with
  | nil => rfl
  | cons x l ih => simp only [List.cons_append, List.length_cons, List.set_cons_succ, ih]

theorem baTypes_set {d1 d2 : Decls} {x : Name} (h1 : x ∉ outputsOf d1) (h2 : x ∉ outputsOf d2) (P : Name → Bool) (hx : P x = false) :
    ((baTypes (d1 ++ (false, x) :: d2) P).set (2 * d1.length) .preOutputBefore).set (2 * d1.length + 1) .postOutputBefore =
      baTypes (d1 ++ (false, x) :: d2) (addOut P x) ∧
    ((baTypes (d1 ++ (false, x) :: d2) (addOut P x)).set (2 * d1.length) .preOutputAfter).set (2 * d1.length + 1) .postOutputAfter =
      baTypes (d1 ++ (false, x) :: d2) P := by
  have e1 : baTypes d1 (addOut P x) = baTypes d1 P := baTypes_congr fun y hy => by
    have : y ≠ x := fun e => h1 (e ▸ hy)
    simp [addOut, this]
  have e2 : baTypes d2 (addOut P x) = baTypes d2 P := baTypes_congr fun y hy => by
    have : y ≠ x := fun e => h2 (e ▸ hy)
    simp [addOut, this]
  simp only [baTypes_append, baTypes_cons, e1, e2]
  rw [← baTypes_length d1 P, set_here, set_here]
  simp [addOut, hx]

theorem inherits_here (l : List VarType) (a : VarType) (r : List VarType) (ty : VarType) :
    inheritsType (l ++ a :: r) l.length ty = a.closure.contains ty := by
  simp [inheritsType]

theorem inherits_ba (d1 d2 : Decls) (d : Bool × Name) (Q : Name → Bool) :
    inheritsType (baTypes (d1 ++ d :: d2) Q) (2 * d1.length) .preOutput = !d.1 ∧
    inheritsType (baTypes (d1 ++ d :: d2) Q) (2 * d1.length + 1) .preOutput = false := by
  rw [baTypes_append, baTypes_cons, ← baTypes_length d1 Q]
  obtain ⟨b, x⟩ := d
  constructor
  · rw [inherits_here]
    cases b
    · simp only [Bool.false_eq_true, if_false]
      cases Q x <;> rfl
    · rfl
  · rw [show baTypes d1 Q ++ (if (b, x).1 = true then VarType.preInput else if Q (b, x).2 = true then .preOutputBefore else .preOutputAfter) ::
      (if (b, x).1 = true then .postInput else if Q (b, x).2 = true then .postOutputBefore else .postOutputAfter) :: baTypes d2 Q =
      (baTypes d1 Q ++ [if (b, x).1 = true then VarType.preInput else if Q (b, x).2 = true then .preOutputBefore else .preOutputAfter]) ++
      (if (b, x).1 = true then .postInput else if Q (b, x).2 = true then .postOutputBefore else .postOutputAfter) :: baTypes d2 Q by simp]
    rw [show (baTypes d1 Q).length + 1 = (baTypes d1 Q ++
      [if (b, x).1 = true then VarType.preInput else if Q (b, x).2 = true then .preOutputBefore else .preOutputAfter]).length by simp]
    rw [inherits_here]
    cases b
    · simp only [Bool.false_eq_true, if_false]
      cases Q x <;> rfl
    · rfl

/-- What the loop has found. -/
structure Greedy (R : (Name → Bool) → Prop) (todo : List Name) (P Q : Name → Bool) (f : Option Bool) (P' Q' : Name → Bool) (f' : Option Bool) : Prop where
  grows : ∀ x, P x = true → P' x = true
  only : ∀ x, P' x = true → P x = true ∨ x ∈ todo
  real : R P → R P'
  maximal : ∀ x ∈ todo, ¬ P' x = true → ∃ P0, (∀ y, P0 y = true → P' y = true) ∧ ¬ R (addOut P0 x)
  idle : todo = [] → Q' = Q
  last : ∀ x, todo.getLast? = some x → Q' = addOut P' x
  found : f' = if todo.any P' then some true else f

theorem tryOutputs_spec {ds : Decls} (hn : (outputsOf ds).Nodup) {R : (Name → Bool) → Prop} {check : List VarType → Res Unit Bool}
    (hc : ∀ P, (R P → check (baTypes ds P) = .ok true) ∧ (¬ R P → check (baTypes ds P) = .ok false)) :
    ∀ (d2 d1 : Decls), ds = d1 ++ d2 → ∀ (P Q : Name → Bool) (f : Option Bool), (∀ x, P x = true → x ∈ outputsOf d1) →
      ∃ P' Q' f', tryOutputs check (List.range' (2 * d1.length) (2 * d2.length)) ⟨baTypes ds P, baTypes ds Q, f⟩ = .ok ⟨baTypes ds P', baTypes ds Q', f'⟩ ∧
        Greedy R (outputsOf d2) P Q f P' Q' f' := by
  intro d2
  induction d2 with
  | nil =>
    intro d1 _ P Q f _
    exact ⟨P, Q, f, rfl, ⟨fun _ h => h, fun _ h => .inl h, fun h => h, fun x hx => absurd hx (by simp [outputsOf]), fun _ => rfl,
      fun x hx => absurd hx (by simp [outputsOf]), rfl⟩⟩
  | cons d d2 ih =>
    intro d1 hds P Q f hP
    have hds' : ds = (d1 ++ [d]) ++ d2 := by simp [hds]
    have hlen : 2 * (d1 ++ [d]).length = 2 * d1.length + 1 + 1 := by simp; omega
    have hr : List.range' (2 * d1.length) (2 * (d :: d2).length) = 2 * d1.length :: (2 * d1.length + 1) ::
        List.range' (2 * (d1 ++ [d]).length) (2 * d2.length) := by
      rw [hlen]
      simp only [List.length_cons, Nat.mul_add, Nat.mul_one, List.range'_succ]
    have hpost : ∀ (Q : Name → Bool), inheritsType (baTypes ds Q) (2 * d1.length + 1) .preOutput = false := fun Q => by
      rw [hds]; exact (inherits_ba d1 d2 d Q).2
    have hpre : ∀ (Q : Name → Bool), inheritsType (baTypes ds Q) (2 * d1.length) .preOutput = !d.1 := fun Q => by
      rw [hds]; exact (inherits_ba d1 d2 d Q).1
    obtain ⟨b, x⟩ := d
    rw [hr, tryOutputs]
    simp only [hpre]
    cases b
    · -- an output
      have hx : x ∉ outputsOf d1 ∧ x ∉ outputsOf d2 := by
        rw [hds, outputsOf_append, show outputsOf ((false, x) :: d2) = x :: outputsOf d2 by simp [outputsOf], List.nodup_append] at hn
        exact ⟨fun hm => hn.2.2 x hm x (by simp) rfl, (List.nodup_cons.mp hn.2.1).1⟩
      have hPx : P x = false := by
        by_contra h
        exact hx.1 (hP x (by simpa using h))
      have hset := baTypes_set hx.1 hx.2 P hPx
      rw [← hds] at hset
      have hlt : ¬ (baTypes ds P).length ≤ 2 * d1.length + 1 := by
        rw [baTypes_length, hds]
        simp only [List.length_append, List.length_cons]
        omega
      simp only [Bool.not_false, if_true]
      rw [if_neg hlt, hset.1]
      have ht : outputsOf ((false, x) :: d2) = x :: outputsOf d2 := by simp [outputsOf]
      rw [ht]
      have hd1 : outputsOf (d1 ++ [(false, x)]) = outputsOf d1 ++ [x] := by simp [outputsOf]
      have hlast : ∀ {P1 P' Q' : Name → Bool} {f1 f' : Option Bool}, Greedy R (outputsOf d2) P1 (addOut P x) f1 P' Q' f' →
          addOut P1 x = addOut P x → ∀ y, (x :: outputsOf d2).getLast? = some y → Q' = addOut P' y := by
        intro P1 P' Q' f1 f' hG hP1 y hy
        cases ht2 : outputsOf d2 with
        | nil =>
          rw [ht2] at hy
          simp only [List.getLast?_singleton, Option.some.injEq] at hy
          subst hy
          have hnil := hG.only
          rw [ht2] at hnil
          have eP : P' = P1 := by
            funext z
            rw [Bool.eq_iff_iff]
            exact ⟨fun h => (hnil z h).resolve_right (by simp), hG.grows z⟩
          rw [hG.idle ht2, eP, hP1]
        | cons z l =>
          rw [ht2, List.getLast?_cons_cons] at hy
          exact hG.last y (ht2 ▸ hy)
      by_cases hR : R (addOut P x)
      · -- it can be set before
        rw [(hc _).1 hR]
        simp only
        rw [tryOutputs]
        simp only [hpost, Bool.false_eq_true, if_false]
        obtain ⟨P', Q', f', e, hG⟩ := ih (d1 ++ [(false, x)]) hds' (addOut P x) (addOut P x) (some true) (by
          intro y hy
          rw [hd1, List.mem_append]
          by_cases hyx : y = x
          · exact .inr (by simp [hyx])
          · exact .inl (hP y (by simpa [addOut, hyx] using hy)))
        refine ⟨P', Q', f', e, ?_⟩
        have hxP' : P' x = true := hG.grows x (by simp [addOut])
        refine ⟨fun y hy => hG.grows y (by simp [addOut, hy]), fun y hy => ?_, fun _ => hG.real hR, fun y hy hny => ?_, nofun,
          hlast hG (by funext z; simp [addOut]), ?_⟩
        · rcases hG.only y hy with h | h
          · by_cases hyx : y = x
            · exact .inr (by simp [hyx])
            · exact .inl (by simpa [addOut, hyx] using h)
          · exact .inr (List.mem_cons_of_mem _ h)
        · rcases List.mem_cons.mp hy with rfl | hy
          · exact absurd hxP' hny
          · exact hG.maximal y hy hny
        · rw [hG.found]
          simp [hxP']
      · -- it cannot
        rw [(hc _).2 hR]
        simp only
        rw [hset.2, tryOutputs]
        simp only [hpost, Bool.false_eq_true, if_false]
        obtain ⟨P', Q', f', e, hG⟩ := ih (d1 ++ [(false, x)]) hds' P (addOut P x) f (by
          intro y hy
          rw [hd1, List.mem_append]
          exact .inl (hP y hy))
        refine ⟨P', Q', f', e, ?_⟩
        have hxP' : P' x = false := by
          by_contra h
          rcases hG.only x (by simpa using h) with h | h
          · rw [hPx] at h; cases h
          · exact hx.2 h
        refine ⟨hG.grows, fun y hy => (hG.only y hy).imp_right (List.mem_cons_of_mem _), hG.real, fun y hy hny => ?_, nofun, hlast hG rfl, ?_⟩
        · rcases List.mem_cons.mp hy with rfl | hy
          · exact ⟨P, hG.grows, hR⟩
          · exact hG.maximal y hy hny
        · rw [hG.found]
          simp [hxP']
    · -- an input
      simp only [Bool.not_true, Bool.false_eq_true, if_false]
      rw [tryOutputs]
      simp only [hpost, Bool.false_eq_true, if_false]
      rw [show outputsOf ((true, x) :: d2) = outputsOf d2 by simp [outputsOf]]
      refine ih (d1 ++ [(true, x)]) hds' P Q f fun y hy => ?_
      rw [outputsOf_append]
      exact List.mem_append_left _ (hP y hy)

/-! ### The beginning and the end -/

theorem defaultTypes_eq (ds : Decls) : defaultTypes (tableOf ds).types = baTypes ds (fun _ => false) := by
  refine List.ext_getElem? fun k => ?_
  simp only [defaultTypes, List.getElem?_mapIdx, baTypes, tableOf, List.getElem?_map]
  cases he : (entriesOf ds)[k]? with
  | none => rfl
  | some e =>
    obtain ⟨z, rfl⟩ := mem_entriesOf.mp (List.mem_of_getElem? he)
    simp only [Option.map_some, inheritsType, List.getElem?_map, he]
    rcases z with z | z | z | z <;> rfl

theorem before_names (ds : Decls) (Q : Name → Bool) :
    ((varsOfType (baTypes ds Q) .preOutputBefore).map fun k => (tableOf ds).names.getD k []) = (outputsOf ds).filter Q := by
  induction ds using List.reverseRecOn with
  | nil => rfl
  | append_singleton ds d ih =>
    have e' : (tableOf (ds ++ [d])).names = (tableOf ds).names ++ [d.2, prime d.2] := by
      simp [tableOf, entriesOf, declPair]
    have hl : (tableOf ds).names.length = (baTypes ds Q).length := by simp [tableOf, baTypes]
    have hlow : ((varsOfType (baTypes ds Q) .preOutputBefore).map fun k => ((tableOf ds).names ++ [d.2, prime d.2]).getD k []) =
        (varsOfType (baTypes ds Q) .preOutputBefore).map fun k => (tableOf ds).names.getD k [] := by
      refine List.map_congr_left fun k hk => ?_
      have : k < (tableOf ds).names.length := by
        rw [hl]; simpa using (List.mem_filter.mp hk).1
      simp [List.getD_eq_getElem?_getD, List.getElem?_append_left this]
    have h0 : ((tableOf ds).names ++ [d.2, prime d.2]).getD ((baTypes ds Q).length + 0) [] = d.2 := by
      rw [← hl]; simp [List.getD_eq_getElem?_getD]
    rw [e', baTypes_append, varsOfType_append, List.map_append, hlow, ih, outputsOf_append, List.filter_append, List.map_map]
    congr 1
    obtain ⟨b, x⟩ := d
    rw [baTypes_cons]
    cases b
    · cases hQ : Q x
      · rw [show varsOfType ((if (false, x).1 = true then VarType.preInput else if false = true then .preOutputBefore else .preOutputAfter) ::
          (if (false, x).1 = true then .postInput else if false = true then .postOutputBefore else .postOutputAfter) :: baTypes [] Q) .preOutputBefore = [] from rfl]
        simp [outputsOf, hQ]
      · rw [show varsOfType ((if (false, x).1 = true then VarType.preInput else if true = true then .preOutputBefore else .preOutputAfter) ::
          (if (false, x).1 = true then .postInput else if true = true then .postOutputBefore else .postOutputAfter) :: baTypes [] Q) .preOutputBefore = [0] from rfl]
        simp only [List.map_cons, List.map_nil, Function.comp, h0]
        simp [outputsOf, hQ]
    · rw [show varsOfType ((if (true, x).1 = true then VarType.preInput else if Q (true, x).2 = true then .preOutputBefore else .preOutputAfter) ::
          (if (true, x).1 = true then .postInput else if Q (true, x).2 = true then .postOutputBefore else .postOutputAfter) :: baTypes [] Q) .preOutputBefore = [] from rfl]
      simp [outputsOf]

theorem outputs_nodup {ds : Decls} (hn : (tableOf ds).names.Nodup) : (outputsOf ds).Nodup := by
  have h := (names_perm ds (fun _ => [])).nodup_iff.mpr hn
  simp only [SpecFile.names, List.nodup_append] at h
  exact h.1.1.2.1

/-- The result of the analysis. -/
theorem executeBA_spec (B : Type) [DecidableEq B] [L : BddLib B] {ds : Decls} (F : Section → List Fml) (hn : (tableOf ds).names.Nodup) (fuel : Nat)
    (hf : Nat.card (Pos ((specOf ds F).Out → (specOf ds F).In) (specOf ds F).Out) < fuel) :
    (¬ BAReal (specOf ds F) (fun _ => false) ∧
      executeBA B (tableOf ds) ((gameCtx (padGame (specOf ds F).game)).map ((tableLayout ds hn).enc B)) fuel = .unrealizable) ∨
    ∃ P Q f, BAReal (specOf ds F) (fun _ => false) ∧
      Greedy (BAReal (specOf ds F)) (outputsOf ds) (fun _ => false) (fun _ => false) none P Q f ∧
      executeBA B (tableOf ds) ((gameCtx (padGame (specOf ds F).game)).map ((tableLayout ds hn).enc B)) fuel =
        (match f with
        | none => .ub
        | some true => .before ((outputsOf ds).filter Q)
        | some false => .becomesUnrealizable) := by
  have hc := checkBA_spec B F hn fuel hf
  rw [executeBA]
  simp only [defaultTypes_eq]
  by_cases hR : BAReal (specOf ds F) (fun _ => false)
  · right
    obtain ⟨P, Q, f, e, hG⟩ := tryOutputs_spec (outputs_nodup hn) (R := BAReal (specOf ds F)) hc ds [] rfl (fun _ => false) (fun _ => false) none
      (by simp)
    refine ⟨P, Q, f, hR, hG, ?_⟩
    rw [(hc _).1 hR, baTypes_length, List.range_eq_range']
    simp only [List.length_nil, Nat.mul_zero] at e
    simp only
    rw [e]
    simp only [before_names]
    rcases f with _ | _ | _ <;> rfl
  · left
    exact ⟨hR, by rw [(hc _).2 hR]⟩

end Slugs.Model
