import Verif.Lemmas.InteractiveExec

/-! `CHECKTRANS` and `MOVE`. -/

namespace Slugs.Model

open Slugs.Spec Slugs.Props

variable {sp : SpecFile} {vs : IVars (T sp.In sp.Out)} (hv : IVarsOK sp vs) {sh : Shell (T sp.In sp.Out)} {S : Nat → T sp.In sp.Out}
  (hs : ShellOK sp sh S)

/-- The single transition from `s` to `t`. -/
def one {I O : Type} (s t : Pos I O) : T I O := fun s' t' => s' = s ∧ t' = t

theorem and_one {I O : Type} (f : T I O) (s t : Pos I O) : (∃ s' t', f s' t' ∧ one s t s' t') ↔ f s t := by
  constructor
  · rintro ⟨s', t', h, rfl, rfl⟩; exact h
  · intro h; exact ⟨s, t, h, rfl, rfl⟩

theorem and_one_ne {I O : Type} (f : T I O) (s t : Pos I O) : (semMgr I O).and f (one s t) ≠ (semMgr I O).ff ↔ f s t := by
  rw [ne_eq, ff_iff, not_not]
  exact and_one f s t

theorem and_one_ne' {I O : Type} (f : T I O) (s t : Pos I O) : (semMgr I O).and (one s t) f ≠ (semMgr I O).ff ↔ f s t := by
  rw [ne_eq, ff_iff, not_not, ← and_one f s t]
  exact exists_congr fun _ => exists_congr fun _ => and_comm

theorem described_of {n : Nat} (hn : sp.goals ≤ n) (hS : sh.strategies = (List.range n).map S) (s t : Pos sp.In sp.Out) : ∃ strategies,
    meetingStrategies (semMgr sp.In sp.Out) sh.strategies (gameCtx (padGame sp.game)).livenessGuarantees.length (one s t) = some strategies ∧
    Described sp S s t (meeting (semMgr sp.In sp.Out) (gameCtx (padGame sp.game)).livenessAssumptions (one s t))
      (meeting (semMgr sp.In sp.Out) (gameCtx (padGame sp.game)).livenessGuarantees (one s t)) strategies := by
  have hl : sh.strategies.length = n := by rw [hS]; simp
  have hg : (gameCtx (padGame sp.game)).livenessGuarantees.length = sp.goals := goals_padGame sp
  have ht : sh.strategies.take sp.goals = (List.range sp.goals).map S := by
    rw [hS, ← List.map_take, List.take_range, min_eq_left hn]
  refine ⟨_, by rw [meetingStrategies, if_pos (by rw [hl, hg]; exact hn)], fun j => ?_, fun j => ?_, fun j => ?_⟩
  · rw [mem_meeting]
    constructor
    · rintro ⟨A, hA, hst⟩
      have hj : j < sp.hopes := by rw [← hopes_padGame]; exact (List.getElem?_eq_some_iff.mp hA).1
      exact ⟨hj, (hopeAt_padGame sp hj s t).mp ⟨A, hA, (and_one A s t).mp hst⟩⟩
    · rintro ⟨hj, hf⟩
      obtain ⟨A, hA, hst⟩ := (hopeAt_padGame sp hj s t).mpr hf
      exact ⟨A, hA, (and_one A s t).mpr hst⟩
  · rw [mem_meeting]
    constructor
    · rintro ⟨A, hA, hst⟩
      have hj : j < sp.goals := by rw [← goals_padGame]; exact (List.getElem?_eq_some_iff.mp hA).1
      exact ⟨hj, (goalAt_padGame sp hj s t).mp ⟨A, hA, (and_one A s t).mp hst⟩⟩
    · rintro ⟨hj, hf⟩
      obtain ⟨A, hA, hst⟩ := (goalAt_padGame sp hj s t).mpr hf
      exact ⟨A, hA, (and_one A s t).mpr hst⟩
  · rw [mem_meeting, hg, ht]
    constructor
    · rintro ⟨b, hb, hst⟩
      rw [List.getElem?_map] at hb
      by_cases hj : j < sp.goals
      · rw [List.getElem?_range hj] at hb
        cases hb
        rw [and_one] at hst
        exact ⟨hj, hst⟩
      · rw [List.getElem?_eq_none (by simpa using hj)] at hb
        cases hb
    · rintro ⟨hj, hf⟩
      refine ⟨S j, ?_, (and_one _ s t).mpr hf⟩
      rw [List.getElem?_map, List.getElem?_range hj]; rfl

include hs in
theorem described (s t : Pos sp.In sp.Out) : ∃ strategies,
    meetingStrategies (semMgr sp.In sp.Out) sh.strategies (gameCtx (padGame sp.game)).livenessGuarantees.length (one s t) = some strategies ∧
    Described sp S s t (meeting (semMgr sp.In sp.Out) (gameCtx (padGame sp.game)).livenessAssumptions (one s t))
      (meeting (semMgr sp.In sp.Out) (gameCtx (padGame sp.game)).livenessGuarantees (one s t)) strategies :=
  described_of le_rfl hs.strategies s t

include hv in
/-- What `CHECKTRANS` yields in general; `W` are the winning positions. -/
theorem checkTrans_of {n : Nat} (hS : sh.strategies = (List.range n).map S) {W : Set (Pos sp.In sp.Out)} (hw : sh.winning = pre W)
    {st : ShellState (T sp.In sp.Out)} {i : Stdin} {rnd : List Bool} :
    (n < sp.goals ∧ execCheckTrans (semMgr sp.In sp.Out) (gameCtx (padGame sp.game)) vs sh st i rnd = .done .ub) ∨
    ∃ (src dst : Label) (winning env sys : Bool) (assumptions guarantees strategies : List Nat) (i' : Stdin),
      execCheckTrans (semMgr sp.In sp.Out) (gameCtx (padGame sp.game)) vs sh st i rnd =
        .next st i' rnd (.checkTrans src dst winning env sys assumptions guarantees strategies) ∧
      (src.map Prod.fst).Perm (sp.inputs ++ sp.outputs) ∧ (dst.map Prod.fst).Perm ((sp.inputs ++ sp.outputs).map prime) ∧
      (winning = true ↔ posOfLabel sp src ∈ W) ∧ (env = true ↔ sp.game.safetyEnv (posOfLabel sp src) (posOfNextLabel sp dst).1) ∧
      (sys = true ↔ sp.game.safetySys (posOfLabel sp src) (posOfNextLabel sp dst)) ∧
      Described sp S (posOfLabel sp src) (posOfNextLabel sp dst) assumptions guarantees strategies := by
  rw [execCheckTrans]
  obtain ⟨a1, a2⟩ := readValues_sem vs.pre i (semMgr sp.In sp.Out).tt
  generalize readValues (semMgr sp.In sp.Out) vs.pre i (semMgr sp.In sp.Out).tt = r1 at a1 a2 ⊢
  obtain ⟨b1, b2⟩ := readValues_sem vs.post r1.2.2 r1.2.1
  generalize readValues (semMgr sp.In sp.Out) vs.post r1.2.2 r1.2.1 = r2 at b1 b2 ⊢
  have e1 : r2.2.1 = one (posOfLabel sp r1.1) (posOfNextLabel sp r2.1) := by
    funext s t
    rw [eq_iff_iff, b2, a2, hv.label_iff a1, hv.nextLabel_iff b1]
    exact ⟨fun h => ⟨h.1.2, h.2⟩, fun h => ⟨⟨trivial, h.1⟩, h.2⟩⟩
  have e2 : (semMgr sp.In sp.Out).and r2.2.1 (semMgr sp.In sp.Out).tt = one (posOfLabel sp r1.1) (posOfNextLabel sp r2.1) := by
    rw [e1]
    funext s t
    rw [eq_iff_iff]
    exact ⟨fun h => h.1, fun h => ⟨h, trivial⟩⟩
  rw [e2]
  by_cases hn : sp.goals ≤ n
  · obtain ⟨strategies, d1, d2⟩ := described_of hn hS (posOfLabel sp r1.1) (posOfNextLabel sp r2.1)
    rw [d1]
    refine .inr ⟨r1.1, r2.1, _, _, _, _, _, _, _, rfl, a1 ▸ hv.pre_names, b1 ▸ hv.post_names, ?_, ?_, ?_, d2⟩
    · rw [decide_eq_true_iff, e1, and_one_ne', hw]
      exact Iff.rfl
    · rw [decide_eq_true_iff, and_one_ne']
      exact Iff.rfl
    · rw [decide_eq_true_iff, and_one_ne']
      exact Iff.rfl
  · refine .inl ⟨by omega, ?_⟩
    have hl : sh.strategies.length = n := by rw [hS]; simp
    have hg : (gameCtx (padGame sp.game)).livenessGuarantees.length = sp.goals := goals_padGame sp
    rw [meetingStrategies, if_neg (by rw [hl, hg]; exact hn)]

include hv hs in
theorem checkTrans_right {st st' : ShellState (T sp.In sp.Out)} {i i' : Stdin} {rnd rnd' : List Bool} {past : List Exchange} {e : Exchange}
    (hI : Inv sp st past)
    (h : execCheckTrans (semMgr sp.In sp.Out) (gameCtx (padGame sp.game)) vs sh st i rnd = .next st' i' rnd' e) :
    Right sp S past e ∧ Inv sp st' (past ++ [e]) := by
  rcases checkTrans_of hv hs.strategies hs.winning (st := st) (i := i) (rnd := rnd) with ⟨hlt, _⟩ | ⟨src, dst, _, _, _, _, _, _, _, he, hr⟩
  · exact absurd hlt (by omega)
  · rw [h] at he
    cases he
    exact ⟨hr, hI.same rfl rfl⟩

theorem truths_cons (e : Word × Int) (l : List (Word × Int)) : truths (e :: l) = (e.1, decide (e.2 ≠ 0)) :: truths l := rfl

theorem readNextInput_sem {I O : Type} : ∀ (vars : List (Name × T I O)) (i : Stdin) (dest next : T I O),
    (readNextInput (semMgr I O) vars i dest next).1.map Prod.fst = vars.map Prod.fst ∧
    (∀ s t, (readNextInput (semMgr I O) vars i dest next).2.1 s t ↔ dest s t ∧
      List.Forall₂ (fun (l : Name × Bool) v => l.2 = true ↔ v.2 s t) (truths (readNextInput (semMgr I O) vars i dest next).1) vars) ∧
    ((∀ e ∈ (readNextInput (semMgr I O) vars i dest next).1, e.2 = 0 ∨ e.2 = 1) →
      ∀ s t, (readNextInput (semMgr I O) vars i dest next).2.2.1 s t ↔ next s t ∧
      List.Forall₂ (fun (l : Name × Bool) v => l.2 = true ↔ v.2 s t) (truths (readNextInput (semMgr I O) vars i dest next).1) vars) := by
  intro vars
  induction vars with
  | nil =>
    intro i dest next
    exact ⟨rfl, fun s t => ⟨fun h => ⟨h, .nil⟩, fun h => h.1⟩, fun _ s t => ⟨fun h => ⟨h, .nil⟩, fun h => h.1⟩⟩
  | cons v vars ih =>
    intro i dest next
    rw [readNextInput]
    dsimp only
    generalize (readInt i).1.getD 0 = value
    by_cases h0 : value = 0
    · rw [if_pos h0]
      obtain ⟨h1, h2, h3⟩ := ih (readInt i).2 ((semMgr I O).and dest ((semMgr I O).not v.2)) ((semMgr I O).and next ((semMgr I O).not v.2))
      refine ⟨by simp [h1], fun s t => ?_, fun hall s t => ?_⟩
      · rw [h2, truths_cons, List.forall₂_cons]
        simp [semMgr, and_assoc, h0]
      · rw [h3 (fun e he => hall e (List.mem_cons_of_mem _ he)), truths_cons, List.forall₂_cons]
        simp [semMgr, and_assoc, h0]
    · rw [if_neg h0]
      by_cases h1' : value = 1
      · rw [if_pos h1']
        obtain ⟨h1, h2, h3⟩ := ih (readInt i).2 ((semMgr I O).and dest v.2) ((semMgr I O).and next v.2)
        refine ⟨by simp [h1], fun s t => ?_, fun hall s t => ?_⟩
        · rw [h2, truths_cons, List.forall₂_cons]
          simp [semMgr, and_assoc, h0]
        · rw [h3 (fun e he => hall e (List.mem_cons_of_mem _ he)), truths_cons, List.forall₂_cons]
          simp [semMgr, and_assoc, h0]
      · rw [if_neg h1']
        obtain ⟨h1, h2, h3⟩ := ih (readInt i).2 ((semMgr I O).and dest v.2) next
        refine ⟨by simp [h1], fun s t => ?_, fun hall s t => ?_⟩
        · rw [h2, truths_cons, List.forall₂_cons]
          simp [semMgr, and_assoc, h0]
        · exact absurd (hall _ List.mem_cons_self) (by simp [h0, h1'])

/-! ### Positions from two lists of next values -/

theorem part_iff {L : List Word} {l1 l : Label} (h1 : l1.map Prod.fst = L.map prime) (hsub : ∀ e ∈ l1, l.lookup e.1 = some e.2)
    (g : {x // x ∈ L} → Bool) :
    List.Forall₂ (fun (e : Word × Bool) x => e.2 = true ↔ g x = true) l1 L.attach ↔ g = fun x => l.lookup (prime x.1) == some true := by
  have hlen : l1.length = L.length := by simpa using congrArg List.length h1
  have hget : ∀ (k : Nat) (h : k < l1.length) (h2 : k < L.attach.length), l.lookup (prime L.attach[k].1) = some l1[k].2 := by
    intro k h h2
    have := congrArg (fun m => m[k]?) h1
    simp only [List.length_attach] at h2
    simp only [List.getElem?_map, List.getElem?_eq_getElem h, List.getElem?_eq_getElem h2, Option.map_some, Option.some.injEq] at this
    rw [List.getElem_attach, ← this]
    exact hsub _ (List.getElem_mem h)
  rw [List.forall₂_iff_get]
  constructor
  · rintro ⟨h2, h3⟩
    funext x
    obtain ⟨k, hk, he⟩ := List.getElem_of_mem (List.mem_attach L x)
    have h4 := h3 k (by simpa [hlen] using hk) hk
    have h5 := hget k (by simpa [hlen] using hk) hk
    simp only [List.get_eq_getElem] at h4
    rw [he] at h4 h5
    rw [h5, ← Bool.eq_iff_iff.mpr h4]
    cases l1[k].2 <;> rfl
  · rintro rfl
    refine ⟨by simpa using hlen, fun k h h2 => ?_⟩
    simp only [List.get_eq_getElem]
    rw [hget k h h2]
    cases l1[k].2 <;> simp

include hv in
/-- Values of the next inputs and outputs determine the next position. -/
theorem nextParts_iff {l1 l2 : Label} (h1 : l1.map Prod.fst = sp.inputs.map prime) (h2 : l2.map Prod.fst = sp.outputs.map prime)
    (s t : Pos sp.In sp.Out) :
    (List.Forall₂ (fun (e : Word × Bool) v => e.2 = true ↔ v.2 s t) l1 vs.postIn ↔ t.1 = (posOfNextLabel sp (l1 ++ l2)).1) ∧
    (List.Forall₂ (fun (e : Word × Bool) v => e.2 = true ↔ v.2 s t) l2 vs.postOut ↔ t.2 = (posOfNextLabel sp (l1 ++ l2)).2) := by
  have hnp : ((l1 ++ l2).map Prod.fst).Nodup := by
    have := hv.names
    rw [SpecFile.names, List.append_assoc] at this
    rw [List.map_append, h1, h2]
    exact (List.nodup_append.mp this).2.1
  rw [hv.postIn, hv.postOut, List.forall₂_map_right_iff, List.forall₂_map_right_iff]
  exact ⟨part_iff h1 (fun e he => lookup_of_mem hnp (List.mem_append_left _ he)) t.1,
    part_iff h2 (fun e he => lookup_of_mem hnp (List.mem_append_right _ he)) t.2⟩

theorem truths_names (input : List (Word × Int)) : (truths input).map Prod.fst = input.map Prod.fst := by simp [truths]

/-- The first part of a label of next values. -/
theorem nextInput_eq {l1 l2 : Label} (h1 : l1.map Prod.fst = sp.inputs.map prime) :
    (posOfNextLabel sp (l1 ++ l2)).1 = (posOfNextLabel sp l1).1 := by
  funext x
  have hx : prime x.1 ∈ l1.map Prod.fst := by rw [h1]; exact List.mem_map.mpr ⟨_, x.2, rfl⟩
  simp only [posOfNextLabel]
  rw [List.lookup_append]
  cases hl : l1.lookup (prime x.1) with
  | some b => rfl
  | none =>
    rw [List.lookup_eq_none_iff] at hl
    obtain ⟨e, he, hee⟩ := List.mem_map.mp hx
    exact absurd (hl e he) (by simp [hee])

/-- The outputs printed for a transition. -/
theorem outputs_fold {I O : Type} (trans : T I O) : ∀ (vars : List (Name × T I O)) (f : T I O) (s t : Pos I O),
    vars.foldl (fun f v => if (semMgr I O).and v.2 trans = (semMgr I O).ff then (semMgr I O).and f ((semMgr I O).not v.2) else (semMgr I O).and f v.2) f s t ↔
      f s t ∧ List.Forall₂ (fun (l : Name × Bool) v => l.2 = true ↔ v.2 s t)
        (vars.map fun v => (v.1, if (semMgr I O).and v.2 trans = (semMgr I O).ff then false else true)) vars := by
  intro vars
  induction vars with
  | nil => intro f s t; exact ⟨fun h => ⟨h, .nil⟩, fun h => h.1⟩
  | cons v vars ih =>
    intro f s t
    rw [List.foldl_cons, ih, List.map_cons, List.forall₂_cons, ← and_assoc]
    refine and_congr ?_ Iff.rfl
    by_cases h : (semMgr I O).and v.2 trans = (semMgr I O).ff
    · simp only [if_pos h]
      simp [semMgr]
    · simp only [if_neg h]
      simp [semMgr]

include hv hs in
theorem move_right {st st' : ShellState (T sp.In sp.Out)} {i i' : Stdin} {rnd rnd' : List Bool} {past : List Exchange} {e : Exchange}
    (hI : Inv sp st past)
    (h : execMove (semMgr sp.In sp.Out) (gameCtx (padGame sp.game)) vs sh st i rnd = .next st' i' rnd' e) :
    Right sp S past e ∧ Inv sp st' (past ++ [e]) := by
  rw [execMove] at h
  by_cases hcur : st.cur = (semMgr sp.In sp.Out).ff
  · rw [if_pos hcur] at h
    cases h
    refine ⟨?_, hI.same rfl rfl⟩
    rintro ⟨hne, hw⟩
    obtain ⟨p, k, rest, hp⟩ : ∃ p k rest, playOf sp past = (p, k) :: rest := by
      cases hq : playOf sp past with
      | nil => exact absurd hq hne
      | cons a l => exact ⟨_, _, _, rfl⟩
    rcases hI.here p k rest hp with hc | ⟨_, hc⟩
    · rw [hcur] at hc
      exact (congrFun (congrFun hc p) p).mpr rfl
    · exact hc hw
  · rw [if_neg hcur] at h
    have hpos : ∀ p k rest, playOf sp past = (p, k) :: rest → st.cur = pre {p} := fun p k rest hp => by
      rcases hI.here p k rest hp with hc | ⟨hc, _⟩
      · exact hc
      · exact absurd hc hcur
    dsimp only at h
    by_cases hfail : (readUnsignedInt i).2.fail = true
    · rw [if_pos hfail] at h
      cases h
      exact ⟨trivial, hI.same rfl rfl⟩
    · rw [if_neg hfail] at h
      cases hg : (readUnsignedInt i).1 with
      | none => rw [hg] at h; cases h
      | some guarantee =>
        rw [hg] at h
        dsimp only at h
        by_cases hlarge : (gameCtx (padGame sp.game)).livenessGuarantees.length ≤ guarantee
        · rw [if_pos hlarge] at h
          cases h
          exact ⟨trivial, hI.same rfl rfl⟩
        · rw [if_neg hlarge] at h
          have hgoal : guarantee < sp.goals := by
            rw [← goals_padGame]; exact Nat.lt_of_not_le hlarge
          by_cases hno : (semMgr sp.In sp.Out).and st.cur (gameCtx (padGame sp.game)).safetyEnv = (semMgr sp.In sp.Out).ff
          · rw [if_pos hno] at h
            cases h
            refine ⟨fun p k rest hp => ?_, hI.same rfl rfl⟩
            rintro ⟨inp, hi⟩
            rw [ff_iff] at hno
            exact hno ⟨p, (inp, p.2), by rw [hpos p k rest hp]; rfl, hi⟩
          · rw [if_neg hno] at h
            obtain ⟨n1, n2, n3⟩ := readNextInput_sem vs.postIn (readUnsignedInt i).2 (semMgr sp.In sp.Out).tt (semMgr sp.In sp.Out).tt
            generalize readNextInput (semMgr sp.In sp.Out) vs.postIn (readUnsignedInt i).2 (semMgr sp.In sp.Out).tt (semMgr sp.In sp.Out).tt = ri at h n1 n2 n3
            have hin : vs.postIn.map Prod.fst = sp.inputs.map prime := by
              rw [hv.postIn, List.map_map]
              conv_rhs => rw [← List.attach_map_subtype_val sp.inputs, List.map_map]
              rfl
            have hout : vs.postOut.map Prod.fst = sp.outputs.map prime := by
              rw [hv.postOut, List.map_map]
              conv_rhs => rw [← List.attach_map_subtype_val sp.outputs, List.map_map]
              rfl
            rw [hin] at n1
            have nt : (truths ri.1).map Prod.fst = sp.inputs.map prime := (truths_names _).trans n1
            have n2' : ∀ s t, ri.2.1 s t ↔ t.1 = (posOfNextLabel sp (truths ri.1)).1 := by
              intro s t
              rw [n2]
              have := (nextParts_iff hv nt (l2 := sp.outputs.map fun y => (prime y, false)) (by simp [Function.comp_def]) s t).1
              rw [this, nextInput_eq nt]
              exact ⟨fun h => h.2, fun h => ⟨trivial, h⟩⟩
            have hget : sh.strategies[guarantee]? = some (S guarantee) := by
              rw [hs.strategies, List.getElem?_map, List.getElem?_range hgoal]; rfl
            rw [hget] at h
            dsimp only at h
            have hwarn : ∀ p k rest, playOf sp past = (p, k) :: rest →
                ((semMgr sp.In sp.Out).and ((semMgr sp.In sp.Out).and st.cur ri.2.1) (gameCtx (padGame sp.game)).safetyEnv = (semMgr sp.In sp.Out).ff ↔
                  ¬ sp.game.safetyEnv p (posOfNextLabel sp (truths ri.1)).1) := by
              intro p k rest hp
              rw [ff_iff, hpos p k rest hp]
              refine not_congr ⟨?_, ?_⟩
              · rintro ⟨s, t, ⟨h1, h2⟩, h3⟩
                cases h1
                rw [n2'] at h2
                rw [← h2]; exact h3
              · intro h
                exact ⟨p, posOfNextLabel sp (truths ri.1), ⟨rfl, (n2' _ _).mpr rfl⟩, h⟩
            by_cases htr : (semMgr sp.In sp.Out).and ((semMgr sp.In sp.Out).and st.cur ri.2.1) (S guarantee) = (semMgr sp.In sp.Out).ff
            · rw [if_pos htr] at h
              cases h
              refine ⟨⟨hgoal, n1, rfl, fun p k rest hp => ⟨?_, ?_⟩⟩, hI.same rfl rfl⟩
              · rw [decide_eq_true_iff]
                exact hwarn p k rest hp
              · rintro ⟨o, ho⟩
                rw [ff_iff, hpos p k rest hp] at htr
                exact htr ⟨p, (_, o), ⟨rfl, (n2' _ _).mpr rfl⟩, ho⟩
            · rw [if_neg htr] at h
              generalize hdt : determinize (semMgr sp.In sp.Out) (vs.postOut.map Prod.snd)
                ((semMgr sp.In sp.Out).and ((semMgr sp.In sp.Out).and st.cur ri.2.1) (S guarantee)) = trans at h
              have hdet := determinize_isDet (semReading sp.In sp.Out) (vs.postOut.map Prod.snd)
                ((semMgr sp.In sp.Out).and ((semMgr sp.In sp.Out).and st.cur ri.2.1) (S guarantee))
              rw [hdt] at hdet
              have hol : (vs.postOut.map fun v => (v.1, if (semMgr sp.In sp.Out).and v.2 trans = (semMgr sp.In sp.Out).ff then false else true)).map Prod.fst =
                  sp.outputs.map prime := by rw [List.map_map]; exact hout
              cases hm : meetingStrategies (semMgr sp.In sp.Out) sh.strategies (gameCtx (padGame sp.game)).livenessGuarantees.length trans with
              | none => rw [hm] at h; cases h
              | some strategies =>
                rw [hm] at h
                cases h
                -- from a single position
                have hone : ∀ p k rest, playOf sp past = (p, k) :: rest → S guarantee p (posOfNextLabel sp (truths ri.1 ++
                      vs.postOut.map fun v => (v.1, if (semMgr sp.In sp.Out).and v.2 trans = (semMgr sp.In sp.Out).ff then false else true))) ∧
                    trans = one p (posOfNextLabel sp (truths ri.1 ++
                      vs.postOut.map fun v => (v.1, if (semMgr sp.In sp.Out).and v.2 trans = (semMgr sp.In sp.Out).ff then false else true))) := by
                  intro p k rest hp
                  have hc := hpos p k rest hp
                  rw [ff_iff, not_not] at htr
                  obtain ⟨s0, t0, ht0⟩ := htr
                  obtain ⟨⟨s, t⟩, hst⟩ := hdet.nonempty ⟨(s0, t0), ht0⟩
                  have hsub : ∀ s t, trans s t → s = p ∧ t.1 = (posOfNextLabel sp (truths ri.1)).1 ∧ S guarantee s t := by
                    intro s t hst
                    obtain ⟨⟨h1, h2⟩, h3⟩ := hdet.sub (s, t) hst
                    dsimp only at h1 h2 h3
                    rw [hc] at h1
                    exact ⟨h1, (n2' _ _).mp h2, h3⟩
                  have hlab : ∀ s t, trans s t → t = posOfNextLabel sp (truths ri.1 ++
                      vs.postOut.map fun v => (v.1, if (semMgr sp.In sp.Out).and v.2 trans = (semMgr sp.In sp.Out).ff then false else true)) := by
                    intro s t hst
                    refine Prod.ext ?_ ?_
                    · rw [nextInput_eq nt]; exact (hsub s t hst).2.1
                    · refine (nextParts_iff hv nt hol s t).2.mp ?_
                      rw [List.forall₂_map_left_iff]
                      refine List.forall₂_same.mpr fun v hvm => ?_
                      rcases hdet.fixed v.2 (List.mem_map.mpr ⟨v, hvm, rfl⟩) with hf | hf
                      · have := hf (s, t) hst
                        rw [if_neg]
                        · simpa using this
                        · rw [ff_iff, not_not]; exact ⟨s, t, this, hst⟩
                      · have := hf (s, t) hst
                        rw [if_pos]
                        · simpa using this
                        · rw [ff_iff]
                          rintro ⟨s', t', h1, h2⟩
                          exact hf (s', t') h2 h1
                  obtain ⟨h1, _, h3⟩ := hsub s t hst
                  dsimp only at hst
                  have ht := hlab s t hst
                  refine ⟨?_, ?_⟩
                  · rw [← ht, ← h1]; exact h3
                  · funext s' t'
                    rw [eq_iff_iff]
                    constructor
                    · intro h; exact ⟨(hsub s' t' h).1, hlab s' t' h⟩
                    · rintro ⟨rfl, rfl⟩
                      rw [← ht, ← h1]; exact hst
                refine ⟨⟨hgoal, n1, hol, fun p k rest hp => ⟨?_, (hone p k rest hp).1, ?_⟩⟩, ?_⟩
                · rw [decide_eq_true_iff, nextInput_eq nt]
                  exact hwarn p k rest hp
                · obtain ⟨strategies', d1, d2⟩ := described hs p (posOfNextLabel sp (truths ri.1 ++
                    vs.postOut.map fun v => (v.1, if (semMgr sp.In sp.Out).and v.2 trans = (semMgr sp.In sp.Out).ff then false else true)))
                  have ho := (hone p k rest hp).2
                  rw [← ho, hm] at d1
                  rw [← ho] at d2
                  cases d1
                  exact d2
                · refine hI.restart rfl ?_
                  simp only [follow]
                  by_cases hc : playOf sp past ≠ [] ∧ ∀ e ∈ ri.1, e.2 = 0 ∨ e.2 = 1
                  · rw [if_pos hc]
                    refine .inr ⟨_, 0, rfl, ?_⟩
                    funext s t
                    rw [eq_iff_iff]
                    refine (outputs_fold trans vs.postOut ri.2.2.1 t s).trans ?_
                    rw [n3 hc.2]
                    obtain ⟨q1, q2⟩ := nextParts_iff hv nt hol t s
                    rw [q1, q2]
                    constructor
                    · rintro ⟨⟨_, h1⟩, h2⟩; exact Prod.ext h1 h2
                    · intro h
                      have h : s = _ := h
                      exact ⟨⟨trivial, congrArg Prod.fst h⟩, congrArg Prod.snd h⟩
                  · rw [if_neg hc]
                    exact .inl rfl

end Slugs.Model
