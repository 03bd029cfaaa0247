import Verif.Lemmas.CounterHom
import Verif.Model.Interactive

/-! The interactive shell commutes with injective maps that respect the BF operations. -/

namespace Slugs.Model

open Slugs.Spec (Exchange Answer SessionEnd Label)

variable {A B : Type} [DecidableEq A] [DecidableEq B] {M : Mgr A} {N : Mgr B} {h : A → B}

def mapVars (h : A → B) (vs : List (Name × A)) : List (Name × B) := vs.map fun v => (v.1, h v.2)

def IVars.map (h : A → B) (vs : IVars A) : IVars B where
  preIn := mapVars h vs.preIn
  preOut := mapVars h vs.preOut
  postIn := mapVars h vs.postIn
  postOut := mapVars h vs.postOut
  pre := mapVars h vs.pre
  post := mapVars h vs.post

def Shell.map (h : A → B) (sh : Shell A) : Shell B where
  realizable := sh.realizable
  winning := h sh.winning
  strategies := sh.strategies.map h

def ShellState.map (h : A → B) (st : ShellState A) : ShellState B where
  cur := h st.cur
  goal := st.goal

def StepResult.map (h : A → B) : StepResult A → StepResult B
  | .done e => .done e
  | .next st i rnd e => .next (st.map h) i rnd e

section
omit [DecidableEq A] [DecidableEq B]

theorem mapVars_snd (vs : List (Name × A)) : (mapVars h vs).map Prod.snd = (vs.map Prod.snd).map h := by
  simp [mapVars, Function.comp_def]

theorem mapVars_fst (vs : List (Name × A)) : (mapVars h vs).map Prod.fst = vs.map Prod.fst := by
  simp [mapVars, Function.comp_def]

theorem mapVars_append (vs ws : List (Name × A)) : mapVars h vs ++ mapVars h ws = mapVars h (vs ++ ws) := by
  simp [mapVars]

theorem length_mapVars (vs : List (Name × A)) : (mapVars h vs).length = vs.length := by simp [mapVars]

end

variable (H : MgrHom M N h)
include H

theorem determinizeRandomized_hom (rnd : List Bool) (vs : List A) (f : A) :
    determinizeRandomized N rnd (vs.map h) (h f) = h (determinizeRandomized M rnd vs f) := by
  induction vs generalizing f rnd with
  | nil => rfl
  | cons v vs ih =>
    rw [List.map_cons, determinizeRandomized, determinizeRandomized]
    simp only [H.not, H.and, eq_ff_hom H, ← apply_ite h, ih]

theorem envPositional_hom (dump : CDump A) (i : Nat) : envPositional N (dump.map h) i = h (envPositional M dump i) := by
  have key : ∀ (l : List A) (st : A × A), (l.map h).foldl (envPositionalStep N) (Prod.map h h st) =
      Prod.map h h (l.foldl (envPositionalStep M) st) := by
    intro l
    induction l with
    | nil => intro st; rfl
    | cons a l ih =>
      intro st
      rw [List.map_cons, List.foldl_cons, List.foldl_cons, ← ih]
      congr 1
      simp only [envPositionalStep, Prod.map, H.allPostOutput, H.exPost, H.not, H.and, H.or]
  rw [envPositional, envPositional]
  have e : (((CDump.map h dump).filter fun e => e.1 == i).map fun e => e.2.2) =
      ((dump.filter fun e => e.1 == i).map fun e => e.2.2).map h := by
    simp [CDump.map, List.filter_map, Function.comp_def]
  rw [e]
  have := key ((dump.filter fun e => e.1 == i).map fun e => e.2.2) (M.ff, M.ff)
  rw [H.ff]
  exact congrArg Prod.snd this

theorem prepareShell_hom (c : Ctx A) (alg : Algorithm) (fuel : Nat) :
    prepareShell N (c.map h) alg fuel = (prepareShell M c alg fuel).map (Option.map (Shell.map h)) := by
  rw [prepareShell, prepareShell, checkRealizability_hom H]
  cases checkRealizability alg M c fuel with
  | none => rfl
  | some r =>
    obtain ⟨v, W, dump⟩ := r
    cases v
    · simp only [Option.map_some, Prod.map, id, Shell.map, List.map_map, Ctx.map, List.length_map]
      congr 4
      funext j
      exact positional_hom H dump j
    · simp only [Option.map_some, Prod.map, id]
      rw [computeWinningPositionsC_hom H]
      cases computeWinningPositionsC M c fuel with
      | none => rfl
      | some r =>
        obtain ⟨W, dump⟩ := r
        simp only [Option.map_some, Prod.map, Shell.map, List.map_map, Ctx.map, List.length_map]
        congr 4
        funext j
        exact envPositional_hom H dump j
    · rfl

theorem readForced_hom (vs : List (Name × A)) (i : Stdin) (acc : A) :
    readForced N (mapVars h vs) i (h acc) = (readForced M vs i acc).map fun r => (r.1, h r.2.1, r.2.2) := by
  induction vs generalizing i acc with
  | nil => rfl
  | cons v vs ih =>
    rw [mapVars, List.map_cons, readForced, readForced, ← mapVars]
    cases readChar i with
    | none => rfl
    | some r =>
      simp only [H.not, H.and, ← apply_ite h, ih]
      cases readForced M vs r.2 _ <;> rfl

theorem readValues_hom (vs : List (Name × A)) (i : Stdin) (acc : A) :
    readValues N (mapVars h vs) i (h acc) = ((readValues M vs i acc).1, h (readValues M vs i acc).2.1, (readValues M vs i acc).2.2) := by
  induction vs generalizing i acc with
  | nil => rfl
  | cons v vs ih =>
    rw [mapVars, List.map_cons, readValues, readValues, ← mapVars]
    simp only [H.not, H.and, ← apply_ite h, ih]

theorem readNextInput_hom (vs : List (Name × A)) (i : Stdin) (dest next : A) :
    readNextInput N (mapVars h vs) i (h dest) (h next) = ((readNextInput M vs i dest next).1, h (readNextInput M vs i dest next).2.1,
      h (readNextInput M vs i dest next).2.2.1, (readNextInput M vs i dest next).2.2.2) := by
  induction vs generalizing i dest next with
  | nil => rfl
  | cons v vs ih =>
    rw [mapVars, List.map_cons, readNextInput, readNextInput, ← mapVars]
    simp only [H.not, H.and, ih]
    by_cases h0 : (readInt i).1.getD 0 = 0
    · simp only [if_pos h0]
    · by_cases h1 : (readInt i).1.getD 0 = 1
      · simp only [if_neg h0, if_pos h1]
      · simp only [if_neg h0, if_neg h1]

theorem bitsIn_hom (vs : List (Name × A)) (f : A) : bitsIn N (mapVars h vs) (h f) = bitsIn M vs f := by
  simp only [bitsIn, mapVars, List.map_map, Function.comp_def, H.and, eq_ff_hom H]

theorem meeting_hom (l : List A) (f : A) : meeting N (l.map h) (h f) = meeting M l f := by
  rw [meeting, meeting, List.length_map]
  refine List.filter_congr fun k _ => ?_
  rw [List.getElem?_map]
  cases l[k]? with
  | none => rfl
  | some b => simp only [Option.map_some, H.and, ne_eq, eq_ff_hom H]

theorem meetingStrategies_hom (l : List A) (n : Nat) (f : A) : meetingStrategies N (l.map h) n (h f) = meetingStrategies M l n f := by
  rw [meetingStrategies, meetingStrategies, List.length_map, ← List.map_take, meeting_hom H]

theorem mark_hom (low up : Char) (f : A) (vs : List (Name × A)) (res : List Char) :
    mark N low up (h f) (mapVars h vs) res = mark M low up f vs res := by
  simp only [mark, mapVars, List.zipWith_map_left, H.and, H.not, eq_ff_hom H]

theorem markUp_hom (low up : Char) (f : A) (vs : List (Name × A)) (res : List Char) :
    markUp N low up (h f) (mapVars h vs) res = markUp M low up f vs res := by
  simp only [markUp, mapVars, List.zipWith_map_left, H.and, H.not, eq_ff_hom H]

theorem concretize_hom (vs : List (Name × A)) (res : List Char) (f : A) :
    concretize N (mapVars h vs) res (h f) = (concretize M vs res f).map fun r => (r.1, h r.2) := by
  induction vs generalizing res f with
  | nil => rw [mapVars, List.map_nil, concretize.eq_def, concretize.eq_def]; rfl
  | cons v vs ih =>
    cases res with
    | nil => rfl
    | cons r rs =>
      rw [mapVars, List.map_cons, concretize, concretize, ← mapVars]
      simp only [H.not, H.and, ne_eq, eq_ff_hom H, ih]
      by_cases h0 : r = '.'
      · rw [if_pos h0, if_pos h0]
        by_cases h1 : M.and f (M.not v.2) = M.ff
        · rw [if_neg (not_not.mpr h1), if_neg (not_not.mpr h1)]
          by_cases h2 : M.and f v.2 = M.ff
          · rw [if_neg (not_not.mpr h2), if_neg (not_not.mpr h2)]; rfl
          · rw [if_pos h2, if_pos h2]
            cases concretize M vs rs (M.and f v.2) <;> rfl
        · rw [if_pos h1, if_pos h1]
          cases concretize M vs rs (M.and f (M.not v.2)) <;> rfl
      · rw [if_neg h0, if_neg h0]
        cases concretize M vs rs f <;> rfl

theorem completeInitAnswer_hom (c : Ctx A) (vs : IVars A) (sh : Shell A) (forced : A) :
    completeInitAnswer N (c.map h) (vs.map h) (sh.map h) (h forced) = completeInitAnswer M c vs sh forced := by
  have htt : h forced = N.tt ↔ forced = M.tt := by rw [H.tt]; exact H.inj.eq_iff
  cases hr : sh.realizable <;>
  simp only [completeInitAnswer, Ctx.map, IVars.map, Shell.map, mapVars_append, length_mapVars, hr, if_true, Bool.false_eq_true, if_false,
    H.and, eq_ff_hom H, mark_hom H, markUp_hom H, concretize_hom H, htt, Option.map_map, Function.comp_def]

omit H [DecidableEq A] [DecidableEq B] in
theorem withNumbers_hom (f : List Char → Nat × Nat → Answer (Nat × Nat)) (n : Nat × Nat) (r : Option (List Char × A)) :
    withNumbers f n (r.map fun r => (r.1, h r.2)) = withNumbers f n r := by
  cases r <;> rfl

theorem strictlyBelow_hom (a b : A) : strictlyBelow N (h a) (h b) = strictlyBelow M a b := by
  simp only [strictlyBelow, H.not, H.and, eq_ff_hom H, ne_eq, H.inj.eq_iff]

theorem nextNumbers_hom (c : Ctx A) (la lg : Nat) (r : Option (List Char × A)) :
    nextNumbers N (c.map h) la lg (r.map fun r => (r.1, h r.2)) = nextNumbers M c la lg r := by
  cases r with
  | none => rfl
  | some r =>
    simp only [nextNumbers, Option.map_some, Ctx.map, List.getElem?_map, List.length_map]
    cases c.livenessAssumptions[la]? with
    | none => rfl
    | some A =>
      cases c.livenessGuarantees[lg]? with
      | none => rfl
      | some G => simp only [Option.map_some, strictlyBelow_hom H]

theorem strategyTransitionAnswer_hom (c : Ctx A) (vs : IVars A) (sh : Shell A) (start forced : A) (la lg : Nat) :
    strategyTransitionAnswer N (c.map h) (vs.map h) (sh.map h) (h start) (h forced) la lg =
      strategyTransitionAnswer M c vs sh start forced la lg := by
  have e1 : (c.map h).safetySys = h c.safetySys := rfl
  have e2 : (c.map h).safetyEnv = h c.safetyEnv := rfl
  have e3 : (vs.map h).postIn ++ (vs.map h).postOut = mapVars h (vs.postIn ++ vs.postOut) := mapVars_append ..
  have e4 : (c.map h).livenessAssumptions.length = c.livenessAssumptions.length := List.length_map ..
  have e5 : (c.map h).livenessGuarantees.length = c.livenessGuarantees.length := List.length_map ..
  have e6 : (sh.map h).realizable = sh.realizable := rfl
  have e7 : ∀ k : Nat, (sh.map h).strategies[k]? = sh.strategies[k]?.map h := fun k => List.getElem?_map ..
  cases hr : sh.realizable
  · simp only [strategyTransitionAnswer, e1, e2, e3, e4, e5, e6, e7, length_mapVars, H.and, eq_ff_hom H, H.swap, H.exPost,
      mark_hom H, concretize_hom H, withNumbers_hom, ne_eq, hr, Bool.false_eq_true, if_false]
    cases sh.strategies[la]? with
    | none => rfl
    | some second =>
      simp only [Option.map_some, H.and, eq_ff_hom H, mark_hom H, concretize_hom H, withNumbers_hom, ← apply_ite h, nextNumbers_hom H]
  · simp only [strategyTransitionAnswer, e1, e2, e3, e4, e5, e6, e7, length_mapVars, H.and, eq_ff_hom H, H.swap, H.exPost,
      mark_hom H, concretize_hom H, withNumbers_hom, ne_eq, hr, if_true]
    cases sh.strategies[lg]? with
    | none => rfl
    | some third =>
      simp only [Option.map_some, H.and, eq_ff_hom H, mark_hom H, concretize_hom H, withNumbers_hom, ← apply_ite h, nextNumbers_hom H]

theorem execCheckTrans_hom (c : Ctx A) (vs : IVars A) (sh : Shell A) (st : ShellState A) (i : Stdin) (rnd : List Bool) :
    execCheckTrans N (c.map h) (vs.map h) (sh.map h) (st.map h) i rnd = (execCheckTrans M c vs sh st i rnd).map h := by
  simp only [execCheckTrans, Ctx.map, IVars.map, Shell.map, H.tt, readValues_hom H, H.and, List.length_map, meetingStrategies_hom H,
    meeting_hom H, ne_eq, eq_ff_hom H]
  cases meetingStrategies M sh.strategies c.livenessGuarantees.length _ <;> rfl

theorem execMove_hom (c : Ctx A) (vs : IVars A) (sh : Shell A) (st : ShellState A) (i : Stdin) (rnd : List Bool) :
    execMove N (c.map h) (vs.map h) (sh.map h) (st.map h) i rnd = (execMove M c vs sh st i rnd).map h := by
  have key : ∀ (l : List (Name × A)) (t f : A), (mapVars h l).foldl (fun f v => if N.and v.2 (h t) = N.ff then N.and f (N.not v.2) else N.and f v.2) (h f) =
      h (l.foldl (fun f v => if M.and v.2 t = M.ff then M.and f (M.not v.2) else M.and f v.2) f) := by
    intro l
    induction l with
    | nil => intro t f; rfl
    | cons v l ih =>
      intro t f
      rw [mapVars, List.map_cons, List.foldl_cons, List.foldl_cons, ← mapVars, ← ih]
      simp only [H.not, H.and, eq_ff_hom H, ← apply_ite h]
  have key2 : ∀ (l : List (Name × A)) (t : A), ((mapVars h l).map fun v => (v.1, if N.and v.2 (h t) = N.ff then false else true)) =
      l.map fun v => (v.1, if M.and v.2 t = M.ff then false else true) := by
    intro l t
    simp only [mapVars, List.map_map, Function.comp_def, H.and, eq_ff_hom H]
  simp only [execMove, ShellState.map, Ctx.map, IVars.map, Shell.map, H.tt, readNextInput_hom H, H.and, List.length_map,
    List.getElem?_map, eq_ff_hom H, mapVars_snd]
  split
  · rfl
  split
  · rfl
  cases (readUnsignedInt i).1 with
  | none => rfl
  | some guarantee =>
    dsimp only
    split
    · rfl
    split
    · rfl
    cases sh.strategies[guarantee]? with
    | none => rfl
    | some strategy =>
      simp only [Option.map_some, H.and, eq_ff_hom H, determinize_hom H, meetingStrategies_hom H, meeting_hom H, key, key2, H.swap]
      split
      · rfl
      · cases meetingStrategies M sh.strategies c.livenessGuarantees.length _ <;> rfl

theorem execMakeTrans_hom (c : Ctx A) (vs : IVars A) (sh : Shell A) (random : Bool) (st : ShellState A) (i : Stdin) (rnd : List Bool) :
    execMakeTrans N (c.map h) (vs.map h) (sh.map h) random (st.map h) i rnd = (execMakeTrans M c vs sh random st i rnd).map h := by
  simp only [execMakeTrans, ShellState.map, Ctx.map, IVars.map, Shell.map, H.tt, readForced_hom H, List.length_map, mapVars_snd]
  split
  · rfl
  cases readForced M vs.postIn i M.tt with
  | none => rfl
  | some r =>
    obtain ⟨typed, postInput, i'⟩ := r
    simp only [Option.map_some, H.and, eq_ff_hom H, List.getElem?_map]
    split
    · rfl
    cases sh.strategies[st.goal]? with
    | none => rfl
    | some strategy =>
      simp only [Option.map_some, H.and, determinize_hom H, determinizeRandomized_hom H, ← apply_ite h, goalJump_hom H, H.exPre, H.swap,
        bitsIn_hom H]
      cases goalJump M c.livenessGuarantees _ st.goal (c.livenessGuarantees.length + 1) st.goal true <;> rfl

theorem execStrategyTransition_hom (c : Ctx A) (vs : IVars A) (sh : Shell A) (st : ShellState A) (i : Stdin) (rnd : List Bool) :
    execStrategyTransition N (c.map h) (vs.map h) (sh.map h) (st.map h) i rnd = (execStrategyTransition M c vs sh st i rnd).map h := by
  rw [execStrategyTransition, execStrategyTransition]
  have e1 : readForced N ((vs.map h).preIn ++ (vs.map h).preOut) i N.tt =
      (readForced M (vs.preIn ++ vs.preOut) i M.tt).map fun r => (r.1, h r.2.1, r.2.2) := by
    rw [IVars.map, mapVars_append, H.tt, readForced_hom H]
  have e2 : ∀ i, readForced N ((vs.map h).postIn ++ (vs.map h).postOut) i N.tt =
      (readForced M (vs.postIn ++ vs.postOut) i M.tt).map fun r => (r.1, h r.2.1, r.2.2) := by
    intro i
    rw [IVars.map, mapVars_append, H.tt, readForced_hom H]
  rw [e1]
  cases readForced M (vs.preIn ++ vs.preOut) i M.tt with
  | none => rfl
  | some r =>
    obtain ⟨src, start, i1⟩ := r
    simp only [Option.map_some, e2]
    cases readForced M (vs.postIn ++ vs.postOut) i1 M.tt with
    | none => rfl
    | some r =>
      obtain ⟨typed, forced, i2⟩ := r
      simp only [Option.map_some]
      cases (readUnsignedInt i2).1 with
      | none => rfl
      | some la =>
        cases (readUnsignedInt (readUnsignedInt i2).2).1 with
        | none => rfl
        | some lg =>
          dsimp only
          rw [strategyTransitionAnswer_hom H]
          cases strategyTransitionAnswer M c vs sh start forced la lg <;> rfl

theorem execCmd_hom (c : Ctx A) (vs : IVars A) (sh : Shell A) (st : ShellState A) (i : Stdin) (rnd : List Bool) (cmd : Cmd) :
    execCmd N (c.map h) (vs.map h) (sh.map h) (st.map h) i rnd cmd = (execCmd M c vs sh st i rnd cmd).map h := by
  have e0 : determinize N ((vs.map h).pre.map Prod.snd) (N.and (N.and (sh.map h).winning (c.map h).initEnv) (c.map h).initSys) =
      h (determinize M (vs.pre.map Prod.snd) (M.and (M.and sh.winning c.initEnv) c.initSys)) := by
    simp only [IVars.map, Shell.map, Ctx.map, mapVars_snd, H.and, determinize_hom H]
  cases cmd with
  | quit => rfl
  | startPos =>
    simp only [execCmd, e0]
    simp only [StepResult.map, ShellState.map, IVars.map, mapVars, List.map_map, Function.comp_def, H.and, eq_ff_hom H]
  | checkTrans => exact execCheckTrans_hom H c vs sh st i rnd
  | setPos => simp only [execCmd, StepResult.map, ShellState.map, IVars.map, H.tt, readValues_hom H]
  | move => exact execMove_hom H c vs sh st i rnd
  | makeTrans => exact execMakeTrans_hom H c vs sh false st i rnd
  | makeTransRandom => exact execMakeTrans_hom H c vs sh true st i rnd
  | printInputs => simp only [execCmd, StepResult.map, IVars.map, mapVars_fst]
  | printOutputs => simp only [execCmd, StepResult.map, IVars.map, mapVars_fst]
  | getNumbers => simp only [execCmd, StepResult.map, Ctx.map, List.length_map]
  | getInit =>
    simp only [execCmd, e0]
    simp only [StepResult.map, ShellState.map, IVars.map, bitsIn_hom H]
  | completeInit =>
    simp only [execCmd]
    have e1 : readForced N ((vs.map h).preIn ++ (vs.map h).preOut) i N.tt =
        (readForced M (vs.preIn ++ vs.preOut) i M.tt).map fun r => (r.1, h r.2.1, r.2.2) := by
      rw [IVars.map, mapVars_append, H.tt, readForced_hom H]
    rw [e1]
    cases readForced M (vs.preIn ++ vs.preOut) i M.tt with
    | none => rfl
    | some r =>
      obtain ⟨typed, forced, i'⟩ := r
      simp only [Option.map_some, completeInitAnswer_hom H]
      cases completeInitAnswer M c vs sh forced <;> rfl
  | strategyTransition => exact execStrategyTransition_hom H c vs sh st i rnd
  | unknown l => rfl

theorem sessionLoop_hom (c : Ctx A) (vs : IVars A) (sh : Shell A) : ∀ (n : Nat) (st : ShellState A) (i : Stdin) (rnd : List Bool) (es : List Exchange),
    sessionLoop N (c.map h) (vs.map h) (sh.map h) n (st.map h) i rnd es = sessionLoop M c vs sh n st i rnd es := by
  intro n
  induction n with
  | zero => intros; rfl
  | succ n ih =>
    intro st i rnd es
    rw [sessionLoop, sessionLoop]
    cases readCommand i with
    | quit => rfl
    | hang => rfl
    | line l i' =>
      dsimp only
      rw [execCmd_hom H]
      cases execCmd M c vs sh st i' rnd (parseCommand l) with
      | done e => rfl
      | next st' i'' rnd' e => exact ih st' i'' rnd' (es ++ [e])

end Slugs.Model
