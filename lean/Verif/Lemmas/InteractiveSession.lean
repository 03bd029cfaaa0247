import Verif.Lemmas.InteractiveMoves
import Verif.Lemmas.InteractiveAnswers
import Verif.Lemmas.InteractiveEnv

/-! Whole sessions with the interactive shell. -/

namespace Slugs.Model

open Slugs.Spec Slugs.Props

/-! ### The input gets shorter -/

section
variable {B : Type} [DecidableEq B]

theorem length_dropWhile_le {α : Type} (p : α → Bool) (l : List α) : (l.dropWhile p).length ≤ l.length :=
  (List.dropWhile_sublist p).length_le

theorem readCommand_shorter {i i' : Stdin} {l : List Char} (h : readCommand i = .line l i') : i'.chars.length < i.chars.length := by
  rw [readCommand] at h
  split at h
  · cases h
  split at h
  · cases h
  dsimp only at h
  split at h
  · cases h
  · rename_i c rest hs
    cases h
    have h1 := length_dropWhile_le (fun c => c != '\n') (i.chars.dropWhile fun c => c == '\n')
    have h2 := length_dropWhile_le (fun c => c == '\n') i.chars
    rw [hs] at h1
    simp only [List.length_cons] at h1
    show rest.length < _
    omega

theorem readChar_shorter {i i' : Stdin} {c : Char} (h : readChar i = some (c, i')) : i'.chars.length ≤ i.chars.length := by
  rw [readChar] at h
  split at h
  · split at h
    · cases h
    · rename_i c rest hs
      cases h
      have h1 := length_dropWhile_le isSpace i.chars
      rw [hs] at h1
      simp only [List.length_cons] at h1
      show rest.length ≤ _
      omega
  · cases h

theorem readNumber_shorter (i : Stdin) : (readNumber i).2.chars.length ≤ i.chars.length := by
  rw [readNumber]
  split
  · have h1 := length_dropWhile_le isSpace i.chars
    split
    · simp
    · rename_i c cs hs
      rw [hs] at h1
      simp only [List.length_cons] at h1
      have h2 : (if (c == '-' || c == '+') = true then cs else c :: cs).length ≤ cs.length + 1 := by split <;> simp
      dsimp only
      generalize (if (c == '-' || c == '+') = true then cs else c :: cs) = s at h2
      have h3 := length_dropWhile_le isDigit s
      split
      · show (s.dropWhile isDigit).length ≤ _; omega
      · show (s.dropWhile isDigit).length ≤ _; omega
  · exact le_rfl

theorem readInt_shorter (i : Stdin) : (readInt i).2.chars.length ≤ i.chars.length := by
  have h := readNumber_shorter i
  rw [readInt]
  generalize readNumber i = r at h
  obtain ⟨n, i'⟩ := r
  cases n with
  | untouched => exact h
  | noDigits => exact h
  | value neg n =>
    dsimp only
    split <;> exact h

theorem readUnsignedInt_shorter (i : Stdin) : (readUnsignedInt i).2.chars.length ≤ i.chars.length := by
  have h := readNumber_shorter i
  rw [readUnsignedInt]
  generalize readNumber i = r at h
  obtain ⟨n, i'⟩ := r
  cases n with
  | untouched => exact h
  | noDigits => exact h
  | value neg n =>
    dsimp only
    split <;> exact h

theorem readForced_shorter (M : Mgr B) : ∀ (vs : List (Name × B)) (i : Stdin) (acc : B) {r : List Char × B × Stdin},
    readForced M vs i acc = some r → r.2.2.chars.length ≤ i.chars.length := by
  intro vs
  induction vs with
  | nil => intro i acc r h; cases h; exact le_rfl
  | cons v vs ih =>
    intro i acc r h
    rw [readForced] at h
    cases hc : readChar i with
    | none => rw [hc] at h; cases h
    | some x =>
      obtain ⟨c, i1⟩ := x
      rw [hc] at h
      dsimp only at h
      split at h
      · cases h
      · rename_i cs r' hr
        cases h
        exact (ih _ _ hr).trans (readChar_shorter hc)

theorem readValues_shorter (M : Mgr B) : ∀ (vs : List (Name × B)) (i : Stdin) (acc : B),
    (readValues M vs i acc).2.2.chars.length ≤ i.chars.length := by
  intro vs
  induction vs with
  | nil => intro i acc; exact le_rfl
  | cons v vs ih => intro i acc; exact (ih _ _).trans (readInt_shorter i)

theorem readNextInput_shorter (M : Mgr B) : ∀ (vs : List (Name × B)) (i : Stdin) (dest next : B),
    (readNextInput M vs i dest next).2.2.2.chars.length ≤ i.chars.length := by
  intro vs
  induction vs with
  | nil => intro i dest next; exact le_rfl
  | cons v vs ih =>
    intro i dest next
    rw [readNextInput]
    dsimp only
    split
    · exact (ih _ _ _).trans (readInt_shorter i)
    · split <;> exact (ih _ _ _).trans (readInt_shorter i)

theorem execCmd_shorter (M : Mgr B) (c : Ctx B) (vs : IVars B) (sh : Shell B) {st st' : ShellState B} {i i' : Stdin} {rnd rnd' : List Bool}
    {cmd : Cmd} {e : Exchange} (h : execCmd M c vs sh st i rnd cmd = .next st' i' rnd' e) : i'.chars.length ≤ i.chars.length := by
  have mk : ∀ random, execMakeTrans M c vs sh random st i rnd = .next st' i' rnd' e → i'.chars.length ≤ i.chars.length := by
    intro random h
    rw [execMakeTrans] at h
    split at h
    · cases h
    split at h
    · cases h
    · rename_i typed f i1 hr
      have := readForced_shorter M _ _ _ hr
      dsimp only at h this
      split at h
      · cases h; exact this
      split at h
      · cases h
      split at h
      · cases h
      · cases h; exact this
  cases cmd with
  | quit => cases h
  | startPos => cases h; exact le_rfl
  | checkTrans =>
    rw [execCmd, execCheckTrans] at h
    split at h
    · cases h
    · cases h
      exact (readValues_shorter M _ _ _).trans (readValues_shorter M _ _ _)
  | setPos => cases h; exact readValues_shorter M _ _ _
  | move =>
    rw [execCmd, execMove] at h
    dsimp only at h
    have h1 := readUnsignedInt_shorter i
    split at h
    · cases h; exact le_rfl
    split at h
    · cases h; exact h1
    split at h
    · cases h
    split at h
    · cases h; exact h1
    split at h
    · cases h; exact h1
    have h2 := (readNextInput_shorter M vs.postIn (readUnsignedInt i).2 M.tt M.tt).trans h1
    split at h
    · cases h
    split at h
    · cases h; exact h2
    split at h
    · cases h
    · cases h; exact h2
  | makeTrans => exact mk false h
  | makeTransRandom => exact mk true h
  | printInputs => cases h; exact le_rfl
  | printOutputs => cases h; exact le_rfl
  | getNumbers => cases h; exact le_rfl
  | getInit => cases h; exact le_rfl
  | completeInit =>
    rw [execCmd] at h
    split at h
    · cases h
    · rename_i typed f i1 hr
      have := readForced_shorter M _ _ _ hr
      dsimp only at h this
      split at h
      · cases h
      · cases h; exact this
  | strategyTransition =>
    rw [execCmd, execStrategyTransition] at h
    split at h
    · cases h
    · rename_i src f i1 hr
      have h1 := readForced_shorter M _ _ _ hr
      split at h
      · cases h
      · rename_i typed f2 i2 hr2
        have h2 := readForced_shorter M _ _ _ hr2
        dsimp only at h h1 h2
        have h3 := readUnsignedInt_shorter i2
        have h4 := readUnsignedInt_shorter (readUnsignedInt i2).2
        split at h
        · split at h
          · cases h
          · cases h
          · cases h
            omega
        · cases h
  | unknown l => cases h; exact le_rfl

/-- Every session ends. -/
theorem sessionLoop_ends (M : Mgr B) (c : Ctx B) (vs : IVars B) (sh : Shell B) : ∀ (n : Nat) (st : ShellState B) (i : Stdin) (rnd : List Bool)
    (es : List Exchange), i.chars.length < n → ∃ r, sessionLoop M c vs sh n st i rnd es = some r := by
  intro n
  induction n with
  | zero => intro st i rnd es h; omega
  | succ n ih =>
    intro st i rnd es h
    rw [sessionLoop]
    cases hr : readCommand i with
    | quit => exact ⟨_, rfl⟩
    | hang => exact ⟨_, rfl⟩
    | line l i1 =>
      have h1 := readCommand_shorter hr
      dsimp only
      cases hx : execCmd M c vs sh st i1 rnd (parseCommand l) with
      | done e => exact ⟨_, rfl⟩
      | next st' i2 rnd' e => exact ih _ _ _ _ (by have := execCmd_shorter M c vs sh hx; omega)

end

/-! ### The answers -/

section
variable {sp : SpecFile} {vs : IVars (T sp.In sp.Out)} (hv : IVarsOK sp vs) {sh : Shell (T sp.In sp.Out)} {S : Nat → T sp.In sp.Out}

include hv in
theorem completeInit_of (hw : sh.winning = pre {s | if sh.realizable = true then sp.game.SysWins s else ¬ sp.game.SysWins s})
    (st : ShellState (T sp.In sp.Out)) (i : Stdin) (rnd : List Bool) :
    execCmd (semMgr sp.In sp.Out) (gameCtx (padGame sp.game)) vs sh st i rnd .completeInit = .done .ub ∨
    ∃ typed a i', execCmd (semMgr sp.In sp.Out) (gameCtx (padGame sp.game)) vs sh st i rnd .completeInit = .next st i' rnd (.completeInit typed a) ∧
      typed.length = sp.inputs.length + sp.outputs.length ∧ InitAnswer sp sh.realizable typed a := by
  rw [execCmd]
  cases hr : readForced (semMgr sp.In sp.Out) (vs.preIn ++ vs.preOut) i (semMgr sp.In sp.Out).tt with
  | none => exact .inl rfl
  | some r =>
    obtain ⟨typed, f, i'⟩ := r
    obtain ⟨h1, h2⟩ := readForced_sem _ _ _ hr
    obtain ⟨a, h3, h4⟩ := completeInit_answer hv hw (typed := typed) (forced := f)
      (fun s t => by rw [h2, hv.lits_pre]; exact ⟨fun h => h.2, fun h => ⟨trivial, h⟩⟩)
    dsimp only
    rw [h3]
    exact .inr ⟨typed, a, i', rfl, by rw [h1, hv.length_pre], h4⟩

include hv in
theorem strategyTransition_of (hS : sh.strategies = (List.range (if sh.realizable = true then sp.goals else sp.hopes)).map S)
    (st : ShellState (T sp.In sp.Out)) (i : Stdin) (rnd : List Bool) :
    execStrategyTransition (semMgr sp.In sp.Out) (gameCtx (padGame sp.game)) vs sh st i rnd = .done .ub ∨
    ∃ src typed la lg a i', execStrategyTransition (semMgr sp.In sp.Out) (gameCtx (padGame sp.game)) vs sh st i rnd =
        .next st i' rnd (.strategyTransition src typed la lg a) ∧
      src.length = sp.inputs.length + sp.outputs.length ∧ typed.length = sp.inputs.length + sp.outputs.length ∧
      TransitionAnswer sp sh.realizable (S (if sh.realizable = true then lg else la)) (PrintedNumbers sp la lg) src typed la lg a := by
  rw [execStrategyTransition]
  cases hr : readForced (semMgr sp.In sp.Out) (vs.preIn ++ vs.preOut) i (semMgr sp.In sp.Out).tt with
  | none => exact .inl rfl
  | some r =>
    obtain ⟨src, f, i1⟩ := r
    obtain ⟨h1, h2⟩ := readForced_sem _ _ _ hr
    dsimp only
    cases hr' : readForced (semMgr sp.In sp.Out) (vs.postIn ++ vs.postOut) i1 (semMgr sp.In sp.Out).tt with
    | none => exact .inl rfl
    | some r =>
      obtain ⟨typed, f', i2⟩ := r
      obtain ⟨h3, h4⟩ := readForced_sem _ _ _ hr'
      dsimp only
      generalize (readUnsignedInt i2).2 = i3
      cases (readUnsignedInt i2).1 with
      | none => exact .inl rfl
      | some la =>
        cases (readUnsignedInt i3).1 with
        | none => exact .inl rfl
        | some lg =>
          dsimp only
          have h5 := strategyTransition_answer hv hS (src := src) (typed := typed) (start := f) (forced := f')
            (fun s t => by rw [h2, hv.lits_pre]; exact ⟨fun h => h.2, fun h => ⟨trivial, h⟩⟩)
            (fun s t => by rw [h4, hv.lits_post]; exact ⟨fun h => h.2, fun h => ⟨trivial, h⟩⟩) la lg
          generalize strategyTransitionAnswer (semMgr sp.In sp.Out) (gameCtx (padGame sp.game)) vs sh f f' la lg = a at h5
          cases a with
          | ub => exact .inl rfl
          | thrown => exact h5.elim
          | answer a => exact .inr ⟨src, typed, la, lg, a, _, rfl, by rw [h1, hv.length_pre], by rw [h3, hv.length_post], h5⟩

theorem printInputs_names (hv : IVarsOK sp vs) : vs.preIn.map Prod.fst = sp.inputs := by
  rw [hv.preIn, List.map_map]
  exact List.attach_map_subtype_val _

theorem printOutputs_names (hv : IVarsOK sp vs) : vs.preOut.map Prod.fst = sp.outputs := by
  rw [hv.preOut, List.map_map]
  exact List.attach_map_subtype_val _

include hv in
/-- All requests are answered right if the specification is realizable. -/
theorem exec_right (hs : ShellOK sp sh S) {st st' : ShellState (T sp.In sp.Out)} {i i' : Stdin} {rnd rnd' : List Bool} {past : List Exchange}
    {cmd : Cmd} {e : Exchange} (hI : Inv sp st past)
    (h : execCmd (semMgr sp.In sp.Out) (gameCtx (padGame sp.game)) vs sh st i rnd cmd = .next st' i' rnd' e) :
    Right sp S past e ∧ Inv sp st' (past ++ [e]) := by
  have hw : sh.winning = pre {s | if sh.realizable = true then sp.game.SysWins s else ¬ sp.game.SysWins s} := by
    rw [hs.winning, hs.real]; rfl
  have hS : sh.strategies = (List.range (if sh.realizable = true then sp.goals else sp.hopes)).map S := by
    rw [hs.strategies, hs.real]; rfl
  cases cmd with
  | quit => cases h
  | startPos => exact startPos_right hv hs hI h
  | checkTrans => exact checkTrans_right hv hs hI h
  | setPos => exact setPos_right hv hI h
  | move => exact move_right hv hs hI h
  | makeTrans => exact makeTrans_right hv hs hI h
  | makeTransRandom => exact makeTrans_right hv hs hI h
  | printInputs => cases h; exact ⟨printInputs_names hv, hI.same rfl rfl⟩
  | printOutputs => cases h; exact ⟨printOutputs_names hv, hI.same rfl rfl⟩
  | getNumbers => cases h; exact ⟨⟨hopes_padGame sp, goals_padGame sp⟩, hI.same rfl rfl⟩
  | getInit => exact getInit_right hv hs hI h
  | completeInit =>
    rcases completeInit_of hv hw st i rnd with hd | ⟨typed, a, i1, hd, h1, h2⟩
    · rw [h] at hd; cases hd
    · rw [h] at hd
      cases hd
      exact ⟨⟨h1, hs.real ▸ h2⟩, hI.same rfl rfl⟩
  | strategyTransition =>
    rw [execCmd] at h
    rcases strategyTransition_of hv hS st i rnd with hd | ⟨src, typed, la, lg, a, i1, hd, h1, h2, h3⟩
    · rw [h] at hd; cases hd
    · rw [h] at hd
      cases hd
      rw [if_pos hs.real, hs.real] at h3
      exact ⟨⟨h1, h2, h3⟩, hI.same rfl rfl⟩
  | unknown l => cases h; exact ⟨trivial, hI.same rfl rfl⟩

/-- What is computed before a session with an unrealizable specification. -/
structure LostOK (sp : SpecFile) (sh : Shell (T sp.In sp.Out)) (E : Nat → T sp.In sp.Out) : Prop where
  real : sh.realizable = false
  winning : sh.winning = pre {s | ¬ sp.game.SysWins s}
  strategies : sh.strategies = (List.range sp.hopes).map E

include hv in
/-- The requests are answered right if the specification is unrealizable. -/
theorem exec_lost (hs : LostOK sp sh S) {st st' : ShellState (T sp.In sp.Out)} {i i' : Stdin} {rnd rnd' : List Bool}
    {cmd : Cmd} {e : Exchange} (h : execCmd (semMgr sp.In sp.Out) (gameCtx (padGame sp.game)) vs sh st i rnd cmd = .next st' i' rnd' e) :
    RightLost sp S e := by
  have hw : sh.winning = pre {s | if sh.realizable = true then sp.game.SysWins s else ¬ sp.game.SysWins s} := by
    rw [hs.winning, hs.real]; rfl
  have hS : sh.strategies = (List.range (if sh.realizable = true then sp.goals else sp.hopes)).map S := by
    rw [hs.strategies, hs.real]; rfl
  have mk : ∀ random, execMakeTrans (semMgr sp.In sp.Out) (gameCtx (padGame sp.game)) vs sh random st i rnd = .next st' i' rnd' e →
      RightLost sp S e := by
    intro random h
    rw [execMakeTrans] at h
    split at h
    · cases h
    · rename_i hr
      have hr : random = true := by
        cases random with
        | true => rfl
        | false => exact absurd ⟨rfl, hs.real⟩ hr
      subst hr
      split at h
      · cases h
      dsimp only at h
      split at h
      · cases h; exact rfl
      split at h
      · cases h
      split at h
      · cases h
      · cases h; exact rfl
  cases cmd with
  | quit => cases h
  | startPos =>
    rw [execCmd] at h
    cases h
    rcases init_of hv hs.winning with ⟨p, hp, he⟩ | ⟨hno, he⟩
    · rw [he]
      refine ⟨?_, ?_⟩
      · rw [List.map_map]; exact hv.pre_names
      · rw [label_of hv]; exact fun _ => hp
    · rw [he]
      refine ⟨?_, fun h => absurd h hno⟩
      rw [List.map_map]; exact hv.pre_names
  | checkTrans =>
    rw [execCmd] at h
    rcases checkTrans_of hv hs.strategies hs.winning (st := st) (i := i) (rnd := rnd) with ⟨_, hd⟩ | ⟨src, dst, _, _, _, _, _, _, _, he, hr⟩
    · rw [h] at hd; cases hd
    · rw [h] at he
      cases he
      exact hr
  | setPos =>
    rw [execCmd] at h
    cases h
    obtain ⟨h1, _⟩ := readValues_sem vs.pre i (semMgr sp.In sp.Out).tt
    show (List.map _ _).Perm _
    rw [h1]; exact hv.pre_names
  | move =>
    rw [execCmd, execMove] at h
    dsimp only at h
    repeat' split at h
    all_goals first | (cases h; exact trivial) | cases h
  | makeTrans => exact mk false h
  | makeTransRandom => exact mk true h
  | printInputs => cases h; exact printInputs_names hv
  | printOutputs => cases h; exact printOutputs_names hv
  | getNumbers => cases h; exact ⟨hopes_padGame sp, goals_padGame sp⟩
  | getInit =>
    rw [execCmd] at h
    cases h
    rcases init_of hv hs.winning with ⟨p, hp, he⟩ | ⟨hno, he⟩
    · rw [he, hv.bits_single]
      exact fun _ => ⟨p, hp, rfl⟩
    · exact fun h => absurd h hno
  | completeInit =>
    rcases completeInit_of hv hw st i rnd with hd | ⟨typed, a, i1, hd, h1, h2⟩
    · rw [h] at hd; cases hd
    · rw [h] at hd
      cases hd
      exact ⟨h1, hs.real ▸ h2⟩
  | strategyTransition =>
    rw [execCmd] at h
    rcases strategyTransition_of hv hS st i rnd with hd | ⟨src, typed, la, lg, a, i1, hd, h1, h2, h3⟩
    · rw [h] at hd; cases hd
    · rw [h] at hd
      cases hd
      rw [if_neg (by rw [hs.real]; exact Bool.false_ne_true), hs.real] at h3
      exact ⟨h1, h2, h3⟩
  | unknown l => cases h; exact trivial

/-! ### Sessions -/

include hv in
theorem session_right (hs : ShellOK sp sh S) : ∀ (n : Nat) (st : ShellState (T sp.In sp.Out)) (i : Stdin) (rnd : List Bool) (past : List Exchange)
    {es : List Exchange} {e : SessionEnd}, Inv sp st past → (∀ es1 x es2, past = es1 ++ x :: es2 → Right sp S es1 x) →
    sessionLoop (semMgr sp.In sp.Out) (gameCtx (padGame sp.game)) vs sh n st i rnd past = some (es, e) →
    ∀ es1 x es2, es = es1 ++ x :: es2 → Right sp S es1 x := by
  intro n
  induction n with
  | zero => intro st i rnd past es e _ _ h; cases h
  | succ n ih =>
    intro st i rnd past es e hI hp h
    rw [sessionLoop] at h
    cases hr : readCommand i with
    | quit => rw [hr] at h; cases h; exact hp
    | hang => rw [hr] at h; cases h; exact hp
    | line l i1 =>
      rw [hr] at h
      dsimp only at h
      cases hx : execCmd (semMgr sp.In sp.Out) (gameCtx (padGame sp.game)) vs sh st i1 rnd (parseCommand l) with
      | done e => rw [hx] at h; cases h; exact hp
      | next st' i2 rnd' x =>
        rw [hx] at h
        obtain ⟨h1, h2⟩ := exec_right hv hs hI hx
        refine ih _ _ _ _ h2 ?_ h
        intro es1 y es2 he
        rcases List.eq_nil_or_concat es2 with rfl | ⟨es2', z, rfl⟩
        · obtain ⟨ha, hb⟩ := List.append_inj' he rfl
          cases hb
          exact ha ▸ h1
        · rw [List.concat_eq_append, ← List.cons_append, ← List.append_assoc] at he
          obtain ⟨ha, hb⟩ := List.append_inj' he rfl
          exact hp es1 y es2' ha

include hv in
theorem session_lost (hs : LostOK sp sh S) : ∀ (n : Nat) (st : ShellState (T sp.In sp.Out)) (i : Stdin) (rnd : List Bool) (past : List Exchange)
    {es : List Exchange} {e : SessionEnd}, (∀ x ∈ past, RightLost sp S x) →
    sessionLoop (semMgr sp.In sp.Out) (gameCtx (padGame sp.game)) vs sh n st i rnd past = some (es, e) →
    ∀ x ∈ es, RightLost sp S x := by
  intro n
  induction n with
  | zero => intro st i rnd past es e _ h; cases h
  | succ n ih =>
    intro st i rnd past es e hp h
    rw [sessionLoop] at h
    cases hr : readCommand i with
    | quit => rw [hr] at h; cases h; exact hp
    | hang => rw [hr] at h; cases h; exact hp
    | line l i1 =>
      rw [hr] at h
      dsimp only at h
      cases hx : execCmd (semMgr sp.In sp.Out) (gameCtx (padGame sp.game)) vs sh st i1 rnd (parseCommand l) with
      | done e => rw [hx] at h; cases h; exact hp
      | next st' i2 rnd' x =>
        rw [hx] at h
        refine ih _ _ _ _ ?_ h
        intro y hy
        rcases List.mem_append.mp hy with hy | hy
        · exact hp y hy
        · rw [List.mem_singleton.mp hy]
          exact exec_lost hv hs hx

theorem inv_start : Inv sp { cur := (semMgr sp.In sp.Out).ff, goal := 0 } [] where
  goal := by
    show 0 < sp.goals
    rw [← goals_padGame]
    exact List.length_pos_iff.mpr (padGame_guarantees sp.game)
  fresh _ := rfl
  here p k rest h := by cases h
  won p k rest h := by cases h

end

end Slugs.Model
