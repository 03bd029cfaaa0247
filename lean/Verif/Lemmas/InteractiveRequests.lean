import Verif.Lemmas.InteractivePlay

/-! Sessions with well-formed requests. -/

namespace Slugs.Model

open Slugs.Spec Slugs.Props

/-- Standard input from which reading goes on. -/
def stdin (chars : List Char) : Stdin := { chars := chars, eof := false, fail := false }

theorem dropWhile_gap {p : Char → Bool} {g t : List Char} {c : Char} (hg : ∀ x ∈ g, p x = true) (hc : p c = false) :
    (g ++ c :: t).dropWhile p = c :: t := by
  rw [List.dropWhile_append_of_pos hg, List.dropWhile_cons_of_neg (by simp [hc])]

theorem readChar_typed {g t : List Char} {c : Char} (hg : ∀ x ∈ g, isSpace x = true) (hc : isSpace c = false) :
    readChar (stdin (g ++ c :: t)) = some (c, stdin t) := by
  rw [readChar, if_pos (show (stdin _).good = true from rfl)]
  show (match (g ++ c :: t).dropWhile isSpace with | [] => none | c :: rest => some (c, stdin rest)) = _
  rw [dropWhile_gap hg hc]

theorem digit_not_space {c : Char} (h : isDigit c = true) : isSpace c = false ∧ c ≠ '-' ∧ c ≠ '+' := by
  refine ⟨?_, ?_, ?_⟩
  · by_contra hs
    rw [Bool.not_eq_false] at hs
    simp only [isSpace, Bool.or_eq_true, beq_iff_eq] at hs
    rcases hs with ((((rfl | rfl) | rfl) | rfl) | rfl) | rfl <;> revert h <;> decide
  · rintro rfl; revert h; decide
  · rintro rfl; revert h; decide

theorem readNumber_typed {g ds t : List Char} (hg : ∀ x ∈ g, isSpace x = true) (hne : ds ≠ []) (hd : ∀ x ∈ ds, isDigit x = true)
    (ht : ∀ x, t.head? = some x → isDigit x = false) (ht' : t ≠ []) :
    readNumber (stdin (g ++ ds ++ t)) = (.value false (digitsVal ds), stdin t) := by
  obtain ⟨c, ds', rfl⟩ := List.exists_cons_of_ne_nil hne
  obtain ⟨h1, h2, h3⟩ := digit_not_space (hd c (by simp))
  rw [readNumber, if_pos (show (stdin _).good = true from rfl)]
  have e : (stdin (g ++ (c :: ds') ++ t)).chars.dropWhile isSpace = c :: (ds' ++ t) := by
    show (g ++ (c :: ds') ++ t).dropWhile isSpace = _
    rw [List.append_assoc]
    exact dropWhile_gap hg h1
  obtain ⟨x, t', rfl⟩ := List.exists_cons_of_ne_nil ht'
  have hx : isDigit x = false := ht x rfl
  have e1 : (c :: (ds' ++ x :: t')).takeWhile isDigit = c :: ds' := by
    rw [← List.cons_append, List.takeWhile_append_of_pos hd, List.takeWhile_cons_of_neg (by simp [hx]), List.append_nil]
  have e2 : (c :: (ds' ++ x :: t')).dropWhile isDigit = x :: t' := by
    rw [← List.cons_append]; exact dropWhile_gap hd hx
  rw [e]
  dsimp only
  have e0 : (if (c == '-' || c == '+') = true then ds' ++ x :: t' else c :: (ds' ++ x :: t')) = c :: (ds' ++ x :: t') := if_neg (by simp [h2, h3])
  rw [e0, e1, e2]
  simp [h2, stdin]

theorem readInt_typed {g ds t : List Char} (hg : ∀ x ∈ g, isSpace x = true) (hne : ds ≠ []) (hd : ∀ x ∈ ds, isDigit x = true)
    (ht : ∀ x, t.head? = some x → isDigit x = false) (ht' : t ≠ []) (hlt : digitsVal ds < 2 ^ 31) :
    readInt (stdin (g ++ ds ++ t)) = (some (digitsVal ds : Int), stdin t) := by
  rw [readInt, readNumber_typed hg hne hd ht ht']
  dsimp only
  rw [if_pos (.inl (by omega))]
  rfl

theorem readUnsignedInt_typed {g ds t : List Char} (hg : ∀ x ∈ g, isSpace x = true) (hne : ds ≠ []) (hd : ∀ x ∈ ds, isDigit x = true)
    (ht : ∀ x, t.head? = some x → isDigit x = false) (ht' : t ≠ []) (hlt : digitsVal ds < 2 ^ 32) :
    readUnsignedInt (stdin (g ++ ds ++ t)) = (some (digitsVal ds), stdin t) := by
  rw [readUnsignedInt, readNumber_typed hg hne hd ht ht']
  dsimp only
  rw [if_neg (by omega)]
  rfl

section
variable {B : Type} [DecidableEq B]

theorem readForced_typed (M : Mgr B) : ∀ {typed t : List Char}, CharsText typed t → ∀ (vs : List (Name × B)) (rest : List Char) (acc : B),
    vs.length = typed.length → ∃ f, readForced M vs (stdin (t ++ rest)) acc = some (typed, f, stdin rest) := by
  intro typed t h
  induction h with
  | nil =>
    intro vs rest acc hl
    rw [List.length_nil, List.length_eq_zero_iff] at hl
    subst hl
    exact ⟨acc, rfl⟩
  | @cons g cs t c hg hc h ih =>
    intro vs rest acc hl
    cases vs with
    | nil => simp at hl
    | cons v vs =>
      rw [readForced, List.append_assoc, List.cons_append, readChar_typed hg hc]
      dsimp only
      obtain ⟨f, hf⟩ := ih vs rest (if c = '0' then M.and acc (M.not v.2) else if c = '1' then M.and acc v.2 else acc) (by simpa using hl)
      rw [hf]
      exact ⟨f, rfl⟩

/-- Text can be split as the characters are. -/
theorem charsText_append {a b t : List Char} (h : CharsText (a ++ b) t) : ∃ t1 t2, t = t1 ++ t2 ∧ CharsText a t1 ∧ CharsText b t2 := by
  induction a generalizing t with
  | nil => exact ⟨[], t, rfl, .nil, h⟩
  | cons c a ih =>
    rw [List.cons_append] at h
    cases h with
    | cons hg hc h =>
      obtain ⟨t1, t2, rfl, h1, h2⟩ := ih h
      exact ⟨_, t2, by simp, .cons hg hc h1, h2⟩

theorem numbersText_append {a b : List Nat} {t : List Char} (h : NumbersText (a ++ b) t) :
    ∃ t1 t2, t = t1 ++ t2 ∧ NumbersText a t1 ∧ NumbersText b t2 ∧ (∀ x, t2.head? = some x → t1 ≠ [] → isDigit x = false) := by
  induction a generalizing t with
  | nil => exact ⟨[], t, rfl, .nil, h, fun x _ hne => absurd rfl hne⟩
  | cons c a ih =>
    rw [List.cons_append] at h
    cases h with
    | cons hg hne hd ht h =>
      obtain ⟨t1, t2, rfl, h1, h2, h3⟩ := ih h
      refine ⟨_, t2, (List.append_assoc ..).symm, .cons hg hne hd (fun x hx => ht x ?_) h1, h2, fun x hx _ => ?_⟩
      · cases t1 with
        | nil => cases hx
        | cons y t1 => exact hx
      · by_cases he : t1 = []
        · subst he; exact ht x hx
        · exact h3 x hx he

theorem readValues_typed (M : Mgr B) : ∀ {values : List Nat} {t : List Char}, NumbersText values t → ∀ (vs : List (Name × B)) (rest : List Char) (acc : B),
    vs.length = values.length → (∀ n ∈ values, n < 2 ^ 31) → (∀ x, rest.head? = some x → t ≠ [] → isDigit x = false) → rest ≠ [] →
    HasValues (readValues M vs (stdin (t ++ rest)) acc).1 values ∧ (readValues M vs (stdin (t ++ rest)) acc).2.2 = stdin rest := by
  intro values t h
  induction h with
  | nil =>
    intro vs rest acc hl _ _ _
    rw [List.length_nil, List.length_eq_zero_iff] at hl
    subst hl
    exact ⟨rfl, rfl⟩
  | @cons g ds t ns hg hne hd ht h ih =>
    intro vs rest acc hl hlt hr hr'
    cases vs with
    | nil => simp at hl
    | cons v vs =>
      have hne' : g ++ ds ++ t ≠ [] := by simp [hne]
      have e : readInt (stdin (g ++ ds ++ t ++ rest)) = (some (digitsVal ds : Int), stdin (t ++ rest)) := by
        rw [List.append_assoc _ t]
        refine readInt_typed hg hne hd (fun x hx => ?_) (by simp [hr']) (hlt _ (by simp))
        cases t with
        | nil => exact hr x hx hne'
        | cons y t => exact ht x hx
      rw [readValues, e]
      dsimp only
      have := ih vs rest (if (decide ((some (digitsVal ds : Int)).getD 0 ≠ 0)) = true then M.and acc v.2 else M.and acc (M.not v.2)) (by simpa using hl)
        (fun n hn => hlt n (by simp [hn])) (fun x hx _ => hr x hx hne') hr'
      refine ⟨?_, this.2⟩
      have h1 := this.1
      rw [HasValues] at h1 ⊢
      rw [List.map_cons, List.map_cons, h1]
      congr 1
      simp

end

/-! ### The commands -/

theorem parse_request {line : List Char} (r : Request) (h : (trim line).map Char.toUpper = r.name) :
    parseCommand line = match r with
      | .startPos => .startPos
      | .checkTrans .. => .checkTrans
      | .setPos _ => .setPos
      | .makeTrans false _ => .makeTrans
      | .makeTrans true _ => .makeTransRandom
      | .printInputs => .printInputs
      | .printOutputs => .printOutputs
      | .getNumbers => .getNumbers
      | .getInit => .getInit
      | .completeInit _ => .completeInit
      | .strategyTransition .. => .strategyTransition := by
  unfold parseCommand
  cases r with
  | makeTrans random typed => cases random <;> (dsimp only; simp only [h]; rfl)
  | _ => dsimp only; simp only [h]; rfl

theorem name_ne_nil (r : Request) : r.name ≠ [] := by
  cases r with
  | makeTrans random typed => cases random <;> exact List.cons_ne_nil _ _
  | _ => exact List.cons_ne_nil _ _

theorem dropWhile_newlines (l : List Char) : (('\n' :: l).dropWhile fun c => c == '\n') = l.dropWhile fun c => c == '\n' :=
  List.dropWhile_cons_of_pos rfl

theorem readCommand_stdin (l : List Char) : readCommand (stdin l) =
    match (l.dropWhile fun c => c == '\n').dropWhile (fun c => c != '\n') with
    | [] => .quit
    | _ :: rest => .line ((l.dropWhile fun c => c == '\n').takeWhile (fun c => c != '\n')) (stdin rest) := rfl

theorem readCommand_skip (l : List Char) : readCommand (stdin ('\n' :: l)) = readCommand (stdin l) := by
  rw [readCommand_stdin, readCommand_stdin, dropWhile_newlines]

theorem readCommand_line {line rest : List Char} (h : '\n' ∉ line) (hne : line ≠ []) :
    readCommand (stdin (line ++ '\n' :: rest)) = .line line (stdin rest) := by
  obtain ⟨c, l, rfl⟩ := List.exists_cons_of_ne_nil hne
  have hc : c ≠ '\n' := fun e => h (by rw [e]; simp)
  have hall : ∀ x ∈ c :: l, (x != '\n') = true := fun x hx => by
    rw [bne_iff_ne]; rintro rfl; exact h hx
  have e : (((c :: l) ++ '\n' :: rest).dropWhile fun c => c == '\n') = (c :: l) ++ '\n' :: rest := by
    rw [List.cons_append, List.dropWhile_cons_of_neg (by simpa using hc)]
  rw [readCommand_stdin, e, dropWhile_gap hall rfl, List.takeWhile_append_of_pos hall, List.takeWhile_cons_of_neg (by simp), List.append_nil]

/-- The command of a request. -/
def cmdOf : Request → Cmd
  | .startPos => .startPos
  | .checkTrans .. => .checkTrans
  | .setPos _ => .setPos
  | .makeTrans false _ => .makeTrans
  | .makeTrans true _ => .makeTransRandom
  | .printInputs => .printInputs
  | .printOutputs => .printOutputs
  | .getNumbers => .getNumbers
  | .getInit => .getInit
  | .completeInit _ => .completeInit
  | .strategyTransition .. => .strategyTransition

section
variable {sp : SpecFile} {vs : IVars (T sp.In sp.Out)} (hv : IVarsOK sp vs) {sh : Shell (T sp.In sp.Out)} {S : Nat → T sp.In sp.Out}

include hv in
theorem exec_request (hw : sh.winning = pre {s | if sh.realizable = true then sp.game.SysWins s else ¬ sp.game.SysWins s})
    (hS : sh.strategies = (List.range (if sh.realizable = true then sp.goals else sp.hopes)).map S)
    (r : Request) (hsuit : r.Suits sp) (hav : Available sp (sh.realizable = true) r) {args : List Char} (hargs : r.Args args)
    {st : ShellState (T sp.In sp.Out)} (hgoal : st.goal < sp.goals) (rest : List Char) (rnd : List Bool) :
    ∃ st' rnd' e, execCmd (semMgr sp.In sp.Out) (gameCtx (padGame sp.game)) vs sh st (stdin (args ++ '\n' :: rest)) rnd (cmdOf r) =
      .next st' (stdin ('\n' :: rest)) rnd' e ∧ r.Answered e ∧ st'.goal < sp.goals := by
  have hnl : ∀ (t : List Char) (x : Char), ('\n' :: rest).head? = some x → t ≠ [] → isDigit x = false := by
    intro t x hx _
    cases hx
    rfl
  have hpl : vs.pre.length = sp.inputs.length + sp.outputs.length := by
    have := hv.pre_names.length_eq
    simpa using this
  have hpol : vs.post.length = sp.inputs.length + sp.outputs.length := by
    have := hv.post_names.length_eq
    simpa using this
  cases r with
  | startPos => cases hargs; exact ⟨_, _, _, rfl, trivial, hgoal⟩
  | printInputs => cases hargs; exact ⟨_, _, _, rfl, trivial, hgoal⟩
  | printOutputs => cases hargs; exact ⟨_, _, _, rfl, trivial, hgoal⟩
  | getNumbers => cases hargs; exact ⟨_, _, _, rfl, trivial, hgoal⟩
  | getInit => cases hargs; exact ⟨_, _, _, rfl, trivial, hgoal⟩
  | setPos values =>
    obtain ⟨h1, h2⟩ := readValues_typed (semMgr sp.In sp.Out) hargs vs.pre ('\n' :: rest) (semMgr sp.In sp.Out).tt (by rw [hpl, hsuit.1]) hsuit.2 (hnl _) (by simp)
    rw [cmdOf, execCmd, h2]
    exact ⟨_, _, _, rfl, h1, hgoal⟩
  | checkTrans src dst =>
    obtain ⟨g1, g2, g3⟩ := hsuit
    obtain ⟨t1, t2, rfl, ha, hb, hc⟩ := numbersText_append hargs
    rw [cmdOf, execCmd, execCheckTrans]
    obtain ⟨h1, h2⟩ := readValues_typed (semMgr sp.In sp.Out) ha vs.pre (t2 ++ '\n' :: rest) (semMgr sp.In sp.Out).tt (by rw [hpl, g1])
      (fun n hn => g3 n (by simp [hn])) (fun x hx hne => by
        cases t2 with
        | nil => exact hnl t1 x hx hne
        | cons y t2 => exact hc x hx hne) (by simp)
    rw [List.append_assoc]
    generalize readValues (semMgr sp.In sp.Out) vs.pre (stdin (t1 ++ (t2 ++ '\n' :: rest))) (semMgr sp.In sp.Out).tt = r1 at h1 h2 ⊢
    rw [h2]
    obtain ⟨h3, h4⟩ := readValues_typed (semMgr sp.In sp.Out) hb vs.post ('\n' :: rest) r1.2.1 (by rw [hpol, g2])
      (fun n hn => g3 n (by simp [hn])) (hnl _) (by simp)
    generalize readValues (semMgr sp.In sp.Out) vs.post (stdin (t2 ++ '\n' :: rest)) r1.2.1 = r2 at h3 h4 ⊢
    have hle : (gameCtx (padGame sp.game)).livenessGuarantees.length ≤ sh.strategies.length := by
      rw [hS, List.length_map, List.length_range]
      refine (goals_padGame sp).le.trans ?_
      split
      · exact le_rfl
      · rename_i hr
        exact hav.resolve_left hr
    rw [meetingStrategies, if_pos hle]
    dsimp only
    rw [h4]
    exact ⟨_, _, _, rfl, ⟨h1, h3⟩, hgoal⟩
  | makeTrans random typed =>
    have hcmd : execCmd (semMgr sp.In sp.Out) (gameCtx (padGame sp.game)) vs sh st (stdin (args ++ '\n' :: rest)) rnd (cmdOf (.makeTrans random typed)) =
        execMakeTrans (semMgr sp.In sp.Out) (gameCtx (padGame sp.game)) vs sh random st (stdin (args ++ '\n' :: rest)) rnd := by
      cases random <;> rfl
    have hreal : sh.realizable = true := hav
    obtain ⟨f, hf⟩ := readForced_typed (semMgr sp.In sp.Out) hargs vs.postIn ('\n' :: rest) (semMgr sp.In sp.Out).tt (by
      rw [show typed.length = _ from hsuit, hv.postIn]; simp)
    rw [hcmd, execMakeTrans, if_neg (by rw [hreal]; simp), hf]
    dsimp only
    split
    · exact ⟨_, _, _, rfl, ⟨rfl, rfl⟩, hgoal⟩
    · have hst : sh.strategies[st.goal]? = some (S st.goal) := by
        rw [hS, if_pos hreal, List.getElem?_map, List.getElem?_range hgoal]
        rfl
      rw [hst]
      dsimp only
      obtain ⟨next, hn1, hn2⟩ := goalJump_some (gameCtx (padGame sp.game)).livenessGuarantees
        (if random = true then determinizeRandomized (semMgr sp.In sp.Out) rnd (vs.post.map Prod.snd)
            ((semMgr sp.In sp.Out).and ((semMgr sp.In sp.Out).and ((semMgr sp.In sp.Out).and st.cur f) (gameCtx (padGame sp.game)).safetyEnv) (S st.goal))
          else determinize (semMgr sp.In sp.Out) (vs.post.map Prod.snd)
            ((semMgr sp.In sp.Out).and ((semMgr sp.In sp.Out).and ((semMgr sp.In sp.Out).and st.cur f) (gameCtx (padGame sp.game)).safetyEnv) (S st.goal)))
        (cur := st.goal) (by rw [show (gameCtx (padGame sp.game)).livenessGuarantees.length = sp.goals from goals_padGame sp]; exact hgoal)
      rw [hn2]
      exact ⟨_, _, _, rfl, ⟨rfl, rfl⟩, hn1.trans_eq (goals_padGame sp)⟩
  | completeInit typed =>
    obtain ⟨f, hf⟩ := readForced_typed (semMgr sp.In sp.Out) hargs (vs.preIn ++ vs.preOut) ('\n' :: rest) (semMgr sp.In sp.Out).tt (by
      rw [show typed.length = _ from hsuit, hv.length_pre])
    have h2 := (readForced_sem _ _ _ hf).2
    obtain ⟨a, h3, _⟩ := completeInit_answer hv hw (typed := typed) (forced := f)
      (fun s t => by rw [h2, hv.lits_pre]; exact ⟨fun h => h.2, fun h => ⟨trivial, h⟩⟩)
    rw [cmdOf, execCmd, hf]
    dsimp only
    rw [h3]
    exact ⟨_, _, _, rfl, rfl, hgoal⟩
  | strategyTransition src typed la lg =>
    obtain ⟨g1, g2, g3, g4, g5, g6⟩ := hsuit
    obtain ⟨t, t3, rfl, hc, hn⟩ := hargs
    obtain ⟨t1, t2, rfl, hc1, hc2⟩ := charsText_append hc
    obtain ⟨f, hf⟩ := readForced_typed (semMgr sp.In sp.Out) hc1 (vs.preIn ++ vs.preOut) (t2 ++ (t3 ++ '\n' :: rest)) (semMgr sp.In sp.Out).tt (by
      rw [g1, hv.length_pre])
    obtain ⟨f', hf'⟩ := readForced_typed (semMgr sp.In sp.Out) hc2 (vs.postIn ++ vs.postOut) (t3 ++ '\n' :: rest) (semMgr sp.In sp.Out).tt (by
      rw [g2, hv.length_post])
    have h2 := (readForced_sem _ _ _ hf).2
    have h4 := (readForced_sem _ _ _ hf').2
    rw [cmdOf, execCmd, execStrategyTransition, List.append_assoc, List.append_assoc, hf]
    dsimp only
    rw [hf']
    dsimp only
    have hnum : (readUnsignedInt (stdin (t3 ++ '\n' :: rest))).1 = some la ∧
        readUnsignedInt (readUnsignedInt (stdin (t3 ++ '\n' :: rest))).2 = (some lg, stdin ('\n' :: rest)) := by
      cases hn with
      | @cons ga da ta _ ha1 ha2 ha3 ha4 hn =>
        cases hn with
        | @cons gb db tb _ hb1 hb2 hb3 hb4 hn =>
          cases hn
          rw [List.append_assoc _ _ ('\n' :: rest), readUnsignedInt_typed ha1 ha2 ha3 (fun x hx => ha4 x (by
            rw [← hx]
            cases gb with
            | cons a gb => rfl
            | nil =>
              cases db with
              | cons a db => rfl
              | nil => exact absurd rfl hb2)) (by simp) g5]
          refine ⟨rfl, ?_⟩
          dsimp only
          rw [List.append_nil]
          exact readUnsignedInt_typed hb1 hb2 hb3 (fun x hx => by cases hx; rfl) (by simp) g6
    rw [hnum.1, hnum.2]
    dsimp only
    have h5 := strategyTransition_answer hv hS (src := src) (typed := typed) (start := f) (forced := f')
      (fun s t => by rw [h2, hv.lits_pre]; exact ⟨fun h => h.2, fun h => ⟨trivial, h⟩⟩)
      (fun s t => by rw [h4, hv.lits_post]; exact ⟨fun h => h.2, fun h => ⟨trivial, h⟩⟩) la lg
    generalize strategyTransitionAnswer (semMgr sp.In sp.Out) (gameCtx (padGame sp.game)) vs sh f f' la lg = a at h5
    cases a with
    | ub => rcases h5 with h | h <;> omega
    | thrown => exact h5.elim
    | answer a => exact ⟨_, _, _, rfl, ⟨rfl, rfl, rfl, rfl⟩, hgoal⟩

include hv in
/-- A session with requests that are well-formed and available: each of them is answered. -/
theorem session_requests {ending : List Char} (hend : Ending ending) (hw : sh.winning = pre {s | if sh.realizable = true then sp.game.SysWins s else ¬ sp.game.SysWins s})
    (hS : sh.strategies = (List.range (if sh.realizable = true then sp.goals else sp.hopes)).map S) :
    ∀ {reqs : List Request} {texts : List (List Char)}, List.Forall₂ Request.Typed reqs texts →
    (∀ r ∈ reqs, r.Suits sp ∧ Available sp (sh.realizable = true) r) →
    ∀ (n : Nat) (st : ShellState (T sp.In sp.Out)) (rnd : List Bool) (es : List Exchange) (i : Stdin), st.goal < sp.goals →
    i = stdin (texts.flatten ++ ending) ∨ i = stdin ('\n' :: (texts.flatten ++ ending)) → (texts.flatten ++ ending).length < n →
    ∃ es', sessionLoop (semMgr sp.In sp.Out) (gameCtx (padGame sp.game)) vs sh n st i rnd es = some (es ++ es', .quit) ∧
      List.Forall₂ Request.Answered reqs es' := by
  intro reqs texts h
  have hread : ∀ {l : List Char} {i : Stdin}, i = stdin l ∨ i = stdin ('\n' :: l) → readCommand i = readCommand (stdin l) := by
    rintro l i (rfl | rfl)
    · rfl
    · exact readCommand_skip l
  induction h with
  | nil =>
    intro _ n st rnd es i _ hi hn
    obtain ⟨n, rfl⟩ : ∃ m, n = m + 1 := ⟨n - 1, by omega⟩
    rw [sessionLoop, hread hi]
    refine ⟨[], ?_, .nil⟩
    rw [List.append_nil]
    rcases hend with rfl | ⟨line, rest, rfl, h1, h2⟩
    · rfl
    · have hne : line ≠ [] := by
        rintro rfl
        have hnil : (trim []).map Char.toUpper = [] := rfl
        rw [hnil] at h2
        rcases h2 with h2 | h2 <;> cases h2
      have hq : parseCommand line = .quit := by rw [parseCommand, if_pos h2]
      rw [List.flatten_nil, List.nil_append, readCommand_line h1 hne]
      dsimp only
      rw [hq]
      rfl
  | @cons r t reqs texts ht h ih =>
    intro hr n st rnd es i hg hi hn
    obtain ⟨n, rfl⟩ : ∃ m, n = m + 1 := ⟨n - 1, by omega⟩
    obtain ⟨line, args, rfl, h1, h2, h3⟩ := ht
    have hne : line ≠ [] := by
      rintro rfl
      have hnil : (trim []).map Char.toUpper = [] := rfl
      rw [hnil] at h2
      exact name_ne_nil r h2.symm
    have e : ((line ++ '\n' :: (args ++ ['\n'])) :: texts).flatten ++ ending = line ++ '\n' :: (args ++ '\n' :: (texts.flatten ++ ending)) := by simp
    rw [e] at hi hn
    have hcmd : parseCommand line = cmdOf r := by
      rw [parse_request r h2]
      cases r with
      | makeTrans random typed => cases random <;> rfl
      | _ => rfl
    obtain ⟨g1, g2⟩ := hr r (by simp)
    obtain ⟨st', rnd', x, hx, hy, hz⟩ := exec_request hv hw hS r g1 g2 h3 hg (texts.flatten ++ ending) rnd
    rw [sessionLoop, hread hi, readCommand_line h1 hne]
    dsimp only
    rw [hcmd, hx]
    dsimp only
    obtain ⟨es', k1, k2⟩ := ih (fun r hr' => hr r (by simp [hr'])) n st' rnd' (es ++ [x]) (stdin ('\n' :: (texts.flatten ++ ending))) hz (.inr rfl)
      (by simp only [List.length_append, List.length_cons] at hn ⊢; omega)
    exact ⟨x :: es', by rw [k1, List.append_assoc]; rfl, .cons hy k2⟩

end

end Slugs.Model
