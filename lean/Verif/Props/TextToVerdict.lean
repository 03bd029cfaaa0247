import Verif.Lemmas.Order

/-!
# C05, C19, C21–C24: from the text of an input file to the verdict

`Spec/SpecFile.lean` says what a text denotes.  `initContext` and `runSlugs` are the model of reading a file and of a complete run.
All theorems hold for every implementation `B` of the BDD contract, every order of evaluating operands (`order`) and every
bound `cap` on the size of vectors that can be allocated.
-/

namespace Slugs.Props

open Slugs.Spec Slugs.Model

variable {B : Type} [DecidableEq B] [L : BddLib B] {alg : Algorithm}

/-! ### Runs on accepted files -/

omit [DecidableEq B] L in
theorem outcomeOf_map {A : Type} {h : A → B} (r : Option (Verdict × A × Dump A)) :
    outcomeOf (r.map (Prod.map id (Prod.map h (Dump.map h)))) = outcomeOf r := by
  rcases r with _ | ⟨v, _⟩
  · rfl
  · cases v <;> rfl

theorem runSlugs_sem (alg : Algorithm) {cap : Nat} {order : List Char → Bool} {text : List Char} {tab : VarTable} {c : Ctx B}
    (h : initContext cap order text = .ok (tab, c)) (sp : SpecFile) (hd : Denotes text sp) (fuel : Nat) :
    runSlugs B alg false cap order fuel text =
      outcomeOf (checkRealizability alg (semMgr sp.In sp.Out) (gameCtx (padGame sp.game)) fuel) ∧
    runSlugs B alg true cap order fuel text =
      outcomeOf (checkRealizabilityRobotics alg (semMgr sp.In sp.Out) (gameCtx (padGame sp.game)) fuel) := by
  obtain ⟨ds, F, hn, rfl, hd', _, _, _, hc⟩ := initContext_spec h
  have := Denotes.det hd hd'
  subst this
  rw [runSlugs, runSlugs, h, hc]
  simp only [Bool.false_eq_true, if_false, if_true]
  have e1 := checkRealizability_hom ((tableLayout ds hn).hom B) alg (gameCtx (padGame (specOf ds F).game)) fuel
  have e2 := checkRealizabilityRobotics_hom ((tableLayout ds hn).hom B) alg (gameCtx (padGame (specOf ds F).game)) fuel
  exact ⟨(congrArg outcomeOf e1).trans (outcomeOf_map _), (congrArg outcomeOf e2).trans (outcomeOf_map _)⟩

/-! ### C24 -/

/-- **C24**, first part: an accepted file denotes exactly one specification.  Its names are unambiguous, its constraints only use
variables allowed in their sections, and all its formulas have a meaning. -/
theorem C24_accepted_denotes {cap : Nat} {order : List Char → Bool} {text : List Char} {tab : VarTable} {c : Ctx B}
    (h : initContext cap order text = .ok (tab, c)) :
    ∃ sp, Denotes text sp ∧ (∀ sp', Denotes text sp' → sp' = sp) ∧ sp.Unambiguous ∧ sp.WellScoped ∧ sp.Meaningful := by
  obtain ⟨ds, F, hn, _, hd, h1, h2, h3, _⟩ := initContext_spec h
  exact ⟨_, hd, fun sp' h' => Denotes.det h' hd, h1, h2, h3⟩

/-- **C24.** For every accepted file the verdict printed is realizability of the game that the text denotes, in the standard
semantics and in the robotics semantics.  (The loops need at most `|positions| + 1` rounds.) -/
theorem C24_text_to_verdict (alg : Algorithm) {cap : Nat} {order : List Char → Bool} {text : List Char} {tab : VarTable} {c : Ctx B}
    (h : initContext cap order text = .ok (tab, c)) (sp : SpecFile) (hd : Denotes text sp)
    (fuel : Nat) (hf : Nat.card (Pos sp.In sp.Out) + 1 ≤ fuel) :
    (sp.game.Realizable → runSlugs B alg false cap order fuel text = .result true) ∧
    (¬ sp.game.Realizable → runSlugs B alg false cap order fuel text = .result false) ∧
    (sp.game.RoboticsRealizable → runSlugs B alg true cap order fuel text = .result true) ∧
    (¬ sp.game.RoboticsRealizable → runSlugs B alg true cap order fuel text = .result false) := by
  obtain ⟨e1, e2⟩ := runSlugs_sem alg h sp hd fuel
  obtain ⟨v, W, dump, r, h1, h2⟩ :=
    C04_verdict_exact alg (padGame sp.game) (padGame_assumptions _) (padGame_guarantees _) fuel hf
  obtain ⟨v', W', dump', r', h1', h2'⟩ :=
    C06_robotics_verdict_exact alg (padGame sp.game) (padGame_assumptions _) (padGame_guarantees _) fuel hf
  rw [padGame_realizable] at h1 h2
  rw [padGame_robotics] at h1' h2'
  rw [e1, e2, r, r']
  refine ⟨fun hr => ?_, fun hr => ?_, fun hr => ?_, fun hr => ?_⟩
  · rw [h1.mpr hr]; rfl
  · rw [h2.mpr hr]; rfl
  · rw [h1'.mpr hr]; rfl
  · rw [h2'.mpr hr]; rfl

/-- **C24**, converse direction of acceptance: every proper file (see `ProperFile`) is accepted.  `cap` bounds the length of
lines by the amount of memory that can be allocated for a buffer. -/
theorem C24_proper_accepted (cap : Nat) (order : List Char → Bool) (text : List Char) (h : ProperFile cap text) :
    ∃ r, initContext (B := B) cap order text = .ok r :=
  initContext_complete order h

/-- Whatever is printed is right, for any number of rounds. -/
theorem C24_printed_is_right {cap : Nat} {order : List Char → Bool} {text : List Char} {fuel : Nat} {b : Bool}
    {robotics : Bool} (h : runSlugs B alg robotics cap order fuel text = .result b) :
    ∃ sp, Denotes text sp ∧
      (b = true ↔ if robotics then sp.game.RoboticsRealizable else sp.game.Realizable) := by
  cases hi : initContext (B := B) cap order text with
  | err e => rw [runSlugs, hi] at h; cases h
  | ub => rw [runSlugs, hi] at h; cases h
  | stuck => rw [runSlugs, hi] at h; cases h
  | ok r =>
    obtain ⟨tab, c⟩ := r
    obtain ⟨sp, hd, _⟩ := C24_accepted_denotes hi
    refine ⟨sp, hd, ?_⟩
    -- more rounds give the same result
    obtain ⟨h1, h2, h3, h4⟩ := C24_text_to_verdict alg hi sp hd (fuel + (Nat.card (Pos sp.In sp.Out) + 1)) (Nat.le_add_left _ _)
    have more : runSlugs B alg robotics cap order (fuel + (Nat.card (Pos sp.In sp.Out) + 1)) text = .result b := by
      rw [← h, runSlugs, runSlugs, hi]
      rw [runSlugs, hi] at h
      cases robotics
      · simp only [Bool.false_eq_true, if_false] at h ⊢
        rw [checkRealizability] at h ⊢
        cases hc : solve alg (bddMgr B tab.types) c fuel with
        | none => rw [hc] at h; cases h
        | some r => rw [checkRealizability, hc, solve_more _ _ _ (Nat.le_add_right _ _) hc]
      · simp only [if_true] at h ⊢
        rw [checkRealizabilityRobotics] at h ⊢
        cases hc : solve alg (bddMgr B tab.types) c fuel with
        | none => rw [hc] at h; cases h
        | some r => rw [checkRealizabilityRobotics, hc, solve_more _ _ _ (Nat.le_add_right _ _) hc]
    cases robotics
    · simp only [Bool.false_eq_true, if_false]
      by_cases hr : sp.game.Realizable
      · rw [h1 hr] at more; cases more; simp [hr]
      · rw [h2 hr] at more; cases more; simp [hr]
    · simp only [if_true]
      by_cases hr : sp.game.RoboticsRealizable
      · rw [h3 hr] at more; cases more; simp [hr]
      · rw [h4 hr] at more; cases more; simp [hr]

/-! ### C05 -/

/-- **C05.** The internal error "could not establish realizability" never happens, for any text. -/
theorem C05_no_internal_error (alg : Algorithm) (robotics : Bool) (cap : Nat) (order : List Char → Bool) (fuel : Nat) (text : List Char) :
    runSlugs B alg robotics cap order fuel text ≠ .internalError := by
  intro h
  cases hi : initContext (B := B) cap order text with
  | err e => rw [runSlugs, hi] at h; cases h
  | ub => rw [runSlugs, hi] at h; cases h
  | stuck => rw [runSlugs, hi] at h; cases h
  | ok r =>
    obtain ⟨tab, c⟩ := r
    obtain ⟨sp, hd, _⟩ := C24_accepted_denotes hi
    obtain ⟨h1, h2, h3, h4⟩ := C24_text_to_verdict alg hi sp hd (fuel + (Nat.card (Pos sp.In sp.Out) + 1)) (Nat.le_add_left _ _)
    have more : runSlugs B alg robotics cap order (fuel + (Nat.card (Pos sp.In sp.Out) + 1)) text = .internalError := by
      rw [← h, runSlugs, runSlugs, hi]
      rw [runSlugs, hi] at h
      cases robotics
      · simp only [Bool.false_eq_true, if_false] at h ⊢
        rw [checkRealizability] at h ⊢
        cases hc : solve alg (bddMgr B tab.types) c fuel with
        | none => rw [hc] at h; cases h
        | some r => rw [checkRealizability, hc, solve_more _ _ _ (Nat.le_add_right _ _) hc]
      · simp only [if_true] at h ⊢
        rw [checkRealizabilityRobotics] at h ⊢
        cases hc : solve alg (bddMgr B tab.types) c fuel with
        | none => rw [hc] at h; cases h
        | some r => rw [checkRealizabilityRobotics, hc, solve_more _ _ _ (Nat.le_add_right _ _) hc]
    cases robotics
    · by_cases hr : sp.game.Realizable
      · rw [h1 hr] at more; cases more
      · rw [h2 hr] at more; cases more
    · by_cases hr : sp.game.RoboticsRealizable
      · rw [h3 hr] at more; cases more
      · rw [h4 hr] at more; cases more

/-! ### C19 -/

theorem types_slotCode {ds : Decls} (hn : (tableOf ds).names.Nodup) (z : DSlot ds) :
    (tableOf ds).types[slotCode z]? = some (slotEntry z).2 := by
  simp only [tableOf, List.getElem?_map, (getElem_slotCode hn).mpr rfl, Option.map_some]

/-- **C19.** In an accepted file the initialisation assumptions depend on current inputs only, the initialisation guarantees on
current variables only, and the safety assumptions not on next outputs: assignments that agree on the variables of
the allowed types are not distinguished. -/
theorem C19_dependence {cap : Nat} {order : List Char → Bool} {text : List Char} {tab : VarTable} {c : Ctx B}
    (h : initContext cap order text = .ok (tab, c)) (a a' : Asg) :
    ((∀ k, tab.types[k]? = some .preInput → a k = a' k) → L.eval c.initEnv a = L.eval c.initEnv a') ∧
    ((∀ k, tab.types[k]? = some .preInput ∨ tab.types[k]? = some .preOutput → a k = a' k) →
      L.eval c.initSys a = L.eval c.initSys a') ∧
    ((∀ k, tab.types[k]? = some .preInput ∨ tab.types[k]? = some .preOutput ∨ tab.types[k]? = some .postInput →
      a k = a' k) → L.eval c.safetyEnv a = L.eval c.safetyEnv a') := by
  obtain ⟨ds, F, hn, rfl, _, _, _, _, rfl⟩ := initContext_spec h
  have hb : ∀ {x y : Bool}, (x = true ↔ y = true) → x = y := by intro x y; cases x <;> cases y <;> simp
  let lay := tableLayout ds hn
  have key : ∀ f : T _ _, f (curPos (lay.get a)) (nxtPos (lay.get a)) = f (curPos (lay.get a')) (nxtPos (lay.get a')) →
      (L.eval (lay.enc B f) a = true ↔ L.eval (lay.enc B f) a' = true) := fun f hf => by
    rw [lay.eval_enc, lay.eval_enc, hf]
  refine ⟨fun hk => hb ?_, fun hk => hb ?_, fun hk => hb ?_⟩
  · have e : (curPos ((tableLayout ds hn).get a)).1 = (curPos ((tableLayout ds hn).get a')).1 := by
      funext x; exact hk _ (types_slotCode hn (.ci x))
    exact key _ (congrArg (specOf ds F).game.initEnv e)
  · have e : curPos ((tableLayout ds hn).get a) = curPos ((tableLayout ds hn).get a') := by
      refine Prod.ext ?_ ?_
      · funext x; exact hk _ (.inl (types_slotCode hn (.ci x)))
      · funext x; exact hk _ (.inr (types_slotCode hn (.co x)))
    exact key _ (congrArg (specOf ds F).game.initSys e)
  · have e : curPos ((tableLayout ds hn).get a) = curPos ((tableLayout ds hn).get a') := by
      refine Prod.ext ?_ ?_
      · funext x; exact hk _ (.inl (types_slotCode hn (.ci x)))
      · funext x; exact hk _ (.inr (.inl (types_slotCode hn (.co x))))
    have e' : (nxtPos ((tableLayout ds hn).get a)).1 = (nxtPos ((tableLayout ds hn).get a')).1 := by
      funext x; exact hk _ (.inr (.inr (types_slotCode hn (.ni x))))
    refine key _ ?_
    change (specOf ds F).game.safetyEnv (curPos (lay.get a)) (nxtPos (lay.get a)).1 = _
    exact congr (congrArg (specOf ds F).game.safetyEnv e) e'

/-- **C19**, in terms of the text: the formulas themselves only mention allowed variables. -/
theorem C19_well_scoped {cap : Nat} {order : List Char → Bool} {text : List Char} {tab : VarTable} {c : Ctx B}
    (h : initContext cap order text = .ok (tab, c)) (sp : SpecFile) (hd : Denotes text sp) : sp.WellScoped := by
  obtain ⟨sp', _, hu, _, hw, _⟩ := C24_accepted_denotes h
  rw [hu sp hd]; exact hw

/-! ### C21 -/

/-- **C21.** In an accepted file, exchanging current and next variables exchanges exactly `x` and `x'` for
every declared `x`: the exchange permutes the variable numbers by `π`, which maps the number of `x` to the number of `x'` and back
and does not change any other number. -/
theorem C21_swap_exchanges {cap : Nat} {order : List Char → Bool} {text : List Char} {tab : VarTable} {c : Ctx B}
    (h : initContext cap order text = .ok (tab, c)) (sp : SpecFile) (hd : Denotes text sp) :
    ∃ π : Nat → Nat,
      (∀ (b : B) (a : Asg), L.eval ((bddMgr B tab.types).swap b) a = L.eval b (fun k => a (π k))) ∧
      (∀ x ∈ sp.inputs ++ sp.outputs, π (tab.names.idxOf x) = tab.names.idxOf (prime x) ∧
        π (tab.names.idxOf (prime x)) = tab.names.idxOf x) ∧
      (∀ k, tab.names.length ≤ k → π k = k) ∧
      (∀ k < tab.names.length, ∃ x ∈ sp.inputs ++ sp.outputs, k = tab.names.idxOf x ∨ k = tab.names.idxOf (prime x)) := by
  obtain ⟨ds, F, hn, rfl, hd', _, _, _, _⟩ := initContext_spec h
  have := Denotes.det hd hd'
  subst this
  let lay := tableLayout ds hn
  have hlen : (tableOf ds).names.length = (tableOf ds).types.length := by simp [tableOf]
  have hbelow : ∀ tys k, k ∈ varsOfTypes (tableOf ds).types tys → k < (tableOf ds).types.length := by
    intro tys k hk
    simp only [varsOfTypes, List.mem_flatMap, varsOfType, List.mem_filter, List.mem_range] at hk
    obtain ⟨_, _, hk, _⟩ := hk
    exact hk
  refine ⟨swapPerm (varsOfTypes (tableOf ds).types [.preInput, .preOutput])
    (varsOfTypes (tableOf ds).types [.postInput, .postOutput]) id, fun b a => L.eval_swap _ _ _ _, ?_, ?_, ?_⟩
  · intro x hx
    rcases List.mem_append.mp hx with hx | hx
    · exact ⟨lay.swap_ci ⟨x, hx⟩, lay.swap_ni ⟨x, hx⟩⟩
    · exact ⟨lay.swap_co ⟨x, hx⟩, lay.swap_no ⟨x, hx⟩⟩
  · intro k hk
    rw [hlen] at hk
    exact swapPerm_notMem _ _ _ k (fun hm => by have := hbelow _ k hm; omega) (fun hm => by have := hbelow _ k hm; omega)
  · intro k hk
    have hk' : k < (entriesOf ds).length := by simpa [tableOf] using hk
    obtain ⟨z, hz⟩ := mem_entriesOf.mp (List.getElem_mem hk')
    have hz' : slotCode z = k := (getElem_slotCode hn).mp (by rw [List.getElem?_eq_getElem hk', hz])
    rcases z with ⟨x, hx⟩ | ⟨x, hx⟩ | ⟨x, hx⟩ | ⟨x, hx⟩
    · exact ⟨x, List.mem_append.mpr (.inl hx), .inl hz'.symm⟩
    · exact ⟨x, List.mem_append.mpr (.inr hx), .inl hz'.symm⟩
    · exact ⟨x, List.mem_append.mpr (.inl hx), .inr hz'.symm⟩
    · exact ⟨x, List.mem_append.mpr (.inr hx), .inr hz'.symm⟩

/-- **C21.** The groups of current/next input/output variables that quantifiers and exchanges work with consist of exactly the
numbers of the respective names, and every variable belongs to exactly one of them. -/
theorem C21_groups_partition {cap : Nat} {order : List Char → Bool} {text : List Char} {tab : VarTable} {c : Ctx B}
    (h : initContext cap order text = .ok (tab, c)) (sp : SpecFile) (hd : Denotes text sp) :
    (∀ k, k ∈ varsOfType tab.types .preInput ↔ ∃ x ∈ sp.inputs, k = tab.names.idxOf x) ∧
    (∀ k, k ∈ varsOfType tab.types .preOutput ↔ ∃ x ∈ sp.outputs, k = tab.names.idxOf x) ∧
    (∀ k, k ∈ varsOfType tab.types .postInput ↔ ∃ x ∈ sp.inputs, k = tab.names.idxOf (prime x)) ∧
    (∀ k, k ∈ varsOfType tab.types .postOutput ↔ ∃ x ∈ sp.outputs, k = tab.names.idxOf (prime x)) ∧
    (∀ k < tab.names.length, ∃ ty ∈ [VarType.preInput, .preOutput, .postInput, .postOutput], k ∈ varsOfType tab.types ty ∧
      ∀ ty' ∈ [VarType.preInput, .preOutput, .postInput, .postOutput], k ∈ varsOfType tab.types ty' → ty' = ty) := by
  obtain ⟨ds, F, hn, rfl, hd', _, _, _, _⟩ := initContext_spec h
  have := Denotes.det hd hd'
  subst this
  let lay := tableLayout ds hn
  have conv : ∀ {S : List Name} {f : {x // x ∈ S} → Nat} {k : Nat} {f' : Name → Nat}, (∀ x, f x = f' x.1) →
      ((∃ x, f x = k) ↔ ∃ x ∈ S, k = f' x) := by
    intro S f k f' hf
    constructor
    · rintro ⟨x, rfl⟩; exact ⟨x.1, x.2, hf x⟩
    · rintro ⟨x, hx, rfl⟩; exact ⟨⟨x, hx⟩, hf _⟩
  refine ⟨fun k => (lay.preInput k).trans (conv fun x => rfl), fun k => (lay.preOutput k).trans (conv fun x => rfl),
    fun k => (lay.postInput k).trans (conv (f' := fun x => (tableOf ds).names.idxOf (prime x)) fun x => rfl),
    fun k => (lay.postOutput k).trans (conv (f' := fun x => (tableOf ds).names.idxOf (prime x)) fun x => rfl), ?_⟩
  intro k hk
  have hk' : k < (entriesOf ds).length := by simpa [tableOf] using hk
  obtain ⟨z, hz⟩ := mem_entriesOf.mp (List.getElem_mem hk')
  have hz' : slotCode z = k := (getElem_slotCode hn).mp (by rw [List.getElem?_eq_getElem hk', hz])
  subst hz'
  refine ⟨(slotEntry z).2, ?_, (mem_varsOfType hn).mpr ⟨z, rfl, ?_⟩, ?_⟩
  · rcases z with z | z | z | z <;> simp [slotEntry]
  · rcases z with z | z | z | z <;> simp only [slotEntry] <;> decide
  · intro ty' hty' hm
    obtain ⟨z', hz', ht⟩ := (mem_varsOfType hn).mp hm
    rw [slotCode_inj hn hz'] at ht
    rcases z with z | z | z | z <;> simp only [slotEntry] at ht ⊢ <;> clear hm hz' <;> revert ty' <;> decide

/-! ### C22 -/

/-- **C22.** A file in which two of the declared names (including the primed names) coincide is never accepted. -/
theorem C22_ambiguous_rejected (cap : Nat) (order : List Char → Bool) (text : List Char) (sp : SpecFile)
    (hd : Denotes text sp) (ha : ¬ sp.Unambiguous) : ∀ r, initContext (B := B) cap order text ≠ .ok r := by
  rintro ⟨tab, c⟩ h
  obtain ⟨sp', _, hu, hn, _⟩ := C24_accepted_denotes h
  rw [hu sp hd] at ha
  exact ha hn

/-- **C22.** In an accepted file every name denotes exactly one variable, and every variable has one of the declared names. -/
theorem C22_names_unique {cap : Nat} {order : List Char → Bool} {text : List Char} {tab : VarTable} {c : Ctx B}
    (h : initContext cap order text = .ok (tab, c)) (sp : SpecFile) (hd : Denotes text sp) :
    (∀ x ∈ sp.names, ∃ k : Nat, tab.names[k]? = some x ∧ ∀ k' : Nat, tab.names[k']? = some x → k' = k) ∧
    (∀ (k : Nat) x, tab.names[k]? = some x → x ∈ sp.names) ∧ tab.names.length = sp.names.length := by
  obtain ⟨ds, F, hn, rfl, hd', _, _, _, _⟩ := initContext_spec h
  have := Denotes.det hd hd'
  subst this
  have hp := names_perm ds F
  refine ⟨fun x hx => ?_, fun k x hk => hp.mem_iff.mpr (List.mem_of_getElem? hk), hp.length_eq.symm⟩
  have hm := hp.mem_iff.mp hx
  have hlt := List.idxOf_lt_length_of_mem hm
  refine ⟨(tableOf ds).names.idxOf x, by rw [List.getElem?_eq_getElem hlt, List.getElem_idxOf hlt], fun k' hk' => ?_⟩
  obtain ⟨hlt', rfl⟩ := List.getElem?_eq_some_iff.mp hk'
  exact (hn.idxOf_getElem k' hlt').symm

/-- **C22**, the error message: if only the names are wrong, the error is that a name has been used twice. -/
theorem C22_duplicate_error (cap : Nat) (order : List Char → Bool) (text : List Char) (st : InitState B)
    (h : initLines cap order initStart (splitLines text) = .ok st) (hn : ¬ st.table.names.Nodup) :
    initContext (B := B) cap order text = .err .duplicateNames := by
  rw [initContext, h]
  simp only [if_neg hn]

/-! ### C23 -/

/-- **C23.** Inserting, anywhere in a file, a blank line, a comment, or the header of the section that is open at this
point (which splits the section into two) does not change anything about reading the file. -/
theorem C23_insert_line (cap : Nat) (order : List Char → Bool) (text text' : List Char) (ls ls' : List (List Char))
    (l : List Char) (ht : splitLines text = ls ++ ls') (ht' : splitLines text' = ls ++ l :: ls')
    (hl : trim l = [] ∨ (trim l).head? = some '#' ∨ ∃ s, openAfter none ls = some s ∧ trim l = s.header) :
    initContext (B := B) cap order text = initContext cap order text' ∧
    ∀ robotics fuel, runSlugs B alg robotics cap order fuel text = runSlugs B alg robotics cap order fuel text' := by
  have e : initContext (B := B) cap order text = initContext cap order text' := by
    rw [initContext, initContext, ht, ht', initLines_insert (B := B) initStart ls ls' l hl]
  exact ⟨e, fun robotics fuel => by rw [runSlugs, runSlugs, e]⟩

/-- Files that differ in the order of consecutive constraints of a section. -/
theorem content_perm {text text' : List Char} {ls m m' ls' : List (List Char)} {s : Section}
    (ht : splitLines text = ls ++ m ++ ls') (ht' : splitLines text' = ls ++ m' ++ ls') (hp : m.Perm m')
    (hs : openAfter none ls = some s)
    (hm : ∀ l ∈ m, trim l ≠ [] ∧ (trim l).head? ≠ some '#' ∧ (trim l).head? ≠ some '[')
    {items : List (Section × List Char)} (hc : Content none (splitLines text) items) :
    ∃ i i', items = i ++ (m.map trim).map (fun l => (s, l)) ++ i' ∧
      Content none (splitLines text') (i ++ (m'.map trim).map (fun l => (s, l)) ++ i') := by
  rw [ht, List.append_assoc] at hc
  obtain ⟨i, i1, rfl, h1, h2⟩ := Content.split hc
  rw [hs] at h2
  obtain ⟨i2, i', rfl, h3, h4⟩ := Content.split h2
  have hb := Content.block (s := s) hm
  have := Content.det h3 hb.1
  subst this
  rw [hb.2] at h4
  have hb' := Content.block (s := s) (m := m') fun l hl => hm l (hp.mem_iff.mpr hl)
  refine ⟨i, i', by simp [Function.comp_def], ?_⟩
  rw [ht', List.append_assoc, List.append_assoc]
  refine Content.append h1 ?_
  rw [hs]
  rw [List.map_map]
  exact Content.append hb'.1 (by rw [hb'.2]; exact h4)

theorem initContext_perm {cap : Nat} {order : List Char → Bool} {text text' : List Char} {ls m m' ls' : List (List Char)}
    {s : Section} (ht : splitLines text = ls ++ m ++ ls') (ht' : splitLines text' = ls ++ m' ++ ls') (hp : m.Perm m')
    (hs : openAfter none ls = some s) (h1 : s ≠ .input) (h2 : s ≠ .output)
    (hm : ∀ l ∈ m, trim l ≠ [] ∧ (trim l).head? ≠ some '#' ∧ (trim l).head? ≠ some '[')
    {r : VarTable × Ctx B} (h : initContext cap order text = .ok r) :
    (∃ r', initContext (B := B) cap order text' = .ok r') ∧
    (s ≠ .envLiveness → s ≠ .sysLiveness → initContext cap order text' = .ok r) ∧
    ∀ sp sp', Denotes text sp → Denotes text' sp' → SameUpToOrder sp sp' := by
  obtain ⟨items, ds, F, c0, hc, hinv, _⟩ := initContext_ok (tab := r.1) (c := r.2) h
  obtain ⟨i, i', rfl, hc'⟩ := content_perm ht ht' hp hs hm hc
  have hpt : (m.map trim).Perm (m'.map trim) := hp.map _
  rw [initContext_of_items hc] at h
  rw [initContext_of_items hc']
  refine ⟨?_, ?_, ?_⟩
  · simp only [List.append_assoc, initItems_append] at h ⊢
    generalize initItems (B := B) cap order (⟨[], []⟩, (initStart (B := B)).ctx) i = ri at h ⊢
    rcases ri with st | e | _ | _
    · obtain ⟨tab, c⟩ := st
      simp only at h ⊢
      cases hb : initItems (B := B) cap order (tab, c) ((m.map trim).map fun l => (s, l)) with
      | ok st1 =>
        rw [hb] at h
        obtain ⟨fs, hf, rfl⟩ := (initItems_block h1 h2 tab _ c st1).mp hb
        obtain ⟨fs', _, hf'⟩ := forall₂_perm hpt hf
        rw [(initItems_block h1 h2 tab _ c _).mpr ⟨fs', hf', rfl⟩]
        simp only at h ⊢
        cases hr : initItems (B := B) cap order (tab, fs.foldl (fun c f => addConstraint c f s) c) i' with
        | ok r2 =>
          obtain ⟨c'', hc''⟩ := initItems_ctx i' tab _ (fs'.foldl (fun c f => addConstraint c f s) c) r2 hr
          rw [hc'']
          rw [hr] at h
          by_cases hnd : r2.1.names.Nodup
          · simp only [if_pos hnd]; exact ⟨_, rfl⟩
          · simp only [if_neg hnd] at h; cases h
        | err e => rw [hr] at h; cases h
        | ub => rw [hr] at h; cases h
        | stuck => rw [hr] at h; cases h
      | err e => rw [hb] at h; cases h
      | ub => rw [hb] at h; cases h
      | stuck => rw [hb] at h; cases h
    · cases h
    · cases h
    · cases h
  · intro h3 h4
    rw [← h]
    simp only [List.append_assoc, initItems_append] at h ⊢
    generalize initItems (B := B) cap order (⟨[], []⟩, (initStart (B := B)).ctx) i = ri at h ⊢
    rcases ri with st | e | _ | _
    · simp only at h ⊢
      cases hb : initItems (B := B) cap order st ((m.map trim).map fun l => (s, l)) with
      | ok st1 => rw [initItems_perm h1 h2 ⟨h3, h4⟩ hpt st hb]
      | err e => rw [hb] at h; cases h
      | ub => rw [hb] at h; cases h
      | stuck => rw [hb] at h; cases h
    · rfl
    · rfl
    · rfl
  · intro sp sp' hd hd'
    have hblock : ∀ (s' : Section) (k : List (List Char)), itemsOf s' (k.map fun l => (s, l)) = if s' = s then k else [] := by
      intro s' k
      by_cases hss : s' = s
      · subst hss
        rw [itemsOf, List.filter_eq_self.mpr]
        · simp
        · simp
      · rw [if_neg hss, itemsOf, List.filter_eq_nil_iff.mpr]
        · rfl
        · simp [Ne.symm hss]
    refine Denotes.sameUpToOrder hc hc' ?_ ?_ ?_ hd hd'
    · simp only [itemsOf_append, hblock, Ne.symm h1, if_false]
    · simp only [itemsOf_append, hblock, Ne.symm h2, if_false]
    · intro s'
      simp only [itemsOf_append, hblock]
      split
      · exact (List.Perm.append_left _ hpt).append_right _
      · exact .refl _

/-- **C23.** Permuting consecutive lines of an initialisation or safety section does not change whether a file is accepted,
nor the constraints that are read. -/
theorem C23_permute_same_context (cap : Nat) (order : List Char → Bool) (text text' : List Char)
    (ls m m' ls' : List (List Char)) (s : Section) (ht : splitLines text = ls ++ m ++ ls')
    (ht' : splitLines text' = ls ++ m' ++ ls') (hp : m.Perm m') (hs : openAfter none ls = some s)
    (hsec : s ∈ [Section.envInit, .sysInit, .envTrans, .sysTrans])
    (hm : ∀ l ∈ m, trim l ≠ [] ∧ (trim l).head? ≠ some '#' ∧ (trim l).head? ≠ some '[') (r : VarTable × Ctx B) :
    initContext cap order text = .ok r ↔ initContext cap order text' = .ok r := by
  have hsec' : s ≠ .input ∧ s ≠ .output ∧ s ≠ .envLiveness ∧ s ≠ .sysLiveness := by
    revert hsec; cases s <;> decide
  obtain ⟨h1, h2, h3, h4⟩ := hsec'
  constructor
  · intro h; exact (initContext_perm ht ht' hp hs h1 h2 hm h).2.1 h3 h4
  · intro h
    exact (initContext_perm ht' ht hp.symm hs h1 h2 (fun l hl => hm l (hp.mem_iff.mpr hl)) h).2.1 h3 h4

/-- **C23.** Permuting consecutive lines of any constraint section (liveness sections included) does not change whether a
file is accepted, nor the verdict. -/
theorem C23_permute_same_verdict (cap : Nat) (order : List Char → Bool) (text text' : List Char)
    (ls m m' ls' : List (List Char)) (s : Section) (ht : splitLines text = ls ++ m ++ ls')
    (ht' : splitLines text' = ls ++ m' ++ ls') (hp : m.Perm m') (hs : openAfter none ls = some s)
    (hsec : s ≠ .input ∧ s ≠ .output)
    (hm : ∀ l ∈ m, trim l ≠ [] ∧ (trim l).head? ≠ some '#' ∧ (trim l).head? ≠ some '[') :
    ((∃ r, initContext (B := B) cap order text = .ok r) ↔ ∃ r, initContext (B := B) cap order text' = .ok r) ∧
    ∀ robotics, ∃ n, ∀ fuel, n ≤ fuel → ∀ b,
      runSlugs B alg robotics cap order fuel text = .result b ↔ runSlugs B alg robotics cap order fuel text' = .result b := by
  have hm' : ∀ l ∈ m', trim l ≠ [] ∧ (trim l).head? ≠ some '#' ∧ (trim l).head? ≠ some '[' :=
    fun l hl => hm l (hp.mem_iff.mpr hl)
  have acc : (∃ r, initContext (B := B) cap order text = .ok r) ↔ ∃ r, initContext (B := B) cap order text' = .ok r :=
    ⟨fun ⟨r, h⟩ => (initContext_perm ht ht' hp hs hsec.1 hsec.2 hm h).1,
      fun ⟨r, h⟩ => (initContext_perm ht' ht hp.symm hs hsec.1 hsec.2 hm' h).1⟩
  refine ⟨acc, fun robotics => ?_⟩
  by_cases ha : ∃ r, initContext (B := B) cap order text = .ok r
  · obtain ⟨⟨tab, c⟩, h⟩ := ha
    obtain ⟨⟨tab', c'⟩, h'⟩ := acc.mp ⟨_, h⟩
    obtain ⟨sp, hd, _⟩ := C24_accepted_denotes h
    obtain ⟨sp', hd', _⟩ := C24_accepted_denotes h'
    have hv := ((initContext_perm ht ht' hp hs hsec.1 hsec.2 hm h).2.2 sp sp' hd hd').verdict
    refine ⟨Nat.card (Pos sp.In sp.Out) + 1, fun fuel hf b => ?_⟩
    obtain ⟨a1, a2, a3, a4⟩ := C24_text_to_verdict alg h sp hd fuel hf
    obtain ⟨b1, b2, b3, b4⟩ := C24_text_to_verdict alg h' sp' hd' fuel (hv.2.2 ▸ hf)
    cases robotics
    · by_cases hr : sp.game.Realizable
      · rw [a1 hr, b1 (hv.1.mp hr)]
      · rw [a2 hr, b2 (fun h => hr (hv.1.mpr h))]
    · by_cases hr : sp.game.RoboticsRealizable
      · rw [a3 hr, b3 (hv.2.1.mp hr)]
      · rw [a4 hr, b4 (fun h => hr (hv.2.1.mpr h))]
  · have ha' := fun h => ha (acc.mpr h)
    have none : ∀ {t : List Char} (_ : ¬ ∃ r, initContext (B := B) cap order t = .ok r) fuel b,
        runSlugs B alg robotics cap order fuel t ≠ .result b := by
      intro t ht fuel b h
      rw [runSlugs] at h
      cases hi : initContext (B := B) cap order t with
      | ok r => exact ht ⟨r, hi⟩
      | err e => rw [hi] at h; cases h
      | ub => rw [hi] at h; cases h
      | stuck => rw [hi] at h; cases h
    exact ⟨0, fun fuel _ b => ⟨fun h => absurd h (none ha fuel b), fun h => absurd h (none ha' fuel b)⟩⟩

/-! ### Concrete files that meet the hypotheses -/

/-- A small file: a request and a grant, with a comment, a blank line and a memory buffer. -/
def demoText : List Char :=
  txt!"[INPUT]\nr\n[OUTPUT]\n g\t\n# no grant without request\n\n[SYS_TRANS]\n| ! g' r'\n$ 2 & g g' ! ? 0\n[SYS_LIVENESS]\ng"

def demoItems : List (Section × List Char) :=
  [(.input, txt!"r"), (.output, txt!"g"), (.sysTrans, txt!"| ! g' r'"), (.sysTrans, txt!"$ 2 & g g' ! ? 0"),
    (.sysLiveness, txt!"g")]

theorem demoText_content : Content none (splitLines demoText) demoItems := by
  have : splitLines demoText = [txt!"[INPUT]", txt!"r", txt!"[OUTPUT]", txt!" g\t", txt!"# no grant without request", [],
    txt!"[SYS_TRANS]", txt!"| ! g' r'", txt!"$ 2 & g g' ! ? 0", txt!"[SYS_LIVENESS]", txt!"g"] := by decide
  rw [this]
  refine .header .input (by decide) (.item (by decide) (by decide) (by decide) ?_)
  refine .header .output (by decide) (.item (by decide) (by decide) (by decide) ?_)
  refine .skip (by decide) (.skip (by decide) ?_)
  refine .header .sysTrans (by decide) (.item (by decide) (by decide) (by decide)
    (.item (by decide) (by decide) (by decide) ?_))
  exact .header .sysLiveness (by decide) (.item (by decide) (by decide) (by decide) .nil)

/-- The hypothesis of `C24_proper_accepted` holds for the file. -/
theorem demoText_proper : ProperFile 1000 demoText := by
  refine ⟨demoItems, demoText_content, by decide, ?_⟩
  have reads : ∀ φ : Fml, φ.Wf 0 → (∀ x ∈ φ.vars, (x ≠ [] ∧ ∀ c ∈ x, isSpace c = false) ∧ x ∉ reserved) →
      φ.text.length < 2 ^ 32 → ReadsLine φ.text φ := fun φ h1 h2 h3 =>
    ⟨[], (Spells.joinWords _ (Fml.words_good φ fun x hx => (h2 x hx).1)).reads φ 0 h3 (by decide) h1
      (fun x hx => (h2 x hx).2), by simp⟩
  intro before s line after h h1 h2
  rcases before with _ | ⟨p1, _ | ⟨p2, _ | ⟨p3, _ | ⟨p4, _ | ⟨p5, before⟩⟩⟩⟩⟩ <;>
    simp only [demoItems, List.cons_append, List.nil_append, List.cons.injEq, Prod.mk.injEq] at h
  · exact absurd h.1.1.symm h1
  · exact absurd h.2.1.1.symm h2
  · obtain ⟨rfl, rfl, ⟨rfl, rfl⟩, _⟩ := h
    exact ⟨by decide, .bin .or (.not (.var txt!"g'")) (.var txt!"r'"),
      reads (.bin .or (.not (.var txt!"g'")) (.var txt!"r'")) (by simp [Fml.Wf]) (by decide) (by decide),
      by simp [Fml.Wf], by decide⟩
  · obtain ⟨rfl, rfl, rfl, ⟨rfl, rfl⟩, _⟩ := h
    exact ⟨by decide, .buffer [.bin .and (.var txt!"g") (.var txt!"g'"), .not (.recall 0)],
      reads (.buffer [.bin .and (.var txt!"g") (.var txt!"g'"), .not (.recall 0)])
        (by simp [Fml.Wf, Fml.WfBuffer]) (by decide) (by decide),
      by simp [Fml.Wf, Fml.WfBuffer], by decide⟩
  · obtain ⟨rfl, rfl, rfl, rfl, ⟨rfl, rfl⟩, _⟩ := h
    exact ⟨by decide, .var txt!"g", reads (.var txt!"g") (by simp [Fml.Wf]) (by decide) (by decide),
      by simp [Fml.Wf], by decide⟩
  · simp at h

/-- The file is accepted (the hypothesis of C19, C21, C22 and C24), for every implementation of the BDD contract. -/
example (order : List Char → Bool) : ∃ r, initContext (B := B) 1000 order demoText = .ok r :=
  C24_proper_accepted 1000 order demoText demoText_proper

/-- A file with an ambiguous name (the hypotheses of `C22_ambiguous_rejected`): `x'` is declared and also created for `x`. -/
def ambiguousText : List Char := txt!"[INPUT]\nx\n[OUTPUT]\nx'"

example : ∃ sp, Denotes ambiguousText sp ∧ ¬ sp.Unambiguous := by
  refine ⟨⟨[txt!"x"], [txt!"x'"], [], [], [], [], [], []⟩,
    ⟨[(.input, txt!"x"), (.output, txt!"x'")], ?_, rfl, rfl, .nil, .nil, .nil, .nil, .nil, .nil⟩,
    by simp only [SpecFile.Unambiguous, SpecFile.names]; decide⟩
  have : splitLines ambiguousText = [txt!"[INPUT]", txt!"x", txt!"[OUTPUT]", txt!"x'"] := by decide
  rw [this]
  exact .header .input (by decide) (.item (by decide) (by decide) (by decide)
    (.header .output (by decide) (.item (by decide) (by decide) (by decide) .nil)))

example : runSlugs ROBDD .standard false 1000 (fun _ => true) 0 ambiguousText = .inputError .duplicateNames := by decide

/-- Lines of `demoText` that can be permuted (the hypotheses of the theorems for C23). -/
example : splitLines demoText = [txt!"[INPUT]", txt!"r", txt!"[OUTPUT]", txt!" g\t", txt!"# no grant without request", [],
      txt!"[SYS_TRANS]"] ++ [txt!"| ! g' r'", txt!"$ 2 & g g' ! ? 0"] ++ [txt!"[SYS_LIVENESS]", txt!"g"] ∧
    openAfter none [txt!"[INPUT]", txt!"r", txt!"[OUTPUT]", txt!" g\t", txt!"# no grant without request", [],
      txt!"[SYS_TRANS]"] = some .sysTrans ∧
    ∀ l ∈ [txt!"| ! g' r'", txt!"$ 2 & g g' ! ? 0"], trim l ≠ [] ∧ (trim l).head? ≠ some '#' ∧ (trim l).head? ≠ some '[' := by
  decide

end Slugs.Props
