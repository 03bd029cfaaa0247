import Verif.Lemmas.InterleaveText
import Verif.Props.Trace

/-!
# C30: outputs that can be set before the input is read

`runInterleave` is the model of a complete run with `--analyzeInterleaving`.  `Spec/Interleave.lean` says what it means that outputs have to be set before
the input is read.
-/

namespace Slugs.Props

open Slugs.Spec Slugs.Model

variable {B : Type} [DecidableEq B] [L : BddLib B]

/-! ### More rounds -/

theorem checkBA_more {c : Ctx B} {n n' : Nat} (hn : n ≤ n') {types : List VarType} (h : checkBA B c n types ≠ .stuck) :
    checkBA B c n' types = checkBA B c n types := by
  rw [checkBA] at h ⊢
  cases e : checkRealizabilityBA (bddMgr B types) (ctlBA B types c) c n with
  | none => rw [e] at h; exact absurd rfl h
  | some v => rw [checkBA, e, checkRealizabilityBA_more hn e]

theorem tryOutputs_more {c : Ctx B} {n n' : Nat} (hn : n ≤ n') : ∀ (is : List Nat) (st : BAState), tryOutputs (checkBA B c n) is st ≠ .stuck →
    tryOutputs (checkBA B c n') is st = tryOutputs (checkBA B c n) is st
  | [], _, _ => rfl
  | i :: is, st, h => by
    rw [tryOutputs] at h ⊢
    rw [tryOutputs]
    by_cases h1 : inheritsType st.known i .preOutput = true
    · rw [if_pos h1] at h ⊢
      rw [if_pos h1]
      by_cases h2 : st.types.length ≤ i + 1
      · rw [if_pos h2, if_pos h2]
      · rw [if_neg h2] at h ⊢
        rw [if_neg h2]
        simp only at h ⊢
        have hs : checkBA B c n ((st.types.set i .preOutputBefore).set (i + 1) .postOutputBefore) ≠ .stuck := by
          intro e
          rw [e] at h
          exact h rfl
        rw [checkBA_more hn hs]
        cases e : checkBA B c n ((st.types.set i .preOutputBefore).set (i + 1) .postOutputBefore) with
        | err _ => rfl
        | ub => rfl
        | stuck => rfl
        | ok b =>
          rw [e] at h
          cases b
          · exact tryOutputs_more hn is _ h
          · exact tryOutputs_more hn is _ h
    · rw [if_neg h1] at h ⊢
      rw [if_neg h1]
      exact tryOutputs_more hn is st h

theorem executeBA_more {tab : VarTable} {c : Ctx B} {n n' : Nat} (hn : n ≤ n') (h : executeBA B tab c n ≠ .running) :
    executeBA B tab c n' = executeBA B tab c n := by
  rw [executeBA] at h ⊢
  rw [executeBA]
  simp only at h ⊢
  have hs : checkBA B c n (defaultTypes tab.types) ≠ .stuck := by
    intro e
    rw [e] at h
    exact h rfl
  rw [checkBA_more hn hs]
  cases e : checkBA B c n (defaultTypes tab.types) with
  | err _ => rfl
  | ub => rfl
  | stuck => rfl
  | ok b =>
    rw [e] at h
    cases b
    · rfl
    · simp only at h ⊢
      have ht : tryOutputs (checkBA B c n) (List.range (defaultTypes tab.types).length) ⟨defaultTypes tab.types, defaultTypes tab.types, none⟩ ≠ .stuck := by
        intro e
        rw [e] at h
        exact h rfl
      rw [tryOutputs_more hn _ _ ht]

/-! ### Complete runs -/

theorem realizableBefore_iff (sp : SpecFile) (M : List Word) : sp.RealizableBefore M ↔ BAReal sp (fun x => decide (x ∈ M)) := by
  simp only [SpecFile.RealizableBefore, BAReal, decide_eq_true_eq]

theorem realizableBefore_nil (sp : SpecFile) : BAReal sp (fun _ => false) ↔ sp.game.Realizable := by
  constructor
  · intro h i hi
    obtain ⟨o, ho, σ, _, hσ⟩ := h i hi
    exact ⟨o, ho, σ, hσ⟩
  · intro h i hi
    obtain ⟨o, ho, σ, hσ⟩ := h i hi
    exact ⟨o, ho, σ, fun _ _ _ _ hy => absurd hy (by simp), hσ⟩

/-- Setting fewer outputs before the input is read is never harder. -/
theorem realizableBefore_anti {sp : SpecFile} {M N : List Word} (h : ∀ x ∈ N, x ∈ M) (hM : sp.RealizableBefore M) : sp.RealizableBefore N := by
  rw [realizableBefore_iff] at hM ⊢
  exact hM.anti fun x _ hx => by simpa using h x (by simpa using hx)

/-- What a list that is printed means: for the outputs `L` that have been found, and the last output `x` of the file. -/
structure BAList (sp : SpecFile) (M L : List Word) (x : Word) : Prop where
  last : sp.outputs.getLast? = some x
  printed : ∀ y, y ∈ M ↔ y ∈ L ∨ y = x
  sub : M.Sublist sp.outputs
  sub' : L.Sublist sp.outputs
  nonempty : L ≠ []
  realizable : sp.RealizableBefore L
  maximal : ∀ y ∈ sp.outputs, y ∉ L → ¬ sp.RealizableBefore (y :: L)

/-- What a run says. -/
def BAReport (sp : SpecFile) : BAOutcome → Prop
  | .unrealizable => ¬ sp.game.Realizable
  | .before M => sp.game.Realizable ∧ ∃ L x, BAList sp M L x
  | .ub => sp.game.Realizable ∧ ∀ x ∈ sp.outputs, ¬ sp.RealizableBefore [x]
  | _ => False

theorem runInterleave_sem {cap : Nat} {order : List Char → Bool} {text : List Char} {tab : VarTable} {c : Ctx B}
    (h : initContext cap order text = .ok (tab, c)) {sp : SpecFile} (hd : Denotes text sp)
    (fuel : Nat) (hf : Nat.card (Pos (sp.Out → sp.In) sp.Out) < fuel) : BAReport sp (runInterleave B cap order fuel text) := by
  obtain ⟨ds, F, hn, rfl, hd', _, _, _, hc⟩ := initContext_spec h
  have := Denotes.det hd hd'
  subst this
  rw [runInterleave, h]
  simp only
  rw [hc]
  rcases executeBA_spec B F hn fuel hf with ⟨hR, e⟩ | ⟨P, Q, f, hR, hG, e⟩
  · refine (congrArg (BAReport (specOf ds F)) e).mpr ?_
    exact fun h => hR ((realizableBefore_nil _).mpr h)
  · refine (congrArg (BAReport (specOf ds F)) e).mpr ?_
    have hreal := (realizableBefore_nil _).mp hR
    have hout : (specOf ds F).outputs = outputsOf ds := rfl
    have hf' := hG.found
    have honly : ∀ x, P x = true → x ∈ outputsOf ds := fun x hx => (hG.only x hx).resolve_left (by simp)
    have hmax : ∀ x ∈ outputsOf ds, ¬ P x = true → ¬ BAReal (specOf ds F) (addOut P x) := by
      intro x hx hPx hr
      obtain ⟨P0, h0, h1⟩ := hG.maximal x hx hPx
      refine h1 (hr.anti fun y _ hy => ?_)
      simp only [addOut, Bool.or_eq_true, decide_eq_true_eq] at hy ⊢
      exact hy.imp_left (h0 y)
    by_cases hany : (outputsOf ds).any P = true
    · rw [hany, if_pos rfl] at hf'
      rw [hf']
      obtain ⟨x0, hx0, hP0⟩ := List.any_eq_true.mp hany
      obtain ⟨x, hx⟩ : ∃ x, (outputsOf ds).getLast? = some x := by
        cases e : (outputsOf ds).getLast? with
        | none => rw [List.getLast?_eq_none_iff] at e; rw [e] at hx0; cases hx0
        | some x => exact ⟨x, rfl⟩
      have hQ := hG.last x hx
      have hmemP : ∀ y, y ∈ (outputsOf ds).filter P ↔ P y = true := fun y => by
        rw [List.mem_filter]; exact ⟨fun h => h.2, fun h => ⟨honly y h, h⟩⟩
      refine ⟨hreal, (outputsOf ds).filter P, x, hx, fun y => ?_, List.filter_sublist, List.filter_sublist, ?_, ?_, ?_⟩
      · rw [hmemP, List.mem_filter, hQ]
        simp only [addOut, Bool.or_eq_true, decide_eq_true_eq]
        constructor
        · exact fun h => h.2
        · rintro (h | rfl)
          · exact ⟨honly y h, .inl h⟩
          · exact ⟨List.mem_of_getLast? hx, .inr rfl⟩
      · intro e
        have := (hmemP x0).mpr hP0
        rw [e] at this
        cases this
      · rw [realizableBefore_iff]
        refine (hG.real hR).anti fun y _ hy => ?_
        exact (hmemP y).mp (by simpa using hy)
      · intro y hy hny
        rw [realizableBefore_iff]
        intro hr
        refine hmax y hy (fun h => hny ((hmemP y).mpr h)) (hr.anti fun z _ hz => ?_)
        simp only [addOut, Bool.or_eq_true, decide_eq_true_eq] at hz
        simp only [List.mem_cons, decide_eq_true_eq]
        exact hz.symm.imp_right fun h => (hmemP z).mpr h
    · have hany' : (outputsOf ds).any P = false := by simpa using hany
      rw [hany', if_neg (by simp)] at hf'
      rw [hf']
      refine ⟨hreal, fun x hx => ?_⟩
      have hP : ∀ y, P y = false := by
        intro y
        by_contra hy
        have hy' : P y = true := by simpa using hy
        exact hany (List.any_eq_true.mpr ⟨y, honly y hy', hy'⟩)
      rw [realizableBefore_iff]
      intro hr
      refine hmax x hx (by simp [hP]) (hr.anti fun z _ hz => ?_)
      simpa [addOut, hP] using hz

theorem runInterleave_more {cap : Nat} {order : List Char → Bool} {text : List Char} {n n' : Nat} (hn : n ≤ n')
    (h : runInterleave B cap order n text ≠ .running) : runInterleave B cap order n' text = runInterleave B cap order n text := by
  rw [runInterleave] at h ⊢
  rw [runInterleave]
  cases hi : initContext (B := B) cap order text with
  | err _ => rfl
  | ub => rfl
  | stuck => rfl
  | ok r =>
    rw [hi] at h
    exact executeBA_more hn h

/-- Whatever a run on an accepted file ends with. -/
theorem interleave_reported {cap : Nat} {order : List Char → Bool} {text : List Char} {tab : VarTable} {c : Ctx B}
    (h : initContext cap order text = .ok (tab, c)) {sp : SpecFile} (hd : Denotes text sp) {fuel : Nat} {r : BAOutcome}
    (hr : runInterleave B cap order fuel text = r) (hne : r ≠ .running) : BAReport sp r := by
  have := runInterleave_sem (B := B) h hd (fuel + (Nat.card (Pos (sp.Out → sp.In) sp.Out) + 1)) (by omega)
  rw [runInterleave_more (Nat.le_add_right _ _) (hr ▸ hne), hr] at this
  exact this

/-- **C30**, termination: on every accepted file, the run ends, and neither with an error nor with the message that the specification becomes unrealizable
when some output variable has to be set before the inputs are present. -/
theorem C30_terminates {cap : Nat} {order : List Char → Bool} {text : List Char} {tab : VarTable} {c : Ctx B}
    (h : initContext cap order text = .ok (tab, c)) {sp : SpecFile} (hd : Denotes text sp)
    (fuel : Nat) (hf : Nat.card (Pos (sp.Out → sp.In) sp.Out) < fuel) :
    runInterleave B cap order fuel text = .unrealizable ∨ runInterleave B cap order fuel text = .ub ∨
      ∃ M, runInterleave B cap order fuel text = .before M := by
  have := runInterleave_sem (B := B) h hd fuel hf
  cases e : runInterleave B cap order fuel text with
  | unrealizable => exact .inl rfl
  | ub => exact .inr (.inl rfl)
  | before M => exact .inr (.inr ⟨M, rfl⟩)
  | becomesUnrealizable => rw [e] at this; exact this.elim
  | internalError => rw [e] at this; exact this.elim
  | inputError _ => rw [e] at this; exact this.elim
  | running => rw [e] at this; exact this.elim

/-- **C30**, the starting point: the specification is reported to be unrealizable if and only if it is. -/
theorem C30_starting_point {cap : Nat} {order : List Char → Bool} {text : List Char} {tab : VarTable} {c : Ctx B}
    (h : initContext cap order text = .ok (tab, c)) {sp : SpecFile} (hd : Denotes text sp) {fuel : Nat} {r : BAOutcome}
    (hr : runInterleave B cap order fuel text = r) (hne : r ≠ .running) : r = .unrealizable ↔ ¬ sp.game.Realizable := by
  have := interleave_reported h hd hr hne
  cases r with
  | unrealizable => exact ⟨fun _ => this, fun _ => rfl⟩
  | ub => exact ⟨nofun, fun h => absurd this.1 h⟩
  | before M => exact ⟨nofun, fun h => absurd this.1 h⟩
  | _ => exact this.elim

/-- **C30** in part.  If a list is printed and the specification stays realizable when the outputs on it have to be set before the input is read, then the
list is as long as possible.  If it does not stay realizable, then only the last output of the file is wrong on the list: without it, the
specification stays realizable, the remaining list is not empty, and no output can be added.  Missing: the list is always right, see `C30_list_violated`;
the case that no output can be set before the input is read, see `C30_undefined`. -/
theorem C30_list_partial {cap : Nat} {order : List Char → Bool} {text : List Char} {fuel : Nat} {M : List Name}
    (hr : runInterleave B cap order fuel text = .before M) {sp : SpecFile} (hd : Denotes text sp) :
    M.Sublist sp.outputs ∧
    (sp.RealizableBefore M → ∀ y ∈ sp.outputs, y ∉ M → ¬ sp.RealizableBefore (y :: M)) ∧
    (¬ sp.RealizableBefore M → ∃ x L, sp.outputs.getLast? = some x ∧ L ≠ [] ∧ (∀ y, y ∈ L ↔ y ∈ M ∧ y ≠ x) ∧ sp.RealizableBefore L ∧
      ∀ y ∈ sp.outputs, y ∉ L → ¬ sp.RealizableBefore (y :: L)) := by
  cases hi : initContext (B := B) cap order text with
  | err _ => rw [runInterleave, hi] at hr; cases hr
  | ub => rw [runInterleave, hi] at hr; cases hr
  | stuck => rw [runInterleave, hi] at hr; cases hr
  | ok r =>
    obtain ⟨tab, c⟩ := r
    obtain ⟨_, Lf, x, hL⟩ := interleave_reported hi hd hr nofun
    refine ⟨hL.sub, fun hM y hy hny hyM => ?_, fun hM => ?_⟩
    · exact hL.maximal y hy (fun h => hny ((hL.printed y).mpr (.inl h))) (realizableBefore_anti (fun z hz => by
        rcases List.mem_cons.mp hz with rfl | hz
        · exact List.mem_cons_self
        · exact List.mem_cons_of_mem _ ((hL.printed z).mpr (.inl hz))) hyM)
    · have hx : x ∉ Lf := by
        intro hx
        refine hM (realizableBefore_anti (fun y hy => ?_) hL.realizable)
        rcases (hL.printed y).mp hy with h | rfl
        · exact h
        · exact hx
      refine ⟨x, Lf, hL.last, hL.nonempty, fun y => ?_, hL.realizable, hL.maximal⟩
      rw [hL.printed]
      constructor
      · intro hy
        exact ⟨.inl hy, fun e => hx (e ▸ hy)⟩
      · rintro ⟨h | h, hne⟩
        · exact h
        · exact absurd h hne

/-- **C30** is violated in another way: the behaviour is undefined (`foundOne` is read before it has been set) if and only if the specification is realizable,
but not if any of its outputs has to be set before the input is read; in particular for every realizable specification without outputs. -/
theorem C30_undefined {cap : Nat} {order : List Char → Bool} {text : List Char} {tab : VarTable} {c : Ctx B}
    (h : initContext cap order text = .ok (tab, c)) {sp : SpecFile} (hd : Denotes text sp) {fuel : Nat} {r : BAOutcome}
    (hr : runInterleave B cap order fuel text = r) (hne : r ≠ .running) :
    r = .ub ↔ sp.game.Realizable ∧ ∀ x ∈ sp.outputs, ¬ sp.RealizableBefore [x] := by
  have := interleave_reported h hd hr hne
  cases r with
  | unrealizable => exact ⟨nofun, fun h => absurd h.1 this⟩
  | ub => exact ⟨fun _ => this, fun _ => rfl⟩
  | before M =>
    refine ⟨nofun, fun h => ?_⟩
    obtain ⟨_, Lf, x, hL⟩ := this
    obtain ⟨y, hy⟩ := List.exists_mem_of_ne_nil _ hL.nonempty
    exact absurd (realizableBefore_anti (by simpa using hy) hL.realizable) (h.2 y (hL.sub'.mem hy))
  | _ => exact this.elim

/-! ### Concrete files -/

/-- `x` is free, but `y` has to copy the input. -/
def copyText : List Char := txt!"[INPUT]\na\n[OUTPUT]\nx\ny\n[SYS_TRANS]\n! ^ y' a'"

def copy : SpecFile where
  inputs := [txt!"a"]
  outputs := [txt!"x", txt!"y"]
  envInit := []
  sysInit := []
  envTrans := []
  sysTrans := [.not (.bin .xor (.var txt!"y'") (.var txt!"a'"))]
  envLiveness := []
  sysLiveness := []

theorem copy_denotes : Denotes copyText copy := by
  refine ⟨[(.input, txt!"a"), (.output, txt!"x"), (.output, txt!"y"), (.sysTrans, txt!"! ^ y' a'")], ?_, by decide, by decide,
    ?_, ?_, ?_, ?_, ?_, ?_⟩
  · have : splitLines copyText = [txt!"[INPUT]", txt!"a", txt!"[OUTPUT]", txt!"x", txt!"y", txt!"[SYS_TRANS]", txt!"! ^ y' a'"] := by decide
    rw [this]
    refine .header .input (by decide) (.item (by decide) (by decide) (by decide) ?_)
    refine .header .output (by decide) (.item (by decide) (by decide) (by decide) ?_)
    refine .item (by decide) (by decide) (by decide) ?_
    exact .header .sysTrans (by decide) (.item (by decide) (by decide) (by decide) .nil)
  all_goals
    simp only [copy, itemsOf]
  · exact .nil
  · exact .nil
  · exact .nil
  · exact .cons (reads_text (.not (.bin .xor (.var txt!"y'") (.var txt!"a'"))) (by simp [Fml.Wf]) (by decide) (by decide)) .nil
  · exact .nil
  · exact .nil

theorem copy_run : runInterleave ROBDD 1000 (fun _ => true) 30 copyText = .before [txt!"x", txt!"y"] := by rfl

theorem copy_not {M : List Word} (hM : txt!"y" ∈ M) : ¬ copy.RealizableBefore M := by
  intro h
  obtain ⟨o, _, σ, hb, hw, _⟩ := h (fun _ => false) (fun φ hφ => absurd hφ (List.not_mem_nil (a := φ)))
  have key : ∀ v : Bool, σ [(fun _ => false, o)] (fun _ => v) ⟨txt!"y", by decide⟩ = v := by
    intro v
    have := hw (fun _ => false, o) [] (fun _ => v) .start (fun φ hφ => absurd hφ (List.not_mem_nil (a := φ)))
      (.not (.bin .xor (.var txt!"y'") (.var txt!"a'"))) (List.mem_singleton.mpr rfl)
    have e : some (!(σ [(fun _ => false, o)] (fun _ => v) ⟨txt!"y", by decide⟩ != v)) = some true := this
    simpa using e
  have e := hb [(fun _ => false, o)] (fun _ => false) (fun _ => true) ⟨txt!"y", by decide⟩ hM
  rw [key, key] at e
  cases e

/-- **C30** is violated: there is a file for which an output is listed although the specification becomes unrealizable when the outputs on the list have to be
set before the input is read. -/
theorem C30_list_violated : ∃ text sp M, runInterleave ROBDD 1000 (fun _ => true) 30 text = .before M ∧ Denotes text sp ∧ ¬ sp.RealizableBefore M :=
  ⟨copyText, copy, _, copy_run, copy_denotes, copy_not (by decide)⟩

/-- The hypotheses of the theorems above are met by this file, which is not a trivial one: the specification is realizable, `x` can be set before the input
is read, but `y` cannot. -/
example : copy.game.Realizable ∧ copy.RealizableBefore [txt!"x"] ∧ ¬ copy.RealizableBefore [txt!"y"] := by
  obtain ⟨r, hr⟩ : ∃ r, initContext (B := ROBDD) 1000 (fun _ => true) copyText = .ok r := ⟨_, rfl⟩
  have hreal : copy.game.Realizable := by
    by_contra h
    have := (C30_starting_point (tab := r.1) (c := r.2) hr copy_denotes copy_run nofun).mpr h
    cases this
  obtain ⟨x, L, hx, _, hm, hL, _⟩ := (C30_list_partial copy_run copy_denotes).2.2 (copy_not (by decide))
  obtain rfl : txt!"y" = x := by injection hx
  refine ⟨hreal, realizableBefore_anti (fun z hz => ?_) hL, copy_not (by decide)⟩
  obtain rfl : z = txt!"x" := by simpa using hz
  exact (hm _).mpr ⟨by decide, by decide⟩

/-- The same specification without the output `x`. -/
def copyOnlyText : List Char := txt!"[INPUT]\na\n[OUTPUT]\ny\n[SYS_TRANS]\n! ^ y' a'"

/-- A run with undefined behaviour, on a realizable specification. -/
example : runInterleave ROBDD 1000 (fun _ => true) 30 copyOnlyText = .ub := by rfl

/-- A list that is right: here the output that can be set before the input is read comes last. -/
example : ∃ sp, Denotes txt!"[INPUT]\na\n[OUTPUT]\ny\nx\n[SYS_TRANS]\n! ^ y' a'" sp ∧ sp.RealizableBefore [txt!"x"] := by
  obtain ⟨r, hr⟩ : ∃ r, initContext (B := ROBDD) 1000 (fun _ => true) txt!"[INPUT]\na\n[OUTPUT]\ny\nx\n[SYS_TRANS]\n! ^ y' a'" = .ok r := ⟨_, rfl⟩
  obtain ⟨sp, hd, _⟩ := C24_accepted_denotes (tab := r.1) (c := r.2) hr
  have hrun : runInterleave ROBDD 1000 (fun _ => true) 30 txt!"[INPUT]\na\n[OUTPUT]\ny\nx\n[SYS_TRANS]\n! ^ y' a'" = .before [txt!"x"] := by rfl
  have hp := C30_list_partial hrun hd
  refine ⟨sp, hd, ?_⟩
  by_contra h
  obtain ⟨x, L, hx, hne, hm, hL, _⟩ := hp.2.2 h
  obtain ⟨y, hy⟩ := List.exists_mem_of_ne_nil _ hne
  have hyx : y = txt!"x" := by simpa using ((hm y).mp hy).1
  exact h (realizableBefore_anti (fun z hz => by
    have : z = txt!"x" := by simpa using hz
    rw [this, ← hyx]; exact hy) hL)

end Slugs.Props
