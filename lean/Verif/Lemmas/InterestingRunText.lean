import Verif.Lemmas.InterestingRun

/-! The run that is printed: other representations of Boolean functions, and the variables of a file. -/

namespace Slugs.Model

open Slugs.Spec

/-! ### Other representations -/

def RunVars.map {A B : Type} (h : A → B) (vs : RunVars A) : RunVars B where
  preVars := vs.preVars.map h
  postVars := vs.postVars.map h
  inputs := vs.inputs.map fun r => (r.1, h r.2)
  outputs := vs.outputs.map fun r => (r.1, h r.2)

def RunStep.map {A B : Type} (h : A → B) (st : RunStep A) : RunStep B where
  pos := h st.pos
  sysGoal := st.sysGoal
  sysSat := st.sysSat
  envGoal := st.envGoal
  envSat := st.envSat
  envViolation := st.envViolation
  sysViolation := st.sysViolation

section
variable {A B : Type} [DecidableEq A] [DecidableEq B] {M : Mgr A} {N : Mgr B} {h : A → B} (H : MgrHom M N h)
include H

theorem Mgr.below_hom (a b : A) : N.below (h a) (h b) = M.below a b := by
  simp only [Mgr.below, H.not, H.and, eq_ff_hom H, ne_eq, H.inj.eq_iff]

theorem deadlockLoop_hom (c : Ctx A) : ∀ (n : Nat) (a b d : A),
    deadlockLoop N (c.map h) n (h a) (h b) (h d) = (deadlockLoop M c n a b d).map h := by
  intro n
  induction n with
  | zero => intro a b d; rfl
  | succ n ih =>
    intro a b d
    rw [deadlockLoop, deadlockLoop]
    by_cases hab : a = b
    · subst hab; simp
    · rw [if_neg hab, if_neg fun e => hab (H.inj e), ← ih]
      simp only [Ctx.map, H.swap, H.not, H.or, H.and, H.allPostOutput, H.exPostInput]

theorem hopeLoop_hom (c : Ctx A) (a d : A) : ∀ (n : Nat) (old mv : A),
    hopeLoop N (c.map h) (h a) (h d) n (h old) (h mv) = (hopeLoop M c a d n old mv).map (Prod.map h h) := by
  intro n
  induction n with
  | zero => intro old mv; rfl
  | succ n ih =>
    intro old mv
    rw [hopeLoop, hopeLoop]
    simp only [show (c.map h).safetySys = h c.safetySys from rfl, H.swap, H.not, H.or, H.and, H.allPostOutput, H.exPostInput, H.inj.eq_iff]
    split
    · rfl
    · rw [← ih]

theorem hopeStrategies_hom (c : Ctx A) (d : A) (n : Nat) : ∀ As : List A,
    hopeStrategies N (c.map h) (h d) n (As.map h) = (hopeStrategies M c d n As).map (List.map h) := by
  intro As
  induction As with
  | nil => rfl
  | cons a As ih =>
    rw [List.map_cons, hopeStrategies, hopeStrategies, ih, H.ff, hopeLoop_hom H]
    cases hopeLoop M c a d n M.ff M.ff with
    | none => rfl
    | some r =>
      cases hopeStrategies M c d n As with
      | none => rfl
      | some es => simp [H.not, H.or]

theorem runLoop_hom (c : Ctx A) (vs : RunVars A) (sys env : List A) : ∀ (n : Nat) (pos : A) (sg eg : Nat) (rnd : List Bool),
    runLoop N (c.map h) (vs.map h) (sys.map h) (env.map h) n (h pos) sg eg rnd =
      (runLoop M c vs sys env n pos sg eg rnd).map (List.map (RunStep.map h)) := by
  intro n
  induction n with
  | zero => intro pos sg eg rnd; rfl
  | succ n ih =>
    intro pos sg eg rnd
    rw [runLoop, runLoop]
    by_cases hp : pos = M.ff
    · rw [if_pos hp, if_pos ((eq_ff_hom H _).mpr hp)]; rfl
    · rw [if_neg hp, if_neg fun e => hp ((eq_ff_hom H _).mp e)]
      rw [show (c.map h).livenessGuarantees = c.livenessGuarantees.map h from rfl, show (c.map h).livenessAssumptions = c.livenessAssumptions.map h from rfl,
        show (c.map h).safetyEnv = h c.safetyEnv from rfl, show (c.map h).safetySys = h c.safetySys from rfl,
        show (vs.map h).preVars = vs.preVars.map h from rfl, show (vs.map h).postVars = vs.postVars.map h from rfl]
      simp only [List.getElem?_map, List.length_map]
      rcases sys[sg]? with _ | S
      · rfl
      rcases env[eg]? with _ | E
      · rfl
      rcases c.livenessGuarantees[sg]? with _ | G
      · rfl
      rcases c.livenessAssumptions[eg]? with _ | P
      · rfl
      simp only [Option.map_some, H.and, H.exPre, H.swap, determinizeRandomized_hom H, Mgr.below_hom H]
      rw [ih]
      cases runLoop M c vs sys env n (determinizeRandomized M (rnd.drop vs.postVars.length) vs.preVars
          (M.swap (M.exPre (M.and (M.and (M.and pos c.safetyEnv) S) E))))
        (if M.below (determinizeRandomized M rnd vs.postVars (M.and (M.and (M.and pos c.safetyEnv) S) E)) G = true then (sg + 1) % c.livenessGuarantees.length
          else sg)
        (if M.below (determinizeRandomized M rnd vs.postVars (M.and (M.and (M.and pos c.safetyEnv) S) E)) P = true then (eg + 1) % c.livenessAssumptions.length
          else eg) (rnd.drop (vs.postVars.length + vs.preVars.length)) <;> rfl

theorem runBody_hom (c : Ctx A) (vs : RunVars A) (prev pos : A) : runBody N (c.map h) (vs.map h) (h prev) (h pos) = runBody M c vs prev pos := by
  simp only [runBody, runValues, RunVars.map, show (c.map h).safetyEnv = h c.safetyEnv from rfl, H.and, eq_ff_hom H, List.map_map, Function.comp_def]

theorem rowsOf_hom (c : Ctx A) (vs : RunVars A) (junk : Bool × Bool) : ∀ (steps : List (RunStep A)) (prev pos : A) (sg eg : Nat),
    rowsOf N (c.map h) (vs.map h) junk (h prev) (h pos) sg eg (steps.map (RunStep.map h)) = rowsOf M c vs junk prev pos sg eg steps := by
  intro steps
  induction steps with
  | nil => intro prev pos sg eg; simp only [List.map_nil, rowsOf, runBody_hom H]
  | cons st rest ih =>
    intro prev pos sg eg
    rw [List.map_cons, rowsOf, rowsOf, runBody_hom H]
    exact congrArg _ (ih pos st.pos st.sysGoal st.envGoal)

theorem computeRun_hom (c : Ctx A) (vs : RunVars A) (fuel : Nat) (rnd : List Bool) (junk : Bool × Bool) (W : A) (dump : Dump A) :
    computeRun N (c.map h) (vs.map h) fuel rnd junk (h W) (dump.map h) = computeRun M c vs fuel rnd junk W dump := by
  rw [computeRun, computeRun]
  rw [show (c.map h).initEnv = h c.initEnv from rfl, show (c.map h).initSys = h c.initSys from rfl, H.and, H.and]
  by_cases hs : M.and (M.and W c.initEnv) c.initSys = M.ff
  · rw [if_pos hs, if_pos ((eq_ff_hom H _).mpr hs)]
  · rw [if_neg hs, if_neg fun e => hs ((eq_ff_hom H _).mp e)]
    rw [show (vs.map h).preVars = vs.preVars.map h from rfl, show (c.map h).livenessAssumptions = c.livenessAssumptions.map h from rfl,
      show (c.map h).livenessGuarantees = c.livenessGuarantees.map h from rfl, determinize_hom H, H.tt, H.ff, deadlockLoop_hom H]
    rcases deadlockLoop M c fuel M.tt M.ff M.ff with _ | d
    · rfl
    · simp only [Option.map_some]
      rw [hopeStrategies_hom H]
      rcases hopeStrategies M c d fuel c.livenessAssumptions with _ | es
      · rfl
      · simp only [Option.map_some]
        have e : (List.range (c.livenessGuarantees.map h).length).map (positional N (dump.map h)) =
            ((List.range c.livenessGuarantees.length).map (positional M dump)).map h := by
          rw [List.length_map, List.map_map]
          exact List.map_congr_left fun j _ => positional_hom H dump j
        rw [e, runLoop_hom H]
        rcases runLoop M c vs ((List.range c.livenessGuarantees.length).map (positional M dump)) es 100
          (determinize M vs.preVars (M.and (M.and W c.initEnv) c.initSys)) 0 0 rnd with _ | steps
        · rfl
        · simp only [Option.map_some, runRows_eq, readsInside_false, rowsOf_hom H]

end

/-! ### More rounds -/

section
variable {B : Type} [DecidableEq B] {M : Mgr B} {c : Ctx B}

theorem deadlockLoop_more : ∀ {n : Nat} {a b d r : B}, deadlockLoop M c n a b d = some r → ∀ {n' : Nat}, n ≤ n' → deadlockLoop M c n' a b d = some r := by
  intro n
  induction n with
  | zero => intro a b d r h; cases h
  | succ n ih =>
    intro a b d r h n' hn
    obtain ⟨n', rfl⟩ : ∃ m, n' = m + 1 := ⟨n' - 1, by omega⟩
    rw [deadlockLoop] at h ⊢
    split at h
    · rename_i hab
      rw [if_pos hab]; exact h
    · rename_i hab
      rw [if_neg hab]; exact ih h (by omega)

theorem hopeLoop_more {a d : B} : ∀ {n : Nat} {old mv : B} {r : B × B}, hopeLoop M c a d n old mv = some r → ∀ {n' : Nat}, n ≤ n' →
    hopeLoop M c a d n' old mv = some r := by
  intro n
  induction n with
  | zero => intro old mv r h; cases h
  | succ n ih =>
    intro old mv r h n' hn
    obtain ⟨n', rfl⟩ : ∃ m, n' = m + 1 := ⟨n' - 1, by omega⟩
    rw [hopeLoop] at h ⊢
    split at h
    · rename_i hab
      rw [if_pos hab]; exact h
    · rename_i hab
      rw [if_neg hab]; exact ih h (by omega)

theorem hopeStrategies_more {d : B} {n n' : Nat} (hn : n ≤ n') : ∀ {As es : List B}, hopeStrategies M c d n As = some es →
    hopeStrategies M c d n' As = some es := by
  intro As
  induction As with
  | nil => intro es h; exact h
  | cons a As ih =>
    intro es h
    rw [hopeStrategies] at h ⊢
    cases h1 : hopeLoop M c a d n M.ff M.ff with
    | none => rw [h1] at h; cases h
    | some r =>
      cases h2 : hopeStrategies M c d n As with
      | none => rw [h1, h2] at h; cases h
      | some es' => rw [hopeLoop_more h1 hn, ih h2]; rw [h1, h2] at h; exact h

theorem computeRun_more {vs : RunVars B} {n n' : Nat} (hn : n ≤ n') {rnd : List Bool} {junk : Bool × Bool} {W : B} {dump : Dump B} {r : InterestingReport}
    (h : computeRun M c vs n rnd junk W dump = some r) : computeRun M c vs n' rnd junk W dump = some r := by
  rw [computeRun] at h ⊢
  split at h
  · rename_i hs
    rw [if_pos hs]; exact h
  · rename_i hs
    rw [if_neg hs]
    dsimp only at h ⊢
    cases h1 : deadlockLoop M c n M.tt M.ff M.ff with
    | none => rw [h1] at h; cases h
    | some d =>
      rw [deadlockLoop_more h1 hn]
      rw [h1] at h
      dsimp only at h ⊢
      cases h2 : hopeStrategies M c d n c.livenessAssumptions with
      | none => rw [h2] at h; cases h
      | some es =>
        rw [hopeStrategies_more hn h2]
        rw [h2] at h
        exact h

theorem runInteresting_more {B : Type} [DecidableEq B] [BddLib B] {cap : Nat} {order : List Char → Bool} {n n' : Nat} (hn : n ≤ n') {rnd : List Bool}
    {junk : Bool × Bool} {text : List Char} {r : InterestingReport} (h : runInteresting B cap order n rnd junk text = .report r) :
    runInteresting B cap order n' rnd junk text = .report r := by
  rw [runInteresting] at h ⊢
  cases hi : initContext (B := B) cap order text with
  | err e => rw [hi] at h; cases h
  | ub => rw [hi] at h; cases h
  | stuck => rw [hi] at h; cases h
  | ok p =>
    obtain ⟨tab, c⟩ := p
    rw [hi] at h
    simp only at h ⊢
    split at h
    · cases h
    · rename_i hg
      rw [if_neg hg]
      cases h1 : checkRealizability .standard (bddMgr B tab.types) c n with
      | none => rw [h1] at h; cases h
      | some q =>
        obtain ⟨v, W, dump⟩ := q
        rw [checkRealizability_more _ _ hn h1]
        rw [h1] at h
        simp only at h ⊢
        cases h2 : computeRun (bddMgr B tab.types) c (runVars B tab) n rnd junk W dump with
        | none => rw [h2] at h; cases h
        | some r' => rw [computeRun_more hn h2]; rw [h2] at h; exact h

end

/-! ### The variables of a file -/

def semRunVars (ds : Decls) : RunVars (T ({x // x ∈ inputsOf ds} → Bool) ({x // x ∈ outputsOf ds} → Bool)) where
  preVars := (varsOfType (tableOf ds).types .pre).map (codeVar ds)
  postVars := (varsOfType (tableOf ds).types .post).map (codeVar ds)
  inputs := (varsOfType (tableOf ds).types .preInput).map fun k => ((tableOf ds).names.getD k [], codeVar ds k)
  outputs := (varsOfType (tableOf ds).types .preOutput).map fun k => ((tableOf ds).names.getD k [], codeVar ds k)

theorem semRunVars_ok {ds : Decls} (hn : (tableOf ds).names.Nodup) : VarsOK (semRunVars ds).vars where
  pre_indep := (semVars_ok hn).pre_indep
  pre_sep := (semVars_ok hn).pre_sep
  post_sep := (semVars_ok hn).post_sep
  label_indep := by
    intro v hv s t t'
    rcases List.mem_append.mp hv with hv | hv
    · obtain ⟨k, hk, rfl⟩ := List.mem_map.mp hv
      change codeVar ds k s t ↔ codeVar ds k s t'
      obtain ⟨x, rfl⟩ := (mem_preInput hn).mp hk
      rw [codeVar_slot hn, codeVar_slot hn]; rfl
    · obtain ⟨k, hk, rfl⟩ := List.mem_map.mp hv
      change codeVar ds k s t ↔ codeVar ds k s t'
      obtain ⟨x, rfl⟩ := (mem_preOutput hn).mp hk
      rw [codeVar_slot hn, codeVar_slot hn]; rfl

theorem runVars_eq (B : Type) [DecidableEq B] [L : BddLib B] {ds : Decls} (hn : (tableOf ds).names.Nodup) :
    runVars B (tableOf ds) = (semRunVars ds).map ((tableLayout ds hn).enc B) := by
  have hz : ∀ z : DSlot ds, L.var (slotCode z) = (tableLayout ds hn).enc B (codeVar ds (slotCode z)) := by
    intro z
    refine (tableLayout ds hn).eq_enc B fun a => ?_
    rw [codeVar_slot hn, L.eval_var, congrFun (slots_pos _) z]
    rfl
  simp only [runVars, semRunVars, RunVars.map, List.map_map, RunVars.mk.injEq]
  refine ⟨List.map_congr_left fun k hk => ?_, List.map_congr_left fun k hk => ?_, List.map_congr_left fun k hk => ?_, List.map_congr_left fun k hk => ?_⟩
  · rcases (mem_pre hn).mp hk with ⟨x, rfl⟩ | ⟨x, rfl⟩ <;> exact hz _
  · rcases (mem_post hn).mp hk with ⟨x, rfl⟩ | ⟨x, rfl⟩ <;> exact hz _
  · obtain ⟨x, rfl⟩ := (mem_preInput hn).mp hk; exact Prod.ext rfl (hz _)
  · obtain ⟨x, rfl⟩ := (mem_preOutput hn).mp hk; exact Prod.ext rfl (hz _)

end Slugs.Model
