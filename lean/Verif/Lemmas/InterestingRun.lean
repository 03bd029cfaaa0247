import Verif.Model.InterestingRun
import Verif.Lemmas.InteractiveExec
import Verif.Lemmas.TraceText

/-! The run that is printed, on predicates on pairs of positions. -/

namespace Slugs.Model

open Slugs.Spec

variable {I O : Type}

/-! ### Random choices -/

theorem detRandom_pre {vs : Vars (T I O)} (hv : VarsOK vs) (rnd : List Bool) {S : Set (Pos I O)} (hS : S.Nonempty) :
    ∃ s ∈ S, determinizeRandomized (semMgr I O) rnd vs.preVars (pre S) = pre {s} := by
  have hd := determinizeRandomized_isDet (semReading I O) vs.preVars rnd (pre S)
  obtain ⟨s0, hs0⟩ := hS
  obtain ⟨⟨s, t⟩, hst⟩ := hd.nonempty ⟨(s0, s0), hs0⟩
  have hcl := determinizeRandomized_closed (M := semMgr I O) (fun f => ∀ s t t', f s t ↔ f s t') vs.preVars rnd (pre S)
    (fun _ _ _ => Iff.rfl) (fun v hvm f hf => ⟨fun s t t' => and_congr (hf s t t') (hv.pre_indep v hvm s t t'),
      fun s t t' => and_congr (hf s t t') (not_congr (hv.pre_indep v hvm s t t'))⟩)
  refine ⟨s, hd.sub _ hst, ?_⟩
  funext s' t'
  rw [eq_iff_iff]
  constructor
  · intro h
    refine hv.pre_sep _ _ t' t fun v hvm => ?_
    rcases hd.fixed v hvm with h1 | h1
    · exact iff_of_true (h1 (s', t') h) (h1 (s, t) hst)
    · exact iff_of_false (h1 (s', t') h) (h1 (s, t) hst)
  · rintro rfl
    exact (hcl _ _ _).mp hst

theorem detRandom_post {vs : Vars (T I O)} (hv : VarsOK vs) (rnd : List Bool) (s : Pos I O) {R : Set (Pos I O)} (hR : R.Nonempty) :
    ∃ t ∈ R, determinizeRandomized (semMgr I O) rnd vs.postVars (from1 s R) = from1 s {t} := by
  have hd := determinizeRandomized_isDet (semReading I O) vs.postVars rnd (from1 s R)
  obtain ⟨t0, ht0⟩ := hR
  obtain ⟨⟨s1, t⟩, hst⟩ := hd.nonempty ⟨(s, t0), rfl, ht0⟩
  obtain ⟨h1, h2⟩ := hd.sub _ hst
  dsimp only at h1 h2
  subst h1
  refine ⟨t, h2, ?_⟩
  funext s' t'
  rw [eq_iff_iff]
  constructor
  · intro h
    obtain ⟨h3, h4⟩ := hd.sub (s', t') h
    dsimp only at h3 h4
    subst h3
    refine ⟨rfl, hv.post_sep s' _ _ fun v hvm => ?_⟩
    rcases hd.fixed v hvm with h1 | h1
    · exact iff_of_true (h1 (_, t') h) (h1 (_, t) hst)
    · exact iff_of_false (h1 (_, t') h) (h1 (_, t) hst)
  · rintro ⟨rfl, rfl⟩
    exact hst

theorem detRandom_ff (rnd : List Bool) (vs : List (T I O)) : determinizeRandomized (semMgr I O) rnd vs (semMgr I O).ff = (semMgr I O).ff := by
  have hd := determinizeRandomized_isDet (semReading I O) vs rnd (semMgr I O).ff
  funext s t
  exact eq_false fun h => hd.sub (s, t) h

theorem below_sem (a b : T I O) : (semMgr I O).below a b = true ↔ (∀ s t, a s t → b s t) ∧ ∃ s t, b s t ∧ ¬ a s t := by
  rw [Mgr.below, Bool.and_eq_true, decide_eq_true_iff, decide_eq_true_iff]
  have h1 : (semMgr I O).and a ((semMgr I O).not b) = (semMgr I O).ff ↔ ∀ s t, a s t → b s t := by
    constructor
    · intro h s t hst
      by_contra hb
      exact (iff_of_eq (congrFun (congrFun h s) t)).mp ⟨hst, hb⟩
    · intro h
      funext s t
      exact eq_false fun ⟨h1, h2⟩ => h2 (h s t h1)
  rw [h1, and_comm]
  refine and_congr_right fun hab => ?_
  constructor
  · intro hne
    by_contra hno
    push Not at hno
    exact hne (funext fun s => funext fun t => propext ⟨hab s t, hno s t⟩)
  · rintro ⟨s, t, hb, ha⟩ rfl
    exact ha hb

/-- A single transition is less than a constraint. -/
theorem below_from1 (s t : Pos I O) (b : T I O) : (semMgr I O).below (from1 s {t}) b = true ↔ b s t ∧ ∃ x y, (x, y) ≠ (s, t) ∧ b x y := by
  rw [below_sem]
  refine and_congr ⟨fun h => h s t ⟨rfl, rfl⟩, ?_⟩ (exists_congr fun x => exists_congr fun y => ?_)
  · rintro h s' t' ⟨rfl, rfl⟩
    exact h
  · rw [and_comm]
    refine and_congr_left fun _ => not_congr ?_
    exact ⟨fun ⟨h1, h2⟩ => Prod.ext h1 h2, fun h => ⟨congrArg Prod.fst h, congrArg Prod.snd h⟩⟩

/-! ### The strategy of the environment -/

/-- The transitions after which the environment is still in `N`. -/
def keeps (g : Game I O) (N : Set (Pos I O)) : T I O := fun s t => (∀ o, (t.1, o) ∈ N ∨ ¬ g.safetySys s (t.1, o)) ∧ g.safetyEnv s t.1

/-- The positions from which the environment can stay in `N`. -/
def stay (g : Game I O) (N : Set (Pos I O)) : Set (Pos I O) := {s | ∃ i, (∀ o, (i, o) ∈ N ∨ ¬ g.safetySys s (i, o)) ∧ g.safetyEnv s i}

theorem stay_mono (g : Game I O) {N N' : Set (Pos I O)} (h : N ⊆ N') : stay g N ⊆ stay g N' :=
  fun _ ⟨i, h1, h2⟩ => ⟨i, fun o => (h1 o).imp_left fun k => h k, h2⟩

theorem keeps_sem (g : Game I O) (N : Set (Pos I O)) :
    (semMgr I O).and ((semMgr I O).allPostOutput ((semMgr I O).or ((semMgr I O).swap (pre N)) ((semMgr I O).not (gameCtx g).safetySys))) (gameCtx g).safetyEnv =
      keeps g N := rfl

theorem stay_sem (g : Game I O) (N : Set (Pos I O)) : (semMgr I O).exPostInput (keeps g N) = pre (stay g N) := rfl

theorem deadlockLoop_aux [Finite I] [Finite O] (g : Game I O) : ∀ (fuel : Nat) (old : Set (Pos I O)), stay g old ⊆ old → old.ncard < fuel →
    ∃ N, deadlockLoop (semMgr I O) (gameCtx g) fuel (pre (stay g old)) (pre old) (keeps g old) = some (keeps g N) := by
  intro fuel
  induction fuel with
  | zero => intro old _ h; omega
  | succ fuel ih =>
    intro old hs hc
    rw [deadlockLoop]
    by_cases he : pre (stay g old) = pre old
    · exact ⟨old, if_pos he⟩
    · rw [if_neg he]
      dsimp only
      rw [keeps_sem, stay_sem]
      have hlt : (stay g old).ncard < old.ncard :=
        Set.ncard_lt_ncard (Set.ssubset_iff_subset_ne.mpr ⟨hs, fun h => he (by rw [h])⟩) (Set.toFinite _)
      exact ih _ (stay_mono g hs) (by omega)

theorem deadlockLoop_sem [Finite I] [Finite O] [Nonempty I] [Nonempty O] (g : Game I O) (fuel : Nat) (hf : Nat.card (Pos I O) + 1 < fuel) :
    ∃ N, deadlockLoop (semMgr I O) (gameCtx g) fuel (semMgr I O).tt (semMgr I O).ff (semMgr I O).ff = some (keeps g N) := by
  obtain ⟨fuel, rfl⟩ : ∃ m, fuel = m + 1 := ⟨fuel - 1, by omega⟩
  rw [deadlockLoop, if_neg]
  swap
  · intro h
    exact (iff_of_eq (congrFun (congrFun h (Classical.arbitrary _)) (Classical.arbitrary _))).mp trivial
  dsimp only
  have e : (semMgr I O).tt = pre (Set.univ : Set (Pos I O)) := by
    funext s t
    exact propext ⟨fun _ => Set.mem_univ _, fun _ => trivial⟩
  rw [e, keeps_sem, stay_sem]
  refine deadlockLoop_aux g fuel _ (Set.subset_univ _) ?_
  rw [Set.ncard_univ]
  omega

/-- Inputs with which the environment makes sure to fulfil `A` or to come to `W`. -/
def presses (g : Game I O) (A ndt : T I O) (W : Set (Pos I O)) : T I O := fun s t =>
  ∀ o, ((A s (t.1, o) ∨ (t.1, o) ∈ W) ∧ ndt s (t.1, o)) ∨ ¬ g.safetySys s (t.1, o)

theorem presses_mono (g : Game I O) (A ndt : T I O) {W W' : Set (Pos I O)} (h : W ⊆ W') {s t : Pos I O} (hp : presses g A ndt W s t) :
    presses g A ndt W' s t := fun o => (hp o).imp_left fun ⟨h1, h2⟩ => ⟨h1.imp_right fun k => h k, h2⟩

/-- The positions with such an input. -/
def pressing (g : Game I O) (A ndt : T I O) (W : Set (Pos I O)) : Set (Pos I O) := {s | ∃ i, ∀ o, presses g A ndt W s (i, o)}

theorem pressing_sem [Nonempty O] (g : Game I O) (A ndt : T I O) (W : Set (Pos I O)) :
    (semMgr I O).exPostInput (presses g A ndt W) = pre (pressing g A ndt W) := by
  funext s t
  refine propext ⟨fun ⟨i, h⟩ => ⟨i, fun _ => h⟩, fun ⟨i, h⟩ => ⟨i, h (Classical.arbitrary O)⟩⟩

/-- What is known of the moves that have been collected. -/
def MovesOK (g : Game I O) (ndt : T I O) (W : Set (Pos I O)) (mv : T I O) : Prop :=
  ∀ s ∈ W, ∃ i, (∀ o, mv s (i, o)) ∧ ∀ o, ndt s (i, o) ∨ ¬ g.safetySys s (i, o)

theorem hopeLoop_aux [Finite I] [Finite O] [Nonempty O] (g : Game I O) (A ndt : T I O) : ∀ (fuel : Nat) (old : Set (Pos I O)) (mv : T I O),
    old ⊆ pressing g A ndt old → MovesOK g ndt old mv → Nat.card (Pos I O) - old.ncard < fuel →
    ∃ W mv', hopeLoop (semMgr I O) (gameCtx g) A ndt fuel (pre old) mv = some (pre W, mv') ∧ MovesOK g ndt W mv' := by
  intro fuel
  induction fuel with
  | zero => intro old _ _ _ h; omega
  | succ fuel ih =>
    intro old mv hs hm hc
    have e : (semMgr I O).allPostOutput ((semMgr I O).or ((semMgr I O).and ((semMgr I O).or A ((semMgr I O).swap (pre old))) ndt)
        ((semMgr I O).not (gameCtx g).safetySys)) = presses g A ndt old := rfl
    rw [hopeLoop, e, pressing_sem]
    have hm' : MovesOK g ndt (pressing g A ndt old) ((semMgr I O).or mv ((semMgr I O).and ((semMgr I O).and (pre (pressing g A ndt old))
        ((semMgr I O).not (pre old))) (presses g A ndt old))) := by
      intro s hs'
      by_cases ho : s ∈ old
      · obtain ⟨i, h1, h2⟩ := hm s ho
        exact ⟨i, fun o => .inl (h1 o), h2⟩
      · obtain ⟨i, hi⟩ := hs'
        refine ⟨i, fun o => .inr ⟨⟨⟨i, hi⟩, ho⟩, hi o⟩, fun o => ?_⟩
        exact (hi o o).imp_left And.right
    by_cases he : pre (pressing g A ndt old) = pre old
    · rw [if_pos he]
      exact ⟨_, _, rfl, hm'⟩
    · rw [if_neg he]
      refine ih _ _ (fun s ⟨i, hi⟩ => ⟨i, fun o => presses_mono g A ndt hs (hi o)⟩) hm' ?_
      have hlt : old.ncard < (pressing g A ndt old).ncard :=
        Set.ncard_lt_ncard (Set.ssubset_iff_subset_ne.mpr ⟨hs, fun h => he (by rw [← h])⟩) (Set.toFinite _)
      have hle : (pressing g A ndt old).ncard ≤ Nat.card (Pos I O) := by
        rw [← Set.ncard_univ]
        exact Set.ncard_le_ncard (Set.subset_univ _) (Set.toFinite _)
      omega

theorem hopeLoop_sem [Finite I] [Finite O] [Nonempty O] (g : Game I O) (A ndt : T I O) (fuel : Nat) (hf : Nat.card (Pos I O) < fuel) :
    ∃ W mv, hopeLoop (semMgr I O) (gameCtx g) A ndt fuel (semMgr I O).ff (semMgr I O).ff = some (pre W, mv) ∧ MovesOK g ndt W mv :=
  hopeLoop_aux g A ndt fuel ∅ _ (Set.empty_subset _) (fun _ h => h.elim) (by omega)

/-- What is known of a strategy of the environment: in every position there is an input that it does not exclude, and it is allowed or has no answer. -/
def EnvMoves (g : Game I O) (E : T I O) : Prop :=
  ∀ s, (∀ i o, E s (i, o)) ∨ ∃ i, (∀ o, E s (i, o)) ∧ (g.safetyEnv s i ∨ ∀ o, ¬ g.safetySys s (i, o))

theorem hopeStrategies_sem [Finite I] [Finite O] [Nonempty O] (g : Game I O) (N : Set (Pos I O)) (fuel : Nat) (hf : Nat.card (Pos I O) < fuel) :
    ∀ As : List (T I O), ∃ es, hopeStrategies (semMgr I O) (gameCtx g) (keeps g N) fuel As = some es ∧ es.length = As.length ∧
      ∀ E ∈ es, EnvMoves g E := by
  intro As
  induction As with
  | nil => exact ⟨[], rfl, rfl, fun _ h => by cases h⟩
  | cons A As ih =>
    obtain ⟨es, h1, h2, h3⟩ := ih
    obtain ⟨W, mv, h4, h5⟩ := hopeLoop_sem g A (keeps g N) fuel hf
    refine ⟨(semMgr I O).or mv ((semMgr I O).not (pre W)) :: es, ?_, ?_, ?_⟩
    · rw [hopeStrategies, h4, h1]
    · rw [List.length_cons, List.length_cons, h2]
    · intro E hE
      rcases List.mem_cons.mp hE with rfl | hE
      · intro s
        by_cases hs : s ∈ W
        · obtain ⟨i, h6, h7⟩ := h5 s hs
          refine .inr ⟨i, fun o => .inl (h6 o), ?_⟩
          by_cases hi : g.safetyEnv s i
          · exact .inl hi
          · exact .inr fun o => (h7 o).resolve_left fun h => hi h.2
        · exact .inl fun i o => .inr hs
      · exact h3 E hE

/-! ### The run -/

/-- The variables as they are used elsewhere. -/
def RunVars.vars {B : Type} (vs : RunVars B) : Vars B := { preVars := vs.preVars, postVars := vs.postVars, labels := vs.inputs ++ vs.outputs }

/-- A round in which a successor is found: `t` is the next position, `t'` is the one that the marks refer to. -/
structure RunRoundOK (g : Game I O) (Z : Set (Pos I O)) (s t t' : Pos I O) (sg eg : Nat) (st : RunStep (T I O)) : Prop where
  pos : st.pos = pre {t}
  next : g.safetyEnv s t.1 ∧ g.safetySys s t ∧ t ∈ Z
  edge : g.safetyEnv s t'.1 ∧ g.safetySys s t' ∧ t' ∈ Z
  sysSat : ∀ G, g.guarantees[sg]? = some G → (st.sysSat = true ↔ G s t' ∧ ∃ x y, (x, y) ≠ (s, t') ∧ G x y)
  envSat : ∀ A, g.assumptions[eg]? = some A → (st.envSat = true ↔ A s t' ∧ ∃ x y, (x, y) ≠ (s, t') ∧ A x y)
  sysGoal : st.sysGoal = nextGoal g.guarantees.length sg st.sysSat
  envGoal : st.envGoal = nextGoal g.assumptions.length eg st.envSat
  violation : st.envViolation = true → ∀ x y, g.safetyEnv x y.1 → (x, y) = (s, t')

/-- What is computed, starting from position `s` and with the given goals, in at most `n` rounds. -/
inductive RunsFrom (g : Game I O) (Z : Set (Pos I O)) : Nat → Pos I O → Nat → Nat → List (RunStep (T I O)) → Prop
  | done {s : Pos I O} {sg eg : Nat} : RunsFrom g Z 0 s sg eg []
  | lost {n : Nat} {s : Pos I O} {sg eg : Nat} {st : RunStep (T I O)} : st.pos = (semMgr I O).ff →
      (g.AlwaysAnswer → ∀ i, ¬ g.safetyEnv s i) → RunsFrom g Z (n + 1) s sg eg [st]
  | step {n : Nat} {s t t' : Pos I O} {sg eg : Nat} {st : RunStep (T I O)} {rest : List (RunStep (T I O))} : RunRoundOK g Z s t t' sg eg st →
      RunsFrom g Z n t st.sysGoal st.envGoal rest → RunsFrom g Z (n + 1) s sg eg (st :: rest)

theorem runLoop_sem (g : Game I O) {vs : RunVars (T I O)} (hv : VarsOK vs.vars) {Z : Set (Pos I O)} {S : List (T I O)}
    (hS1 : S.length = g.guarantees.length)
    (hS2 : ∀ F ∈ S, (∀ s t, F s t → g.safetySys s t ∧ t ∈ Z) ∧ ∀ s ∈ Z, ∀ i, g.safetyEnv s i → ∃ o, F s (i, o))
    {E : List (T I O)} (hE1 : E.length = g.assumptions.length) (hE2 : ∀ F ∈ E, EnvMoves g F) :
    ∀ (n : Nat) (s : Pos I O) (sg eg : Nat) (rnd : List Bool), s ∈ Z → sg < g.guarantees.length → eg < g.assumptions.length →
      ∃ steps, runLoop (semMgr I O) (gameCtx g) vs S E n (pre {s}) sg eg rnd = some steps ∧ RunsFrom g Z n s sg eg steps := by
  intro n
  induction n with
  | zero => intro s sg eg rnd _ _ _; exact ⟨[], rfl, .done⟩
  | succ n ih =>
    intro s sg eg rnd hs hsg heg
    have hne : ¬ (pre {s} : T I O) = (semMgr I O).ff := fun h => (iff_of_eq (congrFun (congrFun h s) s)).mp rfl
    rw [runLoop, if_neg hne]
    have e1 := List.getElem?_eq_getElem (hS1.symm ▸ hsg : sg < S.length)
    have e2 := List.getElem?_eq_getElem (hE1.symm ▸ heg : eg < E.length)
    have e3 : (gameCtx g).livenessGuarantees[sg]? = some g.guarantees[sg] := List.getElem?_eq_getElem hsg
    have e4 : (gameCtx g).livenessAssumptions[eg]? = some g.assumptions[eg] := List.getElem?_eq_getElem heg
    rw [e1, e2, e3, e4]
    dsimp only
    obtain ⟨hF1, hF2⟩ := hS2 _ (List.getElem_mem (hS1.symm ▸ hsg : sg < S.length))
    have hEm := hE2 _ (List.getElem_mem (hE1.symm ▸ heg : eg < E.length))
    generalize S[sg]'(hS1.symm ▸ hsg : sg < S.length) = F at hF1 hF2
    generalize E[eg]'(hE1.symm ▸ heg : eg < E.length) = Ev at hEm
    let R : Set (Pos I O) := {t | g.safetyEnv s t.1 ∧ F s t ∧ Ev s t}
    have eN : (semMgr I O).and ((semMgr I O).and ((semMgr I O).and (pre {s}) (gameCtx g).safetyEnv) F) Ev = from1 s R := by
      funext x y
      refine propext ⟨?_, ?_⟩
      · rintro ⟨⟨⟨h1, h2⟩, h3⟩, h4⟩
        obtain rfl : x = s := h1
        exact ⟨rfl, h2, h3, h4⟩
      · rintro ⟨rfl, h2, h3, h4⟩
        exact ⟨⟨⟨rfl, h2⟩, h3⟩, h4⟩
    rw [eN]
    have eP : (semMgr I O).swap ((semMgr I O).exPre (from1 s R)) = pre R := by
      funext x y
      refine propext ⟨?_, ?_⟩
      · rintro ⟨_, _, h⟩
        exact h
      · intro h
        exact ⟨s, rfl, h⟩
    rw [eP]
    by_cases hR : R.Nonempty
    · obtain ⟨t', ht', ed⟩ := detRandom_post hv rnd s hR
      obtain ⟨t, ht, ep⟩ := detRandom_pre hv (rnd.drop vs.postVars.length) hR
      rw [show vs.vars.postVars = vs.postVars from rfl] at ed
      rw [show vs.vars.preVars = vs.preVars from rfl] at ep
      rw [ed, ep]
      have hlt : ∀ {k n : Nat} {b : Bool}, k < n → (if b = true then (k + 1) % n else k) < n := by
        intro k n b h
        split
        · exact Nat.mod_lt _ (by omega)
        · exact h
      obtain ⟨steps, h1, h2⟩ := ih t
        (if (semMgr I O).below (from1 s {t'}) g.guarantees[sg] = true then (sg + 1) % (gameCtx g).livenessGuarantees.length else sg)
        (if (semMgr I O).below (from1 s {t'}) g.assumptions[eg] = true then (eg + 1) % (gameCtx g).livenessAssumptions.length else eg)
        (rnd.drop (vs.postVars.length + vs.preVars.length)) (hF1 s t ht.2.1).2 (hlt hsg) (hlt heg)
      rw [h1]
      refine ⟨_, rfl, .step (t := t) (t' := t') ?_ h2⟩
      refine ⟨rfl, ⟨ht.1, (hF1 s t ht.2.1)⟩, ⟨ht'.1, (hF1 s t' ht'.2.1)⟩, ?_, ?_, rfl, rfl, ?_⟩
      · intro G hG
        rw [List.getElem?_eq_getElem hsg] at hG
        cases hG
        exact below_from1 s t' _
      · intro A hA
        rw [List.getElem?_eq_getElem heg] at hA
        cases hA
        exact below_from1 s t' _
      · intro hvi x y hxy
        by_contra hne'
        have : (semMgr I O).below (from1 s {t'}) (gameCtx g).safetyEnv = true := (below_from1 s t' _).mpr ⟨ht'.1, x, y, hne', hxy⟩
        rw [this] at hvi
        cases hvi
    · have hRe : R = ∅ := Set.not_nonempty_iff_eq_empty.mp hR
      have ep : determinizeRandomized (semMgr I O) (rnd.drop vs.postVars.length) vs.preVars (pre R) = (semMgr I O).ff := by
        rw [hRe]
        exact detRandom_ff _ _
      rw [ep]
      have e0 : ∀ sg eg rnd, runLoop (semMgr I O) (gameCtx g) vs S E n (semMgr I O).ff sg eg rnd = some [] := by
        intro sg eg rnd
        cases n with
        | zero => rfl
        | succ n => rw [runLoop, if_pos rfl]
      rw [e0]
      refine ⟨_, rfl, .lost rfl fun ha i hi => ?_⟩
      obtain ⟨j, hj, hj'⟩ : ∃ j, (∀ o, Ev s (j, o)) ∧ g.safetyEnv s j := by
        rcases hEm s with h | ⟨j, h1, h2 | h2⟩
        · exact ⟨i, h i, hi⟩
        · exact ⟨j, h1, h2⟩
        · refine ⟨j, h1, ?_⟩
          by_contra hn
          obtain ⟨o, ho⟩ := ha s j hn
          exact h2 o ho
      obtain ⟨o, ho⟩ := hF2 s hs j hj'
      exact hR ⟨(j, o), hj', ho, hj o⟩

/-! ### The rows -/

/-- The rows, computed one after the other. -/
def rowsOf {B : Type} [DecidableEq B] (M : Mgr B) (c : Ctx B) (vs : RunVars B) (junk : Bool × Bool) : B → B → Nat → Nat → List (RunStep B) → List RunRow
  | prev, pos, sg, eg, [] =>
    [{ envGoal := eg, envMark := junk.1, envViolation := junk.2, sysGoal := sg, sysMark := false, body := runBody M c vs prev pos }]
  | prev, pos, sg, eg, st :: rest =>
    { envGoal := eg, envMark := st.envSat, envViolation := st.envViolation, sysGoal := sg, sysMark := st.sysSat, body := runBody M c vs prev pos } ::
      rowsOf M c vs junk pos st.pos st.sysGoal st.envGoal rest

theorem rowsOf_eq {B : Type} [DecidableEq B] (M : Mgr B) (c : Ctx B) (vs : RunVars B) (junk : Bool × Bool) (start : B) : ∀ (steps : List (RunStep B))
    (prev pos : B) (sg eg : Nat), ((List.range (steps.length + 1)).map fun k =>
      ({ envGoal := (eg :: steps.map RunStep.envGoal).getD k 0
         envMark := (steps.map RunStep.envSat).getD k junk.1
         envViolation := (steps.map RunStep.envViolation).getD k junk.2
         sysGoal := (sg :: steps.map RunStep.sysGoal).getD k 0
         sysMark := (steps.map RunStep.sysSat ++ [false]).getD k false
         body := runBody M c vs ((prev :: pos :: steps.map RunStep.pos).getD k start) ((pos :: steps.map RunStep.pos).getD k start) } : RunRow)) =
      rowsOf M c vs junk prev pos sg eg steps := by
  intro steps
  induction steps with
  | nil => intro prev pos sg eg; rfl
  | cons st rest ih =>
    intro prev pos sg eg
    rw [List.length_cons, List.range_succ_eq_map, List.map_cons, List.map_map, rowsOf, ← ih]
    rfl

theorem runRows_eq {B : Type} [DecidableEq B] (M : Mgr B) (c : Ctx B) (vs : RunVars B) (start : B) (steps : List (RunStep B)) (junk : Bool × Bool) :
    runRows M c vs start steps junk = rowsOf M c vs junk start start 0 0 steps := by
  rw [← rowsOf_eq M c vs junk start, runRows, List.length_cons, List.length_map]
  refine List.map_congr_left fun k _ => ?_
  cases k <;> rfl

theorem readsInside_false {B : Type} (steps : List (RunStep B)) : readsInside steps = false := by
  rw [readsInside, List.all_eq_false]
  refine ⟨steps.length, List.mem_range.mpr (by omega), ?_⟩
  simp

end Slugs.Model
