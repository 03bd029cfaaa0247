import Verif.Lemmas.Trace
import Verif.Lemmas.CounterText

/-! Abstract traces: what the complete computation yields, on the game and on the table of a file. -/

namespace Slugs.Model

open Slugs.Spec

variable {I O : Type}

/-! ### No variable can be restricted further -/

/-- No literal restricts the element, given the one before it. -/
def TightLit (g : Game I O) (env : Bool) (Q S : Set (Pos I O)) (lit : T I O) : Prop :=
  ¬ (Q ⊆ fpre g env {s | s ∈ S ∧ lit s s} ∧ {s | s ∈ S ∧ lit s s} ≠ S)

theorem tryLiteral_false (g : Game I O) (env : Bool) {Q S : Set (Pos I O)} {lit : T I O} (hl : ∀ s t t', lit s t ↔ lit s t') {b : Bool}
    (h : (tryLiteral (semMgr I O) (gameCtx g) env (pre Q) lit (pre S, b)).2 = false) :
    tryLiteral (semMgr I O) (gameCtx g) env (pre Q) lit (pre S, b) = (pre S, b) ∧ TightLit g env Q S lit := by
  have e : (semMgr I O).and (pre S) lit = pre {s | s ∈ S ∧ lit s s} := by
    funext s t
    exact propext (and_congr_right fun _ => hl s t s)
  rw [tryLiteral] at h ⊢
  dsimp only at h ⊢
  rw [e, forcePre_sem] at h ⊢
  split at h
  · cases h
  · rename_i hc
    rw [if_neg hc]
    refine ⟨rfl, fun hq => hc ⟨?_, fun h => hq.2 (pre_inj.mp h)⟩⟩
    funext s t
    refine propext ⟨fun _ => trivial, fun _ => ?_⟩
    by_cases hs : s ∈ Q
    · exact .inl (hq.1 hs)
    · exact .inr hs

theorem tryAll_false (g : Game I O) (env : Bool) {Q S : Set (Pos I O)} : ∀ (vs : List (T I O)), (∀ v ∈ vs, ∀ s t t', v s t ↔ v s t') → ∀ {b : Bool},
    (vs.foldl (tryVariable (semMgr I O) (gameCtx g) env (pre Q)) (pre S, b)).2 = false →
    b = false ∧ ∀ v ∈ vs, TightLit g env Q S v ∧ TightLit g env Q S ((semMgr I O).not v) := by
  have mono : ∀ (lit : T I O) (st : T I O × Bool), (tryLiteral (semMgr I O) (gameCtx g) env (pre Q) lit st).2 = false → st.2 = false := by
    intro lit st h
    rw [tryLiteral] at h
    split at h
    · cases h
    · exact h
  have monoV : ∀ (vs : List (T I O)) (st : T I O × Bool),
      (vs.foldl (tryVariable (semMgr I O) (gameCtx g) env (pre Q)) st).2 = false → st.2 = false := by
    intro vs
    induction vs with
    | nil => intro st h; exact h
    | cons v vs ih => intro st h; exact mono _ _ (mono _ _ (ih _ h))
  intro vs
  induction vs with
  | nil => intro _ b h; exact ⟨h, fun v hv => absurd hv (List.not_mem_nil)⟩
  | cons v vs ih =>
    intro hv b h
    rw [List.foldl_cons] at h
    have h1 := monoV vs _ h
    rw [tryVariable] at h1
    obtain ⟨e1, t1⟩ := tryLiteral_false g env (hv v (by simp)) (mono _ _ h1)
    rw [e1] at h1
    obtain ⟨e2, t2⟩ := tryLiteral_false g env (lit := (semMgr I O).not v) (fun s t t' => not_congr (hv v (by simp) s t t')) h1
    rw [tryVariable, e1, e2] at h
    obtain ⟨hb, ht⟩ := ih (fun v' h' => hv v' (by simp [h'])) h
    refine ⟨hb, fun v' hv' => ?_⟩
    rcases List.mem_cons.mp hv' with rfl | hv'
    · exact ⟨t1, t2⟩
    · exact ht v' hv'

/-- No element can be restricted. -/
def TightChain (g : Game I O) (env : Bool) (vs : List (T I O)) : Set (Pos I O) → List (Set (Pos I O)) → Prop
  | _, [] => True
  | Q, S :: Ss => (∀ v ∈ vs, TightLit g env Q S v ∧ TightLit g env Q S ((semMgr I O).not v)) ∧ TightChain g env vs S Ss

theorem restrictPass_false (g : Game I O) (env : Bool) (vs : List (T I O)) (hv : ∀ v ∈ vs, ∀ s t t', v s t ↔ v s t') :
    ∀ (Ss : List (Set (Pos I O))) (Q : Set (Pos I O)), ForceChain g env Q Ss →
    (restrictPass (semMgr I O) (gameCtx g) env vs (pre Q) (Ss.map pre)).2 = false → TightChain g env vs Q Ss := by
  intro Ss
  induction Ss with
  | nil => intro Q _ _; trivial
  | cons S Ss ih =>
    intro Q hc h
    rw [List.map_cons, restrictPass] at h
    dsimp only at h
    rw [Bool.or_eq_false_iff] at h
    obtain ⟨_, ht⟩ := tryAll_false g env vs hv h.1
    refine ⟨ht, ih S hc.2 ?_⟩
    obtain ⟨S', b', e, _, _, hb⟩ := tryAll_sem g env vs hv hc.1 false
    rw [e] at h
    rcases hb with ⟨rfl, rfl⟩ | ⟨rfl, _⟩
    · exact h.2
    · cases h.1

theorem restrictLoop_tight [Finite I] [Finite O] (g : Game I O) (env : Bool) (vs : List (T I O)) (hv : ∀ v ∈ vs, ∀ s t t', v s t ↔ v s t')
    (Q : Set (Pos I O)) : ∀ (fuel : Nat) (Ss Ss' : List (Set (Pos I O))), ForceChain g env Q Ss →
    restrictLoop (semMgr I O) (gameCtx g) env vs (pre Q) fuel (Ss.map pre) = some (Ss'.map pre) → TightChain g env vs Q Ss' := by
  intro fuel
  induction fuel with
  | zero => intro Ss Ss' _ h; cases h
  | succ fuel ih =>
    intro Ss Ss' hc h
    obtain ⟨Ss1, b, e, hc', hs, cs⟩ := restrictPass_sem g env vs hv Ss Q Q subset_rfl hc
    have hinj : Function.Injective (pre : Set (Pos I O) → T I O) := fun a b h => pre_inj.mp h
    have hf := restrictPass_false g env vs hv Ss Q hc
    rw [restrictLoop, e] at h
    rw [e] at hf
    rcases cs with ⟨rfl, rfl⟩ | ⟨rfl, hn⟩
    · have := List.map_injective_iff.mpr hinj (Option.some.inj (by simpa using h))
      subst this
      exact hf rfl
    · exact ih Ss1 Ss' hc' (by simpa using h)

/-! ### The last input -/

/-- What is needed of the variables. -/
structure TraceVarsOK (vs : TraceVars (T I O)) : Prop where
  pre_indep : ∀ v ∈ vs.preVars, ∀ s t t', v s t ↔ v s t'
  pre_one : ∀ {S : Set (Pos I O)}, S.Nonempty → ∃ s ∈ S, determinize (semMgr I O) vs.preVars (pre S) = pre {s}
  in_indep : ∀ v ∈ vs.postInputVars, ∀ s s' t t', t.1 = t'.1 → (v s t ↔ v s' t')
  in_sep : ∀ s t t', (∀ v ∈ vs.postInputVars, v s t ↔ v s t') → t.1 = t'.1

/-- The set that is shown in the last column for the environment. -/
inductive LastSet (g : Game I O) (Q : Set (Pos I O)) : Set (Pos I O) → Prop
  | none : g.Blocking Q = ∅ → LastSet g Q ∅
  | input (i : I) : i ∈ g.Blocking Q → LastSet g Q {p | p.1 = i}

theorem lastInput_sem [Nonempty I] [Nonempty O] (g : Game I O) {vs : TraceVars (T I O)} (hv : TraceVarsOK vs) (Q : Set (Pos I O)) :
    ∃ L, LastSet g Q L ∧ lastInput (semMgr I O) (gameCtx g) vs.postInputVars (pre Q) = pre L := by
  have e : (semMgr I O).allPreInput ((semMgr I O).allPreOutput ((semMgr I O).allPostOutput ((semMgr I O).or
      ((semMgr I O).and (gameCtx g).safetyEnv ((semMgr I O).not (gameCtx g).safetySys)) ((semMgr I O).not (pre Q))))) =
      fun _ t => t.1 ∈ g.Blocking Q := by
    funext s t
    simp only [semMgr, gameCtx, pre, Game.Blocking, Set.mem_ofPred_eq, eq_iff_iff]
    constructor
    · intro h p hp
      refine ⟨?_, fun o => ?_⟩
      · exact ((h p.1 p.2 (Classical.arbitrary O)).resolve_right (not_not_intro hp)).1
      · exact ((h p.1 p.2 o).resolve_right (not_not_intro hp)).2
    · intro h i o o'
      by_cases hp : (i, o) ∈ Q
      · exact .inl ⟨(h _ hp).1, (h _ hp).2 o'⟩
      · exact .inr hp
  rw [lastInput, e]
  have hd := determinize_isDet (semReading I O) vs.postInputVars (fun _ t => t.1 ∈ g.Blocking Q)
  have hcl := determinize_closed (M := semMgr I O) (fun f => ∀ (s s' t t' : Pos I O), t.1 = t'.1 → (f s t ↔ f s' t')) vs.postInputVars
    (fun _ t => t.1 ∈ g.Blocking Q) (fun _ _ _ _ h => by rw [h])
    (fun v hvm f hf => ⟨fun s s' t t' h => and_congr (hf s s' t t' h) (hv.in_indep v hvm s s' t t' h),
      fun s s' t t' h => and_congr (hf s s' t t' h) (not_congr (hv.in_indep v hvm s s' t t' h))⟩)
  generalize determinize (semMgr I O) vs.postInputVars (fun _ t => t.1 ∈ g.Blocking Q) = r at hd hcl
  by_cases hb : g.Blocking Q = ∅
  · refine ⟨∅, .none hb, ?_⟩
    funext s t
    refine propext ⟨fun h => ?_, fun h => h.elim⟩
    have := hd.sub (t, s) h
    rw [hb] at this
    exact this
  · obtain ⟨i, hi⟩ := Set.nonempty_iff_ne_empty.mpr hb
    obtain ⟨⟨s, t⟩, hst⟩ := hd.nonempty ⟨((i, Classical.arbitrary O), (i, Classical.arbitrary O)), hi⟩
    refine ⟨{p | p.1 = t.1}, .input t.1 (hd.sub _ hst), ?_⟩
    funext s' t'
    refine propext ⟨fun h => ?_, fun h => (hcl s t' t s' (Eq.symm h)).mp hst⟩
    have h' : r s s' := (hcl t' s s' s' rfl).mp h
    refine hv.in_sep s s' t fun v hvm => ?_
    rcases hd.fixed v hvm with h1 | h1
    · exact iff_of_true (h1 (s, s') h') (h1 (s, t) hst)
    · exact iff_of_false (h1 (s, s') h') (h1 (s, t) hst)

theorem replaceLast_snoc {B : Type} (f : B → B) : ∀ (Ss : List B) (p x : B), replaceLast f p (Ss ++ [x]) = Ss ++ [f ((p :: Ss).getLast (by simp))]
  | [], _, _ => rfl
  | [d], _, _ => rfl
  | d :: d' :: ds, p, x => by
    have := replaceLast_snoc f (d' :: ds) d x
    simp only [List.cons_append, replaceLast] at this ⊢
    rw [this]
    simp

/-! ### The complete computation -/

/-- The sets behind the table. -/
structure TraceSets (g : Game I O) (env : Bool) (vs : List (T I O)) (n : Nat) (s : Pos I O) (Ss : List (Set (Pos I O))) : Prop where
  init : g.initEnv s.1 ∧ g.initSys s
  win : s ∈ stage g env n
  length : Ss.length + 1 = n
  chain : ForceChain g env {s} (Ss ++ [∅])
  sub : List.Forall₂ (· ⊆ ·) (Ss ++ [∅]) (stages g env n)
  tight : TightChain g env vs {s} (Ss ++ [∅])

/-- The least number of rounds with which the test succeeds. -/
def FirstRound (g : Game I O) (env : Bool) (n : Nat) : Prop :=
  1 ≤ n ∧ Starts g env (stage g env n) ∧ ∀ m, 1 ≤ m → m < n → ¬ Starts g env (stage g env m)

theorem subset_snoc {g : Game I O} {env : Bool} : ∀ {n : Nat} {Ss : List (Set (Pos I O))}, 1 ≤ n → List.Forall₂ (· ⊆ ·) Ss (stages g env n) →
    ∃ Ss', Ss = Ss' ++ [∅]
  | 1, _, _, h => by
    cases h with
    | cons h1 h2 =>
      cases h2
      exact ⟨[], by rw [Set.subset_empty_iff.mp h1]; rfl⟩
  | n + 2, _, _, h => by
    cases h with
    | @cons a _ l _ h1 h2 =>
      obtain ⟨Ss', rfl⟩ := subset_snoc (n := n + 1) (by omega) h2
      exact ⟨a :: Ss', rfl⟩

theorem computeTrace_sem [Finite I] [Finite O] [Nonempty I] [Nonempty O] (g : Game I O) {vs : TraceVars (T I O)} (hv : TraceVarsOK vs) (env : Bool)
    (fuel : Nat) (hf : (Nat.card (Pos I O) + 1) * (Nat.card (Pos I O) + 1) + 1 < fuel) :
    (∃ n s Ss L, FirstRound g env n ∧ TraceSets g env vs.preVars n s Ss ∧
      (if env then LastSet g ((({s} : Set (Pos I O)) :: Ss).getLast (by simp)) L else L = ∅) ∧
      computeTrace (semMgr I O) (gameCtx g) vs env fuel =
        some (.table (vs.rows.map Prod.fst) (({s} :: Ss ++ [L]).map fun S => vs.rows.map fun r => cellOf (semMgr I O) (pre S) r.2))) ∨
    (∃ n, FirstRound g env n ∧ (∀ s, g.initEnv s.1 → g.initSys s → s ∉ stage g env n) ∧
      computeTrace (semMgr I O) (gameCtx g) vs env fuel = some .noStrategy) ∨
    ((∀ m, 1 ≤ m → ¬ Starts g env (stage g env m)) ∧ computeTrace (semMgr I O) (gameCtx g) vs env fuel = some .nothing) := by
  rw [computeTrace]
  have hcard : Nat.card (Pos I O) + 1 ≤ (Nat.card (Pos I O) + 1) * (Nat.card (Pos I O) + 1) := Nat.le_mul_of_pos_left _ (by omega)
  rcases distanceLoop_sem g env fuel (by omega) with ⟨n, h1, h2, h3, h4, e⟩ | ⟨h1, W, ds, e⟩
  · rw [e]
    simp only
    have e1 : (semMgr I O).and ((semMgr I O).and (gameCtx g).initEnv (gameCtx g).initSys) (pre (stage g env n)) =
        pre {s | (g.initEnv s.1 ∧ g.initSys s) ∧ s ∈ stage g env n} := rfl
    rw [e1]
    by_cases hS : {s | (g.initEnv s.1 ∧ g.initSys s) ∧ s ∈ stage g env n} = ∅
    · rw [if_pos (by rw [hS]; rfl)]
      refine .inr (.inl ⟨n, ⟨h1, h2, h3⟩, fun s hs1 hs2 hs3 => ?_, rfl⟩)
      have : s ∈ ({s | (g.initEnv s.1 ∧ g.initSys s) ∧ s ∈ stage g env n} : Set (Pos I O)) := ⟨⟨hs1, hs2⟩, hs3⟩
      rw [hS] at this
      exact this
    · rw [if_neg fun h => hS (pre_inj.mp (h.trans (rfl : (semMgr I O).ff = pre ∅)))]
      left
      obtain ⟨s, ⟨hs1, hs2⟩, hs3⟩ := hv.pre_one (Set.nonempty_iff_ne_empty.mpr hS)
      rw [hs3]
      have hch := stages_chain g env n {s} (Set.singleton_subset_iff.mpr hs2)
      have hsz : sizes (stages g env n) < fuel := by
        have := sizes_stages g env n
        have h5 : n * Nat.card (Pos I O) ≤ (Nat.card (Pos I O) + 1) * (Nat.card (Pos I O) + 1) := Nat.mul_le_mul h4 (by omega)
        omega
      obtain ⟨Ss, e2, hc, hs⟩ := restrictLoop_sem g env vs.preVars hv.pre_indep {s} fuel (stages g env n) hsz hch
      have ht := restrictLoop_tight g env vs.preVars hv.pre_indep {s} fuel _ _ hch e2
      rw [e2]
      obtain ⟨Ss', rfl⟩ := subset_snoc h1 hs
      have hlen := hs.length_eq
      rw [stages_length, List.length_append, List.length_singleton] at hlen
      have hT : TraceSets g env vs.preVars n s Ss' := ⟨hs1, hs2, hlen, hc, hs, ht⟩
      cases env with
      | false => exact ⟨n, s, Ss', ∅, ⟨h1, h2, h3⟩, hT, rfl, by simp [List.map_append]⟩
      | true =>
        obtain ⟨L, hL, eL⟩ := lastInput_sem g hv ((({s} : Set (Pos I O)) :: Ss').getLast (by simp))
        refine ⟨n, s, Ss', L, ⟨h1, h2, h3⟩, hT, hL, ?_⟩
        simp only [if_true, List.map_append, List.map_cons, List.map_nil, replaceLast_snoc]
        have eg : ((pre {s} : T I O) :: Ss'.map pre).getLast (by simp) = pre ((({s} : Set (Pos I O)) :: Ss').getLast (by simp)) := by
          have := List.getLast_map (f := (pre : Set (Pos I O) → T I O)) (l := {s} :: Ss') (by simp)
          simpa using this
        rw [eg, eL]
        simp
  · rw [e]
    exact .inr (.inr ⟨h1, rfl⟩)

/-! ### Other representations -/

def TraceVars.map {A B : Type} (h : A → B) (vs : TraceVars A) : TraceVars B where
  preVars := vs.preVars.map h
  postInputVars := vs.postInputVars.map h
  rows := vs.rows.map fun r => (r.1, h r.2)

section
variable {A B : Type} [DecidableEq A] [DecidableEq B] {M : Mgr A} {N : Mgr B} {h : A → B} (H : MgrHom M N h)
include H

omit [DecidableEq A] [DecidableEq B] in
theorem forcePre_hom (c : Ctx A) (env : Bool) (X : A) : forcePre N (c.map h) env (h X) = h (forcePre M c env X) := by
  cases env <;> simp [forcePre, Ctx.map, H.swap, H.not, H.and, H.or, H.imp, H.exPostOutput, H.allPostInput, H.exPostInput, H.allPostOutput]

omit [DecidableEq A] [DecidableEq B] in
theorem startTest_hom (c : Ctx A) (env : Bool) (X : A) : startTest N (c.map h) env (h X) = h (startTest M c env X) := by
  cases env <;> simp [startTest, Ctx.map, H.not, H.and, H.or, H.imp, H.exPreOutput, H.allPreInput, H.exPreInput, H.allPreOutput]

theorem distanceLoop_hom (c : Ctx A) (env : Bool) : ∀ (n : Nat) (W old : A) (ds : List A),
    distanceLoop N (c.map h) env n (h W) (h old) (ds.map h) = (distanceLoop M c env n W old ds).map (Prod.map h (Prod.map (List.map h) id)) := by
  intro n
  induction n with
  | zero => intro W old ds; rfl
  | succ n ih =>
    intro W old ds
    rw [distanceLoop, distanceLoop]
    by_cases hw : W = old
    · subst hw; simp
    · rw [if_neg hw, if_neg fun e => hw (H.inj e)]
      dsimp only
      rw [forcePre_hom H, H.or, startTest_hom H, H.tt]
      by_cases ht : startTest M c env (M.or W (forcePre M c env W)) = M.tt
      · rw [if_pos ht, if_pos (by rw [ht])]; rfl
      · rw [if_neg ht, if_neg fun e => ht (H.inj e), ← ih]; rfl

theorem tryLiteral_hom (c : Ctx A) (env : Bool) (pre lit : A) (st : A × Bool) :
    tryLiteral N (c.map h) env (h pre) (h lit) (Prod.map h id st) = Prod.map h id (tryLiteral M c env pre lit st) := by
  obtain ⟨d, b⟩ := st
  simp only [tryLiteral, Prod.map_apply, id]
  rw [H.and, forcePre_hom H, H.not, H.or, H.tt]
  have e1 : (h (M.or (forcePre M c env (M.and d lit)) (M.not pre)) = h M.tt ∧ h (M.and d lit) ≠ h d) ↔
      (M.or (forcePre M c env (M.and d lit)) (M.not pre) = M.tt ∧ M.and d lit ≠ d) := by
    rw [H.inj.eq_iff, Ne, H.inj.eq_iff]
  by_cases hc : M.or (forcePre M c env (M.and d lit)) (M.not pre) = M.tt ∧ M.and d lit ≠ d
  · rw [if_pos hc, if_pos (e1.mpr hc)]; rfl
  · rw [if_neg hc, if_neg fun h => hc (e1.mp h)]; rfl

theorem tryVariable_hom (c : Ctx A) (env : Bool) (pre v : A) (st : A × Bool) :
    tryVariable N (c.map h) env (h pre) (Prod.map h id st) (h v) = Prod.map h id (tryVariable M c env pre st v) := by
  rw [tryVariable, tryVariable, tryLiteral_hom H, H.not, tryLiteral_hom H]

theorem tryAll_hom (c : Ctx A) (env : Bool) (pre : A) : ∀ (vs : List A) (st : A × Bool),
    (vs.map h).foldl (tryVariable N (c.map h) env (h pre)) (Prod.map h id st) = Prod.map h id (vs.foldl (tryVariable M c env pre) st) := by
  intro vs
  induction vs with
  | nil => intro st; rfl
  | cons v vs ih => intro st; rw [List.map_cons, List.foldl_cons, List.foldl_cons, tryVariable_hom H, ih]

theorem restrictPass_hom (c : Ctx A) (env : Bool) (vs : List A) : ∀ (ds : List A) (pre : A),
    restrictPass N (c.map h) env (vs.map h) (h pre) (ds.map h) = Prod.map (List.map h) id (restrictPass M c env vs pre ds) := by
  intro ds
  induction ds with
  | nil => intro pre; rfl
  | cons d ds ih =>
    intro pre
    rw [List.map_cons, restrictPass, restrictPass]
    have := tryAll_hom H c env pre vs (d, false)
    rw [Prod.map_apply, id] at this
    rw [this]
    simp only [Prod.map_fst, Prod.map_snd, id]
    rw [ih]
    simp

theorem restrictLoop_hom (c : Ctx A) (env : Bool) (vs : List A) (start : A) : ∀ (n : Nat) (ds : List A),
    restrictLoop N (c.map h) env (vs.map h) (h start) n (ds.map h) = (restrictLoop M c env vs start n ds).map (List.map h) := by
  intro n
  induction n with
  | zero => intro ds; rfl
  | succ n ih =>
    intro ds
    rw [restrictLoop, restrictLoop, restrictPass_hom H]
    simp only [Prod.map_fst, Prod.map_snd, id]
    by_cases hc : (restrictPass M c env vs start ds).2 = true
    · rw [if_pos hc, if_pos hc, ih]
    · rw [if_neg hc, if_neg hc]; rfl

theorem lastInput_hom (c : Ctx A) (vs : List A) (d : A) : lastInput N (c.map h) (vs.map h) (h d) = h (lastInput M c vs d) := by
  rw [lastInput, lastInput]
  simp only [Ctx.map, H.not, H.and, H.or, H.allPostOutput, H.allPreOutput, H.allPreInput, determinize_hom H, H.swap]

omit H [DecidableEq A] [DecidableEq B] in
theorem replaceLast_map {f : A → A} {f' : B → B} (hf : ∀ a, f' (h a) = h (f a)) : ∀ (ds : List A) (p : A),
    replaceLast f' (h p) (ds.map h) = (replaceLast f p ds).map h
  | [], _ => rfl
  | [_], p => by simp [replaceLast, hf]
  | d :: d' :: ds, p => by
    have := replaceLast_map hf (d' :: ds) d
    simp only [List.map_cons, replaceLast] at this ⊢
    rw [this]

theorem cellOf_hom (d v : A) : cellOf N (h d) (h v) = cellOf M d v := by
  simp only [cellOf, H.not, H.and, eq_ff_hom H]

theorem computeTrace_hom (c : Ctx A) (vs : TraceVars A) (env : Bool) (fuel : Nat) :
    computeTrace N (c.map h) (vs.map h) env fuel = computeTrace M c vs env fuel := by
  rw [computeTrace, computeTrace]
  have e := distanceLoop_hom H c env fuel M.ff (M.not M.ff) []
  rw [List.map_nil] at e
  rw [H.ff, H.not, e]
  rcases distanceLoop M c env fuel M.ff (M.not M.ff) [] with _ | ⟨W, ds, _ | _⟩
  · rfl
  · rfl
  · simp only [Option.map_some, Prod.map_apply, id]
    rw [show (c.map h).initEnv = h c.initEnv from rfl, show (c.map h).initSys = h c.initSys from rfl, H.and, H.and]
    by_cases hs : M.and (M.and c.initEnv c.initSys) W = M.ff
    · rw [if_pos hs, if_pos (by rw [hs])]
    · rw [if_neg hs, if_neg fun e => hs (H.inj e)]
      rw [show (vs.map h).preVars = vs.preVars.map h from rfl, show (vs.map h).postInputVars = vs.postInputVars.map h from rfl,
        show (vs.map h).rows = vs.rows.map (fun r => (r.1, h r.2)) from rfl, determinize_hom H, restrictLoop_hom H]
      rcases restrictLoop M c env vs.preVars (determinize M vs.preVars (M.and (M.and c.initEnv c.initSys) W)) fuel ds with _ | ds
      · rfl
      · simp only [Option.map_some]
        rw [replaceLast_map (f := lastInput M c vs.postInputVars) (lastInput_hom H c vs.postInputVars)]
        cases env <;> simp [Function.comp_def, cellOf_hom H]

end

/-! ### More rounds -/

section
variable {B : Type} [DecidableEq B]

theorem distanceLoop_more {M : Mgr B} {c : Ctx B} {env : Bool} : ∀ {n : Nat} {W old : B} {ds : List B} {r : B × List B × Bool},
    distanceLoop M c env n W old ds = some r → ∀ {n' : Nat}, n ≤ n' → distanceLoop M c env n' W old ds = some r := by
  intro n
  induction n with
  | zero => intro W old ds r h; cases h
  | succ n ih =>
    intro W old ds r h n' hn
    obtain ⟨n', rfl⟩ : ∃ m, n' = m + 1 := ⟨n' - 1, by omega⟩
    rw [distanceLoop] at h ⊢
    split at h
    · rename_i hc; rw [if_pos hc]; exact h
    · rename_i hc
      rw [if_neg hc]
      dsimp only at h ⊢
      split at h
      · rename_i hc'; rw [if_pos hc']; exact h
      · rename_i hc'; rw [if_neg hc']; exact ih h (by omega)

theorem restrictLoop_more {M : Mgr B} {c : Ctx B} {env : Bool} {vs : List B} {start : B} : ∀ {n : Nat} {ds r : List B},
    restrictLoop M c env vs start n ds = some r → ∀ {n' : Nat}, n ≤ n' → restrictLoop M c env vs start n' ds = some r := by
  intro n
  induction n with
  | zero => intro ds r h; cases h
  | succ n ih =>
    intro ds r h n' hn
    obtain ⟨n', rfl⟩ : ∃ m, n' = m + 1 := ⟨n' - 1, by omega⟩
    rw [restrictLoop] at h ⊢
    split at h
    · rename_i hc; rw [if_pos hc]; exact ih h (by omega)
    · rename_i hc; rw [if_neg hc]; exact h

theorem computeTrace_more {M : Mgr B} {c : Ctx B} {vs : TraceVars B} {env : Bool} {n n' : Nat} (hn : n ≤ n') {r : TraceReport}
    (h : computeTrace M c vs env n = some r) : computeTrace M c vs env n' = some r := by
  rw [computeTrace] at h ⊢
  rcases hd : distanceLoop M c env n M.ff (M.not M.ff) [] with _ | ⟨W, ds, b⟩
  · rw [hd] at h; cases h
  · rw [distanceLoop_more hd hn]
    rw [hd] at h
    cases b
    · exact h
    · dsimp only at h ⊢
      split at h
      · rename_i hc; rw [if_pos hc]; exact h
      · rename_i hc
        rw [if_neg hc]
        rcases hr : restrictLoop M c env vs.preVars (determinize M vs.preVars (M.and (M.and c.initEnv c.initSys) W)) n ds with _ | ds'
        · rw [hr] at h; cases h
        · rw [restrictLoop_more hr hn]
          rw [hr] at h
          exact h

end

/-! ### Liveness constraints do not matter -/

/-- The context without liveness constraints. -/
def Ctx.bare {B : Type} (c : Ctx B) : Ctx B := { c with livenessAssumptions := [], livenessGuarantees := [] }

section
variable {B : Type} [DecidableEq B] (M : Mgr B) (c : Ctx B)

theorem distanceLoop_bare (env : Bool) : ∀ (n : Nat) (W old : B) (ds : List B),
    distanceLoop M c.bare env n W old ds = distanceLoop M c env n W old ds := by
  intro n
  induction n with
  | zero => intro W old ds; rfl
  | succ n ih =>
    intro W old ds
    rw [distanceLoop, distanceLoop]
    dsimp only
    rw [ih]
    rfl

theorem restrictPass_bare (env : Bool) (vs : List B) : ∀ (ds : List B) (pre : B),
    restrictPass M c.bare env vs pre ds = restrictPass M c env vs pre ds := by
  intro ds
  induction ds with
  | nil => intro pre; rfl
  | cons d ds ih =>
    intro pre
    rw [restrictPass, restrictPass]
    rw [ih]
    rfl

theorem restrictLoop_bare (env : Bool) (vs : List B) (start : B) : ∀ (n : Nat) (ds : List B),
    restrictLoop M c.bare env vs start n ds = restrictLoop M c env vs start n ds := by
  intro n
  induction n with
  | zero => intro ds; rfl
  | succ n ih =>
    intro ds
    rw [restrictLoop, restrictLoop, restrictPass_bare]
    rw [ih]

theorem computeTrace_bare (vs : TraceVars B) (env : Bool) (fuel : Nat) :
    computeTrace M c.bare vs env fuel = computeTrace M c vs env fuel := by
  rw [computeTrace, computeTrace, distanceLoop_bare]
  rcases distanceLoop M c env fuel M.ff (M.not M.ff) [] with _ | ⟨W, ds, _ | _⟩
  · rfl
  · rfl
  · simp only [restrictLoop_bare]
    rfl

end

/-! ### The variables of a table -/

def semTraceVars (ds : Decls) : TraceVars (T ({x // x ∈ inputsOf ds} → Bool) ({x // x ∈ outputsOf ds} → Bool)) where
  preVars := (varsOfType (tableOf ds).types .pre).map (codeVar ds)
  postInputVars := (varsOfType (tableOf ds).types .postInput).map (codeVar ds)
  rows := (varsOfType (tableOf ds).types .preInput ++ varsOfType (tableOf ds).types .preOutput).map
    fun k => ((tableOf ds).names.getD k [], codeVar ds k)

theorem semTraceVars_ok {ds : Decls} (hn : (tableOf ds).names.Nodup) : TraceVarsOK (semTraceVars ds) where
  pre_indep := (semVars_ok hn).pre_indep
  pre_one := det_pre (semVars_ok hn)
  in_indep := by
    intro v hv s s' t t' h
    obtain ⟨k, hk, rfl⟩ := List.mem_map.mp hv
    obtain ⟨x, rfl⟩ := (mem_postInput hn).mp hk
    rw [codeVar_slot hn, codeVar_slot hn]
    exact iff_of_eq (congrArg (· = true) (congrFun h x))
  in_sep := (semCVars_ok hn).in_sep

theorem mem_preOutput {ds : Decls} (hn : (tableOf ds).names.Nodup) {k : Nat} :
    k ∈ varsOfType (tableOf ds).types .preOutput ↔ ∃ x, slotCode (.co x : DSlot ds) = k := by
  rw [mem_varsOfType hn]
  constructor
  · rintro ⟨z | z | z | z, h, h'⟩
    · exact absurd h' (by simp only [slotEntry]; decide)
    · exact ⟨z, h⟩
    · exact absurd h' (by simp only [slotEntry]; decide)
    · exact absurd h' (by simp only [slotEntry]; decide)
  · rintro ⟨x, h⟩
    exact ⟨_, h, by simp only [slotEntry]; decide⟩

theorem traceVars_eq (B : Type) [DecidableEq B] [L : BddLib B] {ds : Decls} (hn : (tableOf ds).names.Nodup) :
    traceVars B (tableOf ds) = (semTraceVars ds).map ((tableLayout ds hn).enc B) := by
  have hz : ∀ z : DSlot ds, L.var (slotCode z) = (tableLayout ds hn).enc B (codeVar ds (slotCode z)) := by
    intro z
    refine (tableLayout ds hn).eq_enc B fun a => ?_
    rw [codeVar_slot hn, L.eval_var, congrFun (slots_pos _) z]
    rfl
  simp only [traceVars, semTraceVars, TraceVars.map, List.map_map, TraceVars.mk.injEq]
  refine ⟨List.map_congr_left fun k hk => ?_, List.map_congr_left fun k hk => ?_, List.map_congr_left fun k hk => ?_⟩
  · rcases (mem_pre hn).mp hk with ⟨x, rfl⟩ | ⟨x, rfl⟩ <;> exact hz _
  · obtain ⟨x, rfl⟩ := (mem_postInput hn).mp hk; exact hz _
  · rcases List.mem_append.mp hk with hk | hk
    · obtain ⟨x, rfl⟩ := (mem_preInput hn).mp hk; exact Prod.ext rfl (hz _)
    · obtain ⟨x, rfl⟩ := (mem_preOutput hn).mp hk; exact Prod.ext rfl (hz _)

theorem varsOfType_names (ds : Decls) :
    ((varsOfType (tableOf ds).types .preInput).map fun k => (tableOf ds).names.getD k []) = inputsOf ds ∧
    ((varsOfType (tableOf ds).types .preOutput).map fun k => (tableOf ds).names.getD k []) = outputsOf ds := by
  induction ds using List.reverseRecOn with
  | nil => exact ⟨rfl, rfl⟩
  | append_singleton ds d ih =>
    have e : (tableOf (ds ++ [d])).types = (tableOf ds).types ++
        [if d.1 then .preInput else .preOutput, if d.1 then .postInput else .postOutput] := by
      simp [tableOf, entriesOf, declPair]
    have e' : (tableOf (ds ++ [d])).names = (tableOf ds).names ++ [d.2, prime d.2] := by
      simp [tableOf, entriesOf, declPair]
    have hl : (tableOf ds).names.length = (tableOf ds).types.length := by simp [tableOf]
    have hlow : ∀ ty, ((varsOfType (tableOf ds).types ty).map fun k => ((tableOf ds).names ++ [d.2, prime d.2]).getD k []) =
        (varsOfType (tableOf ds).types ty).map fun k => (tableOf ds).names.getD k [] := by
      intro ty
      refine List.map_congr_left fun k hk => ?_
      have : k < (tableOf ds).names.length := by
        rw [hl]; simpa using (List.mem_filter.mp hk).1
      simp [List.getD_eq_getElem?_getD, List.getElem?_append_left this]
    have h0 : ((tableOf ds).names ++ [d.2, prime d.2]).getD ((tableOf ds).types.length + 0) [] = d.2 := by
      rw [← hl]; simp [List.getD_eq_getElem?_getD]
    rw [e, e']
    simp only [varsOfType_append, List.map_append, hlow, ih, List.map_map]
    obtain ⟨b, x⟩ := d
    cases b
    · refine ⟨?_, ?_⟩
      · rw [show varsOfType [if (false, x).1 = true then VarType.preInput else .preOutput, if (false, x).1 = true then .postInput else .postOutput] .preInput = []
          from rfl]
        simp [inputsOf]
      · rw [show varsOfType [if (false, x).1 = true then VarType.preInput else .preOutput, if (false, x).1 = true then .postInput else .postOutput] .preOutput = [0]
          from rfl]
        simp only [List.map_cons, List.map_nil, Function.comp, h0]
        simp [outputsOf]
    · refine ⟨?_, ?_⟩
      · rw [show varsOfType [if (true, x).1 = true then VarType.preInput else .preOutput, if (true, x).1 = true then .postInput else .postOutput] .preInput = [0]
          from rfl]
        simp only [List.map_cons, List.map_nil, Function.comp, h0]
        simp [inputsOf]
      · rw [show varsOfType [if (true, x).1 = true then VarType.preInput else .preOutput, if (true, x).1 = true then .postInput else .postOutput] .preOutput = []
          from rfl]
        simp [outputsOf]

theorem rows_names (ds : Decls) : (semTraceVars ds).rows.map Prod.fst = inputsOf ds ++ outputsOf ds := by
  simp only [semTraceVars, List.map_map, Function.comp_def, List.map_append]
  rw [(varsOfType_names ds).1, (varsOfType_names ds).2]

/-! ### Entries of the table -/

theorem cellOf_sem [Nonempty I] [Nonempty O] (S : Set (Pos I O)) {v : T I O} {value : Pos I O → Bool} (hv : ∀ s t, v s t ↔ value s = true) :
    Shows S value (cellOf (semMgr I O) (pre S) v) := by
  have hff : ∀ P : Pos I O → Prop, ((fun s _ => P s : T I O) = (semMgr I O).ff) ↔ ∀ s, ¬ P s := by
    intro P
    refine ⟨fun h s hs => ?_, fun h => ?_⟩
    · exact (iff_of_eq (congrFun (congrFun h s) s)).mp hs
    · funext s t; exact eq_false (h s)
  have e0 : (pre S = (semMgr I O).ff) ↔ S = ∅ := ⟨fun h => pre_inj.mp (h.trans (rfl : _ = pre ∅)), fun h => h ▸ rfl⟩
  have e1 : ((semMgr I O).and (pre S) v = (semMgr I O).ff) ↔ ∀ s ∈ S, value s = false := by
    have : (semMgr I O).and (pre S) v = fun s _ => s ∈ S ∧ value s = true := by
      funext s t; exact propext (and_congr_right fun _ => hv s t)
    rw [this, hff]
    simp
  have e2 : ((semMgr I O).and (pre S) ((semMgr I O).not v) = (semMgr I O).ff) ↔ ∀ s ∈ S, value s = true := by
    have : (semMgr I O).and (pre S) ((semMgr I O).not v) = fun s _ => s ∈ S ∧ ¬ value s = true := by
      funext s t; exact propext (and_congr_right fun _ => not_congr (hv s t))
    rw [this, hff]
    simp
  rw [cellOf]
  split
  · rename_i h; exact e0.mp h
  · rename_i h0
    split
    · rename_i h; exact ⟨fun h => h0 (e0.mpr h), e1.mp h⟩
    · rename_i h1
      split
      · rename_i h; exact ⟨fun h => h0 (e0.mpr h), e2.mp h⟩
      · rename_i h2
        constructor
        · by_contra hno
          exact h1 (e1.mpr fun s hs => by
            by_contra hv'; exact hno ⟨s, hs, by simpa using hv'⟩)
        · by_contra hno
          exact h2 (e2.mpr fun s hs => by
            by_contra hv'; exact hno ⟨s, hs, by simpa using hv'⟩)

end Slugs.Model
