import Verif.Model.Analyze
import Verif.Lemmas.Count
import Verif.Lemmas.Checked
import Verif.Lemmas.Order

/-! Lemmas about the analysis of initial positions. -/

namespace Slugs.Model

open Slugs.Spec

variable {B : Type} [DecidableEq B] [L : BddLib B]

/-! ### Counting with the operations of the BDD library -/

theorem eval_cofactorB (v : Nat) (b : Bool) (f : B) : L.eval (cofactorB v b f) = cof (L.eval f) v b := by
  funext a
  rw [cof, Bool.eq_iff_iff, cofactorB, L.eval_exist]
  have hv : ∀ w, L.eval (if b = true then L.var v else L.not (L.var v)) w = true ↔ w v = b := by
    intro w
    cases b
    · rw [if_neg (by simp), L.eval_not, L.eval_var]; simp
    · rw [if_pos rfl, L.eval_var]
  constructor
  · rintro ⟨w, hw, he⟩
    rw [L.eval_and, Bool.and_eq_true, hv] at he
    have : w = setVar a v b := by
      funext k
      by_cases hk : k = v
      · subst hk; rw [setVar_same]; exact he.2
      · rw [setVar_other _ _ hk]; exact (hw k (by simpa using hk)).symm
    rw [← this]; exact he.1
  · intro h
    refine ⟨setVar a v b, fun k hk => (setVar_other _ _ (by simpa using hk)).symm, ?_⟩
    rw [L.eval_and, Bool.and_eq_true, hv]
    exact ⟨h, setVar_same _ _ _⟩

/-- Counting with the operations of the BDD library computes what `getNofSatisfyingAssignments` computes (`getNof_spec`). -/
theorem countB_eq : ∀ {vs : List Nat}, vs.Nodup → ∀ f : B, countB vs f = specCount vs (L.eval f) := by
  intro vs
  induction vs with
  | nil =>
    intro _ f
    rw [countB, specCount, satCount_nil]
    by_cases h1 : f = L.tt
    · subst h1
      have : OnlyDependsOn [] (L.eval (L.tt : B)) := fun a a' _ => by rw [L.eval_tt, L.eval_tt]
      rw [if_pos rfl, if_pos this, L.eval_tt]; rfl
    · rw [if_neg h1]
      by_cases h2 : f = L.ff
      · subst h2
        have : OnlyDependsOn [] (L.eval (L.ff : B)) := fun a a' _ => by rw [L.eval_ff, L.eval_ff]
        rw [if_pos rfl, if_pos this, L.eval_ff]; rfl
      · rw [if_neg h2, if_neg]
        intro h
        cases hc : L.eval f (fun _ => false)
        · exact h2 (L.eval_inj _ _ fun a => by rw [L.eval_ff, h a (fun _ => false) (by simp), hc])
        · exact h1 (L.eval_inj _ _ fun a => by rw [L.eval_tt, h a (fun _ => false) (by simp), hc])
  | cons v vs ih =>
    intro hn f
    obtain ⟨h1, h2⟩ := List.nodup_cons.mp hn
    rw [countB, ih h2, ih h2, specCount_cons h1, eval_cofactorB, eval_cofactorB]

/-! ### Counting positions -/

theorem varsOfType_nodup (types : List VarType) (ty : VarType) : (varsOfType types ty).Nodup := List.nodup_range.filter _

namespace Layout

variable {X Y : Type} {types : List VarType} (lay : Layout X Y types)

include lay in
theorem nodup_pre : (varsOfTypes types [.preOutput, .preInput]).Nodup := by
  rw [varsOfTypes, List.flatMap_cons, List.flatMap_cons, List.flatMap_nil, List.append_nil]
  refine (varsOfType_nodup _ _).append (varsOfType_nodup _ _) fun k h1 h2 => ?_
  obtain ⟨x, hx⟩ := (lay.preOutput k).mp h1
  obtain ⟨y, hy⟩ := (lay.preInput k).mp h2
  have := lay.inj (hx.trans hy.symm)
  cases this

/-- Counting a set of positions. -/
theorem count_pre (P : Pos (X → Bool) (Y → Bool) → Prop) :
    countB (varsOfTypes types [.preOutput, .preInput]) (lay.enc B (fun s _ => P s)) = some (Nat.card {s // P s}) := by
  have hmem := fun k => (lay.mem_vars (k := k)).2.2.2.2.1
  rw [countB_eq lay.nodup_pre, specCount, if_pos]
  · refine congrArg some (Nat.card_congr (Equiv.ofBijective (fun a => ⟨curPos (lay.get (extend _ a.1)), (lay.eval_enc B _ _).mp a.2⟩) ⟨?_, ?_⟩))
    · rintro ⟨a, ha⟩ ⟨a', ha'⟩ e
      simp only [Subtype.mk.injEq] at e ⊢
      funext ⟨k, hk⟩
      obtain ⟨z, hz, rfl⟩ := (hmem k).mp hk
      have : lay.get (extend _ a) z = lay.get (extend _ a') z := by
        rcases hz with ⟨x, rfl⟩ | ⟨x, rfl⟩
        · exact congrFun (congrArg Prod.fst e) x
        · exact congrFun (congrArg Prod.snd e) x
      simpa [Layout.get, extend, hk] using this
    · rintro ⟨s, hs⟩
      have e : curPos (lay.get (extend (varsOfTypes types [.preOutput, .preInput]) fun k => lay.put (slots s s) (fun _ => false) k.1)) = s := by
        have h : ∀ z, ((∃ x, z = Slot.ci x) ∨ ∃ x, z = Slot.co x) →
            lay.get (extend (varsOfTypes types [.preOutput, .preInput]) fun k => lay.put (slots s s) (fun _ => false) k.1) z = slots s s z := by
          intro z hz
          have hk := (hmem (lay.code z)).mpr ⟨z, hz, rfl⟩
          rw [Layout.get, extend, dif_pos hk]
          exact congrFun (lay.get_put (slots s s) _) z
        exact Prod.ext (funext fun x => h (.ci x) (.inl ⟨x, rfl⟩)) (funext fun x => h (.co x) (.inr ⟨x, rfl⟩))
      exact ⟨⟨fun k => lay.put (slots s s) (fun _ => false) k.1, (lay.eval_enc B _ _).mpr (e.symm ▸ hs)⟩, Subtype.ext e⟩
  · intro a a' h
    have e : curPos (lay.get a) = curPos (lay.get a') :=
      Prod.ext (funext fun x => h _ ((hmem _).mpr ⟨.ci x, .inl ⟨x, rfl⟩, rfl⟩)) (funext fun x => h _ ((hmem _).mpr ⟨.co x, .inr ⟨x, rfl⟩, rfl⟩))
    rw [Bool.eq_iff_iff, lay.eval_enc, lay.eval_enc, e]

/-- Counting a set of inputs. -/
theorem count_preInput (P : (X → Bool) → Prop) :
    countB (varsOfTypes types [.preInput]) (lay.enc B (fun s _ => P s.1)) = some (Nat.card {i // P i}) := by
  have hmem := fun k => (lay.mem_vars (k := k)).1
  have hnd : (varsOfTypes types [.preInput]).Nodup := by
    rw [varsOfTypes, List.flatMap_cons, List.flatMap_nil, List.append_nil]; exact varsOfType_nodup _ _
  rw [countB_eq hnd, specCount, if_pos]
  · refine congrArg some (Nat.card_congr (Equiv.ofBijective (fun a => ⟨(curPos (lay.get (extend _ a.1))).1, (lay.eval_enc B _ _).mp a.2⟩) ⟨?_, ?_⟩))
    · rintro ⟨a, ha⟩ ⟨a', ha'⟩ e
      simp only [Subtype.mk.injEq] at e ⊢
      funext ⟨k, hk⟩
      obtain ⟨z, ⟨x, rfl⟩, rfl⟩ := (hmem k).mp hk
      have : lay.get (extend _ a) (.ci x) = lay.get (extend _ a') (.ci x) := congrFun e x
      simpa [Layout.get, extend, hk] using this
    · rintro ⟨s, hs⟩
      let t : Pos (X → Bool) (Y → Bool) := (s, fun _ => false)
      have e : (curPos (lay.get (extend (varsOfTypes types [.preInput]) fun k => lay.put (slots t t) (fun _ => false) k.1))).1 = s := by
        refine funext fun x => ?_
        have hk := (hmem (lay.code (.ci x))).mpr ⟨.ci x, ⟨x, rfl⟩, rfl⟩
        have : lay.get (extend (varsOfTypes types [.preInput]) fun k => lay.put (slots t t) (fun _ => false) k.1) (.ci x) = slots t t (.ci x) := by
          rw [Layout.get, extend, dif_pos hk]
          exact congrFun (lay.get_put (slots t t) _) (.ci x)
        exact this
      exact ⟨⟨fun k => lay.put (slots t t) (fun _ => false) k.1, (lay.eval_enc B _ _).mpr (e.symm ▸ hs)⟩, Subtype.ext e⟩
  · intro a a' h
    have e : (curPos (lay.get a)).1 = (curPos (lay.get a')).1 := funext fun x => h _ ((hmem _).mpr ⟨.ci x, ⟨x, rfl⟩, rfl⟩)
    rw [Bool.eq_iff_iff, lay.eval_enc, lay.eval_enc, e]

/-- A set of positions that also restricts the output cannot be counted over the inputs. -/
theorem count_preInput_nan (P : Pos (X → Bool) (Y → Bool) → Prop) {i : X → Bool} {o o' : Y → Bool} (h1 : P (i, o)) (h2 : ¬ P (i, o')) :
    countB (varsOfTypes types [.preInput]) (lay.enc B (fun s _ => P s)) = none := by
  have hmem := fun k => (lay.mem_vars (k := k)).1
  have hnd : (varsOfTypes types [.preInput]).Nodup := by
    rw [varsOfTypes, List.flatMap_cons, List.flatMap_nil, List.append_nil]; exact varsOfType_nodup _ _
  rw [countB_eq hnd, specCount, if_neg]
  intro h
  have hc : ∀ s : Pos (X → Bool) (Y → Bool), curPos (lay.get (lay.put (slots s s) (fun _ => false))) = s := fun s => by rw [lay.get_put]; rfl
  have := h (lay.put (slots (i, o) (i, o)) (fun _ => false)) (lay.put (slots (i, o') (i, o')) (fun _ => false)) fun k hk => by
    obtain ⟨z, ⟨x, rfl⟩, rfl⟩ := (hmem k).mp hk
    exact (congrFun (lay.get_put (slots (i, o) (i, o)) _) (.ci x)).trans (congrFun (lay.get_put (slots (i, o') (i, o')) (fun _ => false)) (.ci x)).symm
  rw [Bool.eq_iff_iff, lay.eval_enc, lay.eval_enc, hc, hc] at this
  exact h2 (this.mp h1)

end Layout

/-! ### Reachable positions -/

omit L in
theorem reachLoop_more (M : Mgr B) (combined : B) : ∀ {n n' : Nat}, n ≤ n' → ∀ {r o x : B}, reachLoop M combined n r o = some x →
    reachLoop M combined n' r o = some x := by
  intro n
  induction n with
  | zero => intro n' _ r o x h; cases h
  | succ n ih =>
    intro n' hn r o x h
    obtain ⟨m, rfl⟩ : ∃ m, n' = m + 1 := ⟨n' - 1, by omega⟩
    rw [reachLoop] at h ⊢
    split
    · rename_i he; rw [if_pos he] at h; exact h
    · rename_i he; rw [if_neg he] at h; exact ih (by omega) h

omit L in
theorem reachLoop_hom {A : Type} [DecidableEq A] {M : Mgr A} {N : Mgr B} {h : A → B} (H : MgrHom M N h) (combined : A) : ∀ (n : Nat) (r o : A),
    reachLoop N (h combined) n (h r) (h o) = (reachLoop M combined n r o).map h := by
  intro n
  induction n with
  | zero => intro r o; rfl
  | succ n ih =>
    intro r o
    rw [reachLoop, reachLoop, H.and, H.exPre, H.swap, H.or]
    by_cases he : r = o
    · rw [if_pos he, if_pos (congrArg h he)]; rfl
    · rw [if_neg he, if_neg (fun e => he (H.inj e)), ih]

theorem reachLoop_sem {I O : Type} [Finite I] [Finite O] (g : Game I O) : ∀ (n : Nat) (R P : Set (Pos I O)),
    Nat.card (Pos I O) - P.ncard < n → P ⊆ R → (∀ s, g.initEnv s.1 → g.initSys s → s ∈ R) → (∀ s ∈ R, g.Reachable s) →
    (∀ s ∈ P, ∀ t, g.safetyEnv s t.1 → g.safetySys s t → t ∈ R) →
    reachLoop (semMgr I O) ((semMgr I O).and (gameCtx g).safetyEnv (gameCtx g).safetySys) n (pre R) (pre P) = some (pre {s | g.Reachable s}) := by
  intro n
  induction n with
  | zero => intro R P h; omega
  | succ n ih =>
    intro R P hc hPR hi hr hs
    rw [reachLoop]
    have pre_inj : ∀ {A C : Set (Pos I O)}, pre A = pre C → A = C := fun {A C} e => by
      ext s; exact iff_of_eq (congrFun (congrFun e s) s)
    by_cases he : R = P
    · rw [if_pos (congrArg pre he)]
      refine congrArg (fun A => some (pre A)) (Set.ext fun s => ⟨hr s, fun h => ?_⟩)
      induction h with
      | start h1 h2 => exact hi _ h1 h2
      | step _ h2 h3 ih => exact hs _ (he ▸ ih) _ h2 h3
    · rw [if_neg (fun e => he (pre_inj e))]
      have e : (semMgr I O).or (pre R) ((semMgr I O).swap ((semMgr I O).exPre ((semMgr I O).and (pre R)
          ((semMgr I O).and (gameCtx g).safetyEnv (gameCtx g).safetySys)))) =
          pre (R ∪ {t | ∃ s ∈ R, g.safetyEnv s t.1 ∧ g.safetySys s t}) := rfl
      rw [e]
      have hlt : P.ncard < R.ncard := Set.ncard_lt_ncard (LE.le.ssubset_of_ne hPR (Ne.symm he)) (Set.toFinite R)
      have hle : R.ncard ≤ Nat.card (Pos I O) := Set.ncard_le_card R
      refine ih _ _ (by omega) Set.subset_union_left (fun s h1 h2 => .inl (hi s h1 h2)) ?_ ?_
      · rintro s (h | ⟨u, h1, h2, h3⟩)
        · exact hr s h
        · exact .step (hr u h1) h2 h3
      · exact fun s h1 t h2 h3 => .inr ⟨s, h1, h2, h3⟩

/-- The restriction of the limits. -/
theorem restrictLimits_sem {I O : Type} [Finite I] [Finite O] (g : Game I O) (restrict : Bool) (fuel : Nat) (hf : Nat.card (Pos I O) < fuel)
    (lim : Pos I O → Prop) :
    restrictLimits (semMgr I O) (gameCtx g) restrict fuel (fun s _ => lim s) = some (fun s _ => lim s ∧ (restrict = true → g.Reachable s)) := by
  rw [restrictLimits]
  cases restrict
  · rw [if_neg (by simp)]
    refine congrArg some (funext fun s => funext fun t => propext ?_)
    simp
  · rw [if_pos rfl]
    have := reachLoop_sem g fuel {s | g.initSys s ∧ g.initEnv s.1} ∅ (by simpa using hf) (Set.empty_subset _) (fun s h1 h2 => ⟨h2, h1⟩)
      (fun s h => .start h.2 h.1) (fun s h => absurd h (Set.notMem_empty s))
    have e : reachLoop (semMgr I O) ((semMgr I O).and (gameCtx g).safetyEnv (gameCtx g).safetySys) fuel
      ((semMgr I O).and (gameCtx g).initSys (gameCtx g).initEnv) (semMgr I O).ff = some (pre {s | g.Reachable s}) := this
    rw [e]
    refine congrArg some (funext fun s => funext fun t => propext ?_)
    simp only [forall_const]
    rfl

omit L in
theorem restrictLimits_hom {A : Type} [DecidableEq A] {M : Mgr A} {N : Mgr B} {h : A → B} (H : MgrHom M N h) (c : Ctx A) (restrict : Bool)
    (fuel : Nat) (limits : A) : restrictLimits N (c.map h) restrict fuel (h limits) = (restrictLimits M c restrict fuel limits).map h := by
  rw [restrictLimits, restrictLimits]
  cases restrict
  · rw [if_neg (by simp), if_neg (by simp)]; rfl
  · rw [if_pos rfl, if_pos rfl]
    have := reachLoop_hom H (M.and c.safetyEnv c.safetySys) fuel (M.and c.initSys c.initEnv) M.ff
    rw [← H.and, ← H.and, ← H.ff] at this
    rw [show reachLoop N (N.and (c.map h).safetyEnv (c.map h).safetySys) fuel (N.and (c.map h).initSys (c.map h).initEnv) N.ff = _ from this]
    cases reachLoop M (M.and c.safetyEnv c.safetySys) fuel (M.and c.initSys c.initEnv) M.ff with
    | none => rfl
    | some r => simp only [Option.map_some, H.and]

omit L in
theorem restrictLimits_more {M : Mgr B} {c : Ctx B} {restrict : Bool} {n n' : Nat} (hn : n ≤ n') {limits x : B}
    (h : restrictLimits M c restrict n limits = some x) : restrictLimits M c restrict n' limits = some x := by
  rw [restrictLimits] at h ⊢
  cases restrict
  · rw [if_neg (by simp)] at h ⊢; exact h
  · rw [if_pos rfl] at h ⊢
    cases hr : reachLoop M (M.and c.safetyEnv c.safetySys) n (M.and c.initSys c.initEnv) M.ff with
    | none => rw [hr] at h; cases h
    | some r => rw [hr] at h; rw [reachLoop_more M _ hn hr]; exact h

/-! ### Reading the limits -/

/-- The BF of the limits means the given formulas. -/
structure LimMeans (tab : VarTable) (b : B) (lims : List Fml) : Prop where
  declared : ∀ φ ∈ lims, ∀ x ∈ φ.vars, Declared tab (allowedIn .sysInit) x
  means : ∀ a, L.eval b a = true ↔ ∀ φ ∈ lims, φ.eval (nameVal tab a) [] = some true

theorem LimMeans.declare {ds : Decls} {b : B} {lims : List Fml} (h : LimMeans (tableOf ds) b lims) (d : Bool × Name) :
    LimMeans (tableOf (ds ++ [d])) b lims := by
  refine ⟨fun φ hφ x hx => (declared_extend ds d (h.declared φ hφ x hx)).1, fun a => (h.means a).trans ?_⟩
  exact forall_congr' fun φ => imp_congr_right fun hφ => by rw [eval_extend d (h.declared φ hφ) a]

theorem LimMeans.constrain {tab : VarTable} {b f : B} {lims : List Fml} (h : LimMeans tab b lims) {φ : Fml}
    (hd : ∀ x ∈ φ.vars, Declared tab (allowedIn .sysInit) x) (he : ∀ a, φ.eval (nameVal tab a) [] = some (L.eval f a)) :
    LimMeans tab (L.and b f) (lims ++ [φ]) := by
  refine ⟨fun ψ hψ => ?_, fun a => ?_⟩
  · rcases List.mem_append.mp hψ with hψ | hψ
    · exact h.declared ψ hψ
    · rw [List.mem_singleton.mp hψ]; exact hd
  · rw [L.eval_and, Bool.and_eq_true, h.means a]
    constructor
    · rintro ⟨h1, h2⟩ ψ hψ
      rcases List.mem_append.mp hψ with hψ | hψ
      · exact h1 ψ hψ
      · rw [List.mem_singleton.mp hψ, he a, h2]
    · intro h1
      refine ⟨fun ψ hψ => h1 ψ (List.mem_append_left _ hψ), ?_⟩
      have := h1 φ (by simp)
      rw [he a] at this
      exact Option.some.inj this

/-- The marked constraints that are used as limits. -/
def limitLines (l : List (Section × List Char)) : List (List Char) :=
  (l.filter fun p => p.1 = .envInit ∨ p.1 = .sysInit).map fun p => p.2

theorem limitLines_append (l l' : List (Section × List Char)) : limitLines (l ++ l') = limitLines l ++ limitLines l' := by
  simp [limitLines]

theorem initLineLimits_proj {cap : Nat} {order : List Char → Bool} {s s' : LimitState B} {l : List Char}
    (h : initLineLimits cap order s l = .ok s') : initLine cap order s.st l = .ok s'.st := by
  rw [initLineLimits.eq_def] at h
  cases hl : initLine cap order s.st l with
  | err e => rw [hl] at h; cases h
  | ub => rw [hl] at h; cases h
  | stuck => rw [hl] at h; cases h
  | ok st =>
    rw [hl] at h
    simp only at h
    repeat' split at h
    all_goals first | (cases h; done) | (cases h; rfl)

theorem initLinesLimits_proj {cap : Nat} {order : List Char → Bool} : ∀ (ls : List (List Char)) (s s' : LimitState B),
    initLinesLimits cap order s ls = .ok s' → initLines cap order s.st ls = .ok s'.st := by
  intro ls
  induction ls with
  | nil => intro s s' h; cases h; rfl
  | cons l ls ih =>
    intro s s' h
    rw [initLinesLimits] at h
    cases hl : initLineLimits cap order s (trim l) with
    | err e => rw [hl] at h; cases h
    | ub => rw [hl] at h; cases h
    | stuck => rw [hl] at h; cases h
    | ok s1 =>
      rw [hl] at h
      rw [initLines, initLineLimits_proj hl]
      exact ih s1 s' h

/-- What one line does to the limits. -/
theorem initLineLimits_step {cap : Nat} {order : List Char → Bool} {s s' : LimitState B} {l : List Char} (h : initLineLimits cap order s l = .ok s')
    {ds : Decls} {lims : List Fml} (ht : s.st.table = tableOf ds) (hm : LimMeans s.st.table s.limits lims) :
    (∃ ds', s'.st.table = tableOf ds') ∧
    ((l = [] → s'.st.mode = s.st.mode ∧ s'.marked = s.marked ∧ LimMeans s'.st.table s'.limits lims) ∧
    (l ≠ [] → l.head? = some '#' → s'.st.mode = s.st.mode ∧ s'.marked = (s.marked || limitMark.isPrefixOf l) ∧
      LimMeans s'.st.table s'.limits lims) ∧
    (l.head? = some '[' → s'.st.mode = (headerOf l).or s.st.mode ∧ s'.marked = false ∧ LimMeans s'.st.table s'.limits lims) ∧
    (l ≠ [] → l.head? ≠ some '#' → l.head? ≠ some '[' → ∃ sec, s.st.mode = some sec ∧ s'.st.mode = some sec ∧ s'.marked = false ∧
      (s.marked = true → sec ≠ .envLiveness ∧ sec ≠ .sysLiveness) ∧
      ∃ new, List.Forall₂ ReadsLine (if s.marked then limitLines [(sec, l)] else []) new ∧ LimMeans s'.st.table s'.limits (lims ++ new))) := by
  have hp := initLineLimits_proj h
  cases l with
  | nil =>
    rw [initLineLimits] at h
    simp only [initLine] at h
    cases h
    exact ⟨⟨ds, ht⟩, fun _ => ⟨rfl, rfl, hm⟩, fun h => absurd rfl h, fun h => (by simp at h), fun h => absurd rfl h⟩
  | cons c l =>
    by_cases h1 : c = '#'
    · subst h1
      rw [initLineLimits, initLine_skip _ (.inr rfl)] at h
      simp only [if_true] at h
      cases h
      refine ⟨⟨ds, ht⟩, fun h => (by cases h), fun _ _ => ⟨rfl, ?_, hm⟩, fun h => (by simp at h), fun _ h => absurd rfl h⟩
      have e : (('#' :: l).take 20 = txt!"## Variable limits: ") ↔ limitMark.isPrefixOf ('#' :: l) = true := by
        rw [List.isPrefixOf_iff_prefix, List.prefix_iff_eq_take]
        exact eq_comm
      simp only
      by_cases hq : ('#' :: l).take 20 = txt!"## Variable limits: "
      · rw [if_pos hq, e.mp hq, Bool.or_true]
      · rw [if_neg hq]
        have : limitMark.isPrefixOf ('#' :: l) = false := by
          rw [← Bool.not_eq_true]; exact fun hh => hq (e.mpr hh)
        rw [this, Bool.or_false]
    by_cases h2 : c = '['
    · subst h2
      rw [initLineLimits.eq_def, hp] at h
      simp only [Char.reduceEq, if_false, if_true] at h
      rw [initLine] at hp
      simp only [Char.reduceEq, if_false, if_true] at hp
      cases hs : sectionOf ('[' :: l) with
      | none => rw [hs] at hp; cases hp
      | some m =>
        rw [hs] at hp
        simp only [Res.ok.injEq] at hp h
        rw [← h]
        refine ⟨⟨ds, by rw [← hp]; exact ht⟩, fun h => (by simp at h), fun _ h => (by simp at h), fun _ => ?_, fun _ _ h => absurd rfl h⟩
        rw [sectionOf_eq_headerOf, hs]
        refine ⟨by rw [← hp]; rfl, rfl, by rw [← hp]; exact hm⟩
    · have hh1 : (c :: l).head? ≠ some '#' := by simpa using h1
      have hh2 : (c :: l).head? ≠ some '[' := by simpa using h2
      suffices hsuff : ∃ ds', s'.st.table = tableOf ds' ∧ ∃ sec, s.st.mode = some sec ∧ s'.st.mode = some sec ∧ s'.marked = false ∧
          (s.marked = true → sec ≠ .envLiveness ∧ sec ≠ .sysLiveness) ∧
          ∃ new, List.Forall₂ ReadsLine (if s.marked then limitLines [(sec, c :: l)] else []) new ∧
            LimMeans s'.st.table s'.limits (lims ++ new) by
        obtain ⟨ds', h3, h4⟩ := hsuff
        exact ⟨⟨ds', h3⟩, fun h => (by cases h), fun _ h => absurd h hh1, fun h => absurd h hh2, fun _ _ _ => h4⟩
      cases hmode : s.st.mode with
      | none =>
        rw [initLine] at hp
        simp only [h1, h2, if_false, hmode] at hp
        cases hp
      | some sec =>
        have hmode' := (initLine_item (cap := cap) (order := order) s.st hmode (by simp) hh1 hh2).2 _ hp
        rw [hmode] at hmode'
        rw [initLineLimits.eq_def, hp] at h
        simp only [h1, h2, if_false, hmode] at h
        rw [initLine] at hp
        simp only [h1, h2, if_false, hmode] at hp
        have none_new : ∀ (t : VarTable), LimMeans t s.limits lims → ∀ (m : Bool), (m = true → limitLines [(sec, c :: l)] = []) →
            ∃ new, List.Forall₂ ReadsLine (if m then limitLines [(sec, c :: l)] else []) new ∧ LimMeans t s.limits (lims ++ new) := by
          intro t h3 m h4
          refine ⟨[], ?_, by rw [List.append_nil]; exact h3⟩
          cases m
          · exact .nil
          · rw [if_pos rfl, h4 rfl]; exact .nil
        have parsed : ∀ m, (∀ t, t ∈ allowedIn m → t ∈ allowedIn .sysInit) → (sec = m) → limitLines [(sec, c :: l)] = [c :: l] → ∀ (f : B),
            parseFormula s.st.table (allowedIn m) cap order (c :: l) = .ok (some f) →
            ∃ new, List.Forall₂ ReadsLine (if s.marked then limitLines [(sec, c :: l)] else []) new ∧
              LimMeans s.st.table (if s.marked then L.and s.limits f else s.limits) (lims ++ new) := by
          intro m hal hsec hlim f hf
          obtain ⟨φ, hr, hd, he⟩ := parseFormula_sound hf
          cases s.marked
          · exact ⟨[], .nil, by rw [List.append_nil]; exact hm⟩
          · refine ⟨[φ], ?_, hm.constrain (fun x hx => ?_) he⟩
            · rw [if_pos rfl, hlim]; exact .cons hr .nil
            · obtain ⟨g1, t, g2, g3⟩ := hd x hx
              exact ⟨g1, t, g2, hal t g3⟩
        cases sec
        case input =>
          simp only at h hp
          simp only [Res.ok.injEq] at h hp
          rw [← h]
          simp only
          rw [← hp]
          simp only
          rw [ht, ← tableOf_snoc_input]
          exact ⟨_, rfl, .input, rfl, rfl, trivial, fun _ => ⟨by decide, by decide⟩,
            none_new _ ((ht ▸ hm : LimMeans (tableOf ds) s.limits lims).declare _) _ fun _ => rfl⟩
        case output =>
          simp only at h hp
          simp only [Res.ok.injEq] at h hp
          rw [← h]
          simp only
          rw [← hp]
          simp only
          rw [ht, ← tableOf_snoc_output]
          exact ⟨_, rfl, .output, rfl, rfl, trivial, fun _ => ⟨by decide, by decide⟩,
            none_new _ ((ht ▸ hm : LimMeans (tableOf ds) s.limits lims).declare _) _ fun _ => rfl⟩
        case envInit =>
          simp only at h hp
          cases hf : parseFormula (B := B) s.st.table (allowedIn .envInit) cap order (c :: l) with
          | err e => rw [hf] at h; cases h
          | ub => rw [hf] at h; cases h
          | stuck => rw [hf] at h; cases h
          | ok r =>
            cases r with
            | none => rw [hf] at h; cases h
            | some f =>
              rw [hf] at h hp
              simp only [Res.ok.injEq] at h hp
              rw [← h]
              simp only
              rw [← hp]
              exact ⟨ds, ht, .envInit, rfl, rfl, trivial, fun _ => ⟨by decide, by decide⟩, parsed .envInit (by decide) rfl rfl f hf⟩
        case sysInit =>
          simp only at h hp
          cases hf : parseFormula (B := B) s.st.table (allowedIn .sysInit) cap order (c :: l) with
          | err e => rw [hf] at h; cases h
          | ub => rw [hf] at h; cases h
          | stuck => rw [hf] at h; cases h
          | ok r =>
            cases r with
            | none => rw [hf] at h; cases h
            | some f =>
              rw [hf] at h hp
              simp only [Res.ok.injEq] at h hp
              rw [← h]
              simp only
              rw [← hp]
              exact ⟨ds, ht, .sysInit, rfl, rfl, trivial, fun _ => ⟨by decide, by decide⟩, parsed .sysInit (by decide) rfl rfl f hf⟩
        all_goals
          have htab : s'.st.table = s.st.table := by
            simp only at hp
            split at hp
            · simp only [Res.ok.injEq] at hp; rw [← hp]
            all_goals cases hp
          have hmk : s'.limits = s.limits ∧ s'.marked = false := by
            simp only at h
            first
              | (simp only [Res.ok.injEq] at h; rw [← h]; exact ⟨rfl, rfl⟩)
              | (split at h
                 · cases h
                 · simp only [Res.ok.injEq] at h; rw [← h]; exact ⟨rfl, rfl⟩)
          refine ⟨ds, htab.trans ht, _, rfl, hmode', hmk.2, ?_, ?_⟩
          · first
              | exact fun _ => ⟨by decide, by decide⟩
              | (intro hmm; rw [hmm] at h; simp at h)
          · rw [hmk.1, htab]
            exact none_new _ hm _ fun _ => rfl

/-- What the lines do to the limits. -/
theorem initLinesLimits_limits {cap : Nat} {order : List Char → Bool} : ∀ (ls : List (List Char)) (s s' : LimitState B) (ds : Decls)
    (lims : List Fml), s.st.table = tableOf ds → LimMeans s.st.table s.limits lims → initLinesLimits cap order s ls = .ok s' →
    ∃ new, List.Forall₂ ReadsLine (limitLines (markedItems s.st.mode s.marked ls)) new ∧ LimMeans s'.st.table s'.limits (lims ++ new) ∧
      ∀ p ∈ markedItems s.st.mode s.marked ls, p.1 ≠ .envLiveness ∧ p.1 ≠ .sysLiveness := by
  intro ls
  induction ls with
  | nil =>
    intro s s' ds lims ht hm h
    cases h
    exact ⟨[], .nil, by rw [List.append_nil]; exact hm, by simp [markedItems]⟩
  | cons l ls ih =>
    intro s s' ds lims ht hm h
    rw [initLinesLimits] at h
    cases hl : initLineLimits cap order s (trim l) with
    | err e => rw [hl] at h; cases h
    | ub => rw [hl] at h; cases h
    | stuck => rw [hl] at h; cases h
    | ok s1 =>
      rw [hl] at h
      obtain ⟨⟨ds', hds⟩, c1, c2, c3, c4⟩ := initLineLimits_step hl ht hm
      rw [markedItems]
      by_cases h1 : trim l = []
      · rw [if_pos h1]
        obtain ⟨e1, e2, e3⟩ := c1 h1
        rw [← e1, ← e2]
        exact ih s1 s' ds' lims hds e3 h
      rw [if_neg h1]
      by_cases h2 : (trim l).head? = some '#'
      · rw [if_pos h2]
        obtain ⟨e1, e2, e3⟩ := c2 h1 h2
        rw [← e1, ← e2]
        exact ih s1 s' ds' lims hds e3 h
      rw [if_neg h2]
      by_cases h3 : (trim l).head? = some '['
      · rw [if_pos h3]
        obtain ⟨e1, e2, e3⟩ := c3 h3
        rw [← e1, ← e2]
        exact ih s1 s' ds' lims hds e3 h
      rw [if_neg h3]
      obtain ⟨sec, e1, e2, e3, e4, new, e5, e6⟩ := c4 h1 h2 h3
      obtain ⟨new', g1, g2, g3⟩ := ih s1 s' ds' (lims ++ new) hds e6 h
      rw [e2, e3] at g1 g3
      refine ⟨new ++ new', ?_, by rw [← List.append_assoc]; exact g2, ?_⟩
      · rw [limitLines_append, e1]
        refine List.rel_append ?_ g1
        cases hmk : s.marked
        · rw [hmk] at e5; exact e5
        · rw [hmk] at e5; exact e5
      · intro p hp
        rcases List.mem_append.mp hp with hp | hp
        · cases hmk : s.marked
          · rw [hmk] at hp; simp at hp
          · rw [hmk, e1] at hp
            simp only [if_true, Option.toList_some, List.map_cons, List.map_nil, List.mem_singleton] at hp
            subst hp
            exact e4 hmk
        · rw [e1] at hp; exact g3 p hp

/-- Everything about an accepted file. -/
theorem initContextLimits_spec {cap : Nat} {order : List Char → Bool} {text : List Char} {tab : VarTable} {c : Ctx B} {limits : B}
    (h : initContextLimits cap order text = .ok (tab, c, limits)) :
    initContext cap order text = .ok (tab, c) ∧
    ∃ (ds : Decls) (F : Section → List Fml) (hn : (tableOf ds).names.Nodup) (lims : List Fml),
      tab = tableOf ds ∧ Denotes text (specOf ds F) ∧ DenotesLimits text lims ∧
      c = (gameCtx (padGame (specOf ds F).game)).map ((tableLayout ds hn).enc B) ∧
      limits = (tableLayout ds hn).enc B (fun s _ => ∀ φ ∈ lims, (specOf ds F).holds s s φ) ∧
      ∀ p ∈ markedItems none false (splitLines text), p.1 ≠ .envLiveness ∧ p.1 ≠ .sysLiveness := by
  rw [initContextLimits] at h
  cases hl : initLinesLimits (B := B) cap order { st := initStart, limits := L.tt, marked := false } (splitLines text) with
  | err e => rw [hl] at h; cases h
  | ub => rw [hl] at h; cases h
  | stuck => rw [hl] at h; cases h
  | ok s =>
    rw [hl] at h
    simp only at h
    split at h
    · rename_i hnd
      simp only [Res.ok.injEq, Prod.mk.injEq] at h
      obtain ⟨h1, h2, h3⟩ := h
      have hi : initContext (B := B) cap order text = .ok (tab, c) := by
        rw [initContext, initLinesLimits_proj _ _ _ hl]
        simp only
        rw [if_pos hnd, h1, h2]
      refine ⟨hi, ?_⟩
      obtain ⟨ds, F, hn, e1, e2, _, _, _, e6⟩ := initContext_spec hi
      obtain ⟨lims, g1, g2, g3⟩ := initLinesLimits_limits (splitLines text) _ _ [] [] rfl
        ⟨by simp, fun a => by simp [L.eval_tt]⟩ hl
      rw [List.nil_append, h3, h1, e1] at g2
      refine ⟨ds, F, hn, lims, e1, e2, g1, e6, (tableLayout ds hn).eq_enc B fun a => (g2.means a).trans ?_, g3⟩
      refine forall_congr' fun φ => imp_congr_right fun hφ => ?_
      rw [eval_slots F hn (g2.declared φ hφ) a (curPos ((tableLayout ds hn).get a)) (curPos ((tableLayout ds hn).get a))]
      · rfl
      · rintro (z | z | z | z) hz <;> simp [slotEntry, allowedIn] at hz <;> rfl
    · cases h

/-- Lines that the other modes accept are accepted here as well, except for marked lines in liveness sections. -/
theorem initLineLimits_total {cap : Nat} {order : List Char → Bool} {s : LimitState B} {l : List Char} {st : InitState B}
    (h : initLine cap order s.st l = .ok st) :
    (∃ s', initLineLimits cap order s l = .ok s') ∨
    (initLineLimits cap order s l = .err .limitInLiveness ∧ s.marked = true ∧ l ≠ [] ∧ l.head? ≠ some '#' ∧ l.head? ≠ some '[' ∧
      ∃ sec, s.st.mode = some sec ∧ (sec = .envLiveness ∨ sec = .sysLiveness)) := by
  rw [initLineLimits.eq_def, h]
  cases l with
  | nil => exact .inl ⟨_, rfl⟩
  | cons c l =>
    by_cases h1 : c = '#'
    · simp only [h1, if_true]; exact .inl ⟨_, rfl⟩
    by_cases h2 : c = '['
    · simp only [h1, if_false, if_pos h2]; exact .inl ⟨_, rfl⟩
    simp only [h1, h2, if_false]
    rw [initLine] at h
    simp only [h1, h2, if_false] at h
    cases hmode : s.st.mode with
    | none => exact .inl ⟨_, rfl⟩
    | some sec =>
      rw [hmode] at h
      cases sec
      case envInit =>
        simp only at h
        split at h
        · rename_i f hf; simp only [hf]; exact .inl ⟨_, rfl⟩
        all_goals cases h
      case sysInit =>
        simp only at h
        split at h
        · rename_i f hf; simp only [hf]; exact .inl ⟨_, rfl⟩
        all_goals cases h
      case envLiveness =>
        cases hm : s.marked
        · exact .inl ⟨_, rfl⟩
        · exact .inr ⟨rfl, rfl, by simp, by simpa using h1, by simpa using h2, _, rfl, .inl rfl⟩
      case sysLiveness =>
        cases hm : s.marked
        · exact .inl ⟨_, rfl⟩
        · exact .inr ⟨rfl, rfl, by simp, by simpa using h1, by simpa using h2, _, rfl, .inr rfl⟩
      all_goals exact .inl ⟨_, rfl⟩

theorem initLinesLimits_total {cap : Nat} {order : List Char → Bool} : ∀ (ls : List (List Char)) (s : LimitState B) (st : InitState B) (ds : Decls)
    (lims : List Fml), s.st.table = tableOf ds → LimMeans s.st.table s.limits lims → initLines cap order s.st ls = .ok st →
    (∃ s', initLinesLimits cap order s ls = .ok s') ∨
    (initLinesLimits cap order s ls = .err .limitInLiveness ∧
      ∃ p ∈ markedItems s.st.mode s.marked ls, p.1 = .envLiveness ∨ p.1 = .sysLiveness) := by
  intro ls
  induction ls with
  | nil => intro s st ds lims _ _ _; exact .inl ⟨_, rfl⟩
  | cons l ls ih =>
    intro s st ds lims ht hm h
    rw [initLines] at h
    cases hl : initLine cap order s.st (trim l) with
    | err e => rw [hl] at h; cases h
    | ub => rw [hl] at h; cases h
    | stuck => rw [hl] at h; cases h
    | ok s1 =>
      rw [hl] at h
      rw [initLinesLimits, markedItems]
      rcases initLineLimits_total (s := s) hl with ⟨s', hs'⟩ | ⟨he, hmk, n1, n2, n3, sec, hsec, hliv⟩
      · have hst : s1 = s'.st := by have := initLineLimits_proj hs'; rw [hl] at this; cases this; rfl
        subst hst
        obtain ⟨⟨ds', hds⟩, c1, c2, c3, c4⟩ := initLineLimits_step hs' ht hm
        rw [hs']
        simp only
        by_cases h1 : trim l = []
        · obtain ⟨e1, e2, e3⟩ := c1 h1
          rw [if_pos h1, ← e1, ← e2]
          exact ih s' st ds' lims hds e3 h
        rw [if_neg h1]
        by_cases h2 : (trim l).head? = some '#'
        · obtain ⟨e1, e2, e3⟩ := c2 h1 h2
          rw [if_pos h2, ← e1, ← e2]
          exact ih s' st ds' lims hds e3 h
        rw [if_neg h2]
        by_cases h3 : (trim l).head? = some '['
        · obtain ⟨e1, e2, e3⟩ := c3 h3
          rw [if_pos h3, ← e1, ← e2]
          exact ih s' st ds' lims hds e3 h
        rw [if_neg h3]
        obtain ⟨sec, e1, e2, e3, e4, new, e5, e6⟩ := c4 h1 h2 h3
        rcases ih s' st ds' (lims ++ new) hds e6 h with hh | ⟨hh, p, hp, hp'⟩
        · exact .inl hh
        · rw [e2, e3, ← e1] at hp
          exact .inr ⟨hh, p, List.mem_append_right _ hp, hp'⟩
      · rw [he]
        simp only
        rw [if_neg n1, if_neg n2, if_neg n3, hmk, hsec]
        exact .inr ⟨trivial, (sec, trim l), List.mem_append_left _ (by simp), hliv⟩

/-- A file that the other modes accept is accepted, unless a line in a liveness section is marked: then there is an error. -/
theorem initContextLimits_total {cap : Nat} {order : List Char → Bool} {text : List Char} {tab : VarTable} {c : Ctx B}
    (h : initContext cap order text = .ok (tab, c)) :
    ((∀ p ∈ markedItems none false (splitLines text), p.1 ≠ .envLiveness ∧ p.1 ≠ .sysLiveness) →
      ∃ limits, initContextLimits cap order text = .ok (tab, c, limits)) ∧
    ((∃ p ∈ markedItems none false (splitLines text), p.1 = .envLiveness ∨ p.1 = .sysLiveness) →
      initContextLimits (B := B) cap order text = .err .limitInLiveness) := by
  rw [initContext] at h
  cases hl : initLines (B := B) cap order initStart (splitLines text) with
  | err e => rw [hl] at h; cases h
  | ub => rw [hl] at h; cases h
  | stuck => rw [hl] at h; cases h
  | ok st =>
    rw [hl] at h
    simp only at h
    split at h
    · rename_i hnd
      simp only [Res.ok.injEq, Prod.mk.injEq] at h
      rcases initLinesLimits_total (splitLines text) { st := initStart, limits := L.tt, marked := false } st [] [] rfl
        ⟨by simp, fun a => by simp [L.eval_tt]⟩ hl with ⟨s', hs'⟩ | ⟨he, hp⟩
      · have hst := initLinesLimits_proj _ _ _ hs'
        rw [hl] at hst
        simp only [Res.ok.injEq] at hst
        have hok : initContextLimits cap order text = .ok (tab, c, s'.limits) := by
          rw [initContextLimits, hs']
          simp only
          rw [← hst, if_pos hnd, h.1, h.2]
        refine ⟨fun _ => ⟨_, hok⟩, fun ⟨p, hp, hp'⟩ => ?_⟩
        obtain ⟨_, _, _, _, _, _, _, _, _, _, hno⟩ := initContextLimits_spec hok
        rcases hp' with hp' | hp'
        · exact absurd hp' (hno p hp).1
        · exact absurd hp' (hno p hp).2
      · refine ⟨fun hno => ?_, fun _ => by rw [initContextLimits, he]⟩
        obtain ⟨p, hp, hp'⟩ := hp
        rcases hp' with hp' | hp'
        · exact absurd hp' (hno p hp).1
        · exact absurd hp' (hno p hp).2
    · cases h

/-! ### The numbers -/

/-- The numbers, in terms of sets of positions. -/
theorem numbers_enc {X Y : Type} {types : List VarType} (lay : Layout X Y types) (g : Game (X → Bool) (Y → Bool)) (W C : Pos (X → Bool) (Y → Bool) → Prop) :
    numbers types ((gameCtx g).map (lay.enc B)) (lay.enc B fun s _ => W s) (lay.enc B fun s _ => C s) =
    { nofPos := some (Nat.card {p // C p})
      nofPosA := some (Nat.card {p : Pos (X → Bool) (Y → Bool) // C p ∧ g.initEnv p.1})
      nofPosG := some (Nat.card {p // C p ∧ g.initSys p})
      nofPosAG := some (Nat.card {p : Pos (X → Bool) (Y → Bool) // C p ∧ g.initEnv p.1 ∧ g.initSys p})
      nofWPos := some (Nat.card {p // C p ∧ W p})
      nofWPosA := some (Nat.card {p : Pos (X → Bool) (Y → Bool) // C p ∧ g.initEnv p.1 ∧ W p})
      nofWPosG := some (Nat.card {p // C p ∧ g.initSys p ∧ W p})
      nofWPosAG := some (Nat.card {p : Pos (X → Bool) (Y → Bool) // C p ∧ g.initEnv p.1 ∧ g.initSys p ∧ W p})
      nofInputs := some (Nat.card {i // ∃ o, C (i, o)})
      nofInputsSystemLosing := countB (varsOfTypes types [.preInput])
        (lay.enc B fun s _ => C s ∧ g.initEnv s.1 ∧ ∀ o, g.initSys (s.1, o) → ¬ W (s.1, o))
      nofAllowedInitialInputs := some (Nat.card {i // (∃ o, C (i, o)) ∧ g.initEnv i}) } := by
  have H := lay.hom B
  have e : ∀ {f f' : T (X → Bool) (Y → Bool)}, (∀ s t, f s t ↔ f' s t) → lay.enc B f = lay.enc B f' := fun hf =>
    congrArg _ (funext fun s => funext fun t => propext (hf s t))
  have c1 : ∀ {f : T (X → Bool) (Y → Bool)} (P : Pos (X → Bool) (Y → Bool) → Prop), (∀ s t, f s t ↔ P s) →
      countB (varsOfTypes types [.preOutput, .preInput]) (lay.enc B f) = some (Nat.card {p // P p}) := fun P hf =>
    (congrArg _ (e (f' := fun s _ => P s) hf)).trans (lay.count_pre P)
  have c2 : ∀ {f : T (X → Bool) (Y → Bool)} (P : (X → Bool) → Prop), (∀ s t, f s t ↔ P s.1) →
      countB (varsOfTypes types [.preInput]) (lay.enc B f) = some (Nat.card {p // P p}) := fun P hf =>
    (congrArg _ (e (f' := fun s _ => P s.1) hf)).trans (lay.count_preInput P)
  simp only [numbers, Ctx.map, H.and, H.not, H.exPreOutput, Analysis.mk.injEq]
  refine ⟨c1 _ ?_, c1 _ ?_, c1 _ ?_, c1 _ ?_, c1 _ ?_, c1 _ ?_, c1 _ ?_, c1 _ ?_, c2 _ ?_, congrArg _ (e ?_), c2 _ ?_⟩
  all_goals intro s t
  · exact Iff.rfl
  · exact ⟨fun h => ⟨h.2, h.1⟩, fun h => ⟨h.2, h.1⟩⟩
  · exact ⟨fun h => ⟨h.2, h.1⟩, fun h => ⟨h.2, h.1⟩⟩
  · exact ⟨fun h => ⟨h.2, h.1.1, h.1.2⟩, fun h => ⟨⟨h.2.1, h.2.2⟩, h.1⟩⟩
  · exact ⟨fun h => ⟨h.2, h.1⟩, fun h => ⟨h.2, h.1⟩⟩
  · exact ⟨fun h => ⟨h.2, h.1.1, h.1.2⟩, fun h => ⟨⟨h.2.1, h.2.2⟩, h.1⟩⟩
  · exact ⟨fun h => ⟨h.2, h.1.1, h.1.2⟩, fun h => ⟨⟨h.2.1, h.2.2⟩, h.1⟩⟩
  · exact ⟨fun h => ⟨h.2, h.1.1.1, h.1.1.2, h.1.2⟩, fun h => ⟨⟨⟨h.2.1, h.2.2.1⟩, h.2.2.2⟩, h.1⟩⟩
  · exact Iff.rfl
  · exact ⟨fun h => ⟨h.1.2, h.1.1, fun o h1 h2 => h.2 ⟨o, h2, h1⟩⟩, fun h => ⟨⟨h.2.1, h.1⟩, fun ⟨o, h2, h1⟩ => h.2.2 o h1 h2⟩⟩
  · exact ⟨fun h => ⟨h.2, h.1⟩, fun h => ⟨h.2, h.1⟩⟩

end Slugs.Model
