import Verif.Lemmas.Weaken
import Verif.Lemmas.CnfText
import Verif.Lemmas.Checked
import Verif.Props.Monotone

/-! `--computeWeakenedSafetyAssumptions`: the whole computation, and its meaning for the game. -/

namespace Slugs.Model

open Slugs.Spec Slugs.Props

variable {B : Type} [DecidableEq B] [L : BddLib B]

/-! ### All loops -/

/-- What is known about the vectors that are printed, in terms of the clauses `F` from which they are obtained by removing literals. -/
structure VectorsOK (K : Nat → Prop) (n : Nat) (R : (Asg → Prop) → Prop) (e : B) (F out : List (List Int)) : Prop where
  length : ∀ v ∈ F, v.length = n
  support : ∀ v ∈ F, ∀ x ∈ keptOf (List.range' 0 v.length) v, K x.1
  weaker : ∀ w, L.eval e w = true → AllHold F w
  good : (R fun w => L.eval e w = true) → R (AllHold F)
  minimal : ∀ v ∈ F, ¬ R (AllHold (F.filter (· ≠ v)))
  parts : ∃ fs, List.Forall₂ VecSub fs F ∧ (∀ f, f ∈ out ↔ f ∈ fs) ∧
    (∀ init last, fs = init ++ [last] → ∀ f ∈ init, ∀ w, AllHold F w → VecHolds w 0 f) ∧ ∀ v, F = [v] → fs = [v]

theorem weakenVectors_spec {types : List VarType} {K : Nat → Prop} (hK : ∀ k, K k → k < types.length) {check : B → Res Unit Bool}
    {R : (Asg → Prop) → Prop} (hc : CheckOK K check R) {e : B} (he : DependsOn K e) {fuel : Nat} (hf : 2 ^ types.length < fuel) :
    ∃ F out, weakenVectors check types e fuel = .ok out ∧ VectorsOK K types.length R e F out := by
  obtain ⟨cur, h1, h2, h3, h4⟩ := abstractLoop_spec hc (abstractVars types) e he
  obtain ⟨cs, h5, h6, h7⟩ := cnfLoop_spec hK fuel cur [] h2 ((uncovered_le _ _).trans_lt hf)
  have hmem : ∀ c, c ∈ bySize types.length cs ↔ c ∈ cs := fun c => mem_bySize fun c hc => (h6 c hc).length
  obtain ⟨F, h8, _, h10, _, h12, h13⟩ := removeLoop_spec hc (bySize types.length cs) L.tt [] (fun c hc => h6 c ((hmem c).mp hc)) DependsOn.tt
    (fun w => by simp [L.eval_tt, AllHold]) List.nodup_nil
  have hF : ∀ v ∈ F, ∃ c ∈ cs, c.1 = v := fun v hv => by
    rcases h10 v hv with h | ⟨c, hc, e⟩
    · simp at h
    · exact ⟨c, (hmem c).mp hc, e⟩
  obtain ⟨fs, h14, h15, h16, h17⟩ := filterLoop_spec F (L.tt : B) []
  refine ⟨F, filterLoop F (L.tt : B) [], ?_, ⟨fun v hv => ?_, fun v hv => ?_, fun w hw v hv => ?_, fun h => h12 (hc.mono _ _ (fun w hw => ?_) (h4 h)),
    fun v hv => h13 v hv (by simp), fs, h14, fun f => by rw [h15]; simp, fun init last e f hf w hw => ?_, fun v e => h17 v e fun w => L.eval_tt w⟩⟩
  · rw [weakenVectors, h1]
    simp only [h5, List.reverse_nil, List.nil_append, h8]
  · obtain ⟨c, hc, rfl⟩ := hF v hv; exact (h6 c hc).length
  · obtain ⟨c, hc, rfl⟩ := hF v hv; exact (h6 c hc).support
  · obtain ⟨c, hc, rfl⟩ := hF v hv; exact (h7 w).mp (h3 w hw) c hc
  · exact (h7 w).mpr fun c hc => hw.2 c ((hmem c).mpr hc)
  · exact h16 init last e f hf w (L.eval_tt w) fun v hv => hw v (List.dropLast_subset _ hv)

/-! ### More rounds -/

theorem abstractLoop_more {check check' : B → Res Unit Bool} (hc : ∀ e b, check e = .ok b → check' e = .ok b) : ∀ (is : List Nat) (cur r : B),
    abstractLoop check is cur = .ok r → abstractLoop check' is cur = .ok r
  | [], _, _, h => h
  | i :: is, cur, r, h => by
    rw [abstractLoop] at h ⊢
    cases e : check (L.exist [i] cur) with
    | err _ => rw [e] at h; cases h
    | ub => rw [e] at h; cases h
    | stuck => rw [e] at h; cases h
    | ok b =>
      rw [e] at h
      rw [hc _ _ e]
      cases b <;> exact abstractLoop_more hc is _ r h

theorem cnfLoop_more {types : List VarType} : ∀ {n n' : Nat}, n ≤ n' → ∀ (cur : B) (acc : List (List Int × B)) (r),
    cnfLoop types n cur acc = some r → cnfLoop types n' cur acc = some r
  | 0, _, _, _, _, _, h => by rw [cnfLoop] at h; cases h
  | n + 1, 0, hn, _, _, _, _ => by omega
  | n + 1, n' + 1, hn, cur, acc, r, h => by
    rw [cnfLoop] at h ⊢
    by_cases ht : cur = L.tt
    · rw [if_pos ht] at h ⊢; exact h
    · rw [if_neg ht] at h ⊢
      exact cnfLoop_more (by omega) _ _ r h

theorem removeLoop_more {check check' : B → Res Unit Bool} (hc : ∀ e b, check e = .ok b → check' e = .ok b) : ∀ (cs : List (List Int × B)) (found : B)
    (ints r : List (List Int)), removeLoop check cs found ints = .ok r → removeLoop check' cs found ints = .ok r
  | [], _, _, _, h => h
  | (v, b) :: cs, found, ints, r, h => by
    rw [removeLoop] at h ⊢
    cases e : check (L.and (cs.foldl (fun acc c => L.and acc c.2) L.tt) found) with
    | err _ => rw [e] at h; cases h
    | ub => rw [e] at h; cases h
    | stuck => rw [e] at h; cases h
    | ok b =>
      rw [e] at h
      rw [hc _ _ e]
      cases b <;> exact removeLoop_more hc cs _ _ r h

theorem weakenVectors_more {types : List VarType} {check check' : B → Res Unit Bool} (hc : ∀ e b, check e = .ok b → check' e = .ok b) {n n' : Nat}
    (hn : n ≤ n') {e : B} {out : List (List Int)} (h : weakenVectors check types e n = .ok out) : weakenVectors check' types e n' = .ok out := by
  rw [weakenVectors] at h ⊢
  cases e1 : abstractLoop check (abstractVars types) e with
  | err _ => rw [e1] at h; cases h
  | ub => rw [e1] at h; cases h
  | stuck => rw [e1] at h; cases h
  | ok cur =>
    rw [e1] at h
    rw [abstractLoop_more hc _ _ _ e1]
    simp only at h ⊢
    cases e2 : cnfLoop types n cur [] with
    | none => rw [e2] at h; cases h
    | some cs =>
      rw [e2] at h
      rw [cnfLoop_more hn _ _ _ e2]
      simp only at h ⊢
      cases e3 : removeLoop check (bySize types.length cs) L.tt [] with
      | err _ => rw [e3] at h; cases h
      | ub => rw [e3] at h; cases h
      | stuck => rw [e3] at h; cases h
      | ok ints =>
        rw [e3] at h
        rw [removeLoop_more hc _ _ _ _ e3]
        exact h

theorem checkWith_more {types : List VarType} {c : Ctx B} {n n' : Nat} (hn : n ≤ n') (e : B) (b : Bool) (h : checkWith B types c n e = .ok b) :
    checkWith B types c n' e = .ok b := by
  rw [checkWith] at h ⊢
  cases hr : checkRealizability .standard (bddMgr B types) { c with safetyEnv := e } n with
  | none => rw [hr] at h; cases h
  | some r =>
    rw [hr] at h
    rw [checkRealizability_more _ _ hn hr]
    exact h

theorem runWeaken_more {cap : Nat} {order : List Char → Bool} {text : List Char} {n n' : Nat} (hn : n ≤ n') {cs : List Clause}
    (h : runWeaken B cap order n text = .clauses cs) : runWeaken B cap order n' text = .clauses cs := by
  rw [runWeaken] at h ⊢
  cases hi : initContext (B := B) cap order text with
  | err _ => rw [hi] at h; cases h
  | ub => rw [hi] at h; cases h
  | stuck => rw [hi] at h; cases h
  | ok q =>
    obtain ⟨tab, c⟩ := q
    rw [hi] at h
    dsimp only at h ⊢
    cases e : weakenVectors (checkWith B tab.types c n) tab.types c.safetyEnv n with
    | err _ => rw [e] at h; cases h
    | ub => rw [e] at h; cases h
    | stuck => rw [e] at h; cases h
    | ok out =>
      rw [e] at h
      rw [weakenVectors_more (checkWith_more hn) hn e]
      exact h

/-! ### The check -/

/-- The variable is not a next output. -/
def Layout.Known {X Y : Type} {types : List VarType} (lay : Layout X Y types) (k : Nat) : Prop := ∃ z, lay.code z = k ∧ ∀ y, z ≠ .no y

/-- The game with other safety assumptions. -/
def withEnv {I O : Type} (g : Game I O) (E : Pos I O → I → Prop) : Game I O := { g with safetyEnv := E }

theorem withEnv_realizable_mono {I O : Type} {g : Game I O} {E E' : Pos I O → I → Prop} (h : ∀ p i, E p i → E' p i)
    (hr : (withEnv g E').Realizable) : (withEnv g E).Realizable := by
  intro i hi
  obtain ⟨o, ho, hw⟩ := hr i hi
  exact ⟨o, ho, relaxes_sysWins (g := withEnv g E') (g' := withEnv g E)
    ⟨h, fun _ _ h => h, fun a ha => ⟨a, ha, fun _ _ h => h⟩, fun b hb => ⟨b, hb, fun _ _ h => h⟩⟩ hw⟩

section
variable {X Y : Type} [Finite X] [Finite Y] {types : List VarType} (lay : Layout X Y types) (g : Game (X → Bool) (Y → Bool))
  (val : Pos (X → Bool) (Y → Bool) → Pos (X → Bool) (Y → Bool) → Asg)

theorem Layout.checkWith_ok (hval : ∀ p q, lay.get (val p q) = slots p q) {fuel : Nat} (hf : Nat.card (Pos (X → Bool) (Y → Bool)) < fuel) :
    CheckOK lay.Known (checkWith B types ((gameCtx (padGame g)).map (lay.enc B)) fuel)
      fun P => (withEnv g fun p i => P (val p (i, fun _ => false))).Realizable where
  mono P Q h := withEnv_realizable_mono fun p i => h _
  ok e he := by
    have henc : e = lay.enc B fun p q => L.eval e (val p (q.1, fun _ => false)) = true := by
      refine lay.eq_enc B fun a => ?_
      rw [he a (val (curPos (lay.get a)) ((nxtPos (lay.get a)).1, fun _ => false))]
      rintro _ ⟨z, rfl, hz⟩
      have h1 := congrFun (hval (curPos (lay.get a)) ((nxtPos (lay.get a)).1, fun _ => false)) z
      rw [Layout.get] at h1
      rw [h1]
      cases z with
      | no y => exact absurd rfl (hz y)
      | _ => rfl
    have hctx : { (gameCtx (padGame g)).map (lay.enc B) with safetyEnv := e } =
        (gameCtx (padGame (withEnv g fun p i => L.eval e (val p (i, fun _ => false)) = true))).map (lay.enc B) := by
      conv_lhs => rw [henc]
      rfl
    obtain ⟨v, W, dump, r, h1, h2⟩ := C04_verdict_exact .standard (padGame (withEnv g fun p i => L.eval e (val p (i, fun _ => false)) = true))
      (padGame_assumptions _) (padGame_guarantees _) fuel hf
    rw [padGame_realizable] at h1 h2
    have hh := checkRealizability_hom (lay.hom B) .standard (gameCtx (padGame (withEnv g fun p i => L.eval e (val p (i, fun _ => false)) = true))) fuel
    rw [r] at hh
    rw [checkWith, hctx, hh]
    cases v with
    | realizable => exact ⟨true, rfl, by simpa using h1⟩
    | unrealizable => exact ⟨false, rfl, by simpa using h2⟩
    | internalError =>
      have hn := h1.not.mp (by simp)
      exact absurd (h2.mpr hn) (by simp)

theorem Layout.env_depends : DependsOn lay.Known (lay.enc B fun p q => g.safetyEnv p q.1) := by
  intro a a' h
  rw [Bool.eq_iff_iff, lay.eval_enc, lay.eval_enc]
  have h1 : ∀ z, (∀ y, z ≠ Slot.no y) → lay.get a z = lay.get a' z := fun z hz => h _ ⟨z, rfl, hz⟩
  have h2 : curPos (lay.get a) = curPos (lay.get a') := Prod.ext (funext fun x => h1 (.ci x) (by simp)) (funext fun x => h1 (.co x) (by simp))
  have h3 : (nxtPos (lay.get a)).1 = (nxtPos (lay.get a')).1 := funext fun x => h1 (.ni x) (by simp)
  rw [h2, h3]

end

/-! ### Printing -/

theorem printedClause_eval {ρ : Word → Bool} {w : Asg} : ∀ (names : List Name) (v : List Int) (i : Nat), v.length ≤ names.length →
    (∀ k x, names[k]? = some x → w (i + k) = ρ x) → ((printedClause names v).fml.eval ρ [] = some true ↔ VecHolds w i v)
  | names, [], i, _, _ => by
    cases names <;> simp [printedClause, Clause.fml, Fml.eval, VecHolds]
  | [], _ :: _, _, h, _ => by simp at h
  | x :: names, n :: v, i, hl, hw => by
    have ih := printedClause_eval (ρ := ρ) (w := w) names v (i + 1) (by simpa using hl) fun k y hy => by
      rw [← hw (k + 1) y (by simpa using hy)]
      congr 1
      omega
    have h0 : w i = ρ x := hw 0 x rfl
    rw [printedClause, VecHolds]
    by_cases hn : n = 0
    · rw [if_pos hn, ih, hn]
      simp [not_litHolds_zero]
    · rw [if_neg hn, ← ih, LitHolds, h0]
      have htot : ∀ c : Clause, ∃ b, c.fml.eval ρ [] = some b := by
        intro c
        induction c with
        | nil => exact ⟨false, rfl⟩
        | cons l ls ih =>
          obtain ⟨b, hb⟩ := ih
          obtain ⟨s, y⟩ := l
          cases s
          · exact ⟨ρ y || b, by simp [Clause.fml, literalFml, Fml.eval, hb, BinOp.apply]⟩
          · exact ⟨!ρ y || b, by simp [Clause.fml, literalFml, Fml.eval, hb, BinOp.apply]⟩
      obtain ⟨b, hb⟩ := htot (printedClause names v)
      rw [hb]
      by_cases hneg : n < 0
      · have hp : ¬ 0 < n := by omega
        simp [hneg, hp, Clause.fml, literalFml, Fml.eval, hb, BinOp.apply]
      · have hp : 0 < n := by omega
        simp [hneg, hp, Clause.fml, literalFml, Fml.eval, hb, BinOp.apply]

theorem mem_printedClause {l : Bool × Name} : ∀ {names : List Name} {v : List Int} {i : Nat}, l ∈ printedClause names v →
    ∃ k, names[k]? = some l.2 ∧ (i + k, l.1) ∈ keptOf (List.range' i v.length) v
  | [], [], _, h => by simp [printedClause] at h
  | [], _ :: _, _, h => by simp [printedClause] at h
  | _ :: _, [], _, h => by simp [printedClause] at h
  | x :: names, n :: v, i, h => by
    rw [printedClause] at h
    rw [List.length_cons, List.range'_succ, keptOf]
    have step : l ∈ printedClause names v → ∃ k, (x :: names)[k]? = some l.2 ∧ (i + k, l.1) ∈ keptOf (List.range' (i + 1) v.length) v := fun h => by
      obtain ⟨k, h1, h2⟩ := mem_printedClause (i := i + 1) h
      exact ⟨k + 1, by simpa using h1, by rw [show i + (k + 1) = i + 1 + k by omega]; exact h2⟩
    by_cases hn : n = 0
    · rw [if_pos hn] at h ⊢
      exact step h
    · rw [if_neg hn] at h ⊢
      rcases List.mem_cons.mp h with rfl | h
      · exact ⟨0, rfl, by simp⟩
      · obtain ⟨k, h1, h2⟩ := step h
        exact ⟨k, h1, List.mem_cons_of_mem _ h2⟩

theorem printedClause_sub : ∀ {names : List Name} {u v : List Int}, VecSub u v → Clause.Part (printedClause names u) (printedClause names v)
  | [], _, _, .nil => fun _ h => h
  | [], _, _, .cons _ _ => fun _ h => h
  | _ :: _, _, _, .nil => fun _ h => h
  | x :: names, _, _, .cons h hs => by
    have ih := printedClause_sub (names := names) hs
    intro l hl
    rw [printedClause] at hl ⊢
    rcases h with rfl | rfl
    · rw [if_pos rfl] at hl
      split
      · exact ih l hl
      · exact List.mem_cons_of_mem _ (ih l hl)
    · split
      · rename_i h0; rw [if_pos h0] at hl; exact ih l hl
      · rename_i h0
        rw [if_neg h0] at hl
        rcases List.mem_cons.mp hl with rfl | hl
        · exact List.mem_cons_self
        · exact List.mem_cons_of_mem _ (ih l hl)

theorem VecSub.length {u v : List Int} (h : VecSub u v) : u.length = v.length := List.Forall₂.length_eq h

theorem vars_clause {x : Word} : ∀ {c : Clause}, x ∈ c.fml.vars → ∃ b, (b, x) ∈ c
  | [], h => by simp [Clause.fml, Fml.vars] at h
  | (b, y) :: c, h => by
    simp only [Clause.fml, Fml.vars, List.mem_append] at h
    rcases h with h | h
    · cases b <;> simp only [literalFml, Fml.vars, List.mem_singleton] at h <;> subst h <;> exact ⟨_, List.mem_cons_self⟩
    · obtain ⟨b', hb⟩ := vars_clause h
      exact ⟨b', List.mem_cons_of_mem _ hb⟩

end Slugs.Model
