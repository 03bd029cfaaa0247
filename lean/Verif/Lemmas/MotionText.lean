import Verif.Lemmas.MotionInit

/-! The analysis of `--nonDeterministicMotion` on a proper file, in terms of the game. -/

namespace Slugs.Model

open Slugs.Spec

/-! ### Quantifiers -/

section
variable (B : Type) [DecidableEq B] [L : BddLib B] {ds : Decls} (hn : (tableOf ds).names.Nodup) (P : Name → Bool)

/-- The motion state outputs. -/
abbrev mSet (ds : Decls) (P : Name → Bool) : {x // x ∈ outputsOf ds} → Prop := fun y => P y.1 = true

theorem exist_motionPost (f : T ({x // x ∈ inputsOf ds} → Bool) ({x // x ∈ outputsOf ds} → Bool)) :
    L.exist (varsOfType (mTypes ds P) .postMotionState) ((tableLayout ds hn).enc B f) =
      (tableLayout ds hn).enc B (fun s t => ∃ b, f s (t.1, mergeOut (mSet ds P) b t.2)) := by
  refine (tableLayout ds hn).exist_enc B _ _ (mem_motionPost hn P) f _ fun v => ⟨?_, ?_⟩
  · rintro ⟨u, hu, hf⟩
    refine ⟨(nxtPos u).2, ?_⟩
    have h1 : curPos u = curPos v := Prod.ext (funext fun x => hu (.ci x) (by simp)) (funext fun x => hu (.co x) (by simp))
    have h2 : nxtPos u = ((nxtPos v).1, mergeOut (mSet ds P) (nxtPos u).2 (nxtPos v).2) := by
      refine Prod.ext (funext fun x => hu (.ni x) (by simp)) (funext fun x => ?_)
      by_cases hx : P x.1 = true
      · simp [mergeOut, hx]
      · refine Eq.trans ?_ (if_neg (c := mSet ds P x) hx).symm
        exact hu (.no x) (by rintro ⟨y, hy, e⟩; cases e; exact hx hy)
    rw [h1, h2] at hf
    exact hf
  · rintro ⟨a, ha⟩
    refine ⟨slots (curPos v) ((nxtPos v).1, mergeOut (mSet ds P) a (nxtPos v).2), ?_, ha⟩
    rintro (x | x | x | x) h
    · rfl
    · rfl
    · rfl
    · have hx : ¬ P x.1 = true := fun hx => h ⟨x, hx, rfl⟩
      simp [slots, mergeOut, hx, nxtPos]

theorem univ_not (vs : List Nat) (b : B) : L.univ vs b = L.not (L.exist vs (L.not b)) := by
  refine L.eval_inj _ _ fun v => ?_
  rw [Bool.eq_iff_iff, L.eval_univ, L.eval_not, Bool.not_eq_true', ← Bool.not_eq_true, L.eval_exist]
  simp only [L.eval_not, Bool.not_eq_true', not_exists, not_and, Bool.not_eq_false]

theorem univ_motionPost (f : T ({x // x ∈ inputsOf ds} → Bool) ({x // x ∈ outputsOf ds} → Bool)) :
    L.univ (varsOfType (mTypes ds P) .postMotionState) ((tableLayout ds hn).enc B f) =
      (tableLayout ds hn).enc B (fun s t => ∀ b, f s (t.1, mergeOut (mSet ds P) b t.2)) := by
  rw [univ_not, (tableLayout ds hn).not_enc, exist_motionPost B hn P, (tableLayout ds hn).not_enc]
  congr 1
  funext s t
  simp

theorem exist_controlPost (f : T ({x // x ∈ inputsOf ds} → Bool) ({x // x ∈ outputsOf ds} → Bool)) :
    L.exist (varsOfType (mTypes ds P) .postMotionControlOutput) ((tableLayout ds hn).enc B f) =
      (tableLayout ds hn).enc B (fun s t => ∃ a, f s (t.1, mergeOut (mSet ds P) t.2 a)) := by
  refine (tableLayout ds hn).exist_enc B _ _ (mem_controlPost hn P) f _ fun v => ⟨?_, ?_⟩
  · rintro ⟨u, hu, hf⟩
    refine ⟨(nxtPos u).2, ?_⟩
    have h1 : curPos u = curPos v := Prod.ext (funext fun x => hu (.ci x) (by simp)) (funext fun x => hu (.co x) (by simp))
    have h2 : nxtPos u = ((nxtPos v).1, mergeOut (mSet ds P) (nxtPos v).2 (nxtPos u).2) := by
      refine Prod.ext (funext fun x => hu (.ni x) (by simp)) (funext fun x => ?_)
      by_cases hx : P x.1 = true
      · refine Eq.trans ?_ (if_pos (c := mSet ds P x) hx).symm
        exact hu (.no x) (by rintro ⟨y, hy, e⟩; cases e; exact hy hx)
      · simp [mergeOut, hx]
    rw [h1, h2] at hf
    exact hf
  · rintro ⟨a, ha⟩
    refine ⟨slots (curPos v) ((nxtPos v).1, mergeOut (mSet ds P) (nxtPos v).2 a), ?_, ha⟩
    rintro (x | x | x | x) h
    · rfl
    · rfl
    · rfl
    · have hx : P x.1 = true := by
        by_contra hx
        exact h ⟨x, hx, rfl⟩
      simp [slots, mergeOut, hx, nxtPos]

theorem exist_motionPre (f : T ({x // x ∈ inputsOf ds} → Bool) ({x // x ∈ outputsOf ds} → Bool)) :
    L.exist (varsOfType (mTypes ds P) .preMotionState) ((tableLayout ds hn).enc B f) =
      (tableLayout ds hn).enc B (fun s t => ∃ b, f (s.1, mergeOut (mSet ds P) b s.2) t) := by
  refine (tableLayout ds hn).exist_enc B _ _ (mem_motionPre hn P) f _ fun v => ⟨?_, ?_⟩
  · rintro ⟨u, hu, hf⟩
    refine ⟨(curPos u).2, ?_⟩
    have h1 : nxtPos u = nxtPos v := Prod.ext (funext fun x => hu (.ni x) (by simp)) (funext fun x => hu (.no x) (by simp))
    have h2 : curPos u = ((curPos v).1, mergeOut (mSet ds P) (curPos u).2 (curPos v).2) := by
      refine Prod.ext (funext fun x => hu (.ci x) (by simp)) (funext fun x => ?_)
      by_cases hx : P x.1 = true
      · simp [mergeOut, hx]
      · refine Eq.trans ?_ (if_neg (c := mSet ds P x) hx).symm
        exact hu (.co x) (by rintro ⟨y, hy, e⟩; cases e; exact hx hy)
    rw [h1, h2] at hf
    exact hf
  · rintro ⟨a, ha⟩
    refine ⟨slots ((curPos v).1, mergeOut (mSet ds P) a (curPos v).2) (nxtPos v), ?_, ha⟩
    rintro (x | x | x | x) h
    · rfl
    · have hx : ¬ P x.1 = true := fun hx => h ⟨x, hx, rfl⟩
      simp [slots, mergeOut, hx, curPos]
    · rfl
    · rfl

/-! ### The enforceable predecessor operator -/

theorem mergeOut_right {Y : Type} (S : Y → Prop) (b c a : Y → Bool) : mergeOut S b (mergeOut S c a) = mergeOut S b a := by
  funext y; by_cases h : S y <;> simp [mergeOut, h]

theorem ctlMotion_enc (g : Game ({x // x ∈ inputsOf ds} → Bool) ({x // x ∈ outputsOf ds} → Bool))
    (rob : ({x // x ∈ outputsOf ds} → Bool) → ({x // x ∈ outputsOf ds} → Bool) → Prop)
    (R : T ({x // x ∈ inputsOf ds} → Bool) ({x // x ∈ outputsOf ds} → Bool)) {c : Ctx B}
    (h1 : c.safetyEnv = (tableLayout ds hn).enc B (fun s t => g.safetyEnv s t.1)) (h2 : c.safetySys = (tableLayout ds hn).enc B g.safetySys) :
    ctlMotion B (mTypes ds P) c ((tableLayout ds hn).enc B fun s t => rob s.2 t.2) ((tableLayout ds hn).enc B R) =
      (tableLayout ds hn).enc B (fun s _ => CoxM (mSet ds P) rob g R s) := by
  have H := (tableLayout ds hn).hom B
  rw [ctlMotion, bddMgr_m]
  rw [h1, h2, H.and, H.imp, univ_motionPost B hn P, exist_motionPost B hn P, H.and, H.imp, exist_controlPost B hn P, H.allPostInput]
  congr 1
  funext s t
  apply propext
  simp only [semMgr, Mgr.imp, mergeOut_right, CoxM]
  refine forall_congr' fun i => ?_
  by_cases hi : g.safetyEnv s i
  · simp only [hi, not_true, false_or, forall_const, true_implies]
    refine exists_congr fun o => and_congr ?_ ?_
    · constructor
      · rintro ⟨b, hb⟩
        exact ⟨_, sameControls_merge _ b o, hb⟩
      · rintro ⟨o', h, ho⟩
        exact ⟨o', by rw [mergeOut_controls h]; exact ho⟩
    · constructor
      · intro h o' hs ho
        have := h o'
        rw [mergeOut_controls hs] at this
        exact (this.resolve_left (not_not_intro ho)).symm
      · intro h b
        by_cases hr : rob s.2 (mergeOut (mSet ds P) b o)
        · exact .inr (h _ (sameControls_merge _ b o) hr).symm
        · exact .inl hr
  · simp [hi]

/-- The check, given a context that represents a game. -/
theorem checkMotion_enc (robotics : Bool) (g : Game ({x // x ∈ inputsOf ds} → Bool) ({x // x ∈ outputsOf ds} → Bool))
    (rob : ({x // x ∈ outputsOf ds} → Bool) → ({x // x ∈ outputsOf ds} → Bool) → Prop) (hg : g.guarantees ≠ [])
    {c : Ctx B} (h1 : c.safetyEnv = (tableLayout ds hn).enc B (fun s t => g.safetyEnv s t.1)) (h2 : c.safetySys = (tableLayout ds hn).enc B g.safetySys)
    (h3 : c.initEnv = (tableLayout ds hn).enc B (fun s _ => g.initEnv s.1)) (h4 : c.initSys = (tableLayout ds hn).enc B (fun s _ => g.initSys s))
    (h5 : c.livenessAssumptions = (g.assumptions ++ [MovesIfPossible (mSet ds P) rob]).map ((tableLayout ds hn).enc B))
    (h6 : c.livenessGuarantees = g.guarantees.map ((tableLayout ds hn).enc B)) (fuel : Nat)
    (hf : Nat.card (Pos (Reaction ({x // x ∈ inputsOf ds} → Bool) {x // x ∈ outputsOf ds}) ({x // x ∈ outputsOf ds} → Bool)) < fuel) :
    ∃ v, checkMotion B robotics (mTypes ds P) c ((tableLayout ds hn).enc B fun s t => rob s.2 t.2) fuel = some v ∧
      (robotics = false → (v = .realizable ↔ ∀ i, g.initEnv i → ∃ o, g.initSys (i, o) ∧ MotionWins (mSet ds P) rob g (i, o)) ∧
        (v = .unrealizable ↔ ¬ ∀ i, g.initEnv i → ∃ o, g.initSys (i, o) ∧ MotionWins (mSet ds P) rob g (i, o))) ∧
      (robotics = true → (v = .realizable ↔ ∀ i, g.initEnv i → ∀ o, MotionWins (mSet ds P) rob g (i, o)) ∧
        (v = .unrealizable ↔ ¬ ∀ i, g.initEnv i → ∀ o, MotionWins (mSet ds P) rob g (i, o))) := by
  have H := (tableLayout ds hn).hom B
  have H' : CtlHom (semMgr _ _) (bddMgr B (mTypes ds P)) (fun R s _ => CoxM (mSet ds P) rob g R s)
      (ctlMotion B (mTypes ds P) c ((tableLayout ds hn).enc B fun s t => rob s.2 t.2)) ((tableLayout ds hn).enc B) := by
    have hc := fun R => ctlMotion_enc B hn P g rob R h1 h2
    rw [bddMgr_m]
    exact ⟨H.inj, H.tt, H.ff, H.and, H.or, H.not, H.swap, hc⟩
  have e := computeWinningPositionsBA_hom H' (g.assumptions ++ [MovesIfPossible (mSet ds P) rob]) g.guarantees fuel
  rw [computeWinningPositionsM_sem (mSet ds P) rob g hg fuel hf] at e
  rw [checkMotion, h5, h6, e]
  simp only [Option.map_some, Prod.map_apply]
  rw [bddMgr_m, h3, h4]
  cases robotics
  · refine ⟨_, rfl, fun _ => ?_, fun h => absurd h (by decide)⟩
    simp only [Bool.false_eq_true, if_false]
    rw [H.and, H.exPreOutput, H.imp, H.allPreInput, exist_motionPre B hn P, verdictOf_hom H]
    have hres : (fun (s t : Pos ({x // x ∈ inputsOf ds} → Bool) ({x // x ∈ outputsOf ds} → Bool)) => ∃ b : {x // x ∈ outputsOf ds} → Bool,
        (semMgr ({x // x ∈ inputsOf ds} → Bool) ({x // x ∈ outputsOf ds} → Bool)).allPreInput
          ((semMgr ({x // x ∈ inputsOf ds} → Bool) ({x // x ∈ outputsOf ds} → Bool)).imp (fun s _ => g.initEnv s.1)
            ((semMgr ({x // x ∈ inputsOf ds} → Bool) ({x // x ∈ outputsOf ds} → Bool)).exPreOutput
              ((semMgr ({x // x ∈ inputsOf ds} → Bool) ({x // x ∈ outputsOf ds} → Bool)).and (fun s _ => MotionWins (mSet ds P) rob g s)
                (fun s _ => g.initSys s)))) (s.1, mergeOut (mSet ds P) b s.2) t) =
        fun _ _ => ∀ i, g.initEnv i → ∃ o, g.initSys (i, o) ∧ MotionWins (mSet ds P) rob g (i, o) := by
      funext s t
      simp only [semMgr, Mgr.imp, exists_const, eq_iff_iff]
      refine forall_congr' fun i => ?_
      rw [← imp_iff_not_or]
      exact imp_congr_right fun _ => exists_congr fun o => and_comm
    rw [hres]
    exact Props.verdictOf_iff (fun _ => false, fun _ => false) _
  · refine ⟨_, rfl, fun h => absurd h (by decide), fun _ => ?_⟩
    simp only [if_true]
    rw [H.allPreOutput, H.imp, H.allPreInput, exist_motionPre B hn P, verdictOf_hom H]
    have hres : (fun (s t : Pos ({x // x ∈ inputsOf ds} → Bool) ({x // x ∈ outputsOf ds} → Bool)) => ∃ b : {x // x ∈ outputsOf ds} → Bool,
        (semMgr ({x // x ∈ inputsOf ds} → Bool) ({x // x ∈ outputsOf ds} → Bool)).allPreInput
          ((semMgr ({x // x ∈ inputsOf ds} → Bool) ({x // x ∈ outputsOf ds} → Bool)).imp (fun s _ => g.initEnv s.1)
            ((semMgr ({x // x ∈ inputsOf ds} → Bool) ({x // x ∈ outputsOf ds} → Bool)).allPreOutput
              (fun s _ => MotionWins (mSet ds P) rob g s))) (s.1, mergeOut (mSet ds P) b s.2) t) =
        fun _ _ => ∀ i, g.initEnv i → ∀ o, MotionWins (mSet ds P) rob g (i, o) := by
      funext s t
      simp only [semMgr, Mgr.imp, exists_const, eq_iff_iff]
      exact forall_congr' fun i => by rw [← imp_iff_not_or]
    rw [hres]
    exact Props.verdictOf_iff (fun _ => false, fun _ => false) _

/-! ### The assumption that the robot moves -/

theorem foldl_or_eval (a : Asg) : ∀ (ps : List (Nat × Nat)) (d : B),
    L.eval (ps.foldl (fun d p => L.or d (L.xor (L.var p.1) (L.var p.2))) d) a = true ↔ L.eval d a = true ∨ ∃ p ∈ ps, a p.1 ≠ a p.2 := by
  intro ps
  induction ps with
  | nil => intro d; simp
  | cons p ps ih =>
    intro d
    rw [List.foldl_cons, ih, L.eval_or, Bool.or_eq_true, L.eval_xor, L.eval_var, L.eval_var]
    simp only [List.exists_mem_cons_iff, or_assoc]
    refine or_congr Iff.rfl (or_congr ?_ Iff.rfl)
    cases a p.1 <;> cases a p.2 <;> simp

theorem motionAssumption_enc (rob : ({x // x ∈ outputsOf ds} → Bool) → ({x // x ∈ outputsOf ds} → Bool) → Prop) :
    motionAssumption (mTypes ds P) ((tableLayout ds hn).enc B fun s t => rob s.2 t.2) =
      (tableLayout ds hn).enc B (MovesIfPossible (mSet ds P) rob) := by
  have H := (tableLayout ds hn).hom B
  have hd : (((varsOfType (mTypes ds P) .preMotionState).zip (varsOfType (mTypes ds P) .postMotionState)).foldl
      (fun d p => L.or d (L.xor (L.var p.1) (L.var p.2))) L.ff) = (tableLayout ds hn).enc B (fun s t => ¬ SameMotion (mSet ds P) s.2 t.2) := by
    refine (tableLayout ds hn).eq_enc B fun a => ?_
    rw [foldl_or_eval, L.eval_ff, (vars_eq hn P).1, (vars_eq hn P).2, List.zip_map']
    simp only [Bool.false_eq_true, false_or, List.mem_map, SameMotion, not_forall]
    constructor
    · rintro ⟨_, ⟨x, hx, rfl⟩, hne⟩
      obtain ⟨h1, h2⟩ := List.mem_filter.mp hx
      exact ⟨⟨x, h1⟩, h2, hne⟩
    · rintro ⟨⟨x, h1⟩, h2, hne⟩
      exact ⟨_, ⟨x, List.mem_filter.mpr ⟨h1, h2⟩, rfl⟩, hne⟩
  rw [motionAssumption]
  rw [hd]
  have e1 : L.and ((tableLayout ds hn).enc B (fun s t => ¬ SameMotion (mSet ds P) s.2 t.2)) ((tableLayout ds hn).enc B fun s t => rob s.2 t.2) =
      (tableLayout ds hn).enc B _ := H.and _ _
  rw [e1, exist_motionPost B hn P, (tableLayout ds hn).not_enc]
  refine (H.or _ _).trans ?_
  congr 1
  funext s t
  apply propext
  simp only [semMgr, MovesIfPossible]
  rw [← imp_iff_not_or]
  refine imp_congr ?_ Iff.rfl
  constructor
  · rintro ⟨b, h1, h2⟩
    exact ⟨_, sameControls_merge _ b t.2, h2, h1⟩
  · rintro ⟨o, h1, h2, h3⟩
    exact ⟨o, by rw [mergeOut_controls h1]; exact ⟨h3, h2⟩⟩

end

/-! ### A proper file -/

section
variable {B : Type} [DecidableEq B] [L : BddLib B] {bddFile : List Char → Option BitPred} {robot : BitPred} {items : List (MSection × List Char)}

theorem mUsable_sub (s : MSection) {before after : List (MSection × List Char)} (hi : items = before ++ after) : mUsable s before ⊆ mUsable s items := by
  have h1 : ∀ s, (mItemsOf s before).Sublist (mItemsOf s items) := fun s => by rw [hi, mItemsOf_append]; exact List.sublist_append_left _ _
  have h2 : (regionNames before).Sublist (regionNames items) := (h1 _).map _
  have h3 : (mItemsOf .input before ++ mItemsOf .motionState before ++ regionNames before).Sublist
      (mItemsOf .input items ++ mItemsOf .motionState items ++ regionNames items) := ((h1 _).append (h1 _)).append h2
  refine List.Sublist.subset ?_
  cases s
  case envInit => exact h1 _
  case sysInit => exact h3
  case envTrans => exact h3.append ((h1 _).map _)
  case envLiveness => exact h3.append ((h1 _).map _)
  case sysTrans => exact (((h3.append ((h1 _).map _)).append ((h1 _).map _)).append (h2.map _)).append ((h1 _).map _)
  case sysLiveness => exact (((h3.append ((h1 _).map _)).append ((h1 _).map _)).append (h2.map _)).append ((h1 _).map _)
  all_goals exact List.Sublist.refl _

theorem MInv.run (hN : ((tableOf (mDecls items)).names ++ regionNames items ++ (regionNames items).map prime).Nodup)
    {hn : (tableOf (mDecls items)).names.Nodup} {cap : Nat} {order : List Char → Bool} (hmo : (mOutputs items).Nodup)
    (hlines : ∀ p ∈ items, p.2 ≠ [] ∧ p.2.head? ≠ some '#' ∧ p.2.head? ≠ some '[') (ho : mItemsOf .otherOutput items = [])
    (hreg : ∀ before line after, items = before ++ (.regions, line) :: after →
      mItemsOf .motionState after = [] ∧ ∃ name f, RegionLine line name f ∧ (bddFile f).isSome)
    (hcon : ∀ before s line after, items = before ++ (s, line) :: after → s.IsConstraint →
      line.length ≤ cap ∧ ∃ φ, ReadsLine line φ ∧ φ.Wf 0 ∧ ∀ x ∈ φ.vars, x ∈ mUsable s before) :
    ∀ (after before : List (MSection × List Char)) (st : VarTable × List (Name × B) × Ctx B), items = before ++ after →
      MInv bddFile robot items hn before st → ∃ st', mItems bddFile cap order st after = .ok st' ∧ MInv bddFile robot items hn items st' := by
  intro after
  induction after with
  | nil =>
    intro before st hi h
    rw [List.append_nil] at hi
    subst hi
    exact ⟨st, rfl, h⟩
  | cons p after ih =>
    intro before st hi h
    obtain ⟨s, line⟩ := p
    have hm : (s, line) ∈ items := by rw [hi]; simp
    obtain ⟨st1, h1, h2⟩ := h.step (cap := cap) (order := order) hN hi hmo (hlines _ hm)
      (fun e => by
        subst e
        have : line ∈ mItemsOf .otherOutput items := List.mem_map.mpr ⟨_, List.mem_filter.mpr ⟨hm, by simp⟩, rfl⟩
        rw [ho] at this
        cases this)
      (fun e => by subst e; exact hreg _ _ _ hi) (hcon _ _ _ _ hi)
    obtain ⟨st', h3, h4⟩ := ih (before ++ [(s, line)]) st1 (by rw [hi]; simp) h2
    exact ⟨st', by rw [mItems, h1]; exact h3, h4⟩

/-- How the values of names that can be used depend on the two positions. -/
theorem look_usable (hN : ((tableOf (mDecls items)).names ++ regionNames items ++ (regionNames items).map prime).Nodup)
    (p q p' q' : Pos (mSpec bddFile robot items).file.In (mSpec bddFile robot items).file.Out) (h1 : p.1 = p'.1) {x : Word} :
    (x ∈ mUsable .envInit items → (mSpec bddFile robot items).look p q x = (mSpec bddFile robot items).look p' q' x) ∧
    (p.2 = p'.2 → x ∈ mUsable .sysInit items → (mSpec bddFile robot items).look p q x = (mSpec bddFile robot items).look p' q' x) ∧
    (p.2 = p'.2 → q.1 = q'.1 → x ∈ mUsable .envTrans items → (mSpec bddFile robot items).look p q x = (mSpec bddFile robot items).look p' q' x) := by
  have hn := mNodup hN
  have hslot : ∀ z : DSlot (mDecls items), slots p q z = slots p' q' z →
      (mSpec bddFile robot items).look p q (slotEntry z).1 = (mSpec bddFile robot items).look p' q' (slotEntry z).1 := by
    intro z hz
    rw [look_name bddFile robot hN (slotName_mem z), look_name bddFile robot hN (slotName_mem z)]
    exact (look_slot (mF items) hn p q z).trans (hz.trans (look_slot (mF items) hn p' q' z).symm)
  have hin : ∀ y, y ∈ mItemsOf .input items → y ∈ inputsOf (mDecls items) := fun y hy => by rw [inputsOf_m]; exact hy
  have hout : ∀ y, y ∈ mItemsOf .motionState items → y ∈ outputsOf (mDecls items) := fun y hy => by
    rw [outputsOf_m]
    simp only [mItemsOf, List.mem_map, List.mem_filter, decide_eq_true_eq] at hy
    obtain ⟨⟨s', l⟩, ⟨hm, rfl⟩, rfl⟩ := hy
    exact List.mem_map.mpr ⟨_, List.mem_filter.mpr ⟨hm, by simp⟩, rfl⟩
  have k1 : x ∈ mItemsOf .input items → (mSpec bddFile robot items).look p q x = (mSpec bddFile robot items).look p' q' x := fun hx =>
    hslot (.ci ⟨x, hin x hx⟩) (congrFun h1 _)
  have k2 : p.2 = p'.2 → x ∈ mItemsOf .input items ++ mItemsOf .motionState items ++ regionNames items →
      (mSpec bddFile robot items).look p q x = (mSpec bddFile robot items).look p' q' x := fun h hx => by
    rw [List.mem_append, List.mem_append] at hx
    obtain (hx | hx) | hx := hx
    · exact k1 hx
    · exact hslot (.co ⟨x, hout x hx⟩) (congrFun h _)
    · obtain ⟨l, hl, rfl⟩ := List.mem_map.mp hx
      have e1 := (look_region bddFile robot hN hl p q).1
      have e2 := (look_region bddFile robot hN hl p' q').1
      rw [h] at e1
      exact e1.trans e2.symm
  refine ⟨k1, k2, fun h h' hx => ?_⟩
  rcases List.mem_append.mp hx with hx | hx
  · exact k2 h hx
  · obtain ⟨y, hy, rfl⟩ := List.mem_map.mp hx
    exact hslot (.ni ⟨y, hin y hy⟩) (congrFun h' _)

theorem eval_lookCongr {φ : Fml} {s : MSection} {f g : Word → Bool} (hv : ∀ x ∈ φ.vars, x ∈ mUsable s items)
    (h : ∀ x, x ∈ mUsable s items → f x = g x) : φ.eval f [] = some true ↔ φ.eval g [] = some true := by
  rw [Fml.eval_congr φ [] fun x hx => h x (hv x hx)]

variable (bddFile robot items) in
/-- The game of the specification, over the variables of the table. -/
noncomputable def mGame : Game ({x // x ∈ inputsOf (mDecls items)} → Bool) ({x // x ∈ outputsOf (mDecls items)} → Bool) :=
  (mSpec bddFile robot items).game

variable (bddFile robot items) in
/-- The abstraction of the robot, over the variables of the table. -/
def mMoves : ({x // x ∈ outputsOf (mDecls items)} → Bool) → ({x // x ∈ outputsOf (mDecls items)} → Bool) → Prop :=
  (mSpec bddFile robot items).moves

theorem readBdd_robot (hmo : (mOutputs items).Nodup) (hn : (tableOf (mDecls items)).names.Nodup) :
    readBdd (B := B) (varsDown (mTypes (mDecls items) (isMotionIn items)) .preMotionState ++
      varsDown (mTypes (mDecls items) (isMotionIn items)) .postMotionControlOutput ++
      varsDown (mTypes (mDecls items) (isMotionIn items)) .postMotionState) robot =
    (tableLayout (mDecls items) hn).enc B (fun s t => mMoves bddFile robot items s.2 t.2) := by
  have hfo := filter_outputs (isMotionIn_motion items) (isMotionIn_control hmo)
  have hmot : ∀ x ∈ mItemsOf .motionState items, x ∈ mOutputs items := fun x hx => by rw [← hfo.1] at hx; exact (List.mem_filter.mp hx).1
  have hctl : ∀ x ∈ mItemsOf .motionControl items, x ∈ mOutputs items := fun x hx => by rw [← hfo.2] at hx; exact (List.mem_filter.mp hx).1
  refine (tableLayout (mDecls items) hn).eq_enc B fun a => ?_
  have e1 := bits_cur bddFile robot hn a hmot
  have e2 := bits_nxt bddFile robot hn a hctl
  have e3 := bits_nxt bddFile robot hn a hmot
  have e4 : mMoves bddFile robot items (curPos ((tableLayout (mDecls items) hn).get a)).2 (nxtPos ((tableLayout (mDecls items) hn).get a)).2 ↔
      robot ((mSpec bddFile robot items).bits (mCur bddFile robot hn a).2 (mItemsOf .motionState items) ++
        (mSpec bddFile robot items).bits (mNxt bddFile robot hn a).2 (mItemsOf .motionControl items) ++
        (mSpec bddFile robot items).bits (mNxt bddFile robot hn a).2 (mItemsOf .motionState items)) = true := Iff.rfl
  have f1 : (outputsOf (mDecls items)).filter (isMotionIn items) = mItemsOf .motionState items := by rw [outputsOf_m]; exact hfo.1
  have f2 : (outputsOf (mDecls items)).filter (fun x => !isMotionIn items x) = mItemsOf .motionControl items := by rw [outputsOf_m]; exact hfo.2
  rw [e4, e1, e2, e3, eval_readBdd, (varsDown_eq hn _).1, (varsDown_eq hn _).2.1, (varsDown_eq hn _).2.2, f1, f2]
  simp only [List.map_append, List.map_map]
  rfl

theorem live_enc (hn : (tableOf (mDecls items)).names.Nodup) {bs : List B} {ls : List (List Char)}
    (h : List.Forall₂ (fun b l => ∀ a, L.eval b a = true ↔ MHolds bddFile robot items hn a l) bs ls)
    (gs : List (T ({x // x ∈ inputsOf (mDecls items)} → Bool) ({x // x ∈ outputsOf (mDecls items)} → Bool)))
    (hg : gs = (ls.map rdLine).map fun φ p q => (mSpec bddFile robot items).holds p q φ) :
    bs = gs.map ((tableLayout (mDecls items) hn).enc B) := by
  induction h generalizing gs with
  | nil => subst hg; rfl
  | cons h _ ih =>
    subst hg
    rw [List.map_cons]
    have := ih _ rfl
    refine (congrArg _ this).trans ?_
    exact congrArg (· :: _) ((tableLayout (mDecls items) hn).eq_enc B h)

/-- The result of reading a proper file. -/
theorem mInit_proper {cap : Nat} {order : List Char → Bool} {text : List Char} (hp : MProperFile cap bddFile text) {items : List (MSection × List Char)}
    (hc : MContent none (splitLines text) items) :
    ∃ (hn : (tableOf (mDecls items)).names.Nodup) (c : Ctx B),
      mInit (B := B) bddFile robot cap order text = .ok (mTab (mDecls items) (isMotionIn items), c,
        (tableLayout (mDecls items) hn).enc B (fun s t => mMoves bddFile robot items s.2 t.2)) ∧
      c.safetyEnv = (tableLayout (mDecls items) hn).enc B (fun s t => (mGame bddFile robot items).safetyEnv s t.1) ∧
      c.safetySys = (tableLayout (mDecls items) hn).enc B (mGame bddFile robot items).safetySys ∧
      c.initEnv = (tableLayout (mDecls items) hn).enc B (fun s _ => (mGame bddFile robot items).initEnv s.1) ∧
      c.initSys = (tableLayout (mDecls items) hn).enc B (fun s _ => (mGame bddFile robot items).initSys s) ∧
      c.livenessAssumptions = ((mGame bddFile robot items).assumptions ++
        [MovesIfPossible (mSet (mDecls items) (isMotionIn items)) (mMoves bddFile robot items)]).map ((tableLayout (mDecls items) hn).enc B) ∧
      c.livenessGuarantees = (padLive (mGame bddFile robot items).guarantees).map ((tableLayout (mDecls items) hn).enc B) := by
  obtain ⟨items', hc', ho, hnd, hreg, hcon⟩ := hp
  obtain rfl := MContent.det hc hc'
  have hN : ((tableOf (mDecls items)).names ++ regionNames items ++ (regionNames items).map prime).Nodup := by
    have hperm := names_perm (mDecls items) (mF items)
    have e : (specOf (mDecls items) (mF items)).names =
        mItemsOf .input items ++ mOutputs items ++ (mItemsOf .input items).map prime ++ (mOutputs items).map prime := by
      simp only [SpecFile.names, specOf, inputsOf_m, outputsOf_m]
    rw [e] at hperm
    exact ((hperm.append_right _).append_right _).nodup_iff.mp hnd
  have hn := mNodup hN
  have hmo : (mOutputs items).Nodup := by
    simp only [List.append_assoc] at hnd
    exact (List.nodup_append.mp (List.nodup_append.mp hnd).2.1).1
  obtain ⟨⟨tab, named, c⟩, hrun, hinv⟩ := MInv.run (B := B) (robot := robot) (order := order) (hn := hn) hN hmo (MContent.lines hc) ho hreg hcon items []
    _ rfl (MInv.start bddFile robot items hn)
  have hl := mLines_items (bddFile := bddFile) (cap := cap) (order := order) (splitLines text)
    { table := (initStart (B := B)).table, named := [], ctx := (initStart (B := B)).ctx, mode := none } items hc
  have hl' := hl.trans hrun
  have hus : ∀ s : MSection, s.IsConstraint → ∀ l ∈ mItemsOf s items, ∀ x ∈ (rdLine l).vars, x ∈ mUsable s items := by
    intro s hs l hl x hx
    simp only [mItemsOf, List.mem_map, List.mem_filter, decide_eq_true_eq] at hl
    obtain ⟨⟨s', l⟩, ⟨hm, rfl⟩, rfl⟩ := hl
    obtain ⟨b, a, e⟩ := List.append_of_mem hm
    obtain ⟨-, φ, h1, -, h2⟩ := hcon _ _ _ _ e hs
    rw [rdLine_eq h1] at hx
    exact mUsable_sub _ e (h2 x hx)
  have hrob := readBdd_robot (B := B) (bddFile := bddFile) (robot := robot) hmo hn
  have htab : tab = mTab (mDecls items) (isMotionIn items) := hinv.table
  have hass := live_enc hn hinv.assumptions (mGame bddFile robot items).assumptions rfl
  have hgua := live_enc hn hinv.guarantees (mGame bddFile robot items).guarantees rfl
  refine ⟨hn, { c with
      livenessAssumptions := c.livenessAssumptions ++ [motionAssumption (mTypes (mDecls items) (isMotionIn items))
        ((tableLayout (mDecls items) hn).enc B (fun s t => mMoves bddFile robot items s.2 t.2))]
      livenessGuarantees := if c.livenessGuarantees = [] then [L.tt] else c.livenessGuarantees }, ?_, ?_, ?_, ?_, ?_, ?_, ?_⟩
  · rw [mInit]
    cases hm : mLines (B := B) bddFile cap order { table := (initStart (B := B)).table, named := [], ctx := (initStart (B := B)).ctx, mode := none }
      (splitLines text) with
    | ok st =>
      rw [hm] at hl'
      simp only [dropMMode, Res.ok.injEq, Prod.mk.injEq] at hl'
      obtain ⟨h1, -, h3⟩ := hl'
      have h4 : st.table.types = mTypes (mDecls items) (isMotionIn items) := by rw [h1, htab]; rfl
      have h5 : (mTab (mDecls items) (isMotionIn items)).types = mTypes (mDecls items) (isMotionIn items) := rfl
      simp only [h3, h1, htab, h5, hrob]
    | err e => rw [hm] at hl'; cases hl'
    | ub => rw [hm] at hl'; cases hl'
    | stuck => rw [hm] at hl'; cases hl'
  · refine (tableLayout (mDecls items) hn).eq_enc B fun a => ?_
    refine (hinv.safetyEnv a).trans ?_
    have key : ∀ l ∈ mItemsOf .envTrans items, (MHolds bddFile robot items hn a l ↔
        (mSpec bddFile robot items).holds (mCur bddFile robot hn a) ((mNxt bddFile robot hn a).1, fun _ => false) (rdLine l)) := fun l hl =>
      eval_lookCongr (hus _ (by simp [MSection.IsConstraint]) l hl) fun x hx => (look_usable hN _ _ _ _ rfl).2.2 rfl rfl hx
    exact (forall₂_congr key).trans (List.forall_mem_map (f := rdLine) (P := fun φ =>
      (mSpec bddFile robot items).holds (mCur bddFile robot hn a) ((mNxt bddFile robot hn a).1, fun _ => false) φ)).symm
  · refine (tableLayout (mDecls items) hn).eq_enc B fun a => ?_
    refine (hinv.safetySys a).trans ?_
    exact (List.forall_mem_map (f := rdLine) (P := fun φ =>
      (mSpec bddFile robot items).holds (mCur bddFile robot hn a) (mNxt bddFile robot hn a) φ)).symm
  · refine (tableLayout (mDecls items) hn).eq_enc B fun a => ?_
    refine (hinv.initEnv a).trans ?_
    have key : ∀ l ∈ mItemsOf .envInit items, (MHolds bddFile robot items hn a l ↔
        (mSpec bddFile robot items).holds ((mCur bddFile robot hn a).1, fun _ => false) ((mCur bddFile robot hn a).1, fun _ => false) (rdLine l)) := fun l hl =>
      eval_lookCongr (hus _ (by simp [MSection.IsConstraint]) l hl) fun x hx =>
        (look_usable hN (mCur bddFile robot hn a) (mNxt bddFile robot hn a) ((mCur bddFile robot hn a).1, fun _ => false) _ rfl).1 hx
    exact (forall₂_congr key).trans (List.forall_mem_map (f := rdLine) (P := fun φ =>
      (mSpec bddFile robot items).holds ((mCur bddFile robot hn a).1, fun _ => false) ((mCur bddFile robot hn a).1, fun _ => false) φ)).symm
  · refine (tableLayout (mDecls items) hn).eq_enc B fun a => ?_
    refine (hinv.initSys a).trans ?_
    have key : ∀ l ∈ mItemsOf .sysInit items, (MHolds bddFile robot items hn a l ↔
        (mSpec bddFile robot items).holds (mCur bddFile robot hn a) (mCur bddFile robot hn a) (rdLine l)) := fun l hl =>
      eval_lookCongr (hus _ (by simp [MSection.IsConstraint]) l hl) fun x hx => (look_usable hN _ _ _ _ rfl).2.1 rfl hx
    exact (forall₂_congr key).trans (List.forall_mem_map (f := rdLine) (P := fun φ =>
      (mSpec bddFile robot items).holds (mCur bddFile robot hn a) (mCur bddFile robot hn a) φ)).symm
  · rw [motionAssumption_enc, List.map_append, ← hass]
    rfl
  · have h0 : c.livenessGuarantees = [] ↔ (mGame bddFile robot items).guarantees = [] := by
      have := congrArg List.isEmpty hgua
      rw [Bool.eq_iff_iff] at this
      simpa using this
    by_cases hg : (mGame bddFile robot items).guarantees = []
    · simp only [h0.mpr hg, hg, if_true, padLive]
      have := ((tableLayout (mDecls items) hn).hom B).tt
      exact congrArg (fun x => [x]) this
    · simp only [if_neg (mt h0.mp hg)]
      have : padLive (mGame bddFile robot items).guarantees = (mGame bddFile robot items).guarantees := by
        cases e : (mGame bddFile robot items).guarantees with
        | nil => exact absurd e hg
        | cons _ _ => rfl
      rw [this]
      exact hgua

end

end Slugs.Model
