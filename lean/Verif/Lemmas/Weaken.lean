import Verif.Model.Weaken
import Verif.Lemmas.Cnf

/-! The loops of `--computeWeakenedSafetyAssumptions`, at the level of BDDs. -/

namespace Slugs.Model

variable {B : Type} [DecidableEq B] [L : BddLib B]

/-! ### Vectors -/

/-- The entry `x` for variable `i` is a literal that holds. -/
def LitHolds (w : Asg) (i : Nat) (x : Int) : Prop := (0 < x ∧ w i = true) ∨ (x < 0 ∧ w i = false)

/-- The clause holds whose first entry is for variable `i`. -/
def VecHolds (w : Asg) : Nat → List Int → Prop
  | _, [] => False
  | i, x :: xs => LitHolds w i x ∨ VecHolds w (i + 1) xs

/-- All clauses hold. -/
def AllHold (vs : List (List Int)) (w : Asg) : Prop := ∀ v ∈ vs, VecHolds w 0 v

/-- Some literals have been removed. -/
def VecSub (u v : List Int) : Prop := List.Forall₂ (fun a b => a = 0 ∨ a = b) u v

theorem not_litHolds_zero {w : Asg} {i : Nat} : ¬ LitHolds w i 0 := by simp [LitHolds]

theorem VecSub.holds {w : Asg} : ∀ {u v : List Int} {i : Nat}, VecSub u v → VecHolds w i u → VecHolds w i v
  | _, _, _, .nil, h => h
  | _, _, _, .cons h hs, .inl hl => by
    rcases h with rfl | rfl
    · exact absurd hl not_litHolds_zero
    · exact .inl hl
  | _, _, _, .cons _ hs, .inr hr => .inr (VecSub.holds hs hr)

theorem orLiterals_eval {w : Asg} : ∀ (acc : B) (i : Nat) (xs : List Int),
    L.eval (orLiterals acc i xs) w = true ↔ L.eval acc w = true ∨ VecHolds w i xs
  | acc, i, [] => by simp [orLiterals, VecHolds]
  | acc, i, x :: xs => by
    rw [orLiterals, orLiterals_eval, VecHolds, LitHolds]
    by_cases h1 : x > 0
    · have h2 : ¬ x < 0 := by omega
      rw [if_pos h1, L.eval_or, L.eval_var, Bool.or_eq_true]
      simp [h1, h2, or_assoc]
    · by_cases h2 : x < 0
      · rw [if_neg h1, if_pos h2, L.eval_or, L.eval_not, L.eval_var, Bool.or_eq_true]
        have h1' : ¬ 0 < x := h1
        simp [h1', h2, or_assoc]
      · rw [if_neg h1, if_neg h2]
        have h1' : ¬ 0 < x := h1
        simp [h1', h2]

/-- The cube whose negation is the clause. -/
def keptOf : List Nat → List Int → List (Nat × Bool)
  | i :: is, x :: xs => if x = 0 then keptOf is xs else (i, decide (x < 0)) :: keptOf is xs
  | _, _ => []

theorem vecHolds_iff {w : Asg} : ∀ (i : Nat) (v : List Int), VecHolds w i v ↔ ¬ KeptHolds w (keptOf (List.range' i v.length) v)
  | i, [] => by simp [VecHolds, keptOf, KeptHolds]
  | i, x :: xs => by
    rw [VecHolds, vecHolds_iff (i + 1) xs, List.length_cons, List.range'_succ, keptOf]
    by_cases hx : x = 0
    · rw [if_pos hx, hx]
      simp [not_litHolds_zero]
    · rw [if_neg hx]
      simp only [KeptHolds, List.forall_mem_cons, LitHolds]
      by_cases h : x < 0
      · have h' : ¬ 0 < x := by omega
        cases w i <;> simp [h, h']
      · have h' : 0 < x := by omega
        cases w i <;> simp [h, h']

theorem clauseVector_length (A : B) : ∀ (is : List Nat) (cube : B), (clauseVector A is cube).2.length = is.length
  | [], _ => rfl
  | i :: is, cube => by
    rw [clauseVector]
    dsimp only
    split
    · simp [clauseVector_length A is]
    · split <;> simp [clauseVector_length A is]

theorem clauseVector_shrink (A : B) : ∀ (is : List Nat) (cube : B) (kept : List (Nat × Bool)),
    shrinkCube (fun f => decide (L.and f A = L.ff)) is cube kept = ((clauseVector A is cube).1, kept.reverse ++ keptOf is (clauseVector A is cube).2)
  | [], cube, kept => by simp [shrinkCube, clauseVector, keptOf]
  | i :: is, cube, kept => by
    rw [shrinkCube, clauseVector]
    dsimp only
    by_cases h1 : L.and (L.exist [i] cube) A = L.ff
    · rw [if_pos (by simpa using h1), if_pos h1, clauseVector_shrink A is]
      simp [keptOf]
    · rw [if_neg (by simpa using h1), if_neg h1]
      by_cases h2 : L.and cube (L.var i) = L.ff
      · rw [if_pos h2, if_pos h2, clauseVector_shrink A is]
        simp [keptOf]
      · rw [if_neg h2, if_neg h2, clauseVector_shrink A is]
        simp [keptOf]

/-! ### Dependence -/

/-- Only the variables in `K` matter. -/
def DependsOn (K : Nat → Prop) (f : B) : Prop := ∀ a a' : Asg, (∀ k, K k → a k = a' k) → L.eval f a = L.eval f a'

theorem DependsOn.and {K : Nat → Prop} {f g : B} (hf : DependsOn K f) (hg : DependsOn K g) : DependsOn K (L.and f g) := fun a a' h => by
  rw [L.eval_and, L.eval_and, hf a a' h, hg a a' h]

theorem DependsOn.or {K : Nat → Prop} {f g : B} (hf : DependsOn K f) (hg : DependsOn K g) : DependsOn K (L.or f g) := fun a a' h => by
  rw [L.eval_or, L.eval_or, hf a a' h, hg a a' h]

theorem DependsOn.not {K : Nat → Prop} {f : B} (hf : DependsOn K f) : DependsOn K (L.not f) := fun a a' h => by
  rw [L.eval_not, L.eval_not, hf a a' h]

theorem DependsOn.tt {K : Nat → Prop} : DependsOn K (L.tt : B) := fun a a' _ => by rw [L.eval_tt, L.eval_tt]

theorem DependsOn.below {K : Nat → Prop} {n : Nat} (hK : ∀ k, K k → k < n) {f : B} (hf : DependsOn K f) : DependsBelow n (L.eval f) :=
  fun a a' h => hf a a' fun k hk => h k (hK k hk)

theorem DependsOn.exist {K : Nat → Prop} {f : B} (hf : DependsOn K f) (is : List Nat) : DependsOn K (L.exist is f) := by
  have key : ∀ a a' : Asg, (∀ k, K k → a k = a' k) → L.eval (L.exist is f) a = true → L.eval (L.exist is f) a' = true := by
    intro a a' h he
    rw [L.eval_exist] at he ⊢
    obtain ⟨b, hb, hfb⟩ := he
    classical
    refine ⟨fun k => if k ∈ is then b k else a' k, fun k hk => by simp [hk], ?_⟩
    rw [← hfb]
    refine hf _ _ fun k hk => ?_
    by_cases hki : k ∈ is
    · simp [hki]
    · simp only [hki, if_false]
      exact (h k hk).symm.trans (hb k hki)
  intro a a' h
  rw [Bool.eq_iff_iff]
  exact ⟨key a a' h, key a' a fun k hk => (h k hk).symm⟩

/-! ### The first loop -/

/-- The check tells whether the assumptions are good, and stronger assumptions are better. -/
structure CheckOK (K : Nat → Prop) (check : B → Res Unit Bool) (R : (Asg → Prop) → Prop) : Prop where
  ok : ∀ e : B, DependsOn K e → ∃ b, check e = .ok b ∧ (b = true ↔ R fun w => L.eval e w = true)
  mono : ∀ P Q : Asg → Prop, (∀ w, P w → Q w) → R Q → R P

theorem CheckOK.congr {K : Nat → Prop} {check : B → Res Unit Bool} {R : (Asg → Prop) → Prop} (_hc : CheckOK K check R) {P Q : Asg → Prop} (h : ∀ w, P w ↔ Q w) :
    R P ↔ R Q := by
  rw [show P = Q from funext fun w => propext (h w)]

theorem le_exist (is : List Nat) (f : B) {w : Asg} (h : L.eval f w = true) : L.eval (L.exist is f) w = true := by
  rw [L.eval_exist]
  exact ⟨w, fun _ _ => rfl, h⟩

theorem abstractLoop_spec {K : Nat → Prop} {check : B → Res Unit Bool} {R : (Asg → Prop) → Prop} (hc : CheckOK K check R) : ∀ (is : List Nat) (cur : B),
    DependsOn K cur → ∃ cur', abstractLoop check is cur = .ok cur' ∧ DependsOn K cur' ∧ (∀ w, L.eval cur w = true → L.eval cur' w = true) ∧
      ((R fun w => L.eval cur w = true) → R fun w => L.eval cur' w = true)
  | [], cur, hk => ⟨cur, rfl, hk, fun _ h => h, fun h => h⟩
  | i :: is, cur, hk => by
    obtain ⟨b, hb, hb'⟩ := hc.ok _ (hk.exist [i])
    rw [abstractLoop, hb]
    cases b with
    | true =>
      obtain ⟨cur', h1, h2, h3, h4⟩ := abstractLoop_spec hc is _ (hk.exist [i])
      exact ⟨cur', h1, h2, fun w hw => h3 w (le_exist _ _ hw), fun _ => h4 (hb'.mp rfl)⟩
    | false => exact abstractLoop_spec hc is cur hk

/-! ### The clauses -/

/-- A clause that has been found. -/
structure ClauseOK (K : Nat → Prop) (n : Nat) (c : List Int × B) : Prop where
  length : c.1.length = n
  support : ∀ e ∈ keptOf (List.range' 0 c.1.length) c.1, K e.1
  eval : ∀ w, L.eval c.2 w = true ↔ VecHolds w 0 c.1
  depends : DependsOn K c.2

theorem cnf_round {types : List VarType} {K : Nat → Prop} (hK : ∀ k, K k → k < types.length) {cur : B} (hk : DependsOn K cur) (hne : cur ≠ L.tt) :
    let r := clauseVector cur (List.range types.length) (determinize (bddMgr B types) ((List.range types.length).map L.var) (L.not cur))
    ClauseOK K types.length (r.2, L.not r.1) ∧ DependsOn K r.1 ∧ (∀ w, L.eval r.1 w = true → L.eval cur w = false) ∧
      ∃ a, L.eval cur a = false ∧ L.eval r.1 a = true := by
  intro r
  have hcov := cover_step (B := B) (types := types) (f := L.not cur) (fits := fun f => decide (L.and f cur = L.ff)) (good := fun w => L.eval cur w = false)
    (by
      intro h
      refine hne (eq_tt_iff.mpr fun w => ?_)
      have := eq_ff_iff.mp h w
      rw [L.eval_not] at this
      simpa using this)
    (hk.not.below hK)
    (fun f => by
      rw [decide_eq_true_eq, eq_ff_iff]
      refine forall_congr' fun w => ?_
      rw [L.eval_and, Bool.and_eq_true, not_and, Bool.not_eq_true])
    (fun w hw => by rw [L.eval_not] at hw; simpa using hw)
  obtain ⟨a, ha, hs⟩ := hcov
  rw [clauseVector_shrink] at hs
  simp only [List.reverse_nil, List.nil_append] at hs
  change Shrunk (fun w => L.eval cur w = false) a types.length r.1 (keptOf (List.range types.length) r.2) at hs
  rw [L.eval_not] at ha
  have hlen : r.2.length = types.length := by
    show (clauseVector cur (List.range types.length) _).2.length = _
    rw [clauseVector_length, List.length_range]
  rw [List.range_eq_range'] at hs
  have hsupp : ∀ e ∈ keptOf (List.range' 0 types.length) r.2, K e.1 := by
    intro e he
    by_contra hne
    obtain ⟨w, hw, hw'⟩ := hs.prime e he
    have hw1 : L.eval cur w = true := by simpa using hw
    have h1 : KeptHolds (fun k => if k = e.1 then e.2 else w k) (keptOf (List.range' 0 types.length) r.2) := by
      intro e' he'
      by_cases hee : e'.1 = e.1
      · simp only [hee, if_true]
        have h1 := hs.around e' he'
        have h2 := hs.around e he
        rw [hee] at h1
        rw [← h1, ← h2]
      · simp only [hee, if_false]
        exact hw' e' he' hee
    have h2 := hs.sub _ h1
    rw [hk _ w fun k hkk => ?_, hw1] at h2
    · cases h2
    · have : k ≠ e.1 := fun hke => hne (hke ▸ hkk)
      simp [this]
  have hdep : DependsOn K r.1 := by
    intro b b' h
    rw [Bool.eq_iff_iff, hs.eval, hs.eval]
    exact forall₂_congr fun e he => by rw [h e.1 (hsupp e he)]
  refine ⟨⟨hlen, ?_, fun w => ?_, hdep.not⟩, hdep, fun w hw => hs.sub w ((hs.eval w).mp hw), a, by simpa using ha, (hs.eval a).mpr hs.around⟩
  · dsimp only
    rw [hlen]
    exact hsupp
  · dsimp only
    rw [L.eval_not, vecHolds_iff, hlen, ← hs.eval]
    simp

theorem cnfLoop_spec {types : List VarType} {K : Nat → Prop} (hK : ∀ k, K k → k < types.length) : ∀ (fuel : Nat) (cur : B) (acc : List (List Int × B)),
    DependsOn K cur → uncovered types.length cur < fuel → ∃ cs, cnfLoop types fuel cur acc = some (acc.reverse ++ cs) ∧ (∀ c ∈ cs, ClauseOK K types.length c) ∧
      ∀ w, L.eval cur w = true ↔ ∀ c ∈ cs, VecHolds w 0 c.1
  | 0, _, _, _, h => by omega
  | n + 1, cur, acc, hk, hf => by
    rw [cnfLoop]
    by_cases ht : cur = L.tt
    · rw [if_pos ht]
      refine ⟨[], by simp, by simp, fun w => by simp [ht, L.eval_tt]⟩
    · rw [if_neg ht]
      dsimp only
      obtain ⟨h1, h2, h3, a, h4, h5⟩ := cnf_round hK hk ht
      have hk' := hk.or h2
      have hlt := uncovered_lt (hk.below hK) (hk'.below hK) h4 h5
      obtain ⟨cs, e, h6, h7⟩ := cnfLoop_spec hK n _ ((_, L.not _) :: acc) hk' (by omega)
      refine ⟨_ :: cs, by rw [e, List.reverse_cons, List.append_assoc]; rfl, List.forall_mem_cons.mpr ⟨h1, h6⟩, fun w => ?_⟩
      rw [List.forall_mem_cons, ← h7, ← h1.eval, L.eval_or, L.eval_not]
      constructor
      · intro hw
        refine ⟨?_, by simp [hw]⟩
        by_contra hc
        have := h3 w (by simpa using hc)
        rw [hw] at this
        cases this
      · rintro ⟨hw1, hw2⟩
        rw [Bool.not_eq_true'] at hw1
        rw [hw1, Bool.or_false] at hw2
        exact hw2

omit [DecidableEq B] L in
theorem mem_bySize {n : Nat} {cs : List (List Int × B)} (h : ∀ c ∈ cs, c.1.length = n) {c : List Int × B} : c ∈ bySize n cs ↔ c ∈ cs := by
  simp only [bySize, List.mem_flatMap, List.mem_reverse, List.mem_range, List.mem_filter, decide_eq_true_eq]
  constructor
  · rintro ⟨_, _, h1, _⟩; exact h1
  · intro hc
    have : clauseSize c.1 ≤ c.1.length := List.length_filter_le _ _
    rw [h c hc] at this
    exact ⟨_, by omega, hc, rfl⟩

/-! ### Removing clauses -/

theorem mem_vectorInsert {x y : List Int} {l : List (List Int)} : y ∈ vectorInsert x l ↔ y = x ∨ y ∈ l := by
  rw [vectorInsert]
  split
  · rename_i h
    constructor
    · exact .inr
    · rintro (rfl | h')
      · exact h
      · exact h'
  · have : y ∈ l ↔ y ∈ l.takeWhile (fun y => decide (y < x)) ∨ y ∈ l.dropWhile (fun y => decide (y < x)) := by
      rw [← List.mem_append, List.takeWhile_append_dropWhile]
    rw [this]
    simp only [List.mem_append, List.mem_cons]
    tauto

theorem nodup_vectorInsert {x : List Int} {l : List (List Int)} (h : l.Nodup) : (vectorInsert x l).Nodup := by
  rw [vectorInsert]
  split
  · exact h
  · rename_i hx
    have hp : (l.takeWhile (fun y => decide (y < x)) ++ x :: l.dropWhile (fun y => decide (y < x))).Perm (x :: l) := by
      refine List.perm_middle.trans ?_
      rw [List.takeWhile_append_dropWhile]
    exact hp.nodup_iff.mpr (List.nodup_cons.mpr ⟨hx, h⟩)

theorem foldl_and_eval {w : Asg} : ∀ (cs : List (List Int × B)) (acc : B),
    L.eval (cs.foldl (fun acc c => L.and acc c.2) acc) w = true ↔ L.eval acc w = true ∧ ∀ c ∈ cs, L.eval c.2 w = true
  | [], acc => by simp
  | c :: cs, acc => by
    rw [List.foldl_cons, foldl_and_eval cs, L.eval_and, Bool.and_eq_true, List.forall_mem_cons, and_assoc]

theorem foldl_and_depends {K : Nat → Prop} : ∀ (cs : List (List Int × B)) (acc : B), DependsOn K acc → (∀ c ∈ cs, DependsOn K c.2) →
    DependsOn K (cs.foldl (fun acc c => L.and acc c.2) acc)
  | [], _, h, _ => h
  | _ :: cs, _, h, hs => foldl_and_depends cs _ (h.and (hs _ List.mem_cons_self)) fun c hc => hs c (List.mem_cons_of_mem _ hc)

theorem removeLoop_spec {K : Nat → Prop} {n : Nat} {check : B → Res Unit Bool} {R : (Asg → Prop) → Prop} (hc : CheckOK K check R) :
    ∀ (cs : List (List Int × B)) (found : B) (ints : List (List Int)), (∀ c ∈ cs, ClauseOK K n c) → DependsOn K found →
      (∀ w, L.eval found w = true ↔ AllHold ints w) → ints.Nodup →
      ∃ ints', removeLoop check cs found ints = .ok ints' ∧ ints'.Nodup ∧ (∀ v, v ∈ ints' → v ∈ ints ∨ ∃ c ∈ cs, c.1 = v) ∧ (∀ v ∈ ints, v ∈ ints') ∧
        ((R fun w => AllHold ints w ∧ ∀ c ∈ cs, VecHolds w 0 c.1) → R (AllHold ints')) ∧
        ∀ v ∈ ints', v ∉ ints → ¬ R (AllHold (ints'.filter (· ≠ v)))
  | [], found, ints, _, _, _, hnd => by
    refine ⟨ints, rfl, hnd, fun v hv => .inl hv, fun v hv => hv, fun h => hc.mono _ _ (fun w hw => ⟨hw, by simp⟩) h, fun v h1 h2 => absurd h1 h2⟩
  | (v, b) :: cs, found, ints, hcs, hk, hfound, hnd => by
    have hrest : ∀ c ∈ cs, ClauseOK K n c := fun c hc => hcs c (List.mem_cons_of_mem _ hc)
    have hv := hcs _ List.mem_cons_self
    obtain ⟨r, hr, hr'⟩ := hc.ok (L.and (cs.foldl (fun acc c => L.and acc c.2) L.tt) found)
      ((foldl_and_depends cs _ DependsOn.tt fun c hc => (hrest c hc).depends).and hk)
    have hsem : (R fun w => L.eval (L.and (cs.foldl (fun acc c => L.and acc c.2) L.tt) found) w = true) ↔
        R fun w => AllHold ints w ∧ ∀ c ∈ cs, VecHolds w 0 c.1 := by
      refine hc.congr fun w => ?_
      rw [L.eval_and, Bool.and_eq_true, foldl_and_eval, hfound, and_comm]
      refine and_congr_right fun _ => ?_
      simp only [L.eval_tt, true_and]
      exact forall₂_congr fun c hc => (hrest c hc).eval w
    rw [hsem] at hr'
    rw [removeLoop, hr]
    cases r with
    | true =>
      obtain ⟨ints', h1, h2, h3, h4, h5, h6⟩ := removeLoop_spec hc cs found ints hrest hk hfound hnd
      refine ⟨ints', h1, h2, fun u hu => (h3 u hu).imp_right fun ⟨c, hc, e⟩ => ⟨c, List.mem_cons_of_mem _ hc, e⟩, h4, fun _ => h5 (hr'.mp rfl), h6⟩
    | false =>
      have hno : ¬ R fun w => AllHold ints w ∧ ∀ c ∈ cs, VecHolds w 0 c.1 := fun h => by simpa using hr'.mpr h
      obtain ⟨ints', h1, h2, h3, h4, h5, h6⟩ := removeLoop_spec hc cs (L.and found b) (vectorInsert v ints) hrest (hk.and hv.depends)
        (fun w => by
          rw [L.eval_and, Bool.and_eq_true, hfound, hv.eval]
          simp only [AllHold, mem_vectorInsert, forall_eq_or_imp]
          exact and_comm)
        (nodup_vectorInsert hnd)
      refine ⟨ints', h1, h2, fun u hu => ?_, fun u hu => h4 u (mem_vectorInsert.mpr (.inr hu)), fun h => h5 (hc.mono _ _ (fun w hw => ?_) h), fun u hu hni => ?_⟩
      · rcases h3 u hu with hu | ⟨c, hc, e⟩
        · rcases mem_vectorInsert.mp hu with rfl | hu
          · exact .inr ⟨_, List.mem_cons_self, rfl⟩
          · exact .inl hu
        · exact .inr ⟨c, List.mem_cons_of_mem _ hc, e⟩
      · obtain ⟨hw1, hw2⟩ := hw
        exact ⟨fun u hu => hw1 u (mem_vectorInsert.mpr (.inr hu)), List.forall_mem_cons.mpr ⟨hw1 v (mem_vectorInsert.mpr (.inl rfl)), hw2⟩⟩
      · by_cases huv : u = v
        · subst huv
          refine fun h => hno (hc.mono _ _ (fun w hw => ?_) h)
          intro x hx
          rw [List.mem_filter] at hx
          have hxu : x ≠ u := by simpa using hx.2
          rcases h3 x hx.1 with hx' | ⟨c, hc, rfl⟩
          · rcases mem_vectorInsert.mp hx' with rfl | hx'
            · exact absurd rfl hxu
            · exact hw.1 x hx'
          · exact hw.2 c hc
        · refine h6 u hu fun hm => ?_
          rcases mem_vectorInsert.mp hm with e | hm
          · exact huv e
          · exact hni hm

/-! ### Removing literals -/

theorem literal_eval {w : Asg} {i : Nat} {x : Int} (hx : x ≠ 0) : L.eval (if x > 0 then (L.var i : B) else L.not (L.var i)) w = true ↔ LitHolds w i x := by
  by_cases h : x > 0
  · have h2 : ¬ x < 0 := by omega
    have h' : 0 < x := h
    rw [if_pos h, L.eval_var, LitHolds]
    simp [h', h2]
  · have h2 : x < 0 := by omega
    have h' : ¬ 0 < x := h
    rw [if_neg h, L.eval_not, L.eval_var, LitHolds]
    simp [h', h2]

theorem filterLiterals_sub (context : B) : ∀ (i : Nat) (xs : List Int) (committed : B), VecSub (filterLiterals context i xs committed).2 xs
  | _, [], _ => .nil
  | i, x :: xs, committed => by
    rw [filterLiterals]
    dsimp only
    by_cases ht : L.and context (orLiterals committed (i + 1) xs) =
        L.and context (L.or (orLiterals committed (i + 1) xs) (if x > 0 then L.var i else L.not (L.var i)))
    · rw [if_pos ht]
      exact .cons (.inl rfl) (filterLiterals_sub context (i + 1) xs _)
    · rw [if_neg ht]
      exact .cons (.inr rfl) (filterLiterals_sub context (i + 1) xs _)

theorem test_iff (context rest lit : B) : L.and context rest = L.and context (L.or rest lit) ↔
    ∀ w, L.eval context w = true → L.eval lit w = true → L.eval rest w = true := by
  constructor
  · intro h w h1 h2
    have := congrArg (fun f => L.eval f w) h
    simp only [L.eval_and, L.eval_or, h1, h2] at this
    simpa using this
  · intro h
    refine L.eval_inj _ _ fun w => ?_
    rw [L.eval_and, L.eval_and, L.eval_or]
    have := h w
    revert this
    cases L.eval context w <;> cases L.eval rest w <;> cases L.eval lit w <;> simp

/-- If the context implies the clause, then it implies what remains. -/
theorem filterLiterals_spec (context : B) : ∀ (i : Nat) (xs : List Int) (committed : B),
    (∀ w, L.eval context w = true → L.eval committed w = true ∨ VecHolds w i xs) →
    (∀ w, L.eval context w = true → L.eval (filterLiterals context i xs committed).1 w = true) ∧
    ∀ w, L.eval (filterLiterals context i xs committed).1 w = true ↔ L.eval committed w = true ∨ VecHolds w i (filterLiterals context i xs committed).2
  | _, [], committed, h => ⟨fun w hw => (h w hw).resolve_right fun h => h, fun w => by simp [filterLiterals, VecHolds]⟩
  | i, x :: xs, committed, h => by
    rw [filterLiterals]
    dsimp only
    by_cases ht : L.and context (orLiterals committed (i + 1) xs) =
        L.and context (L.or (orLiterals committed (i + 1) xs) (if x > 0 then L.var i else L.not (L.var i)))
    · rw [if_pos ht]
      have ih := filterLiterals_spec context (i + 1) xs committed fun w hw => by
        rw [test_iff] at ht
        rcases h w hw with h1 | h1 | h1
        · exact .inl h1
        · have hx : x ≠ 0 := by rintro rfl; exact not_litHolds_zero h1
          exact (orLiterals_eval _ _ _).mp (ht w hw ((literal_eval hx).mpr h1))
        · exact .inr h1
      refine ⟨ih.1, fun w => (ih.2 w).trans ?_⟩
      simp [VecHolds, not_litHolds_zero]
    · rw [if_neg ht]
      have hx : x ≠ 0 := by
        rintro rfl
        refine ht ((test_iff _ _ _).mpr fun w hw _ => (orLiterals_eval _ _ _).mpr ?_)
        rcases h w hw with h1 | h1 | h1
        · exact .inl h1
        · exact absurd h1 not_litHolds_zero
        · exact .inr h1
      have ih := filterLiterals_spec context (i + 1) xs (L.or committed (if x > 0 then L.var i else L.not (L.var i))) fun w hw => by
        rw [L.eval_or, Bool.or_eq_true, literal_eval hx]
        rcases h w hw with h1 | h1 | h1
        · exact .inl (.inl h1)
        · exact .inl (.inr h1)
        · exact .inr h1
      refine ⟨ih.1, fun w => (ih.2 w).trans ?_⟩
      rw [L.eval_or, Bool.or_eq_true, literal_eval hx]
      simp [VecHolds, or_assoc]

/-- Nothing is removed if there is no context. -/
theorem filterLiterals_alone {context : B} (hctx : ∀ w, L.eval context w = true) : ∀ (i : Nat) (xs : List Int) (committed : B) (a : Asg),
    (∀ w, (∀ j < i, w j = a j) → L.eval committed w = false) → (filterLiterals context i xs committed).2 = xs
  | _, [], _, _, _ => rfl
  | i, x :: xs, committed, a, ha => by
    -- an assignment that falsifies what is committed and the remaining literals
    obtain ⟨b, hb⟩ : ∃ b : Bool, ∀ w, w i = b → L.eval (if x > 0 then (L.var i : B) else L.not (L.var i)) w = false := by
      by_cases h : x > 0
      · exact ⟨false, fun w hw => by rw [if_pos h, L.eval_var, hw]⟩
      · exact ⟨true, fun w hw => by rw [if_neg h, L.eval_not, L.eval_var, hw]; rfl⟩
    rw [filterLiterals]
    dsimp only
    by_cases ht : L.and context (orLiterals committed (i + 1) xs) =
        L.and context (L.or (orLiterals committed (i + 1) xs) (if x > 0 then L.var i else L.not (L.var i)))
    · rw [if_pos ht]
      have hx : x = 0 := by
        by_contra hx
        rw [test_iff] at ht
        -- later variables falsify the later literals
        let w : Asg := fun k => if k < i then a k else if k = i then decide (x > 0) else match xs[k - (i + 1)]? with | some y => decide (y < 0) | none => false
        have hwi : w i = decide (x > 0) := by simp [w]
        have h1 : LitHolds w i x := by
          by_cases h : x > 0
          · exact .inl ⟨h, by rw [hwi]; simpa using h⟩
          · exact .inr ⟨by omega, by rw [hwi]; simpa using h⟩
        have h2 := (orLiterals_eval _ _ _).mp (ht w (hctx w) ((literal_eval hx).mpr h1))
        rcases h2 with h2 | h2
        · rw [ha w fun j hj => by simp [w, hj]] at h2
          cases h2
        · have key : ∀ (ys : List Int) (k : Nat), (∀ m y, ys[m]? = some y → w (k + m) = decide (y < 0)) → ¬ VecHolds w k ys := by
            intro ys
            induction ys with
            | nil => exact fun _ _ h => h
            | cons y ys ih =>
              rintro k hy (h | h)
              · have h0 := hy 0 y rfl
                rw [Nat.add_zero] at h0
                rcases h with ⟨h, h'⟩ | ⟨h, h'⟩
                · rw [h0, decide_eq_true_eq] at h'; omega
                · rw [h0, decide_eq_false_iff_not] at h'; exact h' h
              · exact ih (k + 1) (fun m z hz => by rw [← hy (m + 1) z (by simpa using hz)]; congr 1; omega) h
          refine key xs (i + 1) (fun m y hy => ?_) h2
          have h3 : ¬ i + 1 + m < i := by omega
          have h4 : ¬ i + 1 + m = i := by omega
          have h5 : i + 1 + m - (i + 1) = m := by omega
          simp only [w, h3, h4, h5, if_false, hy]
      subst hx
      rw [filterLiterals_alone hctx (i + 1) xs committed a fun w hw => ha w fun j hj => hw j (by omega)]
    · rw [if_neg ht]
      refine congrArg (x :: ·) (filterLiterals_alone hctx (i + 1) xs _ (fun k => if k = i then b else a k) fun w hw => ?_)
      rw [L.eval_or, ha w (fun j hj => by rw [hw j (by omega)]; simp [Nat.ne_of_lt hj]), hb w (by rw [hw i (by omega)]; simp)]
      rfl

/-! ### The last loop -/

theorem nextClauses_eval {w : Asg} (T : B) : ∀ (rest : List (List Int)) (acc : B),
    L.eval (rest.foldl (fun acc _ => L.and acc T) acc) w = true ↔ L.eval acc w = true ∧ (rest ≠ [] → L.eval T w = true)
  | [], acc => by simp
  | _ :: rest, acc => by
    rw [List.foldl_cons, nextClauses_eval T rest, L.eval_and, Bool.and_eq_true]
    simp only [ne_eq, reduceCtorEq, not_false_eq_true, forall_const]
    tauto

/-- What the loop adds to `out`: part of each clause, and all but that of the last clause are implied by the clauses so far. -/
theorem filterLoop_spec : ∀ (vs : List (List Int)) (soFar : B) (out : List (List Int)),
    ∃ fs, List.Forall₂ VecSub fs vs ∧ (∀ f, f ∈ filterLoop vs soFar out ↔ f ∈ fs ∨ f ∈ out) ∧
      (∀ init last, fs = init ++ [last] → ∀ f ∈ init, ∀ w, L.eval soFar w = true → AllHold vs.dropLast w → VecHolds w 0 f) ∧
      (∀ v, vs = [v] → (∀ w, L.eval soFar w = true) → fs = [v])
  | [], soFar, out => ⟨[], .nil, fun f => by simp [filterLoop], fun init last h => by simp at h, fun v h => by simp at h⟩
  | [v], soFar, out => by
    refine ⟨[(filterLiterals (L.and soFar L.tt) 0 v L.ff).2], .cons (filterLiterals_sub _ _ _ _) .nil, fun f => ?_, fun init last h => ?_, fun v' e h => ?_⟩
    · simp only [filterLoop, List.foldl_nil, mem_vectorInsert, List.mem_singleton]
    · cases init with
      | nil => simp
      | cons a l => simp at h
    · cases e
      rw [filterLiterals_alone (fun w => by rw [L.eval_and, h w, L.eval_tt]; rfl) 0 v L.ff (fun _ => false) fun w _ => L.eval_ff w]
  | v :: u :: vs, soFar, out => by
    rw [filterLoop]
    generalize hctx : L.and soFar ((u :: vs).foldl (fun acc _ => L.and acc (orLiterals L.ff 0 v)) L.tt) = context
    have hc : ∀ w, L.eval context w = true ↔ L.eval soFar w = true ∧ VecHolds w 0 v := by
      intro w
      rw [← hctx, L.eval_and, Bool.and_eq_true, nextClauses_eval, orLiterals_eval]
      simp [L.eval_tt, L.eval_ff]
    have hf := filterLiterals_spec context 0 v L.ff fun w hw => .inr ((hc w).mp hw).2
    obtain ⟨fs, h1, h2, h3, _⟩ := filterLoop_spec (u :: vs) (L.and soFar (filterLiterals context 0 v L.ff).1) (vectorInsert (filterLiterals context 0 v L.ff).2 out)
    refine ⟨(filterLiterals context 0 v L.ff).2 :: fs, .cons (filterLiterals_sub _ _ _ _) h1, fun f => ?_, ?_, fun v' e => by simp at e⟩
    · rw [h2, mem_vectorInsert, List.mem_cons]; tauto
    · intro init last e f hfm w hw hall
      have hne : fs ≠ [] := by
        rintro rfl
        cases h1
      rw [List.dropLast_cons_of_ne_nil (by simp)] at hall
      have hv : VecHolds w 0 v := hall v List.mem_cons_self
      have hcw := (hc w).mpr ⟨hw, hv⟩
      cases init with
      | nil => simp at hfm
      | cons a init =>
        rw [List.cons_append, List.cons.injEq] at e
        obtain ⟨rfl, e⟩ := e
        rcases List.mem_cons.mp hfm with rfl | hfm
        · exact ((hf.2 w).mp (hf.1 w hcw)).resolve_left (by simp [L.eval_ff])
        · exact h3 init last e f hfm w (by rw [L.eval_and, hw, hf.1 w hcw]; rfl) fun x hx => hall x (List.mem_cons_of_mem _ hx)

/-- Whatever is left implies the clauses. -/
theorem sub_all {fs vs : List (List Int)} (h : List.Forall₂ VecSub fs vs) {w : Asg} (hw : AllHold fs w) : AllHold vs w := by
  induction h with
  | nil => intro v hv; simp at hv
  | cons hs _ ih =>
    intro v hv
    rcases List.mem_cons.mp hv with rfl | hv
    · exact hs.holds (hw _ List.mem_cons_self)
    · exact ih (fun f hf => hw f (List.mem_cons_of_mem _ hf)) v hv

end Slugs.Model
