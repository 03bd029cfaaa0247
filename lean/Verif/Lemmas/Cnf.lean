import Verif.Model.Cnf
import Verif.Lemmas.Determinize
import Verif.Lemmas.Bdd
import Mathlib.Data.Fintype.Card
import Mathlib.Data.Fintype.Pi
import Mathlib.Data.Fintype.BigOperators

/-! The loops that compute clauses and cubes, at the level of BDDs. -/

namespace Slugs.Model

variable {B : Type} [DecidableEq B] [L : BddLib B]

/-- The assignment satisfies the cube given by indices and values. -/
def KeptHolds (w : Asg) (kept : List (Nat × Bool)) : Prop := ∀ e ∈ kept, w e.1 = e.2

theorem eq_ff_iff {f : B} : f = L.ff ↔ ∀ w, ¬ L.eval f w = true := by
  constructor
  · rintro rfl w; simp [L.eval_ff]
  · exact fun h => L.eval_inj _ _ fun w => by simpa [L.eval_ff] using h w

theorem eq_tt_iff {f : B} : f = L.tt ↔ ∀ w, L.eval f w = true := by
  constructor
  · rintro rfl w; simp [L.eval_tt]
  · exact fun h => L.eval_inj _ _ fun w => by simpa [L.eval_tt] using h w

/-- What removing variables from a cube around `a` leads to. -/
structure Shrunk (target : Asg → Prop) (a : Asg) (n : Nat) (cube : B) (kept : List (Nat × Bool)) : Prop where
  eval : ∀ w, L.eval cube w = true ↔ KeptHolds w kept
  around : KeptHolds a kept
  below : ∀ e ∈ kept, e.1 < n
  sub : ∀ w, KeptHolds w kept → target w
  prime : ∀ e ∈ kept, ∃ w, ¬ target w ∧ ∀ e' ∈ kept, e'.1 ≠ e.1 → w e'.1 = e'.2

theorem shrinkCube_spec {fits : B → Bool} {good : Asg → Prop} (hfits : ∀ f, fits f = true ↔ ∀ w, L.eval f w = true → good w) {a : Asg} {n : Nat} :
    ∀ (is : List Nat) (cube : B) (kept : List (Nat × Bool)), (kept.map Prod.fst ++ is).Nodup → (∀ i ∈ is, i < n) → (∀ e ∈ kept, e.1 < n) →
      (∀ e ∈ kept, e.2 = a e.1) →
      (∀ w, L.eval cube w = true ↔ (∀ e ∈ kept, w e.1 = a e.1) ∧ ∀ i ∈ is, w i = a i) →
      (∀ w, L.eval cube w = true → good w) →
      (∀ e ∈ kept, ∃ w, ¬ good w ∧ (∀ e' ∈ kept, e'.1 ≠ e.1 → w e'.1 = a e'.1) ∧ ∀ i ∈ is, w i = a i) →
      Shrunk good a n (shrinkCube fits is cube kept).1 (shrinkCube fits is cube kept).2
  | [], cube, kept, _, _, hbk, hv, hc, hg, hp => by
    have e : ∀ w, KeptHolds w kept.reverse ↔ ∀ e ∈ kept, w e.1 = a e.1 := fun w => by
      simp only [KeptHolds, List.mem_reverse]
      exact forall₂_congr fun e he => by rw [hv e he]
    rw [shrinkCube]
    refine ⟨fun w => by rw [e, hc]; simp, (e a).mpr fun _ _ => rfl, fun e' he' => hbk e' (by simpa using he'), fun w hw => hg w ((hc w).mpr ⟨(e w).mp hw, by simp⟩), ?_⟩
    intro x hx
    obtain ⟨w, hw, hw', _⟩ := hp x (by simpa using hx)
    exact ⟨w, hw, fun e' he' hne => by rw [hw' e' (by simpa using he') hne, hv e' (by simpa using he')]⟩
  | i :: is, cube, kept, hnd, hb, hbk, hv, hc, hg, hp => by
    have hi : i ∉ is := by
      have := (List.nodup_append.mp hnd).2.1
      exact (List.nodup_cons.mp this).1
    have hik : ∀ e ∈ kept, e.1 ≠ i := by
      intro e he h
      exact (List.nodup_append.mp hnd).2.2 e.1 (List.mem_map_of_mem he) i List.mem_cons_self h
    have hnd' : (kept.map Prod.fst ++ is).Nodup := hnd.sublist (List.Sublist.append_left (List.sublist_cons_self i is) _)
    have hcand : ∀ w, L.eval (L.exist [i] cube) w = true ↔ (∀ e ∈ kept, w e.1 = a e.1) ∧ ∀ j ∈ is, w j = a j := by
      intro w
      rw [L.eval_exist]
      constructor
      · rintro ⟨w', hw', he⟩
        obtain ⟨h1, h2⟩ := (hc w').mp he
        refine ⟨fun e he => ?_, fun j hj => ?_⟩
        · rw [hw' e.1 (by simpa using hik e he), h1 e he]
        · rw [hw' j (by simpa using fun h : j = i => hi (h ▸ hj)), h2 j (List.mem_cons_of_mem _ hj)]
      · rintro ⟨h1, h2⟩
        refine ⟨fun k => if k = i then a i else w k, fun k hk => ?_, (hc _).mpr ⟨fun e he => ?_, fun j hj => ?_⟩⟩
        · simp only [List.mem_singleton] at hk
          simp [hk]
        · simp only [hik e he, if_false]; exact h1 e he
        · rcases List.mem_cons.mp hj with rfl | hj
          · simp
          · have : j ≠ i := fun h => hi (h ▸ hj)
            simp only [this, if_false]; exact h2 j hj
    rw [shrinkCube]
    by_cases hf : fits (L.exist [i] cube) = true
    · rw [if_pos hf]
      refine shrinkCube_spec hfits is _ kept hnd' (fun j hj => hb j (List.mem_cons_of_mem _ hj)) hbk hv hcand ((hfits _).mp hf) ?_
      intro e he
      obtain ⟨w, h1, h2, h3⟩ := hp e he
      exact ⟨w, h1, h2, fun j hj => h3 j (List.mem_cons_of_mem _ hj)⟩
    · rw [if_neg hf]
      obtain ⟨w0, hw0, hbad⟩ : ∃ w, L.eval (L.exist [i] cube) w = true ∧ ¬ good w := by
        by_contra h
        exact hf ((hfits _).mpr fun w hw => by_contra fun hn => h ⟨w, hw, hn⟩)
      have hcv : (L.and cube (L.var i) = L.ff) ↔ a i = false := by
        rw [eq_ff_iff]
        simp only [L.eval_and, L.eval_var, Bool.and_eq_true]
        constructor
        · intro h
          have := h a
          rw [hc] at this
          by_contra hai
          exact this ⟨⟨fun _ _ => rfl, fun _ _ => rfl⟩, by simpa using hai⟩
        · rintro h w ⟨hw, hwi⟩
          rw [((hc w).mp hw).2 i List.mem_cons_self, h] at hwi
          cases hwi
      have key : ∀ b, b = a i → Shrunk good a n (shrinkCube fits is cube ((i, b) :: kept)).1 (shrinkCube fits is cube ((i, b) :: kept)).2 := by
        rintro b rfl
        refine shrinkCube_spec hfits is cube ((i, a i) :: kept) ?_ (fun j hj => hb j (List.mem_cons_of_mem _ hj)) ?_ ?_ (fun w => ?_) hg ?_
        · rw [List.map_cons, List.cons_append]
          exact (List.perm_middle.symm.nodup_iff).mpr hnd
        · intro e he
          rcases List.mem_cons.mp he with rfl | he
          · exact hb i List.mem_cons_self
          · exact hbk e he
        · intro e he
          rcases List.mem_cons.mp he with rfl | he
          · rfl
          · exact hv e he
        · rw [hc]
          simp only [List.forall_mem_cons]
          tauto
        · intro e he
          rcases List.mem_cons.mp he with rfl | he
          · obtain ⟨h1, h2⟩ := (hcand w0).mp hw0
            refine ⟨w0, hbad, fun e' he' hne => ?_, h2⟩
            rcases List.mem_cons.mp he' with rfl | he'
            · exact absurd rfl hne
            · exact h1 e' he'
          · obtain ⟨w, h1, h2, h3⟩ := hp e he
            refine ⟨w, h1, fun e' he' hne => ?_, fun j hj => h3 j (List.mem_cons_of_mem _ hj)⟩
            rcases List.mem_cons.mp he' with rfl | he'
            · exact h3 i List.mem_cons_self
            · exact h2 e' he' hne
      by_cases hz : L.and cube (L.var i) = L.ff
      · rw [if_pos hz]
        exact key false (hcv.mp hz).symm
      · rw [if_neg hz]
        exact key true (by simpa using fun h => hz (hcv.mpr h))

/-- One round: an assignment that has not been covered is picked and the cube around it enlarged. -/
theorem cover_step {types : List VarType} {fits : B → Bool} {good : Asg → Prop} {f : B} (hne : f ≠ L.ff) (hf : DependsBelow types.length (L.eval f))
    (hfits : ∀ f, fits f = true ↔ ∀ w, L.eval f w = true → good w) (hgood : ∀ w, L.eval f w = true → good w) :
    ∃ a, L.eval f a = true ∧
      let r := shrinkCube fits (List.range types.length) (determinize (bddMgr B types) ((List.range types.length).map L.var) f) []
      Shrunk good a types.length r.1 r.2 := by
  have hd := determinize_isDet (bddReading (B := B) types) ((List.range types.length).map L.var) f
  obtain ⟨a, ha⟩ := hd.nonempty (by
    by_contra h
    exact hne (eq_ff_iff.mpr fun w hw => h ⟨w, hw⟩))
  refine ⟨a, hd.sub a ha, ?_⟩
  have hdep : DependsBelow types.length (L.eval (determinize (bddMgr B types) ((List.range types.length).map L.var) f)) := by
    refine determinize_closed (M := bddMgr B types) (fun g => DependsBelow types.length (L.eval g)) _ f hf ?_
    intro v hv g hg
    obtain ⟨k, hk, rfl⟩ := List.mem_map.mp hv
    refine ⟨fun a a' h => ?_, fun a a' h => ?_⟩
    · show L.eval (L.and g (L.var k)) a = L.eval (L.and g (L.var k)) a'
      rw [L.eval_and, L.eval_and, hg a a' h, L.eval_var, L.eval_var, h k (List.mem_range.mp hk)]
    · show L.eval (L.and g (L.not (L.var k))) a = L.eval (L.and g (L.not (L.var k))) a'
      rw [L.eval_and, L.eval_and, hg a a' h, L.eval_not, L.eval_not, L.eval_var, L.eval_var, h k (List.mem_range.mp hk)]
  refine shrinkCube_spec hfits _ _ [] (by simpa using List.nodup_range) (by simp) (by simp) (by simp) (fun w => ?_)
    (fun w hw => hgood w (hd.sub w hw)) (by simp)
  constructor
  · intro hw
    refine ⟨by simp, fun i hi => ?_⟩
    have hfix := hd.fixed (L.var i) (List.mem_map_of_mem hi)
    simp only [L.eval_var] at hfix
    rcases hfix with h | h
    · rw [h w hw, h a ha]
    · have h1 := h w hw
      have h2 := h a ha
      simp only [Bool.not_eq_true] at h1 h2
      rw [h1, h2]
  · rintro ⟨_, h⟩
    rw [hdep w a fun k hk => h k (List.mem_range.mpr hk)]
    exact ha

/-- What has been covered so far, by cubes that are as large as possible. -/
structure CubeCover (n : Nat) (target : Asg → Prop) (found : B) (kepts : List (List (Nat × Bool))) : Prop where
  depends : DependsBelow n (L.eval found)
  eval : ∀ w, L.eval found w = true ↔ ∃ k ∈ kepts, KeptHolds w k
  below : ∀ k ∈ kepts, ∀ e ∈ k, e.1 < n
  sat : ∀ k ∈ kepts, ∃ a, KeptHolds a k
  sub : ∀ k ∈ kepts, ∀ w, KeptHolds w k → target w
  prime : ∀ k ∈ kepts, ∀ e ∈ k, ∃ w, ¬ target w ∧ ∀ e' ∈ k, e'.1 ≠ e.1 → w e'.1 = e'.2

theorem CubeCover.nil {n : Nat} {target : Asg → Prop} : CubeCover n target (L.ff : B) [] where
  depends a a' _ := by rw [L.eval_ff, L.eval_ff]
  eval w := by simp [L.eval_ff]
  below := by simp
  sat := by simp
  sub := by simp
  prime := by simp

theorem CubeCover.add {n : Nat} {target : Asg → Prop} {found cube : B} {kepts : List (List (Nat × Bool))} {a : Asg} {kept : List (Nat × Bool)}
    (h : CubeCover n target found kepts) (hs : Shrunk target a n cube kept) : CubeCover n target (L.or found cube) (kept :: kepts) where
  depends w w' hw := by
    have : L.eval cube w = L.eval cube w' := by
      rw [Bool.eq_iff_iff, hs.eval, hs.eval]
      exact forall₂_congr fun e he => by rw [hw e.1 (hs.below e he)]
    rw [L.eval_or, L.eval_or, h.depends w w' hw, this]
  eval w := by
    rw [L.eval_or, Bool.or_eq_true, h.eval, hs.eval]
    simp only [List.exists_mem_cons_iff]
    exact or_comm
  below k hk := by
    rcases List.mem_cons.mp hk with rfl | hk
    · exact hs.below
    · exact h.below k hk
  sat k hk := by
    rcases List.mem_cons.mp hk with rfl | hk
    · exact ⟨a, hs.around⟩
    · exact h.sat k hk
  sub k hk := by
    rcases List.mem_cons.mp hk with rfl | hk
    · exact hs.sub
    · exact h.sub k hk
  prime k hk := by
    rcases List.mem_cons.mp hk with rfl | hk
    · exact hs.prime
    · exact h.prime k hk

theorem CubeCover.reverse {n : Nat} {target : Asg → Prop} {found : B} {kepts : List (List (Nat × Bool))} (h : CubeCover n target found kepts) :
    CubeCover n target found kepts.reverse where
  depends := h.depends
  eval w := by rw [h.eval]; simp
  below k hk := h.below k (by simpa using hk)
  sat k hk := h.sat k (by simpa using hk)
  sub k hk := h.sub k (by simpa using hk)
  prime k hk := h.prime k (by simpa using hk)

/-- The number of assignments that have not been covered. -/
noncomputable def uncovered (n : Nat) (found : B) : Nat :=
  (Finset.univ.filter fun v : Fin n → Bool => L.eval found (fun k => if h : k < n then v ⟨k, h⟩ else false) = false).card

theorem uncovered_lt {n : Nat} {found cube : B} {a : Asg} (hd : DependsBelow n (L.eval found)) (hd' : DependsBelow n (L.eval (L.or found cube)))
    (h1 : L.eval found a = false) (h2 : L.eval cube a = true) : uncovered n (L.or found cube) < uncovered n found := by
  have hr : ∀ k < n, (fun k => if h : k < n then (fun i : Fin n => a i.1) ⟨k, h⟩ else false) k = a k := fun k hk => by simp [hk]
  refine Finset.card_lt_card (Finset.ssubset_iff_of_subset (fun v hv => ?_) |>.mpr ⟨fun i => a i.1, ?_, ?_⟩)
  · simp only [Finset.mem_filter, Finset.mem_univ, true_and, L.eval_or, Bool.or_eq_false_iff] at hv ⊢
    exact hv.1
  · simp only [Finset.mem_filter, Finset.mem_univ, true_and]
    rw [hd _ a hr, h1]
  · simp only [Finset.mem_filter, Finset.mem_univ, true_and]
    rw [hd' _ a hr, L.eval_or, h2]
    simp

theorem uncovered_le (n : Nat) (found : B) : uncovered n found ≤ 2 ^ n := by
  refine (Finset.card_filter_le _ _).trans ?_
  simp

/-! ### Clauses -/

theorem clause_round {types : List VarType} {rest found : B} {kepts : List (List (Nat × Bool))} (hr : DependsBelow types.length (L.eval rest))
    (hc : CubeCover types.length (fun w => L.eval rest w = false) found kepts) (hne : L.or rest found ≠ L.tt) :
    ∃ a, L.eval found a = false ∧
      let r := shrinkCube (fun f => decide (L.and (L.and f rest) (L.not found) = L.ff)) (List.range types.length)
        (determinize (bddMgr B types) ((List.range types.length).map L.var) (L.and (L.not rest) (L.not found))) []
      Shrunk (fun w => L.eval rest w = false) a types.length r.1 r.2 := by
  refine Exists.elim (cover_step (B := B) (types := types) (f := L.and (L.not rest) (L.not found))
    (fits := fun f => decide (L.and (L.and f rest) (L.not found) = L.ff)) (good := fun w => L.eval rest w = false) ?_ ?_ ?_ ?_) fun a ⟨ha, h⟩ => ?_
  · intro h
    refine hne (eq_tt_iff.mpr fun w => ?_)
    have := eq_ff_iff.mp h w
    simp only [L.eval_and, L.eval_not, Bool.and_eq_true, Bool.not_eq_true', not_and, Bool.not_eq_false] at this
    rw [L.eval_or, Bool.or_eq_true]
    by_cases hw : L.eval rest w = true
    · exact .inl hw
    · exact .inr (this (by simpa using hw))
  · intro a a' h
    simp only [L.eval_and, L.eval_not, hr a a' h, hc.depends a a' h]
  · intro f
    rw [decide_eq_true_eq, eq_ff_iff]
    refine forall_congr' fun w => ?_
    simp only [L.eval_and, L.eval_not, Bool.and_eq_true, Bool.not_eq_true']
    constructor
    · intro h hf
      by_contra hw
      have hw' : L.eval rest w = true := by simpa using hw
      refine h ⟨⟨hf, hw'⟩, ?_⟩
      by_contra hfound
      obtain ⟨k, hk, hkw⟩ := (hc.eval w).mp (by simpa using hfound)
      exact hw (hc.sub k hk w hkw)
    · rintro h ⟨⟨hf, hw⟩, _⟩
      rw [h hf] at hw
      cases hw
  · intro w hw
    simp only [L.eval_and, L.eval_not, Bool.and_eq_true, Bool.not_eq_true'] at hw
    exact hw.1
  · refine ⟨a, ?_, h⟩
    simp only [L.eval_and, L.eval_not, Bool.and_eq_true, Bool.not_eq_true'] at ha
    exact ha.2

theorem clauseLoop_spec {types : List VarType} {rest : B} (hr : DependsBelow types.length (L.eval rest)) :
    ∀ (fuel : Nat) (found : B) (kepts : List (List (Nat × Bool))) (f' : B) (cs : List (List Int)),
      CubeCover types.length (fun w => L.eval rest w = false) found kepts →
      clauseLoop types rest fuel found (kepts.map clauseLiterals) = some (f', cs) →
      ∃ kepts', cs = kepts'.map clauseLiterals ∧ CubeCover types.length (fun w => L.eval rest w = false) f' kepts' ∧ f' = L.not rest
  | 0, _, _, _, _, _, h => by cases h
  | n + 1, found, kepts, f', cs, hc, h => by
    rw [clauseLoop] at h
    by_cases hne : L.or rest found = L.tt
    · rw [if_pos hne] at h
      simp only [Option.some.injEq, Prod.mk.injEq] at h
      obtain ⟨rfl, rfl⟩ := h
      refine ⟨kepts.reverse, by rw [List.map_reverse], hc.reverse, L.eval_inj _ _ fun w => ?_⟩
      have := eq_tt_iff.mp hne w
      rw [L.eval_or, Bool.or_eq_true] at this
      rw [L.eval_not, Bool.eq_iff_iff, Bool.not_eq_true']
      constructor
      · intro hw
        obtain ⟨k, hk, hkw⟩ := (hc.eval w).mp hw
        exact hc.sub k hk w hkw
      · intro hw
        exact this.resolve_left (by simp [hw])
    · rw [if_neg hne] at h
      obtain ⟨a, _, hs⟩ := clause_round hr hc hne
      exact clauseLoop_spec hr n _ _ _ _ (hc.add hs) h

theorem clauseLoop_terminates {types : List VarType} {rest : B} (hr : DependsBelow types.length (L.eval rest)) :
    ∀ (fuel : Nat) (found : B) (kepts : List (List (Nat × Bool))),
      CubeCover types.length (fun w => L.eval rest w = false) found kepts → uncovered types.length found < fuel →
      ∃ r, clauseLoop types rest fuel found (kepts.map clauseLiterals) = some r
  | 0, _, _, _, h => by omega
  | n + 1, found, kepts, hc, h => by
    rw [clauseLoop]
    by_cases hne : L.or rest found = L.tt
    · rw [if_pos hne]; exact ⟨_, rfl⟩
    · rw [if_neg hne]
      obtain ⟨a, ha, hs⟩ := clause_round hr hc hne
      have := uncovered_lt hc.depends (hc.add hs).depends ha ((hs.eval a).mpr hs.around)
      exact clauseLoop_terminates hr n _ _ (hc.add hs) (by omega)

/-! ### Cubes -/

theorem cube_round {types : List VarType} {goal found : B} {kepts : List (List (Nat × Bool))} (hr : DependsBelow types.length (L.eval goal))
    (hc : CubeCover types.length (fun w => L.eval goal w = true) found kepts) (hne : L.and goal (L.not found) ≠ L.ff) :
    ∃ a, L.eval found a = false ∧
      let r := shrinkCube (fun f => decide (L.and f (L.not goal) = L.ff)) (List.range types.length)
        (determinize (bddMgr B types) ((List.range types.length).map L.var) (L.and goal (L.not found))) []
      Shrunk (fun w => L.eval goal w = true) a types.length r.1 r.2 := by
  refine Exists.elim (cover_step (B := B) (types := types) (f := L.and goal (L.not found))
    (fits := fun f => decide (L.and f (L.not goal) = L.ff)) (good := fun w => L.eval goal w = true) hne ?_ ?_ ?_) fun a ⟨ha, h⟩ => ?_
  · intro a a' h
    simp only [L.eval_and, L.eval_not, hr a a' h, hc.depends a a' h]
  · intro f
    rw [decide_eq_true_eq, eq_ff_iff]
    refine forall_congr' fun w => ?_
    simp only [L.eval_and, L.eval_not, Bool.and_eq_true, Bool.not_eq_true', not_and, Bool.not_eq_false]
  · intro w hw
    simp only [L.eval_and, L.eval_not, Bool.and_eq_true, Bool.not_eq_true'] at hw
    exact hw.1
  · refine ⟨a, ?_, h⟩
    simp only [L.eval_and, L.eval_not, Bool.and_eq_true, Bool.not_eq_true'] at ha
    exact ha.2

theorem cubeLoop_spec {types : List VarType} {goal : B} (hr : DependsBelow types.length (L.eval goal)) :
    ∀ (fuel : Nat) (found : B) (kepts : List (List (Nat × Bool))) (f' : B) (cs : List (List Int)),
      CubeCover types.length (fun w => L.eval goal w = true) found kepts →
      cubeLoop types goal fuel found (kepts.map (cubeLiterals types)) = some (f', cs) →
      ∃ kepts', cs = kepts'.map (cubeLiterals types) ∧ CubeCover types.length (fun w => L.eval goal w = true) f' kepts' ∧ f' = goal
  | 0, _, _, _, _, _, h => by cases h
  | n + 1, found, kepts, f', cs, hc, h => by
    rw [cubeLoop] at h
    by_cases hne : L.and goal (L.not found) = L.ff
    · rw [if_pos hne] at h
      simp only [Option.some.injEq, Prod.mk.injEq] at h
      obtain ⟨rfl, rfl⟩ := h
      refine ⟨kepts.reverse, by rw [List.map_reverse], hc.reverse, L.eval_inj _ _ fun w => ?_⟩
      have := eq_ff_iff.mp hne w
      simp only [L.eval_and, L.eval_not, Bool.and_eq_true, Bool.not_eq_true', not_and, Bool.not_eq_false] at this
      rw [Bool.eq_iff_iff]
      constructor
      · intro hw
        obtain ⟨k, hk, hkw⟩ := (hc.eval w).mp hw
        exact hc.sub k hk w hkw
      · exact this
    · rw [if_neg hne] at h
      obtain ⟨a, _, hs⟩ := cube_round hr hc hne
      exact cubeLoop_spec hr n _ _ _ _ (hc.add hs) h

theorem cubeLoop_terminates {types : List VarType} {goal : B} (hr : DependsBelow types.length (L.eval goal)) :
    ∀ (fuel : Nat) (found : B) (kepts : List (List (Nat × Bool))),
      CubeCover types.length (fun w => L.eval goal w = true) found kepts → uncovered types.length found < fuel →
      ∃ r, cubeLoop types goal fuel found (kepts.map (cubeLiterals types)) = some r
  | 0, _, _, _, h => by omega
  | n + 1, found, kepts, hc, h => by
    rw [cubeLoop]
    by_cases hne : L.and goal (L.not found) = L.ff
    · rw [if_pos hne]; exact ⟨_, rfl⟩
    · rw [if_neg hne]
      obtain ⟨a, ha, hs⟩ := cube_round hr hc hne
      have := uncovered_lt hc.depends (hc.add hs).depends ha ((hs.eval a).mpr hs.around)
      exact cubeLoop_terminates hr n _ _ (hc.add hs) (by omega)

end Slugs.Model
