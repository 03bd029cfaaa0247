import Verif.Lemmas.AigerEncode

/-!
A well-formed circuit has a run for all inputs.
-/

namespace Slugs.Model.Aiger

open Slugs.Spec Slugs.Spec.Aag

/-- Computing the gates in the given order. -/
def compute (v : Nat → Bool) : List (Nat × Nat × Nat) → Nat → Bool
  | [] => v
  | (g, a, b) :: gs => compute (fun j => if j = g / 2 then lit v a && lit v b else v j) gs

theorem compute_other (gs : List (Nat × Nat × Nat)) : ∀ (v : Nat → Bool) (j : Nat), (∀ g ∈ gs, g.1 / 2 ≠ j) → compute v gs j = v j := by
  induction gs with
  | nil => intro v j _; rfl
  | cons g gs ih =>
    obtain ⟨g, a, b⟩ := g
    intro v j h
    rw [List.forall_mem_cons] at h
    rw [compute, ih _ j h.2, if_neg (fun e => h.1 e.symm)]

theorem lit_congr {v w : Nat → Bool} {l : Nat} (h : v (l / 2) = w (l / 2)) : lit v l = lit w l := by rw [lit, lit, h]

theorem compute_sat {K : List Nat} {gs : List (Nat × Nat × Nat)} (h : Ordered K gs) : ∀ (v : Nat → Bool), (∀ g ∈ gs, g.1 % 2 = 0 ∧ 2 ≤ g.1) →
    (∀ g ∈ gs, g.1 ∉ K) → (gs.map Prod.fst).Nodup → Sat (compute v gs) gs := by
  induction h with
  | nil => intro v _ _ _ g hg; exact absurd hg (List.not_mem_nil)
  | @cons K g a b gs ha hb _ ih =>
    intro v he hk hn
    rw [List.forall_mem_cons] at he hk
    simp only [List.map_cons, List.nodup_cons] at hn
    have hne : ∀ g' ∈ gs, g'.1 ≠ g := fun g' hg' e => hn.1 (List.mem_map.mpr ⟨g', hg', e⟩)
    have hdiv : ∀ g' ∈ gs, g'.1 / 2 ≠ g / 2 := fun g' hg' e => hne g' hg' (by have := he.1; have := he.2 g' hg'; dsimp only at *; omega)
    have same : ∀ l, Over K l → compute v ((g, a, b) :: gs) (l / 2) = v (l / 2) := by
      intro l hl
      refine compute_other _ v _ fun g' hg' e => ?_
      have hg2 : g'.1 % 2 = 0 ∧ 2 ≤ g'.1 := by
        rcases List.mem_cons.mp hg' with rfl | hg'
        · exact he.1
        · exact he.2 g' hg'
      rcases hl with hl | hl
      · omega
      · rw [← e, show 2 * (g'.1 / 2) = g'.1 by omega] at hl
        rcases List.mem_cons.mp hg' with rfl | hg'
        · exact hk.1 hl
        · exact hk.2 g' hg' hl
    intro g' hg'
    rcases List.mem_cons.mp hg' with rfl | hg'
    · rw [lit_congr (same a ha), lit_congr (same b hb)]
      dsimp only
      rw [compute, lit, if_pos he.1.1, compute_other _ _ _ hdiv, if_pos rfl]
    · refine ih _ he.2 (fun g' hg' e => ?_) hn.2 g' hg'
      rcases List.mem_cons.mp e with e | e
      · exact hne g' hg' e
      · exact hk.2 g' hg' e

/-- The values of inputs and latches; `old` are the values of the next literals of the latches. -/
def base (A : Aag) (inp : Nat → Bool) (old : Nat → Bool) (j : Nat) : Bool :=
  if 2 * j ∈ A.inputs then inp (A.inputs.idxOf (2 * j)) else
    match A.latches.find? (fun l => l.1 = 2 * j) with
    | some l => old l.2
    | none => false

/-- The run, when the gates are computed in the given order. -/
def runOf (A : Aag) (gs : List (Nat × Nat × Nat)) (inp : Nat → Nat → Bool) : Nat → Nat → Bool
  | 0 => compute (base A (inp 0) fun _ => false) gs
  | t + 1 => compute (base A (inp (t + 1)) (lit (runOf A gs inp t))) gs

/-- Runs exist for all inputs. -/
theorem exists_run {A : Aag} (h : A.Valid) (inp : Nat → Nat → Bool) : ∃ x, A.Run inp x := by
  obtain ⟨gs, hp, ho⟩ := h.acyclic
  have hd := h.distinct
  simp only [Aag.defined] at hd
  have hge : ∀ g ∈ gs, g.1 % 2 = 0 ∧ 2 ≤ g.1 := fun g hg =>
    let e := h.even g.1 (by simp only [Aag.defined, List.mem_append]; exact .inr (List.mem_map_of_mem (hp.mem_iff.mp hg)))
    ⟨e.1, e.2.1⟩
  have hgk : ∀ g ∈ gs, g.1 ∉ A.inputs ++ A.latches.map Prod.fst := fun g hg hk =>
    (List.nodup_append.mp hd).2.2 _ hk _ (List.mem_map_of_mem (hp.mem_iff.mp hg)) rfl
  have hgn : (gs.map Prod.fst).Nodup := (hp.map _).nodup_iff.mpr (List.nodup_append.mp hd).2.1
  have hsat : ∀ v, Sat (compute v gs) A.gates := fun v g hg => compute_sat ho v hge hgk hgn g (hp.mem_iff.mpr hg)
  have hkeep : ∀ (v : Nat → Bool) l, l ∈ A.inputs ++ A.latches.map Prod.fst → lit (compute v gs) l = v (l / 2) := by
    intro v l hl
    have e := h.even l (by simp only [Aag.defined]; exact List.mem_append_left _ hl)
    rw [lit, if_pos e.1, compute_other]
    intro g hg e'
    have := hge g hg
    exact hgk g hg (by rw [show g.1 = l by omega]; exact hl)
  have hin : ∀ (inp old : Nat → Bool) k l, A.inputs[k]? = some l → lit (compute (base A inp old) gs) l = inp k := by
    intro inp old k l hl
    have hm := List.mem_of_getElem? hl
    have e := h.even l (by simp only [Aag.defined]; exact List.mem_append_left _ (List.mem_append_left _ hm))
    rw [hkeep _ l (List.mem_append_left _ hm), base, show 2 * (l / 2) = l by omega, if_pos hm]
    congr 1
    obtain ⟨hk, rfl⟩ := List.getElem?_eq_some_iff.mp hl
    exact (List.nodup_append.mp (List.nodup_append.mp hd).1).1.idxOf_getElem k hk
  have hla : ∀ (inp old : Nat → Bool), ∀ l ∈ A.latches, lit (compute (base A inp old) gs) l.1 = old l.2 := by
    intro inp old l hl
    have hm : l.1 ∈ A.latches.map Prod.fst := List.mem_map_of_mem hl
    have e := h.even l.1 (by simp only [Aag.defined]; exact List.mem_append_left _ (List.mem_append_right _ hm))
    rw [hkeep _ l.1 (List.mem_append_right _ hm), base, show 2 * (l.1 / 2) = l.1 by omega,
      if_neg (fun hi => (List.nodup_append.mp (List.nodup_append.mp hd).1).2.2 _ hi _ hm rfl)]
    cases hf : A.latches.find? (fun l' => decide (l'.1 = l.1)) with
    | none =>
      rw [List.find?_eq_none] at hf
      exact absurd (decide_eq_true rfl) (hf l hl)
    | some l' =>
      have h1 := List.mem_of_find?_eq_some hf
      have h2 : l'.1 = l.1 := by simpa using List.find?_some hf
      have := List.inj_on_of_nodup_map (List.nodup_append.mp (List.nodup_append.mp hd).1).2.1 h1 hl h2
      rw [this]
  refine ⟨runOf A gs inp, fun t => ?_, fun t k l hl => ?_, fun l hl => ?_, fun t l hl => ?_, fun t g hg => ?_⟩
  · have : ∀ inp old : Nat → Bool, compute (base A inp old) gs 0 = false := by
      intro inp old
      rw [compute_other _ _ _ (fun g hg e => by have := hge g hg; omega), base, if_neg]
      · cases hf : A.latches.find? (fun l' => decide (l'.1 = 2 * 0)) with
        | none => rfl
        | some l' =>
          have h1 := List.mem_of_find?_eq_some hf
          have h2 : l'.1 = 0 := by simpa using List.find?_some hf
          have := (h.even l'.1 (by simp only [Aag.defined]; exact List.mem_append_left _ (List.mem_append_right _ (List.mem_map_of_mem h1)))).2.1
          omega
      · intro hi
        have := (h.even 0 (by simp only [Aag.defined]; exact List.mem_append_left _ (List.mem_append_left _ hi))).2.1
        omega
    cases t <;> rw [runOf] <;> exact this _ _
  · cases t <;> rw [runOf] <;> exact hin _ _ k l hl
  · rw [runOf, hla _ _ l hl]
  · rw [runOf, hla _ _ l hl]
  · cases t <;> rw [runOf] <;> exact hsat _ g hg

end Slugs.Model.Aiger
