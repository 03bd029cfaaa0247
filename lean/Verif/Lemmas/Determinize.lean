import Verif.Model.Explicit
import Verif.Lemmas.Sound

/-! Determinisation, for any representation of Boolean functions. -/

namespace Slugs.Model

variable {B : Type} [DecidableEq B] {W : Type}

/-- `sat` is a reading of the elements of `B` as sets that fits conjunction, negation and the constant false. -/
structure Reading (M : Mgr B) (sat : B → W → Prop) : Prop where
  and : ∀ a b w, sat (M.and a b) w ↔ sat a w ∧ sat b w
  not : ∀ a w, sat (M.not a) w ↔ ¬ sat a w
  ff : ∀ a, a = M.ff ↔ ∀ w, ¬ sat a w

/-- What a determinisation of `f` with respect to `vs` is. -/
structure IsDet (sat : B → W → Prop) (vs : List B) (f r : B) : Prop where
  sub : ∀ w, sat r w → sat f w
  nonempty : (∃ w, sat f w) → ∃ w, sat r w
  fixed : ∀ v ∈ vs, (∀ w, sat r w → sat v w) ∨ (∀ w, sat r w → ¬ sat v w)

omit [DecidableEq B] in
theorem IsDet.cons {sat : B → W → Prop} {v : B} {vs : List B} {f f' r : B} (h : IsDet sat vs f' r)
    (h1 : ∀ w, sat f' w → sat f w) (h2 : (∃ w, sat f w) → ∃ w, sat f' w)
    (h3 : (∀ w, sat f' w → sat v w) ∨ (∀ w, sat f' w → ¬ sat v w)) : IsDet sat (v :: vs) f r where
  sub w hw := h1 w (h.sub w hw)
  nonempty hf := h.nonempty (h2 hf)
  fixed v' hv' := by
    rcases List.mem_cons.mp hv' with rfl | hv'
    · exact h3.imp (fun k w hw => k w (h.sub w hw)) (fun k w hw => k w (h.sub w hw))
    · exact h.fixed v' hv'

theorem Reading.split {M : Mgr B} {sat : B → W → Prop} (R : Reading M sat) (v f : B) :
    let f' := if M.and f (M.not v) = M.ff then M.and f v else M.and f (M.not v)
    (∀ w, sat f' w → sat f w) ∧ ((∃ w, sat f w) → ∃ w, sat f' w) ∧
      ((∀ w, sat f' w → sat v w) ∨ (∀ w, sat f' w → ¬ sat v w)) := by
  intro f'
  by_cases hc : M.and f (M.not v) = M.ff
  · have e : f' = M.and f v := if_pos hc
    rw [e]
    refine ⟨fun w hw => ((R.and _ _ w).mp hw).1, ?_, .inl fun w hw => ((R.and _ _ w).mp hw).2⟩
    rintro ⟨w, hw⟩
    refine ⟨w, (R.and _ _ w).mpr ⟨hw, ?_⟩⟩
    by_contra hv
    exact (R.ff _).mp hc w ((R.and _ _ w).mpr ⟨hw, (R.not _ _).mpr hv⟩)
  · have e : f' = M.and f (M.not v) := if_neg hc
    rw [e]
    refine ⟨fun w hw => ((R.and _ _ w).mp hw).1, fun _ => ?_, .inr fun w hw => (R.not _ _).mp ((R.and _ _ w).mp hw).2⟩
    by_contra hno
    exact hc ((R.ff _).mpr fun w hw => hno ⟨w, hw⟩)

theorem Reading.split' {M : Mgr B} {sat : B → W → Prop} (R : Reading M sat) (v f : B) :
    let f' := if M.and f v = M.ff then M.and f (M.not v) else M.and f v
    (∀ w, sat f' w → sat f w) ∧ ((∃ w, sat f w) → ∃ w, sat f' w) ∧
      ((∀ w, sat f' w → sat v w) ∨ (∀ w, sat f' w → ¬ sat v w)) := by
  intro f'
  by_cases hc : M.and f v = M.ff
  · have e : f' = M.and f (M.not v) := if_pos hc
    rw [e]
    refine ⟨fun w hw => ((R.and _ _ w).mp hw).1, ?_, .inr fun w hw => (R.not _ _).mp ((R.and _ _ w).mp hw).2⟩
    rintro ⟨w, hw⟩
    refine ⟨w, (R.and _ _ w).mpr ⟨hw, (R.not _ _).mpr fun hv => ?_⟩⟩
    exact (R.ff _).mp hc w ((R.and _ _ w).mpr ⟨hw, hv⟩)
  · have e : f' = M.and f v := if_neg hc
    rw [e]
    refine ⟨fun w hw => ((R.and _ _ w).mp hw).1, fun _ => ?_, .inl fun w hw => ((R.and _ _ w).mp hw).2⟩
    by_contra hno
    exact hc ((R.ff _).mpr fun w hw => hno ⟨w, hw⟩)

theorem determinize_isDet {M : Mgr B} {sat : B → W → Prop} (R : Reading M sat) :
    ∀ (vs : List B) (f : B), IsDet sat vs f (determinize M vs f)
  | [], _ => ⟨fun _ h => h, fun h => h, fun _ h => by cases h⟩
  | v :: vs, f => by
    obtain ⟨h1, h2, h3⟩ := R.split v f
    exact (determinize_isDet R vs _).cons h1 h2 h3

theorem determinizeRandomized_isDet {M : Mgr B} {sat : B → W → Prop} (R : Reading M sat) :
    ∀ (vs : List B) (rnd : List Bool) (f : B), IsDet sat vs f (determinizeRandomized M rnd vs f)
  | [], _, _ => ⟨fun _ h => h, fun h => h, fun _ h => by cases h⟩
  | v :: vs, rnd, f => by
    rw [determinizeRandomized.eq_def]
    dsimp only
    by_cases hr : rnd.headD false = true
    · rw [if_pos hr]
      obtain ⟨h1, h2, h3⟩ := R.split v f
      exact (determinizeRandomized_isDet R vs _ _).cons h1 h2 h3
    · rw [if_neg hr]
      obtain ⟨h1, h2, h3⟩ := R.split' v f
      exact (determinizeRandomized_isDet R vs _ _).cons h1 h2 h3

/-- Determinisation preserves properties that are preserved by conjunction with the variables and their negations. -/
theorem determinize_closed {M : Mgr B} (P : B → Prop) : ∀ (vs : List B) (f : B), P f →
    (∀ v ∈ vs, ∀ f, P f → P (M.and f v) ∧ P (M.and f (M.not v))) → P (determinize M vs f)
  | [], _, h, _ => h
  | v :: vs, f, h, hv => by
    rw [determinize]
    apply determinize_closed P vs _ _ (fun v' h' => hv v' (List.mem_cons_of_mem _ h'))
    have := hv v List.mem_cons_self f h
    split
    · exact this.1
    · exact this.2

theorem determinizeRandomized_closed {M : Mgr B} (P : B → Prop) : ∀ (vs : List B) (rnd : List Bool) (f : B), P f →
    (∀ v ∈ vs, ∀ f, P f → P (M.and f v) ∧ P (M.and f (M.not v))) → P (determinizeRandomized M rnd vs f)
  | [], _, _, h, _ => h
  | v :: vs, rnd, f, h, hv => by
    rw [determinizeRandomized.eq_def]
    dsimp only
    have := hv v List.mem_cons_self f h
    split
    · apply determinizeRandomized_closed P vs _ _ _ (fun v' h' => hv v' (List.mem_cons_of_mem _ h'))
      split
      · exact this.1
      · exact this.2
    · apply determinizeRandomized_closed P vs _ _ _ (fun v' h' => hv v' (List.mem_cons_of_mem _ h'))
      split
      · exact this.2
      · exact this.1

theorem semReading (I O : Type) : Reading (semMgr I O) (fun f (w : Slugs.Spec.Pos I O × Slugs.Spec.Pos I O) => f w.1 w.2) where
  and _ _ _ := Iff.rfl
  not _ _ := Iff.rfl
  ff a := by
    constructor
    · rintro rfl w h; exact h
    · intro h; funext s t; exact eq_false (h (s, t))

theorem bddReading [L : BddLib B] (types : List VarType) : Reading (bddMgr B types) (fun b (a : Asg) => L.eval b a = true) where
  and a b w := by simp [bddMgr, L.eval_and]
  not a w := by simp [bddMgr, L.eval_not]
  ff a := by
    constructor
    · rintro rfl w h; simp [bddMgr, L.eval_ff] at h
    · intro h
      refine L.eval_inj _ _ fun v => ?_
      have := h v
      simp only [bddMgr, L.eval_ff]
      simpa using this

end Slugs.Model
