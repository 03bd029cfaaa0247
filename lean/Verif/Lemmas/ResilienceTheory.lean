import Verif.Lemmas.ResilienceFirst
import Verif.Lemmas.ResilienceGame
import Verif.Lemmas.GameRestart
import Mathlib.Data.Set.Card

/-!
The games with a counter of violations: more violations are harder to tolerate, and if many violations can be tolerated, then any number of them can be.
-/

namespace Slugs.Model.Resilience

open Slugs.Spec

variable {sp : SpecFile} {hard soft : List Fml}

/-! ### Levels -/

theorem pick_cons {β : Type} (f : β → Bool) (a : β) (v : List β) (φ : Fml) (soft : List Fml) : pick f (a :: v) (φ :: soft) = if f a then φ :: pick f v soft else pick f v soft := by
  rw [pick, List.zip_cons_cons, List.filter_cons]
  split
  · rw [List.map_cons]; rfl
  · rfl

theorem pick_map {β γ : Type} (f : γ → Bool) (d : β → γ) : ∀ (v : List β) (soft : List Fml), pick f (v.map d) soft = pick (fun a => f (d a)) v soft
  | [], _ => by simp [pick]
  | _ :: _, [] => by simp [pick]
  | a :: v, φ :: soft => by rw [List.map_cons, pick_cons, pick_cons, pick_map f d v soft]

theorem pick_length {β : Type} (f : β → Bool) (v : List β) (soft : List Fml) : (pick f v soft).length ≤ soft.length := by
  rw [pick, List.length_map]
  refine (List.length_filter_le _ _).trans ?_
  rw [List.length_zip]
  exact min_le_left _ _

/-- Fewer violations are counted. -/
theorem pick_countP_le {β : Type} {R : β → β → Prop} {f g : β → Bool} (p : Fml → Bool) : ∀ {v w : List β} (soft : List Fml), List.Forall₂ R v w →
    (∀ (j : Nat) (φ : Fml) (a b : β), soft[j]? = some φ → v[j]? = some a → w[j]? = some b → R a b → f b = true → p φ = true → g a = true) →
    (pick f w soft).countP p ≤ (pick g v soft).countP p
  | [], [], _, .nil, _ => by simp [pick]
  | _ :: _, _ :: _, [], _, _ => by simp [pick]
  | a :: v, b :: w, φ :: soft, .cons hab hvw, h => by
    have ih := pick_countP_le (f := f) (g := g) p soft hvw fun j φ a b h1 h2 h3 => h (j + 1) φ a b h1 h2 h3
    rw [pick_cons, pick_cons]
    cases hf : f b with
    | false =>
      refine ih.trans ?_
      split <;> simp [List.countP_cons]
    | true =>
      cases hp : p φ with
      | false =>
        rw [if_pos rfl, List.countP_cons_of_neg (by simp [hp])]
        refine ih.trans ?_
        split <;> simp [List.countP_cons]
      | true =>
        rw [h 0 φ a b rfl rfl rfl hab hf hp, if_pos rfl, if_pos rfl, List.countP_cons_of_pos (by simpa using hp), List.countP_cons_of_pos (by simpa using hp)]
        omega

/-- A part of what can be tolerated can be tolerated. -/
theorem resilient_anti {v w : List Nat} {k l : Nat} (h : List.Forall₂ (· ≤ ·) v w) (hkl : k ≤ l) (hr : (sp.resilient hard soft w l).Realizable) :
    (sp.resilient hard soft v k).Realizable := by
  have at'' : ∀ (j : Nat) (b : Nat), w[j]? = some b → ∃ a, v[j]? = some a ∧ a ≤ b := by
    intro j b hj
    obtain ⟨h1, h2⟩ := List.forall₂_iff_get.mp h
    obtain ⟨hlt, rfl⟩ := List.getElem?_eq_some_iff.mp hj
    exact ⟨v[j], List.getElem?_eq_getElem (h1 ▸ hlt), h2 j (h1 ▸ hlt) hlt⟩
  have cnt : ∀ s i, (sp.resilient hard soft v k).safetyEnv s i →
      (pick (· == 1) w soft).countP (sp.violates (s.1, s.2.1) i) ≤ (pick (· == 1) v soft).countP (sp.violates (s.1, s.2.1) i) := by
    intro s i he
    refine pick_countP_le _ soft h fun j φ a b h1 h2 h3 hab hb hp => ?_
    have : a ≠ 0 := by
      rintro rfl
      have := he.1 φ (List.mem_append_right _ (mem_pick.mpr ⟨j, 0, h1, h2, rfl⟩))
      rw [hp] at this
      cases this
    simp only [beq_iff_eq] at hb ⊢
    omega
  intro i hi
  obtain ⟨o, ho, hw⟩ := hr i hi
  refine ⟨o, ho, relaxed_wins (g := sp.resilient hard soft w l) (g' := sp.resilient hard soft v k) (fun s i he => ⟨fun φ hφ => ?_, ?_⟩)
    (fun s t he hs => ⟨hs.1, hs.2.trans (Nat.add_le_add_left (cnt s t.1 he) _)⟩) (fun a ha => ⟨a, ha, fun _ _ _ h => h⟩) ?_ hw⟩
  · refine he.1 φ ?_
    rcases List.mem_append.mp hφ with hφ | hφ
    · exact List.mem_append_left _ hφ
    · obtain ⟨j, b, h1, h2, h3⟩ := mem_pick.mp hφ
      obtain ⟨a, h4, h5⟩ := at'' j b h2
      refine List.mem_append_right _ (mem_pick.mpr ⟨j, a, h1, h4, ?_⟩)
      simp only [beq_iff_eq] at h3 ⊢
      omega
  · exact (Nat.add_le_add_left (cnt s i he) _).trans (he.2.trans hkl)
  · intro b' hb'
    obtain ⟨b, hb, rfl⟩ := List.mem_map.mp hb'
    refine ⟨_, List.mem_map.mpr ⟨b, hb, rfl⟩, fun s t he ht => ?_⟩
    rcases ht with ht | ⟨φ, hφ, hv⟩
    · exact .inl ht
    · right
      obtain ⟨j, x, h1, h2, h3⟩ := mem_pick.mp hφ
      obtain ⟨y, h4, h5⟩ := at'' j x h2
      refine ⟨φ, mem_pick.mpr ⟨j, y, h1, h4, ?_⟩, hv⟩
      have : y ≠ 0 := by
        rintro rfl
        have := he.1 φ (List.mem_append_right _ (mem_pick.mpr ⟨j, 0, h1, h4, rfl⟩))
        rw [hv] at this
        cases this
      simp only [decide_eq_true_eq]
      omega

/-! ### No counting is needed -/

theorem pull_wins {I O O' : Type} {g : Game I O'} {e : O → O'} {d : O' → O} (hd : ∀ o, d (e o) = o) {s : Pos I O} (h : (pull g e).SysWins s) : g.SysWins (s.1, e s.2) := by
  obtain ⟨σ, h1, h2⟩ := h
  have hmap : ∀ l : List (Pos I O), (l.map fun p => (p.1, e p.2)).map (fun p => (p.1, d p.2)) = l := by
    intro l
    rw [List.map_map]
    conv_rhs => rw [← List.map_id l]
    exact List.map_congr_left fun p _ => Prod.ext rfl (hd p.2)
  let σ' : SysStrategy I O' := fun l i => e (σ (l.map fun p => (p.1, d p.2)) i)
  have key : ∀ l', g.SysHist σ' (s.1, e s.2) l' → ∃ l, l' = l.map (fun p => (p.1, e p.2)) ∧ (pull g e).SysHist σ s l := by
    intro l' hl
    induction hl with
    | start => exact ⟨[s], rfl, .start⟩
    | @step cur' l' i _ hi ih =>
      obtain ⟨l, hl, hh⟩ := ih
      cases l with
      | nil => cases hl
      | cons cur l =>
        obtain ⟨rfl, rfl⟩ := List.cons.inj hl
        refine ⟨(i, σ (cur :: l) i) :: cur :: l, ?_, .step hh hi⟩
        have : σ' ((cur.1, e cur.2) :: l.map fun p => (p.1, e p.2)) i = e (σ (cur :: l) i) := by
          simp only [σ']
          rw [show ((cur.1, e cur.2) :: l.map fun p => (p.1, e p.2)) = (cur :: l).map fun p => (p.1, e p.2) from rfl, hmap]
        rw [this]
        rfl
  refine ⟨σ', fun cur' l' i hl hi => ?_, fun p' hp => ?_⟩
  · obtain ⟨l, hl, hh⟩ := key _ hl
    cases l with
    | nil => cases hl
    | cons cur l =>
      obtain ⟨rfl, rfl⟩ := List.cons.inj hl
      have := h1 cur l i hh hi
      have e' : σ' ((cur.1, e cur.2) :: l.map fun p => (p.1, e p.2)) i = e (σ (cur :: l) i) := by
        simp only [σ']
        rw [show ((cur.1, e cur.2) :: l.map fun p => (p.1, e p.2)) = (cur :: l).map fun p => (p.1, e p.2) from rfl, hmap]
      rw [e']
      exact this
  · have hp1 : ∀ n, ∃ q : Pos I O, p' n = (q.1, e q.2) := by
      intro n
      obtain ⟨l, hl, _⟩ := key _ (hp n)
      obtain ⟨t, ht⟩ := prefixHist_cons p' n
      rw [ht] at hl
      cases l with
      | nil => cases hl
      | cons a l => exact ⟨a, (List.cons.inj hl).1⟩
    choose p hpe using hp1
    have ep : p' = fun n => ((p n).1, e (p n).2) := funext hpe
    subst ep
    have hl := h2 p fun n => by
      obtain ⟨l, hl, hh⟩ := key _ (hp n)
      have hl : (prefixHist p n).map (fun q : Pos I O => (q.1, e q.2)) = l.map fun p => (p.1, e p.2) := (prefixHist_map _ p n).trans hl
      have : prefixHist p n = l := by
        have := congrArg (List.map fun p => (p.1, d p.2)) hl
        rwa [hmap, hmap] at this
      rw [this]
      exact hh
    intro ha b hb
    exact hl (fun a ha' => by
      obtain ⟨a, ha'', rfl⟩ := List.mem_map.mp ha'
      exact ha a ha'') _ (List.mem_map.mpr ⟨b, hb, rfl⟩)

/-- The levels of a set of assumptions that can be violated any number of times. -/
def anyLevels (w : List Bool) : List Nat := w.map fun a => if a then 2 else 0

theorem resilient_of_tolerant {w : List Bool} {k : Nat} (h : (sp.tolerant hard soft w).Realizable) : (sp.resilient hard soft (anyLevels w) k).Realizable := by
  have p0 : pick (· == 0) (anyLevels w) soft = pick (! ·) w soft := by
    rw [anyLevels, pick_map]
    congr 1
    funext a
    cases a <;> rfl
  have p1 : pick (· == 1) (anyLevels w) soft = [] := by
    rw [anyLevels, pick_map, pick, List.map_eq_nil_iff, List.filter_eq_nil_iff]
    rintro ⟨φ, a⟩ _
    cases a <;> simp
  have p2 : pick (0 < ·) (anyLevels w) soft = pick id w soft := by
    rw [anyLevels, pick_map]
    congr 1
    funext a
    cases a <;> rfl
  intro i hi
  obtain ⟨o, ho, hw⟩ := h i hi
  refine ⟨(o, 0), ⟨ho, rfl⟩, pull_wins (e := fun o : sp.Out => (o, 0)) (d := Prod.fst) (fun _ => rfl) (s := (i, o)) ?_⟩
  refine relaxed_wins' (g := sp.tolerant hard soft w) (g' := pull (sp.resilient hard soft (anyLevels w) k) fun o : sp.Out => (o, 0)) (fun s i he φ hφ => ?_)
    (fun s t _ hs => ⟨hs, Nat.zero_le _⟩) (fun a ha => ?_) (fun b' hb' => ?_) hw
  · refine he.1 φ ?_
    rw [p0]
    exact hφ
  · refine ⟨_, List.mem_map.mpr ⟨_, List.mem_map.mpr ⟨a, ha, rfl⟩, rfl⟩, fun s t _ h => ?_⟩
    exact h.resolve_left fun h => h rfl
  · obtain ⟨b1, hb1, rfl⟩ := List.mem_map.mp hb'
    obtain ⟨b2, hb2, rfl⟩ := List.mem_map.mp hb1
    rcases List.mem_append.mp hb2 with hb2 | hb2
    · obtain ⟨b, hb, rfl⟩ := List.mem_map.mp hb2
      refine .inr ⟨_, List.mem_map.mpr ⟨b, hb, rfl⟩, fun s t _ h => ?_⟩
      simp only [p2]
      exact h
    · rw [List.mem_singleton] at hb2
      subst hb2
      exact .inl fun _ _ => .inl rfl

/-! ### Many violations -/

section

variable {v : List Nat} {k : Nat}

theorem resilient_more {p : Pos sp.In sp.Out} {c c' : Nat} (hc : c ≤ c') (h : (sp.resilient hard soft v k).SysWins (p.1, (p.2, c))) :
    (sp.resilient hard soft v k).SysWins (p.1, (p.2, c')) := by
  obtain ⟨σ, hσ⟩ := h
  refine wins_of_next (fun i hi => ?_) (p.2, 0)
  have hi' : (sp.resilient hard soft v k).safetyEnv (p.1, (p.2, c)) i := ⟨hi.1, (Nat.add_le_add_right hc _).trans hi.2⟩
  have hs := hσ.1 _ _ i .start hi'
  exact ⟨_, ⟨hs.1, hs.2.trans (Nat.add_le_add_right hc _)⟩, wins_after hσ (.step .start hi')⟩

/-- An ascending chain of sets has two equal sets. -/
theorem chain_stops {α : Type} [Finite α] (V : Nat → Set α) (mono : ∀ c c', c ≤ c' → V c ⊆ V c') (m : Nat) : ∃ j, j ≤ Nat.card α ∧ V (m * (j + 1)) ⊆ V (m * j) := by
  by_contra hn
  push Not at hn
  have grow : ∀ j, j ≤ Nat.card α + 1 → j ≤ (V (m * j)).ncard := by
    intro j
    induction j with
    | zero => intro _; exact Nat.zero_le _
    | succ j ih =>
      intro hj
      have h1 : V (m * j) ⊂ V (m * (j + 1)) := ⟨mono _ _ (Nat.mul_le_mul_left _ (by omega)), hn j (by omega)⟩
      have := Set.ncard_lt_ncard h1 (Set.toFinite _)
      have := ih (by omega)
      omega
  have h1 := grow (Nat.card α + 1) le_rfl
  have h2 := Set.ncard_le_ncard (Set.subset_univ (V (m * (Nat.card α + 1)))) (Set.toFinite _)
  rw [Set.ncard_univ] at h2
  omega

/-- The assumptions that can be violated. -/
def support (v : List Nat) : List Bool := v.map fun a => decide (0 < a)

/-- If many violations can be tolerated, then any number of them can be. -/
theorem tolerant_of_many (hk : soft.length * (Nat.card (Pos sp.In sp.Out) + 1) ≤ k) (h : (sp.resilient hard soft v k).Realizable) :
    (sp.tolerant hard soft (support v)).Realizable := by
  have p0 : pick (! ·) (support v) soft = pick (· == 0) v soft := by
    rw [support, pick_map]
    congr 1
    funext a
    cases a <;> simp
  have p2 : pick id (support v) soft = pick (0 < ·) v soft := by
    rw [support, pick_map]
    rfl
  obtain ⟨j, hj, hV⟩ := chain_stops (fun c => {p : Pos sp.In sp.Out | (sp.resilient hard soft v k).SysWins (p.1, (p.2, c))}) (fun c c' hc p hp => resilient_more hc hp) soft.length
  generalize hc : soft.length * j = c at hV
  have hck : c + soft.length ≤ k := by
    have := Nat.mul_le_mul_left soft.length (Nat.add_le_add_right hj 1)
    rw [Nat.mul_add, Nat.mul_one, hc] at this
    exact this.trans hk
  have hV' : ∀ p : Pos sp.In sp.Out, (sp.resilient hard soft v k).SysWins (p.1, (p.2, c + soft.length)) → (sp.resilient hard soft v k).SysWins (p.1, (p.2, c)) := by
    intro p hp
    refine hV (a := p) ?_
    rw [Nat.mul_add, Nat.mul_one, hc]
    exact hp
  have cnt : ∀ p i, (pick (· == 1) v soft).countP (sp.violates p i) ≤ soft.length := fun p i => List.countP_le_length.trans (pick_length _ _ _)
  have cnt0 : ∀ p i, (¬ ∃ φ ∈ pick (0 < ·) v soft, sp.violates p i φ = true) → (pick (· == 1) v soft).countP (sp.violates p i) = 0 := by
    intro p i hn
    rw [List.countP_eq_zero]
    intro φ hφ hv
    refine hn ⟨φ, ?_, hv⟩
    obtain ⟨j, a, h1, h2, h3⟩ := mem_pick.mp hφ
    refine mem_pick.mpr ⟨j, a, h1, h2, ?_⟩
    simp only [beq_iff_eq] at h3
    simp [h3]
  intro i hi
  obtain ⟨⟨o, n⟩, ⟨ho, hn⟩, hw⟩ := h i hi
  obtain rfl : n = 0 := hn
  refine ⟨o, ho, restart_wins (r := sp.resilient hard soft v k) (f := Prod.fst) (e := fun o => (o, c)) (Inv := fun x => x.2.2 ≤ c)
    (K := fun p => (sp.resilient hard soft v k).SysWins (p.1, (p.2, c))) (viol := fun p i => ∃ φ ∈ pick (0 < ·) v soft, sp.violates p i φ = true)
    (fun _ => rfl) (fun _ h => h) (fun _ => le_rfl) ?_ ?_ ?_ ?_ ?_ ?_ (resilient_more (p := (i, o)) (Nat.zero_le c) hw)⟩
  · intro x i hx he
    refine ⟨fun φ hφ => he φ (by rw [p0]; exact hφ), ?_⟩
    have := cnt (x.1, x.2.1) i
    omega
  · exact fun x y hs => hs.1
  · intro x y hx hv hs
    have := hs.2
    rw [cnt0 (x.1, x.2.1) y.1 hv] at this
    exact this.trans hx
  · intro x y hx hv hs hw
    refine hV' (proj Prod.fst y) ?_
    refine resilient_more (p := (y.1, y.2.1)) (c := y.2.2) ?_ hw
    have := cnt (x.1, x.2.1) y.1
    have := hs.2
    omega
  · intro q hq hl ha b' hb'
    obtain ⟨b, hb, rfl⟩ := List.mem_map.mp hb'
    have := hl (fun a' ha' => by
      obtain ⟨a, ha'', rfl⟩ := List.mem_map.mp ha'
      intro n
      obtain ⟨m, h1, h2⟩ := ha a ha'' n
      exact ⟨m, h1, .inr h2⟩) _ (List.mem_map.mpr ⟨_, List.mem_append_left _ (List.mem_map.mpr ⟨b, hb, rfl⟩), rfl⟩)
    rw [p2]
    exact this
  · intro p hp _ b' hb' n
    obtain ⟨b, hb, rfl⟩ := List.mem_map.mp hb'
    obtain ⟨m, h1, h2⟩ := hp n
    rw [← p2] at h2
    exact ⟨m, h1, .inr h2⟩

end

end Slugs.Model.Resilience
