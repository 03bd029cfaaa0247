import Verif.Model.Resilience
import Mathlib.Logic.Relation

/-!
The search of `kResilientRealizabilityChecker.py` finds the maximal elements.
-/

namespace Slugs.Model.Resilience

section

variable {α : Type} [DecidableEq α] {leq : α → α → Bool} {succ : α → List α} {oracle : α → Option Bool} {known : List α}

/-- What the search relies on: `P` is what the oracle decides, for all elements of the order `D` that satisfy `A`; these are all those that may be tried. -/
structure Lattice (leq : α → α → Bool) (succ : α → List α) (oracle : α → Option Bool) (known : List α) (D A P : α → Prop) (rank : α → Nat) : Prop where
  refl : ∀ x, D x → leq x x = true
  trans : ∀ x y z, D x → D y → D z → leq x y = true → leq y z = true → leq x z = true
  closed : ∀ x, D x → ∀ y ∈ succ x, D y ∧ leq x y = true ∧ rank y = rank x + 1
  near : ∀ x, D x → P x → ∀ y ∈ succ x, A y
  yes : ∀ x, D x → A x → P x → oracle x = some true
  no : ∀ x, D x → A x → ¬ P x → oracle x = some false
  anti : ∀ x y, D x → D y → leq x y = true → P y → P x
  known : ∀ x ∈ known, D x ∧ P x

/-- Reachable by successors. -/
def Above (succ : α → List α) : α → α → Prop := Relation.ReflTransGen fun x y => y ∈ succ x

variable {D A P : α → Prop} {rank : α → Nat}

theorem Lattice.above (L : Lattice leq succ oracle known D A P rank) {x y : α} (hx : D x) (h : Above succ x y) : D y ∧ leq x y = true := by
  induction h with
  | refl => exact ⟨hx, L.refl x hx⟩
  | tail _ h ih =>
    obtain ⟨a, b, _⟩ := L.closed _ ih.1 _ h
    exact ⟨a, L.trans _ _ _ hx ih.1 a ih.2 b⟩

/-- What holds for the store; `stack` are the elements for which the search has not ended. -/
structure Inv (leq : α → α → Bool) (succ : α → List α) (D P : α → Prop) (stack : List α) (st : Store α) : Prop where
  falses : ∀ x ∈ st.falses, D x ∧ ¬ P x
  good : ∀ r ∈ st.results, D r ∧ P r
  maximal : ∀ r ∈ st.results, ∀ y, Above succ r y → P y → y = r
  nodup : st.results.Pairwise fun a b => leq b a = false
  done : ∀ d ∈ st.done, P d → (∃ r ∈ st.results, leq d r = true) ∨ d ∈ stack
  closed : ∀ d ∈ st.done, P d → d ∉ stack → ∀ y ∈ succ d, P y → y ∈ st.done

theorem search_spec (L : Lattice leq succ oracle known D A P rank) : ∀ (fuel : Nat) (x : α) (stack : List α) (st : Store α) (b : Bool) (st' : Store α), D x → A x → (∀ s ∈ stack, rank s < rank x) →
    Inv leq succ D P stack st →
    search leq succ oracle known fuel x st = some (b, st') →
    Inv leq succ D P stack st' ∧ (∀ r ∈ st.results, r ∈ st'.results) ∧ (P x → ∃ r ∈ st'.results, leq x r = true) ∧ (b = true → ∃ r ∈ st'.results, leq x r = true) ∧
      (∀ d ∈ st.done, d ∈ st'.done) ∧ (P x → x ∈ st'.done)
  | 0, x, stack, st, b, st', _, _, _, _, h => by cases h
  | fuel + 1, x, stack, st, b, st', hx, hxA, hs, I, h => by
    rw [search] at h
    split at h
    · rename_i hd
      cases h
      refine ⟨I, fun r hr => hr, fun hp => ?_, fun hb => ?_, fun d hd => hd, fun _ => hd⟩
      · exact (I.done x hd hp).resolve_right fun h => Nat.lt_irrefl _ (hs x h)
      · rw [List.any_eq_true] at hb
        exact hb
    split at h
    · rename_i hf
      cases h
      obtain ⟨y, hy, hl⟩ := List.any_eq_true.mp hf
      refine ⟨I, fun r hr => hr, fun hp => ?_, fun hb => (by cases hb), fun d hd => hd, fun hp => ?_⟩
      · exact absurd (L.anti y x (I.falses y hy).1 hx hl hp) (I.falses y hy).2
      · exact absurd (L.anti y x (I.falses y hy).1 hx hl hp) (I.falses y hy).2
    dsimp only at h
    -- the element is in the set of elements that have been visited
    have I1 : Inv leq succ D P (x :: stack) { st with done := x :: st.done } := by
      refine ⟨I.falses, I.good, I.maximal, I.nodup, fun d hd hp => ?_, fun d hd hp hn y hy hpy => ?_⟩
      · rcases List.mem_cons.mp hd with rfl | hd
        · exact .inr List.mem_cons_self
        · exact (I.done d hd hp).imp id (List.mem_cons_of_mem _)
      · rw [List.mem_cons, not_or] at hn
        exact List.mem_cons_of_mem _ (I.closed d ((List.mem_cons.mp hd).resolve_left hn.1) hp hn.2 y hy hpy)
    -- what the check says
    have chk : ∀ r, (if (!(st.results.any (leq x)) && !(known.any (leq x))) = true then oracle x else some true) = some r →
        (r = false → ¬ P x) ∧ (r = true → P x) := by
      intro r hr
      by_cases hp : P x
      · rw [L.yes x hx hxA hp, ite_self] at hr
        obtain rfl : true = r := by simpa using hr
        exact ⟨by simp, fun _ => hp⟩
      · split at hr
        · rw [L.no x hx hxA hp] at hr
          obtain rfl : false = r := by simpa using hr
          exact ⟨fun _ => hp, by simp⟩
        · rename_i hc
          exfalso
          simp only [Bool.and_eq_true, Bool.not_eq_true', not_and, Bool.not_eq_false] at hc
          by_cases ha : st.results.any (leq x) = true
          · obtain ⟨r, hr, hl⟩ := List.any_eq_true.mp ha
            exact hp (L.anti x r hx (I.good r hr).1 hl (I.good r hr).2)
          · obtain ⟨k, hk, hl⟩ := List.any_eq_true.mp (hc (by simpa using ha))
            exact hp (L.anti x k hx (L.known k hk).1 hl (L.known k hk).2)
    split at h
    · cases h
    · rename_i e
      have hp := (chk _ e).1 rfl
      cases h
      refine ⟨⟨?_, I.good, I.maximal, I.nodup, ?_, ?_⟩, fun r hr => hr, fun h => absurd h hp, fun hb => (by cases hb), fun d hd => List.mem_cons_of_mem _ hd,
        fun h => absurd h hp⟩
      · intro y hy
        rcases List.mem_cons.mp hy with rfl | hy
        · exact ⟨hx, hp⟩
        · exact I.falses y hy
      · intro d hd hpd
        rcases List.mem_cons.mp hd with rfl | hd
        · exact absurd hpd hp
        · exact I.done d hd hpd
      · intro d hd hpd hn y hy hpy
        rcases List.mem_cons.mp hd with rfl | hd
        · exact absurd hpd hp
        · exact List.mem_cons_of_mem _ (I.closed d hd hpd hn y hy hpy)
    · rename_i e
      have hp := (chk _ e).2 rfl
      -- the loop over the successors
      have loop : ∀ (ys : List α) (found : Bool) (s0 : Store α) (f : Bool) (s1 : Store α), (∀ y ∈ ys, y ∈ succ x) → Inv leq succ D P (x :: stack) s0 →
          (found = true → ∃ r ∈ s0.results, leq x r = true) → searchAll (search leq succ oracle known fuel) ys found s0 = some (f, s1) →
          Inv leq succ D P (x :: stack) s1 ∧ (∀ r ∈ s0.results, r ∈ s1.results) ∧ (f = true → ∃ r ∈ s1.results, leq x r = true) ∧
            (∀ y ∈ ys, P y → ∃ r ∈ s1.results, leq y r = true) ∧ (∀ d ∈ s0.done, d ∈ s1.done) ∧ ∀ y ∈ ys, P y → y ∈ s1.done := by
        intro ys
        induction ys with
        | nil =>
          intro found s0 f s1 _ I0 hf hl
          rw [searchAll] at hl
          obtain ⟨rfl, rfl⟩ : found = f ∧ s0 = s1 := by simpa using hl
          exact ⟨I0, fun r hr => hr, hf, fun y hy => absurd hy List.not_mem_nil, fun d hd => hd, fun y hy => absurd hy List.not_mem_nil⟩
        | cons y ys ih =>
          intro found s0 f s1 hys I0 hf hl
          rw [searchAll] at hl
          rw [List.forall_mem_cons] at hys
          obtain ⟨hd, hle, hrk⟩ := L.closed x hx y hys.1
          split at hl
          · cases hl
          · rename_i new s2 e2
            obtain ⟨J, hm, hc, ht, hd1, hd2⟩ := search_spec L fuel y (x :: stack) s0 new s2 hd (L.near x hx hp y hys.1) (fun s h => by
              rcases List.mem_cons.mp h with rfl | h
              · omega
              · have := hs s h
                omega) I0 e2
            obtain ⟨K, hm', ht', hc', hd1', hd2'⟩ := ih (found || new) s2 f s1 hys.2 J (fun hb => by
              rw [Bool.or_eq_true] at hb
              rcases hb with hb | hb
              · obtain ⟨r, hr, hl⟩ := hf hb
                exact ⟨r, hm r hr, hl⟩
              · obtain ⟨r, hr, hl⟩ := ht hb
                exact ⟨r, hr, L.trans _ _ _ hx hd (J.good r hr).1 hle hl⟩) hl
            refine ⟨K, fun r hr => hm' r (hm r hr), ht', fun z hz hpz => ?_, fun d hd => hd1' d (hd1 d hd), fun z hz hpz => ?_⟩
            · rcases List.mem_cons.mp hz with rfl | hz
              · obtain ⟨r, hr, hl⟩ := hc hpz
                exact ⟨r, hm' r hr, hl⟩
              · exact hc' z hz hpz
            · rcases List.mem_cons.mp hz with rfl | hz
              · exact hd1' z (hd2 hpz)
              · exact hd2' z hz hpz
      have fin : ∀ st1 : Store α, Inv leq succ D P (x :: stack) st1 → (∃ r ∈ st1.results, leq x r = true) →
          (∀ y ∈ succ x, P y → y ∈ st1.done) → Inv leq succ D P stack st1 := by
        intro st1 J hc hcl
        refine ⟨J.falses, J.good, J.maximal, J.nodup, fun d hd hpd => ?_, fun d hd hpd hn y hy hpy => ?_⟩
        swap
        · by_cases e : d = x
          · exact hcl y (e ▸ hy) hpy
          · exact J.closed d hd hpd (by simp [e, hn]) y hy hpy
        rcases J.done d hd hpd with h | h
        · exact .inl h
        · rcases List.mem_cons.mp h with rfl | h
          · exact .inl hc
          · exact .inr h
      split at h
      · cases h
      · rename_i s1 e1
        obtain ⟨J, hm, hf, hc, hd1, hd2⟩ := loop _ false _ _ _ (fun y hy => hy) I1 (by simp) e1
        cases h
        exact ⟨fin _ J (hf rfl) hd2, hm, fun _ => hf rfl, by simp, fun d hd => hd1 d (List.mem_cons_of_mem _ hd), fun _ => hd1 x List.mem_cons_self⟩
      · rename_i s1 e1
        obtain ⟨J, hm, hf, hc, hd1, hd2⟩ := loop _ false _ _ _ (fun y hy => hy) I1 (by simp) e1
        split at h
        · rename_i ha
          cases h
          rw [List.any_eq_true] at ha
          exact ⟨fin _ J ha hd2, hm, fun _ => ha, by simp, fun d hd => hd1 d (List.mem_cons_of_mem _ hd), fun _ => hd1 x List.mem_cons_self⟩
        · rename_i ha
          cases h
          have hn : ∀ r ∈ s1.results, leq x r = false := fun r hr => by
            rw [← Bool.not_eq_true]
            exact fun hl => ha (List.any_eq_true.mpr ⟨r, hr, hl⟩)
          have hself : ∃ r ∈ s1.results ++ [x], leq x r = true := ⟨x, by simp, L.refl x hx⟩
          refine ⟨⟨J.falses, ?_, ?_, ?_, ?_, ?_⟩, fun r hr => List.mem_append_left _ (hm r hr), fun _ => hself, fun _ => hself,
            fun d hd => hd1 d (List.mem_cons_of_mem _ hd), fun _ => hd1 x List.mem_cons_self⟩
          · intro r hr
            rcases List.mem_append.mp hr with hr | hr
            · exact J.good r hr
            · rw [List.mem_singleton.mp hr]
              exact ⟨hx, hp⟩
          · intro r hr y hy hpy
            rcases List.mem_append.mp hr with hr | hr
            · exact J.maximal r hr y hy hpy
            · rw [List.mem_singleton.mp hr] at hy ⊢
              rcases Relation.ReflTransGen.cases_head hy with e | ⟨z, hz, hzy⟩
              · exact e.symm
              · exfalso
                obtain ⟨dz, lz, _⟩ := L.closed x hx z hz
                obtain ⟨dy, ly⟩ := L.above dz hzy
                obtain ⟨r, hr, hl⟩ := hc z hz (L.anti z y dz dy ly hpy)
                have := hn r hr
                rw [L.trans x z r hx dz (J.good r hr).1 lz hl] at this
                cases this
          · rw [List.pairwise_append]
            refine ⟨J.nodup, by simp, fun a ha b hb => ?_⟩
            rw [List.mem_singleton.mp hb]
            exact hn a ha
          · intro d hd hpd
            rcases J.done d hd hpd with ⟨r, hr, hl⟩ | h
            · exact .inl ⟨r, List.mem_append_left _ hr, hl⟩
            · rcases List.mem_cons.mp h with rfl | h
              · exact .inl hself
              · exact .inr h
          · intro d hd hpd hn' y hy hpy
            by_cases e : d = x
            · exact hd2 y (e ▸ hy) hpy
            · exact J.closed d hd hpd (by simp [e, hn']) y hy hpy

/-- The result of the search. -/
theorem frontier_spec (L : Lattice leq succ oracle known D A P rank) {fuel : Nat} {start : α} (hs : D start) (hA : A start) {R : List α}
    (h : frontier leq succ oracle known fuel start = some R) :
    (∀ r ∈ R, D r ∧ P r) ∧ (∀ r ∈ R, ∀ y, Above succ r y → P y → y = r) ∧ (R.Pairwise fun a b => leq b a = false) ∧
      ∀ y, Above succ start y → P y → ∃ r ∈ R, leq y r = true := by
  rw [frontier, Option.map_eq_some_iff] at h
  obtain ⟨⟨b, st⟩, h, rfl⟩ := h
  obtain ⟨I, _, hc, _, _, hd⟩ := search_spec L fuel start [] ⟨[], [], []⟩ b st hs hA (by simp) ⟨by simp, by simp, by simp, by simp, by simp, by simp⟩ h
  refine ⟨I.good, I.maximal, I.nodup, fun y hy hp => ?_⟩
  have : y ∈ st.done := by
    induction hy with
    | refl => exact hd hp
    | tail hxz hz ih =>
      obtain ⟨dz, _⟩ := L.above hs hxz
      obtain ⟨dy, ly, _⟩ := L.closed _ dz _ hz
      have pz := L.anti _ _ dz dy ly hp
      exact I.closed _ (ih pz) pz (by simp) _ hz hp
  exact (I.done y this hp).resolve_right (by simp)

/-- The search ends if the elements with the property have bounded height. -/
theorem search_ends (L : Lattice leq succ oracle known D A P rank) {height : α → Nat} (hh : ∀ x, D x → P x → ∀ y ∈ succ x, height y < height x) :
    ∀ (fuel : Nat) (x : α) (stack : List α) (st : Store α), height x < fuel → D x → A x → (∀ s ∈ stack, rank s < rank x) → Inv leq succ D P stack st →
      ∃ r, search leq succ oracle known fuel x st = some r
  | 0, x, _, _, h, _, _, _, _ => absurd h (Nat.not_lt_zero _)
  | fuel + 1, x, stack, st, h, hx, hxA, hs, I => by
    rw [search]
    split
    · exact ⟨_, rfl⟩
    split
    · exact ⟨_, rfl⟩
    dsimp only
    have I1 : Inv leq succ D P (x :: stack) { st with done := x :: st.done } := by
      refine ⟨I.falses, I.good, I.maximal, I.nodup, fun d hd hp => ?_, fun d hd hp hn y hy hpy => ?_⟩
      · rcases List.mem_cons.mp hd with rfl | hd
        · exact .inr List.mem_cons_self
        · exact (I.done d hd hp).imp id (List.mem_cons_of_mem _)
      · rw [List.mem_cons, not_or] at hn
        exact List.mem_cons_of_mem _ (I.closed d ((List.mem_cons.mp hd).resolve_left hn.1) hp hn.2 y hy hpy)
    have loop : P x → ∀ (ys : List α) (found : Bool) (s0 : Store α), (∀ y ∈ ys, y ∈ succ x) → Inv leq succ D P (x :: stack) s0 →
        ∃ r, searchAll (search leq succ oracle known fuel) ys found s0 = some r := by
      intro hp ys
      induction ys with
      | nil => exact fun found s0 _ _ => ⟨_, rfl⟩
      | cons y ys ih =>
        intro found s0 hys I0
        rw [List.forall_mem_cons] at hys
        obtain ⟨dy, ly, ry⟩ := L.closed x hx y hys.1
        have hs' : ∀ s ∈ x :: stack, rank s < rank y := fun s h => by
          rcases List.mem_cons.mp h with rfl | h
          · omega
          · have := hs s h
            omega
        obtain ⟨⟨b, s2⟩, e⟩ := search_ends L hh fuel y (x :: stack) s0 (by have := hh x hx hp y hys.1; omega) dy (L.near x hx hp y hys.1) hs' I0
        obtain ⟨J, _⟩ := search_spec L fuel y (x :: stack) s0 b s2 dy (L.near x hx hp y hys.1) hs' I0 e
        rw [searchAll, e]
        exact ih _ _ hys.2 J
    by_cases hp : P x
    · rw [L.yes x hx hxA hp, ite_self]
      obtain ⟨⟨b, s1⟩, e⟩ := loop hp _ false _ (fun y hy => hy) I1
      dsimp only
      rw [e]
      cases b
      · dsimp only
        split <;> exact ⟨_, rfl⟩
      · exact ⟨_, rfl⟩
    · rw [if_pos]
      · rw [L.no x hx hxA hp]
        exact ⟨_, rfl⟩
      · simp only [Bool.and_eq_true, Bool.not_eq_true', ← Bool.not_eq_true, List.any_eq_true]
        refine ⟨fun ⟨r, hr, hl⟩ => hp (L.anti x r hx (I.good r hr).1 hl (I.good r hr).2), fun ⟨k, hk, hl⟩ => hp (L.anti x k hx (L.known k hk).1 hl (L.known k hk).2)⟩

theorem frontier_ends (L : Lattice leq succ oracle known D A P rank) {height : α → Nat} (hh : ∀ x, D x → P x → ∀ y ∈ succ x, height y < height x) {fuel : Nat} {start : α}
    (hf : height start < fuel) (hs : D start) (hA : A start) : ∃ R, frontier leq succ oracle known fuel start = some R := by
  obtain ⟨r, e⟩ := search_ends L hh fuel start [] ⟨[], [], []⟩ hf hs hA (by simp) ⟨by simp, by simp, by simp, by simp, by simp, by simp⟩
  exact ⟨r.2.results, by rw [frontier, e]; rfl⟩

end

end Slugs.Model.Resilience
