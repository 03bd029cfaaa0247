import Verif.Lemmas.ResilienceLevels
import Verif.Props.Resilience

/-!
C71: the levels of resilience that are printed by `tools/kResilientRealizabilityChecker.py`.
-/

namespace Slugs.Props

open Slugs.Spec Slugs.Model Slugs.Model.Resilience

theorem joinWords_cons_flatten (a : List Char) (as : List (List Char)) : joinWords (a :: as) = a ++ (as.map (txt!" " ++ ·)).flatten := by
  induction as generalizing a with
  | nil => simp [joinWords]
  | cons b as ih =>
    rw [joinWords, ih]
    · simp
    · simp

theorem levelLine_eq (x : List Nat × Nat) : levelLine x = levelText x := by
  rw [levelLine, levelText, List.cons_append, joinWords_cons_flatten]
  simp only [List.map_append, List.map_map, List.flatten_append, List.map_cons, List.map_nil, List.flatten_cons, List.flatten_nil, List.append_nil, List.append_assoc]
  rfl

/-- **C71.** For every proper file whose names do not start with `_ResilienceCounter_`, the program ends.  If the specification is unrealizable, it says so; otherwise it prints
exactly the maximal levels that are achievable, each of them once.  This holds for every number of bits of the counter that is large enough (`bits`). -/
theorem C71_levels {cap : Nat} {text : List Char} {sp : SpecFile} {hard soft : List Fml} (hf : ProperFile cap text) (hd : Denotes text sp) (ha : Assumes text hard soft)
    (hfr : ∀ x ∈ sp.inputs ++ sp.outputs, ¬ txt!"_ResilienceCounter_" <+: x) {bits : Nat → Nat} (hbits : ∀ k, k < 2 ^ bits k) :
    ∃ N, ∀ (B : Type) [DecidableEq B] [BddLib B] (alg : Algorithm) (order : List Char → Bool) (cap fuel depth : Nat), N ≤ cap → N ≤ fuel → N ≤ depth →
      (¬ sp.game.Realizable → program bits (askSlugs B alg cap order fuel) depth text =
        some txt!"Result: Our specification is absolutely unrealizable, so the script stops here.\n") ∧
      (sp.game.Realizable → ∃ R : List (List Nat × Nat), program bits (askSlugs B alg cap order fuel) depth text =
          some (txt!"Error-resilience levels achievable:\n" ++ (R.map levelText).flatten) ∧ R.Nodup ∧
        ∀ x, x ∈ R ↔ sp.achieves hard soft x ∧ ∀ y, sp.achieves hard soft y → List.Forall₂ (· ≤ ·) x.1 y.1 → x.2 ≤ y.2 → y = x) := by
  obtain ⟨ess, c, hr, hb⟩ := base_of hf hd ha
  obtain ⟨N, hN⟩ := C70_any_number hf hd ha
  obtain ⟨N1, hN1⟩ := C70_unrealizable hf hd
  obtain ⟨N2, hN2⟩ := hb.mixed_found hfr hbits
  refine ⟨N + N1 + N2, fun B _ _ alg order cap fuel depth h1 h2 h3 => ?_⟩
  obtain ⟨L, hL, _, hm⟩ := hN B alg order cap fuel (by omega) (by omega)
  obtain ⟨L', hL', hu⟩ := hN1 B alg order cap fuel (by omega) (by omega)
  obtain rfl : L' = L := by
    rw [hL] at hL'
    exact (Option.some.inj hL').symm
  have hi : findInfty (askSlugs B alg cap order fuel) ess c = some L' := by
    rw [firstSearch, hr] at hL
    exact hL
  rw [program, hr]
  dsimp only
  rw [hi]
  constructor
  · intro hn
    rw [hu.mpr hn]
  · intro hp
    have hne : L' ≠ [] := fun e => (hu.mp e) hp
    obtain ⟨R, hR, hnd, hx⟩ := hN2 B alg order cap fuel depth (by omega) (by omega) (by omega) L' hne hm
    have e : ∀ x, sp.achieves hard soft x ↔ Candidate soft.length (fun w => (sp.tolerant hard soft w).Realizable) x ∧ (sp.resilient hard soft x.1 x.2).Realizable :=
      fun x => ⟨fun ⟨a, b, d, e, f⟩ => ⟨⟨a, b, d, e⟩, f⟩, fun ⟨⟨a, b, d, e⟩, f⟩ => ⟨a, b, d, e, f⟩⟩
    refine ⟨R, ?_, hnd, fun x => ?_⟩
    · cases L' with
      | nil => exact absurd rfl hne
      | cons w ws =>
        dsimp only
        rw [hR]
        dsimp only
        rw [funext levelLine_eq]
    · rw [hx x, e, and_assoc]
      refine and_congr_right fun _ => and_congr_right fun _ => forall_congr' fun y => ?_
      rw [e]
      tauto

/-- Everything that is achievable is below something that is printed, and everything below something that is printed is achievable (where the number is ignored
if any number of violations can be tolerated). -/
theorem C71_all_below {cap : Nat} {text : List Char} {sp : SpecFile} {hard soft : List Fml} (hf : ProperFile cap text) (hd : Denotes text sp) (ha : Assumes text hard soft)
    (hfr : ∀ x ∈ sp.inputs ++ sp.outputs, ¬ txt!"_ResilienceCounter_" <+: x) {bits : Nat → Nat} (hbits : ∀ k, k < 2 ^ bits k) (hp : sp.game.Realizable) :
    ∃ N, ∀ (B : Type) [DecidableEq B] [BddLib B] (alg : Algorithm) (order : List Char → Bool) (cap fuel depth : Nat), N ≤ cap → N ≤ fuel → N ≤ depth →
      ∃ R : List (List Nat × Nat), program bits (askSlugs B alg cap order fuel) depth text =
          some (txt!"Error-resilience levels achievable:\n" ++ (R.map levelText).flatten) ∧
        (∀ x, sp.achieves hard soft x → ∃ r ∈ R, List.Forall₂ (· ≤ ·) x.1 r.1 ∧ x.2 ≤ r.2) ∧
        (∀ r ∈ R, ∀ v k, List.Forall₂ (· ≤ ·) v r.1 → k ≤ r.2 → (sp.resilient hard soft v k).Realizable) := by
  obtain ⟨N, hN⟩ := C71_levels hf hd ha hfr hbits
  refine ⟨N, fun B _ _ alg order cap fuel depth h1 h2 h3 => ?_⟩
  obtain ⟨R, hR, _, hx⟩ := (hN B alg order cap fuel depth h1 h2 h3).2 hp
  refine ⟨R, hR, fun x hax => ?_, fun r hr v k hv hk => resilient_anti hv hk ((hx r).mp hr).1.2.2.2.2⟩
  -- the number of an achievable level is bounded
  have bound : ∀ y, sp.achieves hard soft y → y.1.sum + y.2 ≤ 2 * soft.length + (soft.length * (Nat.card (Pos sp.In sp.Out) + 1) + 1) := by
    rintro y ⟨a, b, d, e, f⟩
    have h4 := sum_le_two b
    rw [a] at h4
    rcases e with e | e
    · omega
    · have : ¬ soft.length * (Nat.card (Pos sp.In sp.Out) + 1) ≤ y.2 := fun h => e (tolerant_of_many h f)
      omega
  induction hn : 2 * soft.length + (soft.length * (Nat.card (Pos sp.In sp.Out) + 1) + 1) - (x.1.sum + x.2) using Nat.strong_induction_on generalizing x with
  | _ n ih =>
    by_cases hm : ∀ y, sp.achieves hard soft y → List.Forall₂ (· ≤ ·) x.1 y.1 → x.2 ≤ y.2 → y = x
    · exact ⟨x, (hx x).mpr ⟨hax, hm⟩, List.forall₂_same.mpr fun _ _ => le_rfl, le_rfl⟩
    · push Not at hm
      obtain ⟨y, h4, h5, h6, h7⟩ := hm
      have hlt : x.1.sum + x.2 < y.1.sum + y.2 := by
        rcases sum_lt_of_le h5 with e | h8
        · have : x.2 ≠ y.2 := fun e' => h7 (Prod.ext e.symm e'.symm)
          rw [e]
          omega
        · omega
      have := bound y h4
      obtain ⟨r, hr, h8, h9⟩ := ih _ (by omega) y h4 rfl
      exact ⟨r, hr, forall₂_nat_trans h5 h8, h6.trans h9⟩

/-- What it means that levels are achieved, in a play of the game: if the liveness assumptions hold (as far as they are needed), and there are finitely many violations,
then all goals are reached infinitely often, and the counter is 0 infinitely often. -/
theorem C71_meaning (sp : SpecFile) (hard soft : List Fml) (v : List Nat) (k : Nat) (p : Nat → Pos sp.In (sp.Out × Nat)) :
    (sp.resilient hard soft v k).Live p ↔
      ((∀ a ∈ sp.game.assumptions, ∀ n, ∃ m, n ≤ m ∧ ((p m).2.2 ≠ 0 ∨ a ((p m).1, (p m).2.1) ((p (m + 1)).1, (p (m + 1)).2.1))) →
        (∃ n, ∀ m, n ≤ m → ∀ φ ∈ pick (0 < ·) v soft, sp.violates ((p m).1, (p m).2.1) (p (m + 1)).1 φ = false) →
        (∀ b ∈ sp.game.guarantees, InfOften b fun n => ((p n).1, (p n).2.1)) ∧ ∀ n, ∃ m, n ≤ m ∧ (p m).2.2 = 0) := by
  constructor
  · rintro h ha ⟨n, hn⟩
    have key : ∀ b : Pos sp.In (sp.Out × Nat) → Pos sp.In (sp.Out × Nat) → Prop,
        b ∈ sp.game.guarantees.map (fun (b : Pos sp.In sp.Out → Pos sp.In sp.Out → Prop) (p q : Pos sp.In (sp.Out × Nat)) => b (p.1, p.2.1) (q.1, q.2.1)) ++
          [fun (_ q : Pos sp.In (sp.Out × Nat)) => q.2.2 = 0] → InfOften b p := by
      intro b hb i
      obtain ⟨m, h1, h2⟩ := h (fun a' ha' => by
        obtain ⟨a, ha'', rfl⟩ := List.mem_map.mp ha'
        exact ha a ha'') _ (List.mem_map.mpr ⟨b, hb, rfl⟩) (max n i)
      rcases h2 with h2 | ⟨φ, hφ, hv⟩
      · exact ⟨m, (le_max_right _ _).trans h1, h2⟩
      · rw [hn m ((le_max_left _ _).trans h1) φ hφ] at hv
        cases hv
    refine ⟨fun b hb => key _ (List.mem_append_left _ (List.mem_map.mpr ⟨b, hb, rfl⟩)), fun n => ?_⟩
    obtain ⟨m, h1, h2⟩ := key _ (List.mem_append_right _ (List.mem_singleton.mpr rfl)) n
    exact ⟨m + 1, by omega, h2⟩
  · intro h ha b' hb' i
    obtain ⟨b, hb, rfl⟩ := List.mem_map.mp hb'
    by_cases hn : ∃ n, ∀ m, n ≤ m → ∀ φ ∈ pick (0 < ·) v soft, sp.violates ((p m).1, (p m).2.1) (p (m + 1)).1 φ = false
    · obtain ⟨h1, h2⟩ := h (fun a ha' => ha _ (List.mem_map.mpr ⟨a, ha', rfl⟩)) hn
      rcases List.mem_append.mp hb with hb | hb
      · obtain ⟨b, hb2, rfl⟩ := List.mem_map.mp hb
        obtain ⟨m, h3, h4⟩ := h1 b hb2 i
        exact ⟨m, h3, .inl h4⟩
      · rw [List.mem_singleton] at hb
        subst hb
        obtain ⟨m, h3, h4⟩ := h2 (i + 1)
        refine ⟨m - 1, by omega, .inl ?_⟩
        rw [show m - 1 + 1 = m by omega]
        exact h4
    · push Not at hn
      obtain ⟨m, h1, φ, h2, h3⟩ := hn i
      exact ⟨m, h1, .inr ⟨φ, h2, by simpa using h3⟩⟩

/-! ### The example -/

/-- A violation of each of the assumptions at a time can be tolerated, if it is the only one. -/
theorem grant_some : (grant.resilient [range] [noTwo, noNext] [1, 1] 1).Realizable := by
  intro i _
  refine ⟨(fun _ => false, 0), ⟨fun φ hφ => absurd hφ (List.not_mem_nil), rfl⟩, fun _ i => (fun _ => reqOf i, 0), ?_, ?_⟩
  · intro cur l j hh he
    have inv : (grOf cur.2.1 = true → reqOf cur.1 = true) := by
      cases hh with
      | start => intro h; cases h
      | step _ _ => exact id
    refine ⟨(grant_sys _ _).mpr ⟨id, fun hg => ?_⟩, Nat.zero_le _⟩
    obtain ⟨_, h2, h3⟩ := grant_violates (cur.1, cur.2.1) j
    have hr : reqOf j = true := by simpa [grOf] using hg.2
    have := he.2
    rw [show pick (· == 1) [1, 1] [noTwo, noNext] = [noTwo, noNext] from rfl, List.countP_cons, List.countP_cons, List.countP_nil, h2, h3, inv hg.1, hr] at this
    rw [show grOf (cur.1, cur.2.1).2 = true from hg.1] at this
    simp at this
  · intro p hp _ b' hb' n
    obtain ⟨b, hb, rfl⟩ := List.mem_map.mp hb'
    rcases List.mem_append.mp hb with hb | hb
    · obtain ⟨b, hb, rfl⟩ := List.mem_map.mp hb
      cases hb
    · rw [List.mem_singleton] at hb
      subst hb
      refine ⟨n, le_rfl, .inl ?_⟩
      have := hp (n + 1)
      rw [prefixHist] at this
      generalize p (n + 1) = q at this ⊢
      generalize prefixHist p n = t at this
      cases this with
      | start => rfl
      | step _ _ => rfl

/-- If both of them can be violated, and at the same time, then the system loses. -/
theorem grant_lost {v : List Nat} {k : Nat} (hv : v = [2, 1] ∧ 1 ≤ k ∨ v = [1, 2] ∧ 1 ≤ k ∨ v = [1, 1] ∧ 2 ≤ k) : ¬ (grant.resilient [range] [noTwo, noNext] v k).Realizable := by
  intro h
  obtain ⟨⟨o, n⟩, ⟨_, hn⟩, σ, h1, _⟩ := h (fun _ => false) (fun φ hφ => absurd hφ (List.not_mem_nil))
  obtain rfl : n = 0 := hn
  have hz : pick (· == 0) v [noTwo, noNext] = [] := by
    rcases hv with ⟨rfl, _⟩ | ⟨rfl, _⟩ | ⟨rfl, _⟩ <;> rfl
  have hone : (pick (· == 1) v [noTwo, noNext]).length ≤ k := by
    rcases hv with ⟨rfl, hk⟩ | ⟨rfl, hk⟩ | ⟨rfl, hk⟩ <;> exact hk
  have env : ∀ p, p.2.2 = 0 → (grant.resilient [range] [noTwo, noNext] v k).safetyEnv p fun _ => true := by
    intro p hp
    refine ⟨fun φ hφ => ?_, ?_⟩
    · rw [hz] at hφ
      obtain rfl : φ = range := by simpa using hφ
      exact (grant_violates _ _).1
    · rw [hp, Nat.zero_add]
      exact List.countP_le_length.trans hone
  have e1 := env ((fun _ => false), (o, 0)) rfl
  have s1 := h1 _ _ _ .start e1
  have g1 := (grant_sys _ _).mp s1.1
  have hg1 := g1.1 rfl
  have hg0 : grOf o = false := by
    by_contra hg
    exact g1.2 ⟨by simpa using hg, hg1⟩
  have hc : (σ [(fun _ => false, (o, 0))] fun _ => true).2 = 0 := by
    have := s1.2
    rw [List.countP_eq_zero.mpr] at this
    · simpa using this
    · intro φ hφ
      obtain ⟨_, h2, h3⟩ := grant_violates ((fun _ => false), o) fun _ => true
      have : φ = noTwo ∨ φ = noNext := by
        obtain ⟨j, a, h4, _⟩ := mem_pick.mp hφ
        have := List.mem_of_getElem? h4
        simpa using this
      rcases this with rfl | rfl
      · rw [h2]
        simp [reqOf]
      · rw [h3]
        show ¬ (grOf o && _) = true
        rw [hg0]
        simp
  have e2 := env ((fun _ => true), σ [(fun _ => false, (o, 0))] fun _ => true) hc
  have s2 := (grant_sys _ _).mp (h1 _ _ _ (.step .start e1) e2).1
  exact s2.2 ⟨hg1, s2.1 rfl⟩

/-- What is printed for the example. -/
example {bits : Nat → Nat} (hbits : ∀ k, k < 2 ^ bits k) : ∃ N, ∀ (B : Type) [DecidableEq B] [BddLib B] (alg : Algorithm) (order : List Char → Bool) (cap fuel depth : Nat),
    N ≤ cap → N ≤ fuel → N ≤ depth → ∃ R : List (List Nat × Nat),
      program bits (askSlugs B alg cap order fuel) depth grantText = some (txt!"Error-resilience levels achievable:\n" ++ (R.map levelText).flatten) ∧
      R.Perm [([2, 0], 1), ([0, 2], 1), ([1, 1], 1)] := by
  obtain ⟨N, hN⟩ := C71_levels grant_proper grant_denotes grant_assumes (by decide) hbits
  have hreal : grant.game.Realizable := by
    obtain ⟨ess, c, _, hb⟩ := base_of grant_proper grant_denotes grant_assumes
    exact hb.tolerant_none.mp (tolerant_anti (by decide) (grant_one (.inl rfl)))
  refine ⟨N, fun B _ _ alg order cap fuel depth h1 h2 h3 => ?_⟩
  obtain ⟨R, hR, hnd, hx⟩ := (hN B alg order cap fuel depth h1 h2 h3).2 hreal
  refine ⟨R, hR, (List.perm_ext_iff_of_nodup hnd (by decide)).mpr fun x => ?_⟩
  have a1 : grant.achieves [range] [noTwo, noNext] ([2, 0], 1) := ⟨rfl, by simp, le_rfl, .inl rfl, resilient_of_tolerant (w := [true, false]) (grant_one (.inl rfl))⟩
  have a2 : grant.achieves [range] [noTwo, noNext] ([0, 2], 1) := ⟨rfl, by simp, le_rfl, .inl rfl, resilient_of_tolerant (w := [false, true]) (grant_one (.inr rfl))⟩
  have a3 : grant.achieves [range] [noTwo, noNext] ([1, 1], 1) := ⟨rfl, by simp, le_rfl, .inl rfl, grant_some⟩
  have only : ∀ x, grant.achieves [range] [noTwo, noNext] x → ∃ y ∈ [([2, 0], 1), ([0, 2], 1), ([1, 1], 1)], List.Forall₂ (· ≤ ·) x.1 y.1 ∧ x.2 ≤ y.2 := by
    rintro ⟨v, k⟩ ⟨hl, hle, hk, hor, hr⟩
    obtain ⟨a, b, rfl⟩ := List.length_eq_two.mp hl
    have ha : a ≤ 2 := hle a (by simp)
    have hb : b ≤ 2 := hle b (by simp)
    have hk : 1 ≤ k := hk
    by_cases hb0 : b = 0
    · subst hb0
      rcases hor with hor | hor
      · exact ⟨([2, 0], 1), by simp, .cons ha (.cons le_rfl .nil), hor.le⟩
      · refine absurd (tolerant_anti (w := [true, false]) ?_ (grant_one (.inl rfl))) hor
        exact .cons le_top (.cons le_rfl .nil)
    · by_cases ha0 : a = 0
      · subst ha0
        rcases hor with hor | hor
        · exact ⟨([0, 2], 1), by simp, .cons le_rfl (.cons hb .nil), hor.le⟩
        · refine absurd (tolerant_anti (w := [false, true]) ?_ (grant_one (.inr rfl))) hor
          exact .cons le_rfl (.cons le_top .nil)
      · by_cases hab : a = 1 ∧ b = 1 ∧ k = 1
        · obtain ⟨rfl, rfl, rfl⟩ := hab
          exact ⟨([1, 1], 1), by simp, List.forall₂_same.mpr fun _ _ => le_rfl, le_rfl⟩
        · exfalso
          by_cases ha2 : a = 2
          · subst ha2
            exact grant_lost (.inl ⟨rfl, le_rfl⟩) (resilient_anti (v := [2, 1]) (.cons le_rfl (.cons (by omega) .nil)) hk hr)
          · by_cases hb2 : b = 2
            · subst hb2
              exact grant_lost (.inr (.inl ⟨rfl, le_rfl⟩)) (resilient_anti (v := [1, 2]) (.cons (by omega) (.cons le_rfl .nil)) hk hr)
            · exact grant_lost (.inr (.inr ⟨rfl, le_rfl⟩)) (resilient_anti (v := [1, 1]) (k := 2) (.cons (by omega) (.cons (by omega) .nil)) (by show 2 ≤ k; omega) hr)
  rw [hx x]
  constructor
  · rintro ⟨hax, hm⟩
    obtain ⟨y, hy, h4, h5⟩ := only x hax
    have hay : grant.achieves [range] [noTwo, noNext] y := by
      simp only [List.mem_cons, List.not_mem_nil, or_false] at hy
      rcases hy with rfl | rfl | rfl
      exacts [a1, a2, a3]
    rw [← hm y hay h4 h5]
    exact hy
  · intro hxm
    have hax : grant.achieves [range] [noTwo, noNext] x := by
      simp only [List.mem_cons, List.not_mem_nil, or_false] at hxm
      rcases hxm with rfl | rfl | rfl
      exacts [a1, a2, a3]
    refine ⟨hax, fun y hay h4 h5 => ?_⟩
    obtain ⟨z, hz, h6, h7⟩ := only y hay
    have hxz : z = x := by
      have h8 := forall₂_nat_trans h4 h6
      clear h4 h5 h6 h7 hax hay hx
      simp only [List.mem_cons, List.not_mem_nil, or_false] at hxm hz
      rcases hxm with rfl | rfl | rfl <;> rcases hz with rfl | rfl | rfl <;> first | rfl | (exfalso; revert h8; decide)
    subst hxz
    exact Prod.ext (forall₂_antisymm h6 h4) (le_antisymm h7 h5)

end Slugs.Props
