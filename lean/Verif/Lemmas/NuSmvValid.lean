import Verif.Lemmas.NuSmvRun

/-!
The module for NuSMV is well-formed.
-/

namespace Slugs.Model.NuSmv

open Slugs.Spec Slugs.Spec.Smv Slugs.Model

theorem ltlOf_strength (inputs outputs : List Word) : ∀ φ : Fml, (ltlOf inputs outputs φ).strength = 3
  | .const b => by cases b <;> rfl
  | .var x => by rw [ltlOf]; split_ifs <;> rfl
  | .not _ => rfl
  | .bin op f g => by rw [ltlOf]; split_ifs <;> rfl
  | .buffer _ => rfl
  | .recall _ => rfl

theorem ltlOf_wb (inputs outputs : List Word) : ∀ φ : Fml, φ.Basic → (ltlOf inputs outputs φ).WellBracketed
  | .const b, _ => by cases b <;> trivial
  | .var x, _ => by rw [ltlOf]; split_ifs <;> simp [Ltl.WellBracketed, Ltl.strength]
  | .not f, h => ⟨ltlOf_strength _ _ f, ltlOf_wb _ _ f h⟩
  | .bin op f g, h => by
    have h1 := ltlOf_strength inputs outputs f
    have h2 := ltlOf_strength inputs outputs g
    have h3 := ltlOf_wb inputs outputs f h.2.1
    have h4 := ltlOf_wb inputs outputs g h.2.2
    rw [ltlOf]
    split_ifs <;> simp [Ltl.WellBracketed, h1, h2, h3, h4]
  | .buffer _, h => absurd h (by simp [Fml.Basic])
  | .recall _, h => absurd h (by simp [Fml.Basic])

theorem foldl_wb (fs : List Ltl) : ∀ f : Ltl, 2 ≤ f.strength → f.WellBracketed → (∀ g ∈ fs, g.strength = 3 ∧ g.WellBracketed) → (fs.foldl Ltl.and f).WellBracketed := by
  induction fs with
  | nil => intro f _ h _; exact h
  | cons g fs ih =>
    intro f h1 h2 h3
    obtain ⟨h4, h5⟩ := h3 g (by simp)
    exact ih (.and f g) (by simp [Ltl.strength]) ⟨h1, h4, h2, h5⟩ fun x hx => h3 x (by simp [hx])

theorem conj_wb {fs : List Ltl} (h : ∀ g ∈ fs, g.strength = 3 ∧ g.WellBracketed) : (conj fs).WellBracketed :=
  foldl_wb fs .tt (by simp [Ltl.strength]) trivial h

theorem foldl_vars (fs : List Ltl) : ∀ f : Ltl, ∀ x ∈ (fs.foldl Ltl.and f).vars, x ∈ f.vars ∨ ∃ g ∈ fs, x ∈ g.vars := by
  induction fs with
  | nil => intro f x hx; exact .inl hx
  | cons g fs ih =>
    intro f x hx
    rcases ih _ x hx with h | ⟨g', h1, h2⟩
    · rcases List.mem_append.mp h with h | h
      · exact .inl h
      · exact .inr ⟨g, by simp, h⟩
    · exact .inr ⟨g', by simp [h1], h2⟩

theorem conj_vars {fs : List Ltl} {names : List Word} (h : ∀ g ∈ fs, ∀ x ∈ g.vars, x ∈ names) : ∀ x ∈ (conj fs).vars, x ∈ names := by
  intro x hx
  rcases foldl_vars fs .tt x hx with h' | ⟨g, h1, h2⟩
  · simp [Ltl.vars] at h'
  · exact h g h1 x h2

theorem ltlOf_vars {sp : SpecFile} : ∀ φ : Fml, φ.Basic → (∀ x ∈ φ.vars, x ∈ sp.names) →
    ∀ x ∈ (ltlOf sp.inputs sp.outputs φ).vars, x ∈ sp.inputs.map (txt!"v_" ++ ·) ++ sp.outputs.map (txt!"i_" ++ ·) ++ sp.outputs.map (txt!"v_" ++ ·)
  | .const b, _, _ => by cases b <;> simp [ltlOf, Ltl.vars]
  | .var y, _, h => by
    have hy := h y (by simp [Fml.vars])
    rw [ltlOf]
    split_ifs with h1 h2 h3
    · intro x hx
      simp only [Ltl.vars, List.mem_singleton] at hx
      subst hx
      exact List.mem_append_left _ (List.mem_append_left _ (List.mem_map.mpr ⟨y, h1, rfl⟩))
    · intro x hx
      simp only [Ltl.vars, List.mem_singleton] at hx
      subst hx
      obtain ⟨a, ha, rfl⟩ := List.mem_map.mp h2
      exact List.mem_append_left _ (List.mem_append_left _ (List.mem_map.mpr ⟨a, ha, by rw [dropLast_prime]⟩))
    · intro x hx
      simp only [Ltl.vars, List.mem_singleton] at hx
      subst hx
      exact List.mem_append_right _ (List.mem_map.mpr ⟨y, h3, rfl⟩)
    · intro x hx
      simp only [Ltl.vars, List.mem_singleton] at hx
      subst hx
      have h4 : y ∈ sp.outputs.map prime := by
        simp only [SpecFile.names, List.mem_append] at hy
        tauto
      obtain ⟨a, ha, rfl⟩ := List.mem_map.mp h4
      exact List.mem_append_right _ (List.mem_map.mpr ⟨a, ha, by rw [dropLast_prime]⟩)
  | .not f, hb, h => ltlOf_vars f hb h
  | .bin op f g, hb, h => by
    have h1 := ltlOf_vars f hb.2.1 fun x hx => h x (by simp [Fml.vars, hx])
    have h2 := ltlOf_vars g hb.2.2 fun x hx => h x (by simp [Fml.vars, hx])
    rw [ltlOf]
    split_ifs
    all_goals
      intro x hx
      rcases List.mem_append.mp hx with hx | hx
      · exact h1 x hx
      · exact h2 x hx
  | .buffer _, h, _ => absurd h (by simp [Fml.Basic])
  | .recall _, h, _ => absurd h (by simp [Fml.Basic])

theorem no_keyword {c : Char} (hc : c = 'v' ∨ c = 'i') (x : Word) : c :: '_' :: x ∉ keywords := by
  have : ∀ k ∈ keywords, k[1]? ≠ some '_' := by decide
  intro hm
  exact this _ hm rfl

theorem identifier_of {c : Char} (hc : c = 'v' ∨ c = 'i') {x : Word} (h : ∀ d ∈ x, identChar d = true) : Identifier (c :: '_' :: x) := by
  refine ⟨no_keyword hc x, fun d hd => ?_, c, rfl, by rcases hc with rfl | rfl <;> decide⟩
  rcases List.mem_cons.mp hd with rfl | hd
  · rcases hc with rfl | rfl <;> decide
  · rcases List.mem_cons.mp hd with rfl | hd
    · decide
    · exact h d hd

theorem edge_tests_ok {sp : SpecFile} {sts : List PState} (hf : Fits sp sts) {e : Nat × Nat} (he : e ∈ edges sts) :
    ∀ x ∈ edgeTests sp.inputs sts e, x.Uses ((theModule sp sts).ivars ++ (theModule sp sts).vars) sts.length := by
  have h1 := (mem_edges.mp (show (e.1, e.2) ∈ edges sts from he)).1
  intro x hx
  rcases List.mem_cons.mp hx with rfl | hx
  · exact Nat.le_of_lt h1
  · obtain ⟨a, ha, rfl⟩ := List.mem_map.mp hx
    exact List.mem_append_left _ (List.mem_append_left _ (List.mem_map.mpr ⟨a, ha, rfl⟩))

theorem start_tests_ok {sp : SpecFile} {sts : List PState} (st : PState) :
    ∀ x ∈ startTests sp.inputs sp.outputs sts st, x.Uses ((theModule sp sts).ivars ++ (theModule sp sts).vars) sts.length := by
  intro x hx
  rcases List.mem_cons.mp hx with rfl | hx
  · exact Nat.le_refl _
  · rcases List.mem_append.mp hx with hx | hx
    · obtain ⟨a, ha, rfl⟩ := List.mem_map.mp hx
      exact List.mem_append_left _ (List.mem_append_left _ (List.mem_map.mpr ⟨a, ha, rfl⟩))
    · obtain ⟨a, ha, rfl⟩ := List.mem_map.mp hx
      exact List.mem_append_left _ (List.mem_append_right _ (List.mem_map.mpr ⟨a, ha, rfl⟩))

theorem alike_self {sp : SpecFile} {sts : List PState} (hf : Fits sp sts) (hn : (sp.inputs ++ sp.outputs).Nodup) {st : PState} (h : st ∈ sts) : alike sts st ≠ [] := by
  obtain ⟨k, hk, rfl⟩ := List.getElem_of_mem h
  have e : nth sts k = sts[k] := by simp [nth, hk]
  refine List.ne_nil_of_mem (mem_alike.mpr ⟨hk, ?_⟩)
  rw [e]
  exact (same_iff hn (hf.labels _ h) (hf.labels _ h)).mpr fun _ _ => rfl

theorem module_valid {sp : SpecFile} {sts : List PState} (h : Lines sp) (hf : Fits sp sts) (hne : sts ≠ []) (hid : ∀ x ∈ sp.inputs ++ sp.outputs, ∀ c ∈ x, identChar c = true) :
    (theModule sp sts).Valid := by
  have hn : (sp.inputs ++ sp.outputs).Nodup := (List.nodup_append.mp (List.nodup_append.mp h.unambiguous).1).1
  obtain ⟨hn1, hn2, hn3⟩ := List.nodup_append.mp hn
  have inj : ∀ p : List Char, Function.Injective (p ++ · : Word → Word) := fun p _ _ e => List.append_cancel_left e
  have hsub : ∀ φ ∈ sp.constraints, ∀ x ∈ φ.vars, x ∈ sp.names := by
    intro φ hφ x hx
    have hw := h.wellScoped
    simp only [SpecFile.constraints, List.mem_append] at hφ
    rcases hφ with ((((hφ | hφ) | hφ) | hφ) | hφ) | hφ
    · have := hw.envInit φ hφ x hx; simp only [SpecFile.names, List.mem_append]; tauto
    · have := hw.sysInit φ hφ x hx; simp only [SpecFile.names, List.mem_append] at this ⊢; tauto
    · have := hw.envTrans φ hφ x hx; simp only [SpecFile.names, List.mem_append] at this ⊢; tauto
    · exact hw.sysTrans φ hφ x hx
    · exact hw.envLiveness φ hφ x hx
    · exact hw.sysLiveness φ hφ x hx
  have wb : ∀ φ ∈ sp.constraints, (ltlOf sp.inputs sp.outputs φ).strength = 3 ∧ (ltlOf sp.inputs sp.outputs φ).WellBracketed := fun φ hφ =>
    ⟨ltlOf_strength _ _ φ, ltlOf_wb _ _ φ (h.basic φ hφ)⟩
  have vs : ∀ φ ∈ sp.constraints, ∀ x ∈ (ltlOf sp.inputs sp.outputs φ).vars, x ∈ (theModule sp sts).ivars ++ (theModule sp sts).vars := fun φ hφ =>
    ltlOf_vars φ (h.basic φ hφ) (hsub φ hφ)
  have c1 : ∀ φ ∈ sp.sysInit ++ sp.envInit, φ ∈ sp.constraints := fun φ hφ => mem_constraints (by simp only [List.mem_append] at hφ ⊢; tauto)
  have c2 : ∀ φ ∈ sp.envTrans, φ ∈ sp.constraints := fun φ hφ => mem_constraints (by simp [hφ])
  have c3 : ∀ φ ∈ sp.envLiveness, φ ∈ sp.constraints := fun φ hφ => mem_constraints (by simp [hφ])
  have w1 : (allInit sp sts.length).WellBracketed := by
    refine ⟨Nat.le_succ _, rfl, conj_wb fun g hg => ?_, rfl, trivial⟩
    obtain ⟨φ, hφ, rfl⟩ := List.mem_map.mp hg
    exact wb φ (c1 φ hφ)
  have w2 : (allSafety sp).WellBracketed := conj_wb fun g hg => by
    obtain ⟨φ, hφ, rfl⟩ := List.mem_map.mp hg
    exact wb φ (c2 φ hφ)
  have w3 : (allLiveness sp).WellBracketed := conj_wb fun g hg => by
    obtain ⟨φ, hφ, rfl⟩ := List.mem_map.mp hg
    exact ⟨rfl, rfl, wb φ (c3 φ hφ)⟩
  have v1 : ∀ x ∈ (allInit sp sts.length).vars, x ∈ (theModule sp sts).ivars ++ (theModule sp sts).vars := fun x hx => by
    simp only [allInit, Ltl.vars, List.append_nil] at hx
    refine conj_vars (fun g hg => ?_) x hx
    obtain ⟨φ, hφ, rfl⟩ := List.mem_map.mp hg
    exact vs φ (c1 φ hφ)
  have v2 : ∀ x ∈ (allSafety sp).vars, x ∈ (theModule sp sts).ivars ++ (theModule sp sts).vars := conj_vars fun g hg => by
    obtain ⟨φ, hφ, rfl⟩ := List.mem_map.mp hg
    exact vs φ (c2 φ hφ)
  have v3 : ∀ x ∈ (allLiveness sp).vars, x ∈ (theModule sp sts).ivars ++ (theModule sp sts).vars := conj_vars fun g hg => by
    obtain ⟨φ, hφ, rfl⟩ := List.mem_map.mp hg
    exact vs φ (c3 φ hφ)
  have edgeOk : ∀ {V : Type} (res : Nat → V) (ok : V → Prop) (_ : ∀ k < sts.length, ok (res k)) (b : Branch V) (_ : b ∈ edgeBranches sp.inputs sts res) ts c, b = .rule ts c →
      ts ≠ [] ∧ (∀ x ∈ ts, x.Uses ((theModule sp sts).ivars ++ (theModule sp sts).vars) sts.length) ∧ c.values ≠ [] ∧ ∀ v ∈ c.values, ok v := by
    intro V res ok hok b hb ts c e
    obtain ⟨ed, hed, rfl⟩ := List.mem_map.mp hb
    cases e
    obtain ⟨m1, m2⟩ := mem_edges.mp (show (ed.1, ed.2) ∈ edges sts from hed)
    refine ⟨by simp [edgeTests], edge_tests_ok hf hed, by simp [Choice.values], fun v hv => ?_⟩
    simp only [Choice.values, List.mem_singleton] at hv
    subst hv
    exact hok _ (hf.targets _ (nth_mem m1) _ m2)
  refine ⟨⟨?_, ?_⟩, Nat.le_refl _, ⟨?_, ?_, ?_⟩, ⟨?_, ?_⟩, ?_⟩
  · change ((sp.inputs.map (txt!"v_" ++ ·) ++ sp.outputs.map (txt!"i_" ++ ·)) ++ sp.outputs.map (txt!"v_" ++ ·)).Nodup
    rw [List.nodup_append, List.nodup_append]
    refine ⟨⟨hn1.map (inj _), hn2.map (inj _), ?_⟩, hn2.map (inj _), ?_⟩
    · intro a ha b hb e
      obtain ⟨x, _, rfl⟩ := List.mem_map.mp ha
      obtain ⟨y, _, rfl⟩ := List.mem_map.mp hb
      simp at e
    · intro a ha b hb e
      obtain ⟨y, hy, rfl⟩ := List.mem_map.mp hb
      rcases List.mem_append.mp ha with ha | ha
      · obtain ⟨x, hx, rfl⟩ := List.mem_map.mp ha
        have : x = y := inj _ e
        exact hn3 x hx y hy this
      · obtain ⟨x, hx, rfl⟩ := List.mem_map.mp ha
        simp at e
  · intro x hx
    have hx' : x ∈ (sp.inputs.map (txt!"v_" ++ ·) ++ sp.outputs.map (txt!"i_" ++ ·)) ++ sp.outputs.map (txt!"v_" ++ ·) := hx
    simp only [List.mem_append, List.mem_map] at hx'
    rcases hx' with (⟨a, ha, rfl⟩ | ⟨a, ha, rfl⟩) | ⟨a, ha, rfl⟩
    · exact identifier_of (.inl rfl) (hid a (by simp [ha]))
    · exact identifier_of (.inr rfl) (hid a (by simp [ha]))
    · exact identifier_of (.inl rfl) (hid a (by simp [ha]))
  · intro b hb ts c e
    have hb' : b ∈ stateBranches sp.inputs sp.outputs sts := hb
    rw [stateBranches, List.mem_append, List.mem_append] at hb'
    rcases hb' with hb' | hb' | hb'
    · exact edgeOk id (· ≤ sts.length) (fun k hk => Nat.le_of_lt hk) b hb' ts c e
    · obtain ⟨st, hst, rfl⟩ := List.mem_map.mp hb'
      cases e
      refine ⟨by simp [startTests], start_tests_ok st, alike_self hf hn hst, fun v hv => Nat.le_of_lt (mem_alike.mp hv).1⟩
    · simp only [List.mem_cons, List.not_mem_nil, or_false] at hb'
      rcases hb' with rfl | rfl | rfl | rfl
      · cases e
      · cases e
        refine ⟨by simp, by simp [Test.Uses, theModule], by simpa [Choice.values] using List.length_pos_iff.mpr hne |>.ne', fun v hv => ?_⟩
        exact Nat.le_of_lt (List.mem_range.mp hv)
      · cases e
      · cases e
        exact ⟨by simp, by simp [Test.Uses], by simp [Choice.values], by simp [Choice.values, theModule]⟩
  · intro b hb t e
    have hb' : b ∈ stateBranches sp.inputs sp.outputs sts := hb
    rw [stateBranches, List.mem_append, List.mem_append] at hb'
    rcases hb' with hb' | hb' | hb'
    · obtain ⟨ed, hed, rfl⟩ := List.mem_map.mp hb'
      cases e
    · obtain ⟨st, hst, rfl⟩ := List.mem_map.mp hb'
      cases e
    · simp only [List.mem_cons, List.not_mem_nil, or_false] at hb'
      rcases hb' with rfl | rfl | rfl | rfl
      · cases e; decide
      · cases e
      · cases e; decide
      · cases e
  · exact ⟨.one sts.length, by simp only [theModule, stateBranches, List.getLast?_append, List.getLast?_cons_cons, List.getLast?_singleton, Option.some_or]⟩
  · change ((sp.outputs.map fun y => (txt!"v_" ++ y, outputBranches sp.inputs sp.outputs sts y)).map Prod.fst).Nodup
    rw [List.map_map]
    exact hn2.map (inj txt!"v_")
  · intro e he
    obtain ⟨y, hy, rfl⟩ := List.mem_map.mp he
    refine ⟨List.mem_map.mpr ⟨y, hy, rfl⟩, ?_, ?_, ?_⟩
    · intro b hb ts c e
      have hb' : b ∈ outputBranches sp.inputs sp.outputs sts y := hb
      rw [outputBranches, List.mem_append, List.mem_append] at hb'
      rcases hb' with hb' | hb' | hb'
      · exact edgeOk _ (fun _ => True) (fun _ _ => trivial) b hb' ts c e
      · obtain ⟨st, hst, rfl⟩ := List.mem_map.mp hb'
        cases e
        exact ⟨by simp [startTests], start_tests_ok st, by simp [Choice.values], fun _ _ => trivial⟩
      · simp only [List.mem_singleton] at hb'
        subst hb'
        cases e
        exact ⟨by simp, by simp [Test.Uses], by simp [Choice.values], fun _ _ => trivial⟩
    · intro b hb t e
      have hb' : b ∈ outputBranches sp.inputs sp.outputs sts y := hb
      rw [outputBranches, List.mem_append, List.mem_append] at hb'
      rcases hb' with hb' | hb' | hb'
      · obtain ⟨ed, hed, rfl⟩ := List.mem_map.mp hb'
        cases e
      · obtain ⟨st, hst, rfl⟩ := List.mem_map.mp hb'
        cases e
      · simp only [List.mem_singleton] at hb'
        subst hb'
        cases e
    · exact ⟨.among txt!"," [false, true], by simp only [outputBranches, List.getLast?_append, List.getLast?_singleton, Option.some_or]⟩
  · intro f hf'
    rcases List.mem_append.mp hf' with hm | hm
    · obtain ⟨φ, hφ, rfl⟩ := List.mem_map.mp hm
      have cφ : φ ∈ sp.constraints := mem_constraints (by simp [hφ])
      refine ⟨⟨rfl, rfl, w1, rfl, rfl, ⟨rfl, w2⟩, (wb φ cφ).1, rfl, (wb φ cφ).2, rfl, w2⟩, fun x hx => ?_⟩
      simp only [safetySpec, Ltl.vars, List.mem_append] at hx
      rcases hx with hx | hx | hx | hx
      · exact v1 x hx
      · exact v2 x hx
      · exact vs φ cφ x hx
      · exact v2 x hx
    · obtain ⟨φ, hφ, rfl⟩ := List.mem_map.mp hm
      have cφ : φ ∈ sp.constraints := mem_constraints (by simp [hφ])
      refine ⟨⟨rfl, rfl, ⟨Nat.le_refl _, rfl, ⟨Nat.le_succ _, rfl, w1, rfl, w2⟩, w3⟩, rfl, wb φ cφ⟩, fun x hx => ?_⟩
      simp only [livenessSpec, Ltl.vars, List.mem_append] at hx
      rcases hx with ((hx | hx) | hx) | hx
      · exact v1 x hx
      · exact v2 x hx
      · exact v3 x hx
      · exact vs φ cφ x hx

end Slugs.Model.NuSmv
