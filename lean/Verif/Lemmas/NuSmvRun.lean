import Verif.Lemmas.NuSmvText

/-!
The executions of the module for NuSMV are the runs of the automaton.
-/

namespace Slugs.Model.NuSmv

open Slugs.Spec Slugs.Spec.Smv Slugs.Model

/-! ### Positions and formulas -/

/-- The position at a time of a trace: the outputs are one step late. -/
def posAt (sp : SpecFile) (tr : Trace) (t : Nat) : Pos sp.In sp.Out := (fun x => tr.val t (txt!"v_" ++ x.1), fun y => tr.val (t + 1) (txt!"v_" ++ y.1))

theorem dropLast_prime (x : Word) : (prime x).dropLast = x := by simp [prime]

theorem look_var {sp : SpecFile} (hu : sp.Unambiguous) (tr : Trace) (t : Nat) {x : Word} (hx : x ∈ sp.names) :
    (ltlOf sp.inputs sp.outputs (.var x)).Holds tr t ↔ sp.look (posAt sp tr t) (posAt sp tr (t + 1)) x = true := by
  obtain ⟨hu1, _, d1⟩ := List.nodup_append.mp hu
  obtain ⟨hu2, _, d2⟩ := List.nodup_append.mp hu1
  obtain ⟨_, _, d3⟩ := List.nodup_append.mp hu2
  simp only [ltlOf, SpecFile.look]
  by_cases h1 : x ∈ sp.inputs
  · rw [if_pos h1, if_pos (by simp [h1]), SpecFile.now, dif_pos h1]; rfl
  · rw [if_neg h1]
    by_cases h2 : x ∈ sp.inputs.map prime
    · rw [if_pos h2, if_neg fun hm => d2 x hm x h2 rfl]
      obtain ⟨a, ha, rfl⟩ := List.mem_map.mp h2
      rw [dropLast_prime, SpecFile.now, dif_pos ha]; rfl
    · rw [if_neg h2]
      by_cases h3 : x ∈ sp.outputs
      · rw [if_pos h3, if_pos (by simp [h3]), SpecFile.now, dif_neg h1, dif_pos h3]; rfl
      · have h4 : x ∈ sp.outputs.map prime := by
          simp only [SpecFile.names, List.mem_append] at hx
          tauto
        rw [if_neg h3, if_neg (by simp [h1, h3])]
        obtain ⟨a, ha, rfl⟩ := List.mem_map.mp h4
        have h5 : a ∉ sp.inputs := fun hm => d3 a hm a ha rfl
        rw [dropLast_prime, SpecFile.now, dif_neg h5, dif_pos ha]; rfl

theorem ltl_eval {sp : SpecFile} (hu : sp.Unambiguous) (tr : Trace) (t : Nat) : ∀ φ : Fml, φ.Basic → (∀ x ∈ φ.vars, x ∈ sp.names) →
    ∃ b, φ.eval (sp.look (posAt sp tr t) (posAt sp tr (t + 1))) [] = some b ∧ ((ltlOf sp.inputs sp.outputs φ).Holds tr t ↔ b = true)
  | .const b, _, _ => ⟨b, rfl, by cases b <;> simp [ltlOf, Ltl.Holds]⟩
  | .var x, _, h => ⟨_, rfl, look_var hu tr t (h x (by simp [Fml.vars]))⟩
  | .not f, hb, h => by
    obtain ⟨b, e, hi⟩ := ltl_eval hu tr t f hb h
    refine ⟨!b, by simp [Fml.eval, e], ?_⟩
    rw [ltlOf, Ltl.Holds, hi]
    cases b <;> simp
  | .bin op f g, hb, h => by
    obtain ⟨b, e, hi⟩ := ltl_eval hu tr t f hb.2.1 fun x hx => h x (by simp [Fml.vars, hx])
    obtain ⟨b', e', hi'⟩ := ltl_eval hu tr t g hb.2.2 fun x hx => h x (by simp [Fml.vars, hx])
    refine ⟨op.apply b b', by simp [Fml.eval, e, e'], ?_⟩
    have := hb.1
    cases op
    all_goals first | exact absurd rfl this | simp [ltlOf, Ltl.Holds, hi, hi', BinOp.apply]
  | .buffer _, hb, _ => absurd hb (by simp [Fml.Basic])
  | .recall _, hb, _ => absurd hb (by simp [Fml.Basic])

theorem ltl_iff {sp : SpecFile} (hu : sp.Unambiguous) (tr : Trace) (t : Nat) {φ : Fml} (hb : φ.Basic) (hv : ∀ x ∈ φ.vars, x ∈ sp.names) :
    (ltlOf sp.inputs sp.outputs φ).Holds tr t ↔ sp.holds (posAt sp tr t) (posAt sp tr (t + 1)) φ := by
  obtain ⟨b, e, h⟩ := ltl_eval hu tr t φ hb hv
  rw [h, SpecFile.holds, e]; simp

theorem holds_foldl (tr : Trace) (t : Nat) (fs : List Ltl) : ∀ f : Ltl, (fs.foldl Ltl.and f).Holds tr t ↔ f.Holds tr t ∧ ∀ g ∈ fs, g.Holds tr t := by
  induction fs with
  | nil => intro f; simp
  | cons g fs ih => intro f; rw [List.foldl_cons, ih]; simp [Ltl.Holds, and_assoc]

theorem holds_conj (tr : Trace) (t : Nat) (fs : List Ltl) : (conj fs).Holds tr t ↔ ∀ g ∈ fs, g.Holds tr t := by
  rw [conj, Ltl.Holds, holds_foldl]; simp [Ltl.Holds]

theorem holds_congr {sp : SpecFile} {p q p' q' : Pos sp.In sp.Out} {φ : Fml} (h : ∀ x ∈ φ.vars, sp.look p q x = sp.look p' q' x) : sp.holds p q φ ↔ sp.holds p' q' φ := by
  rw [SpecFile.holds, SpecFile.holds, Fml.eval_congr φ [] h]

theorem look_current {sp : SpecFile} (p q q' : Pos sp.In sp.Out) {x : Word} (h : x ∈ sp.inputs ++ sp.outputs) : sp.look p q x = sp.look p q' x := by
  rw [SpecFile.look, SpecFile.look, if_pos h, if_pos h]

theorem mem_constraints {sp : SpecFile} {φ : Fml} (h : φ ∈ sp.envInit ++ sp.sysInit ++ sp.envTrans ++ sp.sysTrans ++ sp.envLiveness ++ sp.sysLiveness) : φ ∈ sp.constraints := h

theorem init_iff {sp : SpecFile} (h : Lines sp) (tr : Trace) (n : Nat) :
    (allInit sp n).Holds tr 0 ↔ sp.game.initEnv (posAt sp tr 0).1 ∧ sp.game.initSys (posAt sp tr 0) ∧ tr.state 1 ≠ n := by
  have e1 : ∀ φ ∈ sp.sysInit, ((ltlOf sp.inputs sp.outputs φ).Holds tr 0 ↔ sp.holds (posAt sp tr 0) (posAt sp tr 0) φ) := fun φ hφ => by
    have hv := h.wellScoped.sysInit φ hφ
    rw [ltl_iff h.unambiguous tr 0 (h.basic φ (mem_constraints (by simp [hφ]))) fun x hx => by simp only [SpecFile.names, List.append_assoc]; rw [← List.append_assoc]; exact List.mem_append_left _ (hv x hx)]
    exact holds_congr fun x hx => look_current _ _ _ (hv x hx)
  have e2 : ∀ φ ∈ sp.envInit, ((ltlOf sp.inputs sp.outputs φ).Holds tr 0 ↔ sp.holds ((posAt sp tr 0).1, fun _ => false) ((posAt sp tr 0).1, fun _ => false) φ) := fun φ hφ => by
    have hv := h.wellScoped.envInit φ hφ
    rw [ltl_iff h.unambiguous tr 0 (h.basic φ (mem_constraints (by simp [hφ]))) fun x hx => by simp [SpecFile.names, hv x hx]]
    refine holds_congr fun x hx => ?_
    rw [SpecFile.look, SpecFile.look, if_pos (by simp [hv x hx]), if_pos (by simp [hv x hx]), SpecFile.now, SpecFile.now, dif_pos (hv x hx), dif_pos (hv x hx)]
  rw [allInit]
  simp only [Ltl.Holds, holds_conj, List.mem_map, List.mem_append, forall_exists_index, and_imp, forall_apply_eq_imp_iff₂, SpecFile.game]
  constructor
  · rintro ⟨h1, h2⟩
    exact ⟨fun φ hφ => (e2 φ hφ).mp (h1 φ (.inr hφ)), fun φ hφ => (e1 φ hφ).mp (h1 φ (.inl hφ)), h2⟩
  · rintro ⟨h1, h2, h3⟩
    refine ⟨fun φ hφ => ?_, h3⟩
    rcases hφ with hφ | hφ
    · exact (e1 φ hφ).mpr (h2 φ hφ)
    · exact (e2 φ hφ).mpr (h1 φ hφ)

theorem safety_iff {sp : SpecFile} (h : Lines sp) (tr : Trace) (t : Nat) : (allSafety sp).Holds tr t ↔ sp.game.safetyEnv (posAt sp tr t) (posAt sp tr (t + 1)).1 := by
  obtain ⟨hu1, _, d1⟩ := List.nodup_append.mp h.unambiguous
  obtain ⟨hu2, _, d2⟩ := List.nodup_append.mp hu1
  rw [allSafety, holds_conj]
  simp only [List.mem_map, forall_exists_index, and_imp, forall_apply_eq_imp_iff₂, SpecFile.game]
  refine forall_congr' fun φ => forall_congr' fun hφ => ?_
  have hv := h.wellScoped.envTrans φ hφ
  rw [ltl_iff h.unambiguous tr t (h.basic φ (mem_constraints (by simp [hφ]))) fun x hx => by rw [SpecFile.names]; exact List.mem_append_left _ (hv x hx)]
  refine holds_congr fun x hx => ?_
  rcases List.mem_append.mp (hv x hx) with hm | hm
  · exact look_current _ _ _ hm
  · rw [SpecFile.look, SpecFile.look, if_neg fun hn => d2 x hn x hm rfl, if_neg fun hn => d2 x hn x hm rfl]
    obtain ⟨a, ha, rfl⟩ := List.mem_map.mp hm
    rw [dropLast_prime, SpecFile.now, SpecFile.now, dif_pos ha, dif_pos ha]

/-! ### Branches -/

open Classical in
/-- The first branch that applies. -/
noncomputable def firstOf {A : Type} (tr : Trace) (t : Nat) (T : A → List Test) (l : List A) : Option A := l.find? fun a => decide (∀ x ∈ T a, x.Holds tr t)

theorem picks_iff {A V : Type} {tr : Trace} {t : Nat} {T : A → List Test} {C : A → Choice V} {rest : List (Branch V)} {vs : List V} : ∀ {l : List A},
    Picks tr t (l.map (fun a => .rule (T a) (C a)) ++ rest) vs ↔
      (∃ a, firstOf tr t T l = some a ∧ vs = (C a).values) ∨ (firstOf tr t T l = none ∧ Picks tr t rest vs)
  | [] => by simp [firstOf]
  | a :: l => by
    have ih := picks_iff (tr := tr) (t := t) (T := T) (C := C) (rest := rest) (vs := vs) (l := l)
    rw [List.map_cons, List.cons_append]
    by_cases h : ∀ x ∈ T a, x.Holds tr t
    · have e : firstOf tr t T (a :: l) = some a := by rw [firstOf, List.find?_cons_of_pos (by simpa using h)]
      rw [e]
      constructor
      · intro hp
        cases hp with
        | here _ => exact .inl ⟨a, rfl, rfl⟩
        | later hn _ => exact absurd h hn
      · rintro (⟨b, hb, rfl⟩ | ⟨hb, _⟩)
        · cases hb; exact .here h
        · cases hb
    · have e : firstOf tr t T (a :: l) = firstOf tr t T l := by rw [firstOf, firstOf, List.find?_cons_of_neg (by simpa using h)]
      rw [e, ← ih]
      constructor
      · intro hp
        cases hp with
        | here hn => exact absurd hn h
        | later _ hp => exact hp
      · exact .later h

theorem firstOf_some {A : Type} {tr : Trace} {t : Nat} {T : A → List Test} {l : List A} {a : A} (h : firstOf tr t T l = some a) : a ∈ l ∧ ∀ x ∈ T a, x.Holds tr t :=
  ⟨List.mem_of_find?_eq_some h, by simpa using List.find?_some h⟩

theorem firstOf_head {A : Type} {tr : Trace} {t : Nat} {T : A → List Test} {l : List A} {a : A} (h : ∀ x ∈ T a, x.Holds tr t) : firstOf tr t T (a :: l) = some a := by
  rw [firstOf, List.find?_cons_of_pos (by simpa using h)]

theorem firstOf_none {A : Type} {tr : Trace} {t : Nat} {T : A → List Test} {l : List A} : firstOf tr t T l = none ↔ ∀ a ∈ l, ¬ ∀ x ∈ T a, x.Holds tr t := by
  rw [firstOf, List.find?_eq_none]; simp

theorem picks_otherwise {V : Type} {tr : Trace} {t : Nat} {c : Choice V} {vs : List V} : Picks tr t [.rule [.otherwise] c] vs ↔ vs = c.values := by
  constructor
  · intro h
    cases h with
    | here _ => rfl
    | later hn _ => exact absurd (by simp [Test.Holds]) hn
  · rintro rfl
    exact .here (by simp [Test.Holds])

theorem picks_rest {tr : Trace} {t n : Nat} {m m' : List Char} {vs : List Nat} {c c' : Choice Nat} :
    Picks tr t [.comment m, .rule [.below n] c, .comment m', .rule [.otherwise] c'] vs ↔ vs = if tr.state t < n then c.values else c'.values := by
  constructor
  · intro h
    cases h with
    | comment h =>
      cases h with
      | here h => rw [if_pos (by simpa [Test.Holds] using h)]
      | later hn h =>
        cases h with
        | comment h => rw [if_neg (by simpa [Test.Holds] using hn), picks_otherwise.mp h]
  · rintro rfl
    refine .comment ?_
    by_cases h : tr.state t < n
    · rw [if_pos h]; exact .here (by simpa [Test.Holds] using h)
    · rw [if_neg h]; exact .later (by simpa [Test.Holds] using h) (.comment (picks_otherwise.mpr rfl))

/-! ### Tests -/

theorem lits_iff {tr : Trace} {t : Nat} {pre : List Char} {names : List Word} {st : PState} : (∀ x ∈ lits pre names st, x.Holds tr t) ↔ ∀ a ∈ names, tr.val t (pre ++ a) = value st a := by
  simp [lits, Test.Holds]

theorem edgeTests_iff {tr : Trace} {t : Nat} {inputs : List Word} {sts : List PState} {e : Nat × Nat} :
    (∀ x ∈ edgeTests inputs sts e, x.Holds tr t) ↔ tr.state t = e.1 ∧ ∀ a ∈ inputs, tr.val t (txt!"v_" ++ a) = value (nth sts e.2) a := by
  rw [edgeTests, List.forall_mem_cons, lits_iff]; rfl

theorem startTests_iff {tr : Trace} {t : Nat} {inputs outputs : List Word} {sts : List PState} {st : PState} :
    (∀ x ∈ startTests inputs outputs sts st, x.Holds tr t) ↔
      tr.state t = sts.length ∧ (∀ a ∈ inputs, tr.val t (txt!"v_" ++ a) = value st a) ∧ ∀ a ∈ outputs, tr.val t (txt!"i_" ++ a) = value st a := by
  rw [startTests, List.forall_mem_cons, List.forall_mem_append, lits_iff, lits_iff]; rfl

theorem mem_edges {sts : List PState} {i k : Nat} : (i, k) ∈ edges sts ↔ i < sts.length ∧ k ∈ (nth sts i).succ := by
  simp only [edges, List.mem_flatMap, List.mem_map, Prod.mk.injEq]
  constructor
  · rintro ⟨⟨st, j⟩, he, k', hk, rfl, rfl⟩
    obtain ⟨hj, e⟩ := List.mem_zipIdx' he
    refine ⟨hj, ?_⟩
    have : nth sts j = st := by simp [nth, hj]; exact e.symm
    rwa [this]
  · rintro ⟨hi, hk⟩
    refine ⟨(nth sts i, i), ?_, k, hk, rfl, rfl⟩
    rw [List.mem_zipIdx_iff_getElem?]
    simp [nth, hi]

theorem mem_alike {sts : List PState} {st : PState} {j : Nat} : j ∈ alike sts st ↔ j < sts.length ∧ sameValues (valuation st) (valuation (nth sts j)) = true := by
  simp only [alike, List.mem_map, List.mem_filter]
  constructor
  · rintro ⟨⟨st', j'⟩, ⟨he, hs⟩, rfl⟩
    obtain ⟨hj, e⟩ := List.mem_zipIdx' he
    have : nth sts j' = st' := by simp [nth, hj]; exact e.symm
    exact ⟨hj, by rwa [this]⟩
  · rintro ⟨hj, hs⟩
    refine ⟨(nth sts j, j), ⟨?_, hs⟩, rfl⟩
    rw [List.mem_zipIdx_iff_getElem?]
    simp [nth, hj]

theorem same_iff {sp : SpecFile} (hn : (sp.inputs ++ sp.outputs).Nodup) {st st' : PState} (h : st.Complete sp) (h' : st'.Complete sp) :
    sameValues (valuation st) (valuation st') = true ↔ ∀ a ∈ sp.inputs ++ sp.outputs, value st a = value st' a := by
  have hl : (valuation st).length = (valuation st').length := by
    have := h.length_eq.trans h'.length_eq.symm
    simpa [valuation] using this
  have inj : ∀ b b', bitInt b = bitInt b' → b = b' := by decide
  have nd : (st.label.map Prod.fst).Nodup := h.nodup_iff.mpr hn
  rw [sameValues, decide_eq_true_iff]
  constructor
  · rintro ⟨_, hs⟩ a ha
    have ha1 := h.mem_iff.mpr ha
    have ha2 := h'.mem_iff.mpr ha
    obtain ⟨e, he, rfl⟩ := List.mem_map.mp ha1
    have := hs (e.1, bitInt e.2) (List.mem_map.mpr ⟨e, he, rfl⟩)
    rw [lookup_bit ha2, Option.some.injEq] at this
    have h3 := lookup_value ha1
    rw [lookup_of_mem nd (b := e.2) he, Option.some.injEq] at h3
    rw [← h3]
    exact (inj _ _ this).symm
  · intro hv
    refine ⟨hl, fun e he => ?_⟩
    obtain ⟨l, hl', rfl⟩ := List.mem_map.mp he
    have ha1 : l.1 ∈ st.label.map Prod.fst := List.mem_map_of_mem hl'
    have ha := h.mem_iff.mp ha1
    have h3 := lookup_value ha1
    rw [lookup_of_mem nd (b := l.2) hl', Option.some.injEq] at h3
    rw [lookup_bit (h'.mem_iff.mpr ha), ← hv l.1 ha, ← h3]

/-! ### Steps -/

/-- What a step of the module is: a transition of the automaton, the choice of an initial state, or neither. -/
theorem step_cases {sp : SpecFile} {sts : List PState} (hf : Fits sp sts) (hn : (sp.inputs ++ sp.outputs).Nodup) {tr : Trace} (hr : (theModule sp sts).Run tr) (t : Nat) :
    (∃ e ∈ edges sts, tr.state t = e.1 ∧ tr.state (t + 1) = e.2 ∧ posAt sp tr t = (nth sts e.2).pos sp) ∨
    ((∀ e ∈ edges sts, ¬ (tr.state t = e.1 ∧ ∀ a ∈ sp.inputs, tr.val t (txt!"v_" ++ a) = value (nth sts e.2) a)) ∧
      ((tr.state t = sts.length ∧ tr.state (t + 1) < sts.length ∧ posAt sp tr t = (nth sts (tr.state (t + 1))).pos sp) ∨
        (tr.state t < sts.length ∧ tr.state (t + 1) < sts.length) ∨ tr.state (t + 1) = sts.length)) := by
  obtain ⟨_, hs⟩ := hr
  obtain ⟨⟨ns, hp, hm⟩, ho⟩ := hs t
  have hp' : Picks tr t (edgeBranches sp.inputs sts id ++ (startBranches sp.inputs sp.outputs sts (fun st => .among txt!"," (alike sts st)) ++ _)) ns := hp
  have ho' : ∀ y ∈ sp.outputs, ∃ bs, Picks tr t (outputBranches sp.inputs sp.outputs sts y) bs ∧ tr.val (t + 1) (txt!"v_" ++ y) ∈ bs := fun y hy =>
    ho (txt!"v_" ++ y, outputBranches sp.inputs sp.outputs sts y) (List.mem_map.mpr ⟨y, hy, rfl⟩)
  simp only [outputBranches, edgeBranches] at ho' hp'
  rcases picks_iff.mp hp' with ⟨e, he, rfl⟩ | ⟨he, hp2⟩
  · left
    obtain ⟨h1, h2⟩ := firstOf_some he
    obtain ⟨h3, h4⟩ := edgeTests_iff.mp h2
    simp only [Choice.values, id_eq, List.mem_singleton] at hm
    refine ⟨e, h1, h3, hm, Prod.ext ?_ ?_⟩
    · funext x; exact h4 x.1 x.2
    · funext y
      obtain ⟨bs, hb, hmem⟩ := ho' y.1 y.2
      rcases picks_iff.mp hb with ⟨e', he', rfl⟩ | ⟨he', _⟩
      · rw [he, Option.some.injEq] at he'
        subst he'
        simp only [Choice.values, List.mem_singleton] at hmem
        exact hmem
      · rw [he] at he'; cases he'
  · right
    refine ⟨fun e hm => by rw [← edgeTests_iff]; exact firstOf_none.mp he e hm, ?_⟩
    simp only [startBranches] at hp2 ho'
    rcases picks_iff.mp hp2 with ⟨st, hst, rfl⟩ | ⟨hst, hp3⟩
    · left
      obtain ⟨h1, h2⟩ := firstOf_some hst
      obtain ⟨h3, h4, _⟩ := startTests_iff.mp h2
      obtain ⟨h5, h6⟩ := mem_alike.mp hm
      have h7 := (same_iff hn (hf.labels st h1) (hf.labels _ (nth_mem h5))).mp h6
      refine ⟨h3, h5, Prod.ext ?_ ?_⟩
      · funext x
        exact (h4 x.1 x.2).trans (h7 x.1 (by simp [x.2]))
      · funext y
        obtain ⟨bs, hb, hmem⟩ := ho' y.1 y.2
        rcases picks_iff.mp hb with ⟨e', he', _⟩ | ⟨_, hb2⟩
        · rw [he] at he'; cases he'
        · rcases picks_iff.mp hb2 with ⟨st', hst', rfl⟩ | ⟨hst', _⟩
          · rw [hst, Option.some.injEq] at hst'
            subst hst'
            simp only [Choice.values, List.mem_singleton] at hmem
            exact hmem.trans (h7 y.1 (by simp [y.2]))
          · rw [hst] at hst'; cases hst'
    · right
      rw [picks_rest] at hp3
      subst hp3
      by_cases h : tr.state t < sts.length
      · rw [if_pos h] at hm
        exact .inl ⟨h, by simpa [Choice.values] using hm⟩
      · rw [if_neg h] at hm
        exact .inr (by simpa [Choice.values] using hm)

/-! ### From runs of the automaton -/

/-- Numbers of states are their places. -/
theorem num_lt {sts : List PState} (h : sts.map PState.num = List.range sts.length) {st : PState} (hm : st ∈ sts) : st.num < sts.length := by
  have : st.num ∈ sts.map PState.num := List.mem_map_of_mem hm
  rwa [h, List.mem_range] at this

theorem nth_num {sts : List PState} (h : sts.map PState.num = List.range sts.length) {k : Nat} (hk : k < sts.length) : (nth sts k).num = k := by
  have h1 : (sts.map PState.num)[k]? = some k := by rw [h]; simp [hk]
  have h2 : nth sts k = sts[k] := by simp [nth, hk]
  rw [h2]
  simpa [hk] using h1

theorem nth_of_num {sts : List PState} (h : sts.map PState.num = List.range sts.length) {st : PState} (hm : st ∈ sts) : nth sts st.num = st := by
  obtain ⟨k, hk, rfl⟩ := List.getElem_of_mem hm
  have h2 : nth sts k = sts[k] := by simp [nth, hk]
  rw [← h2, nth_num h hk]

/-- The number of the state that is reached after some steps, if the inputs are those of `r`. -/
def follow (inputs : List Word) (sts : List PState) (r : Nat → PState) : Nat → Nat
  | 0 => sts.length
  | 1 => (r 0).num
  | t + 2 =>
    match (edges sts).find? fun e => follow inputs sts r (t + 1) = e.1 ∧ ∀ a ∈ inputs, value (r (t + 1)) a = value (nth sts e.2) a with
    | some e => e.2
    | none => 0

/-- The execution of the module for a run of the automaton. -/
def traceOf (inputs : List Word) (sts : List PState) (r : Nat → PState) : Trace where
  val t w := match w with
    | 'v' :: '_' :: x => if x ∈ inputs then value (r t) x else value (nth sts (follow inputs sts r t)) x
    | 'i' :: '_' :: y => value (r 0) y
    | _ => false
  state := follow inputs sts r

section

variable {sp : SpecFile} {sts : List PState}

theorem trace_input {inputs : List Word} (r : Nat → PState) (t : Nat) {x : Word} (h : x ∈ inputs) : (traceOf inputs sts r).val t (txt!"v_" ++ x) = value (r t) x := by
  simp [traceOf, h]

theorem trace_output {inputs : List Word} (r : Nat → PState) (t : Nat) {y : Word} (h : y ∉ inputs) :
    (traceOf inputs sts r).val t (txt!"v_" ++ y) = value (nth sts (follow inputs sts r t)) y := by
  simp [traceOf, h]

theorem trace_initial {inputs : List Word} (r : Nat → PState) (t : Nat) (y : Word) : (traceOf inputs sts r).val t (txt!"i_" ++ y) = value (r 0) y := by
  simp [traceOf]

theorem follow_lt (hf : Fits sp sts) (hnum : sts.map PState.num = List.range sts.length) {inputs : List Word} {r : Nat → PState} (h0 : r 0 ∈ sts) :
    ∀ t, follow inputs sts r (t + 1) < sts.length
  | 0 => num_lt hnum h0
  | t + 1 => by
    rw [follow]
    split
    · rename_i e he
      have := List.mem_of_find?_eq_some he
      obtain ⟨h1, h2⟩ := mem_edges.mp (show (e.1, e.2) ∈ edges sts from this)
      exact hf.targets _ (nth_mem h1) _ h2
    · exact List.length_pos_of_mem h0

theorem firstOf_follow {r : Nat → PState} (t : Nat) : firstOf (traceOf sp.inputs sts r) (t + 1) (edgeTests sp.inputs sts) (edges sts) =
    (edges sts).find? fun e => follow sp.inputs sts r (t + 1) = e.1 ∧ ∀ a ∈ sp.inputs, value (r (t + 1)) a = value (nth sts e.2) a := by
  rw [firstOf]
  congr 1
  funext e
  rw [decide_eq_decide, edgeTests_iff]
  refine and_congr Iff.rfl (forall_congr' fun a => forall_congr' fun ha => ?_)
  rw [trace_input r (t + 1) ha]

theorem trace_run (hf : Fits sp sts) (hn : (sp.inputs ++ sp.outputs).Nodup) (hnum : sts.map PState.num = List.range sts.length) {r : Nat → PState} (h0 : r 0 ∈ sts) :
    (theModule sp sts).Run (traceOf sp.inputs sts r) := by
  have out : ∀ y ∈ sp.outputs, y ∉ sp.inputs := fun y hy hm => (List.nodup_append.mp hn).2.2 y hm y hy rfl
  refine ⟨rfl, fun t => ?_⟩
  cases t with
  | zero =>
    have n1 : firstOf (traceOf sp.inputs sts r) 0 (edgeTests sp.inputs sts) (edges sts) = none := firstOf_none.mpr fun e he h => by
      have h1 := (edgeTests_iff.mp h).1
      have h2 := (mem_edges.mp (show (e.1, e.2) ∈ edges sts from he)).1
      have h3 : (traceOf sp.inputs sts r).state 0 = sts.length := rfl
      omega
    obtain ⟨st, hst⟩ : ∃ st, firstOf (traceOf sp.inputs sts r) 0 (startTests sp.inputs sp.outputs sts) sts = some st := by
      cases h : firstOf (traceOf sp.inputs sts r) 0 (startTests sp.inputs sp.outputs sts) sts with
      | some st => exact ⟨st, rfl⟩
      | none =>
        refine absurd (startTests_iff.mpr ⟨rfl, fun a ha => ?_, fun a ha => ?_⟩) (firstOf_none.mp h (r 0) h0)
        · exact trace_input r 0 ha
        · exact trace_initial r 0 a
    obtain ⟨hm, ht⟩ := firstOf_some hst
    obtain ⟨_, h1, h2⟩ := startTests_iff.mp ht
    have hv : ∀ a ∈ sp.inputs ++ sp.outputs, value st a = value (r 0) a := by
      intro a ha
      rcases List.mem_append.mp ha with ha | ha
      · rw [← h1 a ha, trace_input r 0 ha]
      · rw [← h2 a ha, trace_initial r 0 a]
    constructor
    · refine ⟨_, picks_iff.mpr (.inr ⟨n1, picks_iff.mpr (.inl ⟨st, hst, rfl⟩)⟩), ?_⟩
      refine mem_alike.mpr ⟨num_lt hnum h0, ?_⟩
      change sameValues (valuation st) (valuation (nth sts (r 0).num)) = true
      rw [same_iff hn (hf.labels st hm) (hf.labels _ (nth_mem (num_lt hnum h0)))]
      rw [nth_of_num hnum h0]
      exact hv
    · intro e he
      obtain ⟨y, hy, rfl⟩ := List.mem_map.mp he
      refine ⟨_, picks_iff.mpr (.inr ⟨n1, picks_iff.mpr (.inl ⟨st, hst, rfl⟩)⟩), ?_⟩
      rw [trace_output r 1 (out y hy)]
      have : follow sp.inputs sts r 1 = (r 0).num := rfl
      rw [this, nth_of_num hnum h0]
      simp [Choice.values, hv y (by simp [hy])]
  | succ t =>
    have hlt := follow_lt (sp := sp) hf hnum (inputs := sp.inputs) h0 t
    have hff := firstOf_follow (sp := sp) (sts := sts) (r := r) t
    cases hfo : firstOf (traceOf sp.inputs sts r) (t + 1) (edgeTests sp.inputs sts) (edges sts) with
    | some e =>
      rw [hfo] at hff
      have hst : follow sp.inputs sts r (t + 2) = e.2 := by rw [follow, ← hff]
      constructor
      · refine ⟨_, picks_iff.mpr (.inl ⟨e, hfo, rfl⟩), ?_⟩
        change follow sp.inputs sts r (t + 2) ∈ [e.2]
        rw [hst]; simp
      · intro e' he'
        obtain ⟨y, hy, rfl⟩ := List.mem_map.mp he'
        refine ⟨_, picks_iff.mpr (.inl ⟨e, hfo, rfl⟩), ?_⟩
        rw [trace_output r (t + 2) (out y hy), hst]
        simp [Choice.values]
    | none =>
      rw [hfo] at hff
      have hst : follow sp.inputs sts r (t + 2) = 0 := by rw [follow, ← hff]
      have n2 : firstOf (traceOf sp.inputs sts r) (t + 1) (startTests sp.inputs sp.outputs sts) sts = none := firstOf_none.mpr fun st _ h => by
        have h1 : follow sp.inputs sts r (t + 1) = sts.length := (startTests_iff.mp h).1
        omega
      constructor
      · refine ⟨_, picks_iff.mpr (.inr ⟨hfo, picks_iff.mpr (.inr ⟨n2, picks_rest.mpr rfl⟩)⟩), ?_⟩
        change follow sp.inputs sts r (t + 2) ∈ if follow sp.inputs sts r (t + 1) < sts.length then _ else _
        rw [if_pos hlt, hst]
        simp [Choice.values, List.length_pos_of_mem h0]
      · intro e' he'
        obtain ⟨y, hy, rfl⟩ := List.mem_map.mp he'
        refine ⟨_, picks_iff.mpr (.inr ⟨hfo, picks_iff.mpr (.inr ⟨n2, picks_otherwise.mpr rfl⟩)⟩), ?_⟩
        cases (traceOf sp.inputs sts r).val (t + 1 + 1) (txt!"v_" ++ y) <;> simp [Choice.values]

theorem follow_run (hf : Fits sp sts) (hnum : sts.map PState.num = List.range sts.length) (hd : Deterministic sp sts) {r : Nat → PState} {n : Nat} (h : AllowedRun sp sts r n) :
    ∀ k ≤ n, r k ∈ sts ∧ follow sp.inputs sts r (k + 1) = (r k).num
  | 0, _ => ⟨h.start.1, rfl⟩
  | k + 1, hk => by
    obtain ⟨h1, h2⟩ := follow_run hf hnum hd h k (by omega)
    have he := (h.steps k (by omega)).1
    refine ⟨he.2.1, ?_⟩
    rw [follow]
    split
    · rename_i e hfe
      have hm := List.mem_of_find?_eq_some hfe
      have hp := List.find?_some hfe
      simp only [decide_eq_true_eq] at hp
      obtain ⟨h3, h4⟩ := mem_edges.mp (show (e.1, e.2) ∈ edges sts from hm)
      have h5 := hf.targets _ (nth_mem h3) _ h4
      have h6 : nth sts e.1 = r k := by rw [← hp.1, h2, nth_of_num hnum h1]
      have h7 : nth sts e.2 = r (k + 1) := by
        refine hd (r k) _ _ ⟨h1, nth_mem h5, ?_⟩ he ?_
        · rw [nth_num hnum h5, ← h6]; exact h4
        · funext x; exact (hp.2 x.1 x.2).symm
      rw [← h7, nth_num hnum h5]
    · rename_i hfe
      exfalso
      have := List.find?_eq_none.mp hfe ((r k).num, (r (k + 1)).num) (mem_edges.mpr ⟨num_lt hnum h1, by rw [nth_of_num hnum h1]; exact he.2.2⟩)
      refine this ?_
      simp only [decide_eq_true_eq]
      exact ⟨h2, fun a _ => by rw [nth_of_num hnum he.2.1]⟩

theorem trace_pos (hf : Fits sp sts) (hn : (sp.inputs ++ sp.outputs).Nodup) (hnum : sts.map PState.num = List.range sts.length) (hd : Deterministic sp sts) {r : Nat → PState} {n : Nat}
    (h : AllowedRun sp sts r n) {k : Nat} (hk : k ≤ n) : posAt sp (traceOf sp.inputs sts r) k = (r k).pos sp := by
  obtain ⟨h1, h2⟩ := follow_run hf hnum hd h k hk
  refine Prod.ext (funext fun x => trace_input r k x.2) (funext fun y => ?_)
  refine (trace_output r (k + 1) fun hm => (List.nodup_append.mp hn).2.2 y.1 hm y.1 y.2 rfl).trans ?_
  rw [h2, nth_of_num hnum h1]
  rfl

/-! ### Passing -/

theorem init_trace (h : Lines sp) (hf : Fits sp sts) (hn : (sp.inputs ++ sp.outputs).Nodup) (hnum : sts.map PState.num = List.range sts.length) (hd : Deterministic sp sts)
    {r : Nat → PState} {n : Nat} (ha : AllowedRun sp sts r n) : (allInit sp sts.length).Holds (traceOf sp.inputs sts r) 0 := by
  rw [init_iff h, trace_pos hf hn hnum hd ha (Nat.zero_le _)]
  refine ⟨ha.start.2.1, ha.start.2.2, ?_⟩
  have := num_lt hnum ha.start.1
  change (r 0).num ≠ sts.length
  omega

theorem safe_of_passes (h : Lines sp) (hf : Fits sp sts) (hn : (sp.inputs ++ sp.outputs).Nodup) (hnum : sts.map PState.num = List.range sts.length) (hd : Deterministic sp sts)
    (hp : (theModule sp sts).Passes) : SafeRuns sp sts := by
  intro r n ha k hk φ hφ
  have hr := trace_run hf hn hnum ha.start.1
  have hs := hp (safetySpec sp sts.length φ) (List.mem_append_left _ (List.mem_map_of_mem hφ)) _ hr (init_trace h hf hn hnum hd ha)
  have env : ∀ v < n, (allSafety sp).Holds (traceOf sp.inputs sts r) v := fun v hv => by
    rw [safety_iff h, trace_pos hf hn hnum hd ha (by omega), trace_pos hf hn hnum hd ha (by omega)]
    exact (ha.steps v hv).2
  rcases hs k (Nat.zero_le _) (fun v _ hv hne => hne (env v (by omega))) with hg | hg
  · rw [ltl_iff h.unambiguous _ _ (h.basic φ (mem_constraints (by simp [hφ]))) (h.wellScoped.sysTrans φ hφ), trace_pos hf hn hnum hd ha (by omega),
      trace_pos hf hn hnum hd ha (by omega)] at hg
    exact hg
  · exact absurd (env k hk) hg

theorem liveness_holds (h : Lines sp) (tr : Trace) : (allLiveness sp).Holds tr 0 ↔ ∀ a ∈ sp.game.assumptions, InfOften a (posAt sp tr) := by
  rw [allLiveness, holds_conj]
  simp only [List.mem_map, forall_exists_index, and_imp, forall_apply_eq_imp_iff₂, SpecFile.game]
  refine forall_congr' fun φ => forall_congr' fun hφ => ?_
  have e : ∀ u, (ltlOf sp.inputs sp.outputs φ).Holds tr u ↔ sp.holds (posAt sp tr u) (posAt sp tr (u + 1)) φ := fun u =>
    ltl_iff h.unambiguous tr u (h.basic φ (mem_constraints (by simp [hφ]))) (h.wellScoped.envLiveness φ hφ)
  simp only [Ltl.Holds, e, InfOften, ge_iff_le, Nat.zero_le, forall_const]

theorem live_of_passes (h : Lines sp) (hf : Fits sp sts) (hn : (sp.inputs ++ sp.outputs).Nodup) (hnum : sts.map PState.num = List.range sts.length) (hd : Deterministic sp sts)
    (hp : (theModule sp sts).Passes) : LiveRunsInit sp sts := by
  intro r ha has b hb
  obtain ⟨φ, hφ, rfl⟩ := List.mem_map.mp hb
  have hr := trace_run hf hn hnum (ha 0).start.1
  have epos : posAt sp (traceOf sp.inputs sts r) = fun n => (r n).pos sp := funext fun k => trace_pos hf hn hnum hd (ha k) (Nat.le_refl _)
  have env : ∀ v, (allSafety sp).Holds (traceOf sp.inputs sts r) v := fun v => by
    rw [safety_iff h, epos]
    exact ((ha (v + 1)).steps v (by omega)).2
  have hs := hp (livenessSpec sp sts.length φ) (List.mem_append_right _ (List.mem_map_of_mem hφ)) _ hr
    ⟨⟨init_trace h hf hn hnum hd (ha 0), fun u _ => env u⟩, by rw [liveness_holds h, epos]; exact has⟩
  intro n
  obtain ⟨u, hu, hg⟩ := hs n (Nat.zero_le _)
  refine ⟨u, hu, ?_⟩
  rw [ltl_iff h.unambiguous _ _ (h.basic φ (mem_constraints (by simp [hφ]))) (h.wellScoped.sysLiveness φ hφ), epos] at hg
  exact hg

/-! ### Conversely -/

theorem run_state (hf : Fits sp sts) (hn : (sp.inputs ++ sp.outputs).Nodup) {tr : Trace} (hr : (theModule sp sts).Run tr) (h1 : tr.state 1 ≠ sts.length) :
    tr.state 1 < sts.length ∧ posAt sp tr 0 = (nth sts (tr.state 1)).pos sp := by
  have h0 : tr.state 0 = sts.length := hr.1
  rcases step_cases hf hn hr 0 with ⟨e, he, h2, _, _⟩ | ⟨_, h2 | h2 | h2⟩
  · have := (mem_edges.mp (show (e.1, e.2) ∈ edges sts from he)).1
    omega
  · exact h2.2
  · omega
  · exact absurd h2 h1

theorem run_follows (h : Lines sp) (hf : Fits sp sts) (hn : (sp.inputs ++ sp.outputs).Nodup) (hnum : sts.map PState.num = List.range sts.length) (hc : Complete sp sts)
    {tr : Trace} (hr : (theModule sp sts).Run tr) (h1 : tr.state 1 ≠ sts.length) : ∀ n, (∀ v < n, (allSafety sp).Holds tr v) →
      ∀ k ≤ n, tr.state (k + 1) < sts.length ∧ posAt sp tr k = (nth sts (tr.state (k + 1))).pos sp ∧ (0 < k → Edge sts (nth sts (tr.state k)) (nth sts (tr.state (k + 1))))
  | n, hs, 0, _ => by
    obtain ⟨a, b⟩ := run_state hf hn hr h1
    exact ⟨a, b, fun h => absurd h (by omega)⟩
  | n, hs, k + 1, hk => by
    obtain ⟨h2, h3, _⟩ := run_follows h hf hn hnum hc hr h1 n hs k (by omega)
    have h4 := hs k (by omega)
    rw [safety_iff h, h3] at h4
    obtain ⟨st', he, hi⟩ := hc _ (nth_mem h2) _ h4
    rcases step_cases hf hn hr (k + 1) with ⟨e, hm, h5, h6, h7⟩ | ⟨hno, _⟩
    · obtain ⟨_, h9⟩ := mem_edges.mp (show (e.1, e.2) ∈ edges sts from hm)
      rw [← h5] at h9
      have h10 := hf.targets _ (nth_mem h2) _ h9
      rw [h6]
      exact ⟨h10, h7, fun _ => ⟨nth_mem h2, nth_mem h10, by rw [nth_num hnum h10]; exact h9⟩⟩
    · exfalso
      refine hno (tr.state (k + 1), st'.num) (mem_edges.mpr ⟨h2, he.2.2⟩) ⟨rfl, fun a ha => ?_⟩
      rw [nth_of_num hnum he.2.1]
      exact (congrFun hi ⟨a, ha⟩).symm

theorem allowed_of_run (h : Lines sp) (hf : Fits sp sts) (hn : (sp.inputs ++ sp.outputs).Nodup) (hnum : sts.map PState.num = List.range sts.length) (hc : Complete sp sts)
    {tr : Trace} (hr : (theModule sp sts).Run tr) (hi : (allInit sp sts.length).Holds tr 0) {n : Nat} (hs : ∀ v < n, (allSafety sp).Holds tr v) :
    AllowedRun sp sts (fun k => nth sts (tr.state (k + 1))) n ∧ ∀ k ≤ n, posAt sp tr k = (nth sts (tr.state (k + 1))).pos sp := by
  obtain ⟨i1, i2, i3⟩ := (init_iff h tr _).mp hi
  have hfw := run_follows h hf hn hnum hc hr i3 n hs
  refine ⟨⟨⟨nth_mem (hfw 0 (Nat.zero_le _)).1, ?_, ?_⟩, fun k hk => ⟨(hfw (k + 1) hk).2.2 (by omega), ?_⟩⟩, fun k hk => (hfw k hk).2.1⟩
  · rw [← (hfw 0 (Nat.zero_le _)).2.1]; exact i1
  · rw [← (hfw 0 (Nat.zero_le _)).2.1]; exact i2
  · have := (safety_iff h tr k).mp (hs k hk)
    rw [(hfw k (by omega)).2.1, (hfw (k + 1) hk).2.1] at this
    exact this

theorem passes_of (h : Lines sp) (hf : Fits sp sts) (hn : (sp.inputs ++ sp.outputs).Nodup) (hnum : sts.map PState.num = List.range sts.length) (hc : Complete sp sts)
    (hsafe : SafeRuns sp sts) (hlive : LiveRunsInit sp sts) : (theModule sp sts).Passes := by
  intro f hm tr hr
  rcases List.mem_append.mp hm with hm | hm
  · obtain ⟨φ, hφ, rfl⟩ := List.mem_map.mp hm
    intro hi u _ hu
    by_cases hS : (allSafety sp).Holds tr u
    · left
      obtain ⟨ha, hpos⟩ := allowed_of_run h hf hn hnum hc hr hi (n := u + 1) fun v hv => by
        rcases Nat.lt_or_ge v u with hv' | hv'
        · exact not_not.mp (hu v (Nat.zero_le _) hv')
        · rwa [show v = u by omega]
      have := hsafe _ _ ha u (by omega) φ hφ
      rw [ltl_iff h.unambiguous _ _ (h.basic φ (mem_constraints (by simp [hφ]))) (h.wellScoped.sysTrans φ hφ), hpos u (by omega), hpos (u + 1) (by omega)]
      exact this
    · exact .inr hS
  · obtain ⟨φ, hφ, rfl⟩ := List.mem_map.mp hm
    rintro ⟨⟨hi, hS⟩, hL⟩ n _
    have hall := fun n => allowed_of_run h hf hn hnum hc hr hi (n := n) fun v _ => hS v (Nat.zero_le _)
    have epos : posAt sp tr = fun k => (nth sts (tr.state (k + 1))).pos sp := funext fun k => (hall k).2 k (Nat.le_refl _)
    rw [liveness_holds h, epos] at hL
    obtain ⟨u, hu, hg⟩ := hlive _ (fun n => (hall n).1) hL _ (List.mem_map_of_mem hφ) n
    refine ⟨u, hu, ?_⟩
    rw [ltl_iff h.unambiguous _ _ (h.basic φ (mem_constraints (by simp [hφ]))) (h.wellScoped.sysLiveness φ hφ), epos]
    exact hg

end

end Slugs.Model.NuSmv
