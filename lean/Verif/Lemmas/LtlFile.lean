import Verif.Lemmas.LtlCompile
import Verif.Lemmas.ResilienceInfty
import Verif.Props.Estimator
import Verif.Lemmas.NuSmvRun

/-!
The output of the translators from LTLMop and RATSY, and what it means.
-/

namespace Slugs.Model.LtlText

open Slugs.Spec Slugs.Spec.LtlText
open Slugs.Model.Structured (join)

/-! ### Conjuncts and their kinds -/

theorem conjuncts_self {f : Ltl} (h : ∀ f1 f2, f ≠ .and f1 f2) : f.conjuncts = [f] := by
  cases f with
  | and f1 f2 => exact absurd rfl (h f1 f2)
  | _ => rfl

theorem part_conjuncts (f : Ltl) : ∀ cs, Part .Conjunction (Reps f) cs → List.Forall₂ Reps f.conjuncts cs := by
  have other : ∀ f : Ltl, (∀ f1 f2, f ≠ .and f1 f2) → ∀ cs, Part .Conjunction (Reps f) cs → List.Forall₂ Reps f.conjuncts cs := by
    rintro f hf cs (h | ⟨v, rfl, h, _⟩)
    · obtain ⟨f1, f2, rfl⟩ := reps_con_inv (k := true) h
      exact absurd rfl (hf f1 f2)
    · rw [conjuncts_self hf]
      exact .cons h .nil
  induction f with
  | and f1 f2 i1 i2 =>
    rintro cs (h | ⟨v, rfl, h, hv⟩)
    · obtain ⟨cs', ds, e, h1, h2⟩ := h
      obtain rfl : cs = cs' ++ ds := by injection e
      exact List.rel_append (i1 _ h1) (i2 _ h2)
    · obtain ⟨cs', ds, e, _⟩ := h
      exact absurd e (hv _)
  | _ => exact other _ (by simp)

theorem conjunctsOf_spec {f : Ltl} {T : Tree} (h : FormulaTree f T) : ∃ cs, conjunctsOf T = some cs ∧ List.Forall₂ Reps f.conjuncts cs := by
  obtain ⟨V, e, rfl, h⟩ := h
  by_cases hv : ∃ ds, V = .node .Conjunction ds
  · obtain ⟨ds, rfl⟩ := hv
    exact ⟨ds, by simp [conjunctsOf], part_conjuncts f ds (.inl h)⟩
  · refine ⟨[V], ?_, part_conjuncts f _ (.inr ⟨V, rfl, h, fun ds e => hv ⟨ds, e⟩⟩)⟩
    cases V with
    | leaf t => simp [conjunctsOf]
    | node X ds =>
      cases X with
      | Conjunction => exact absurd ⟨ds, rfl⟩ hv
      | _ => simp [conjunctsOf]

/-- Whether the formula in a conjunct is about the next step. -/
def later (nx : Bool) (c : Ltl) : Bool := decide (c.role.1 = .liveness) && nx

theorem classify_spec {c : Ltl} {u : Tree} (h : Reps c u) (atoms : Atoms) (nx : Bool) :
    ∃ r, Reps c.role.2 r ∧ classify atoms nx u = (simple atoms r (later nx c)).map (c.role.1, ·) := by
  cases c with
  | globally f =>
    obtain ⟨os, r, rfl, h⟩ := h
    cases f with
    | eventually g =>
      obtain ⟨os', r', rfl, h⟩ := h
      exact ⟨r', h, by simp [classify, later, Ltl.role]⟩
    | _ =>
      refine ⟨r, h, ?_⟩
      simp only [Reps] at h
      first
        | (obtain ⟨_, rfl, _⟩ := h; simp [classify, later, Ltl.role]; done)
        | (obtain ⟨_, _, rfl, _⟩ := h; simp [classify, later, Ltl.role]; done)
        | (obtain ⟨_, _, _, rfl, _⟩ := h; simp [classify, later, Ltl.role]; done)
  | _ =>
    refine ⟨u, h, ?_⟩
    simp only [Reps] at h
    first
      | (obtain ⟨_, rfl, _⟩ := h; simp [classify, later, Ltl.role]; done)
      | (obtain ⟨_, _, rfl, _⟩ := h; simp [classify, later, Ltl.role]; done)
      | (obtain ⟨_, _, _, rfl, _⟩ := h; simp [classify, later, Ltl.role]; done)

/-- Conjuncts with their translations. -/
structure Translated (st : Style) (nx : Bool) (cs : List Ltl) (qs : List (Ltl × Fml)) : Prop where
  of : cs = qs.map Prod.fst
  tr : ∀ q ∈ qs, Tr st q.1.role.2 (later nx q.1) q.2

/-- The properties in the translation. -/
def props (qs : List (Ltl × Fml)) : List (Kind × List Word) := qs.map fun q => (q.1.role.1, q.2.words)

theorem classify_all {st : Style} {atoms : Atoms} (hs : st.Of atoms) (nx : Bool) : ∀ {cs : List Ltl} {us : List Tree}, List.Forall₂ Reps cs us →
    ((∀ c ∈ cs, Can st c.role.2 (later nx c)) ∧ ∃ qs, Translated st nx cs qs ∧ us.mapM (classify atoms nx) = some (props qs)) ∨
      ((∃ c ∈ cs, ¬ Can st c.role.2 (later nx c)) ∧ us.mapM (classify atoms nx) = none)
  | [], _, h => by
    cases h
    exact .inl ⟨by simp, [], ⟨rfl, by simp⟩, rfl⟩
  | c :: cs, _, h => by
    cases h with
    | @cons _ u _ us h1 h2 =>
      obtain ⟨r, hr, e⟩ := classify_spec h1 atoms nx
      rw [List.mapM_cons, e]
      rcases (translates hs c.role.2).1 r (later nx c) hr with ⟨e1, φ, r1, t⟩ | ⟨e1, r1⟩
      · rcases classify_all hs nx h2 with ⟨e2, qs, t2, r2⟩ | ⟨⟨d, hd, e2⟩, r2⟩
        · refine .inl ⟨List.forall_mem_cons.mpr ⟨e1, e2⟩, (c, φ) :: qs, ⟨by rw [t2.of]; rfl, List.forall_mem_cons.mpr ⟨t, t2.tr⟩⟩, ?_⟩
          rw [r1, r2]; rfl
        · refine .inr ⟨⟨d, List.mem_cons_of_mem _ hd, e2⟩, ?_⟩
          rw [r1, r2]; rfl
      · refine .inr ⟨⟨c, List.mem_cons_self, e1⟩, ?_⟩
        rw [r1]; rfl

theorem conjuncts_all : ∀ {fs : List Ltl} {Ts : List Tree}, List.Forall₂ FormulaTree fs Ts →
    ∃ css, Ts.mapM conjunctsOf = some css ∧ List.Forall₂ Reps (fs.flatMap Ltl.conjuncts) css.flatten
  | [], _, h => by
    cases h
    exact ⟨[], rfl, .nil⟩
  | f :: fs, _, h => by
    cases h with
    | @cons _ T _ Ts h1 h2 =>
      obtain ⟨cs, e1, r1⟩ := conjunctsOf_spec h1
      obtain ⟨css, e2, r2⟩ := conjuncts_all h2
      refine ⟨cs :: css, by rw [List.mapM_cons, e1, e2]; rfl, ?_⟩
      rw [List.flatMap_cons, List.flatten_cons]
      exact List.rel_append r1 r2

theorem propertiesOf_spec {st : Style} {atoms : Atoms} (hs : st.Of atoms) (nx : Bool) {fs : List Ltl} {Ts : List Tree} (h : List.Forall₂ FormulaTree fs Ts) :
    ((∀ c ∈ fs.flatMap Ltl.conjuncts, Can st c.role.2 (later nx c)) ∧ ∃ qs, Translated st nx (fs.flatMap Ltl.conjuncts) qs ∧ propertiesOf atoms nx Ts = some (props qs)) ∨
      ((∃ c ∈ fs.flatMap Ltl.conjuncts, ¬ Can st c.role.2 (later nx c)) ∧ propertiesOf atoms nx Ts = none) := by
  obtain ⟨css, e, r⟩ := conjuncts_all h
  have : propertiesOf atoms nx Ts = css.flatten.mapM (classify atoms nx) := by rw [propertiesOf, e]; rfl
  rw [this]
  exact classify_all hs nx r

theorem lits_role (ok : Word → Option Bool → Prop) (c : Ltl) : Lits ok c.role.2 ↔ Lits ok c := by
  cases c with
  | globally f => cases f <;> exact Iff.rfl
  | _ => exact Iff.rfl

theorem lits_conjuncts (ok : Word → Option Bool → Prop) (f : Ltl) : Lits ok f ↔ ∀ c ∈ f.conjuncts, Lits ok c := by
  induction f with
  | and f g i1 i2 => rw [Lits, i1, i2, Ltl.conjuncts, List.forall_mem_append]
  | _ => simp [Ltl.conjuncts]

theorem can_all (st : Style) (nx : Bool) (fs : List Ltl) :
    (∀ c ∈ fs.flatMap Ltl.conjuncts, Can st c.role.2 (later nx c)) ↔ ∀ f ∈ fs, f.Gr1 nx ∧ Lits st.ok f := by
  constructor
  · intro h f hf
    refine ⟨fun c hc => (h c (List.mem_flatMap.mpr ⟨f, hf, hc⟩)).1, (lits_conjuncts _ _).mpr fun c hc => ?_⟩
    exact (lits_role _ _).mp (h c (List.mem_flatMap.mpr ⟨f, hf, hc⟩)).2
  · intro h c hc
    obtain ⟨f, hf, hc⟩ := List.mem_flatMap.mp hc
    exact ⟨(h f hf).1 c hc, (lits_role _ _).mpr ((lits_conjuncts _ _).mp (h f hf).2 c hc)⟩

/-! ### Meaning -/

theorem holds_conjuncts (σ : Nat → Word → Bool) (n : Nat) (f : Ltl) : f.Holds σ n ↔ ∀ c ∈ f.conjuncts, c.Holds σ n := by
  induction f with
  | and f g i1 i2 => rw [Ltl.Holds, i1, i2, Ltl.conjuncts, List.forall_mem_append]
  | _ => simp [Ltl.conjuncts]

theorem holds_all (σ : Nat → Word → Bool) (n : Nat) (fs : List Ltl) : (∀ f ∈ fs, f.Holds σ n) ↔ ∀ c ∈ fs.flatMap Ltl.conjuncts, c.Holds σ n := by
  constructor
  · intro h c hc
    obtain ⟨f, hf, hc⟩ := List.mem_flatMap.mp hc
    exact (holds_conjuncts σ n f).mp (h f hf) c hc
  · intro h f hf
    exact (holds_conjuncts σ n f).mpr fun c hc => h c (List.mem_flatMap.mpr ⟨f, hf, hc⟩)

theorem holds_role (σ : Nat → Word → Bool) (c : Ltl) : c.Holds σ 0 ↔
    (c.role.1 = .init → c.role.2.Holds σ 0) ∧ (c.role.1 = .safety → ∀ n, c.role.2.Holds σ n) ∧ (c.role.1 = .liveness → ∀ m, ∃ n, m ≤ n ∧ c.role.2.Holds σ n) := by
  cases c with
  | globally f => cases f <;> simp [Ltl.role, Ltl.Holds]
  | _ => simp [Ltl.role]

/-- The comparisons that are translated faithfully. -/
def Faithful (st : Style) : Ltl → Prop := Lits fun _ v => st.neg v = (v == some false)

theorem value_holds {st : Style} (ρ : Word → Bool) (σ : Nat → Word → Bool) (n : Nat) : ∀ (f : Ltl) (p : Bool), f.OneStep p → Faithful st f →
    (∀ u ∈ f.uses p, ρ (valueName st.name u) = σ (n + u.2.toNat) u.1) → (value st ρ p f = true ↔ f.Holds σ (n + p.toNat)) := by
  intro f
  induction f with
  | tt => simp [value, Ltl.Holds]
  | ff => simp [value, Ltl.Holds]
  | lit x v =>
    intro p _ h hu
    have h1 := hu (x, p) (by simp [Ltl.uses])
    simp only [Faithful, Lits] at h
    rw [value, Ltl.Holds, h1, h]
    rcases v with _ | _ | _ <;> simp
  | not f ih =>
    intro p h1 h2 h3
    have := ih p h1 h2 h3
    rw [value, Ltl.Holds, ← this]
    cases value st ρ p f <;> simp
  | next f ih =>
    rintro p ⟨rfl, h1⟩ h2 h3
    exact ih true h1 h2 h3
  | and f g i1 i2 =>
    intro p h1 h2 h3
    simp only [Ltl.uses, List.forall_mem_append] at h3
    have a1 := i1 p h1.1 h2.1 h3.1
    have a2 := i2 p h1.2 h2.2 h3.2
    rw [value, Ltl.Holds, ← a1, ← a2, Bool.and_eq_true]
  | or f g i1 i2 =>
    intro p h1 h2 h3
    simp only [Ltl.uses, List.forall_mem_append] at h3
    have a1 := i1 p h1.1 h2.1 h3.1
    have a2 := i2 p h1.2 h2.2 h3.2
    rw [value, Ltl.Holds, ← a1, ← a2, Bool.or_eq_true]
  | imp f g i1 i2 =>
    intro p h1 h2 h3
    simp only [Ltl.uses, List.forall_mem_append] at h3
    have a1 := i1 p h1.1 h2.1 h3.1
    have a2 := i2 p h1.2 h2.2 h3.2
    rw [value, Ltl.Holds, ← a1, ← a2]
    cases value st ρ p f <;> simp
  | iff f g i1 i2 =>
    intro p h1 h2 h3
    simp only [Ltl.uses, List.forall_mem_append] at h3
    have a1 := i1 p h1.1 h2.1 h3.1
    have a2 := i2 p h1.2 h2.2 h3.2
    rw [value, Ltl.Holds, ← a1, ← a2]
    cases value st ρ p f <;> cases value st ρ p g <;> simp
  | eventually f _ => intro p h; exact h.elim
  | globally f _ => intro p h; exact h.elim
  | xor f g _ _ => intro p h; exact h.elim
  | strongUntil f g _ _ => intro p h; exact h.elim
  | weakUntil f g _ _ => intro p h; exact h.elim

theorem Tr.holds {st : Style} {f : Ltl} {p : Bool} {φ : Fml} (t : Tr st f p φ) (h1 : f.OneStep p) (h2 : Faithful st f) {sp : SpecFile} {P Q : Pos sp.In sp.Out}
    {σ : Nat → Word → Bool} {n : Nat} (h3 : ∀ u ∈ f.uses p, sp.look P Q (valueName st.name u) = σ (n + u.2.toNat) u.1) :
    sp.holds P Q φ ↔ f.Holds σ (n + p.toNat) := by
  rw [SpecFile.holds, t.eval, Option.some_inj]
  exact value_holds _ σ n f p h1 h2 h3

theorem uses_any (f : Ltl) : ∀ p q : Bool, ∀ u ∈ f.uses p, ∃ v ∈ f.uses q, v.1 = u.1 := by
  have two : ∀ f g : Ltl, (∀ p q : Bool, ∀ u ∈ f.uses p, ∃ v ∈ f.uses q, v.1 = u.1) → (∀ p q : Bool, ∀ u ∈ g.uses p, ∃ v ∈ g.uses q, v.1 = u.1) →
      ∀ p q : Bool, ∀ u ∈ f.uses p ++ g.uses p, ∃ v ∈ f.uses q ++ g.uses q, v.1 = u.1 := by
    intro f g i1 i2 p q u hu
    rcases List.mem_append.mp hu with hu | hu
    · obtain ⟨v, hv, e⟩ := i1 p q u hu
      exact ⟨v, List.mem_append_left _ hv, e⟩
    · obtain ⟨v, hv, e⟩ := i2 p q u hu
      exact ⟨v, List.mem_append_right _ hv, e⟩
  induction f with
  | lit x v => intro p q u hu; simp only [Ltl.uses, List.mem_singleton] at hu; subst hu; exact ⟨(x, q), by simp [Ltl.uses], rfl⟩
  | tt => simp [Ltl.uses]
  | ff => simp [Ltl.uses]
  | not f ih => exact ih
  | eventually f ih => exact ih
  | globally f ih => exact ih
  | next f ih => intro p q u hu; exact ih true true u hu
  | and f g i1 i2 => exact two f g i1 i2
  | or f g i1 i2 => exact two f g i1 i2
  | xor f g i1 i2 => exact two f g i1 i2
  | imp f g i1 i2 => exact two f g i1 i2
  | iff f g i1 i2 => exact two f g i1 i2
  | strongUntil f g i1 i2 => exact two f g i1 i2
  | weakUntil f g i1 i2 => exact two f g i1 i2

theorem look_value {sp : SpecFile} (hu : sp.Unambiguous) (name : Word → Word) (P Q : Pos sp.In sp.Out) {u : Word × Bool} (h : name u.1 ∈ sp.inputs ++ sp.outputs) :
    sp.look P Q (valueName name u) = if u.2 then sp.now Q.1 Q.2 (name u.1) else sp.now P.1 P.2 (name u.1) := by
  obtain ⟨x, p⟩ := u
  cases p with
  | false =>
    show sp.look P Q (name x) = sp.now P.1 P.2 (name x)
    rw [SpecFile.look]
    exact if_pos h
  | true =>
    show sp.look P Q (prime (name x)) = sp.now Q.1 Q.2 (name x)
    rw [SpecFile.look, if_neg]
    · simp [prime]
    · intro hm
      rw [SpecFile.Unambiguous, SpecFile.names, List.append_assoc, List.nodup_append] at hu
      refine hu.2.2 _ hm _ ?_ rfl
      rw [← List.map_append]
      exact List.mem_map_of_mem h

theorem now_input {sp : SpecFile} (i : sp.In) (o o' : sp.Out) {x : Word} (h : x ∈ sp.inputs) : sp.now i o x = sp.now i o' x := by
  rw [SpecFile.now, SpecFile.now, dif_pos h, dif_pos h]

/-- The formulas of one kind. -/
def formulasOf (k : Kind) (qs : List (Ltl × Fml)) : List Fml := (qs.filter fun q => q.1.role.1 = k).map Prod.snd

theorem forall_formulas {k : Kind} {qs : List (Ltl × Fml)} {R : Fml → Prop} : (∀ φ ∈ formulasOf k qs, R φ) ↔ ∀ q ∈ qs, q.1.role.1 = k → R q.2 := by
  simp only [formulasOf, List.forall_mem_map, List.mem_filter, decide_eq_true_eq]
  exact ⟨fun h q h1 h2 => h q ⟨h1, h2⟩, fun h q h1 => h q h1.1 h1.2⟩

/-- What is known about all translated conjuncts. -/
structure Faith (st : Style) (nx : Bool) (fs : List Ltl) (qs : List (Ltl × Fml)) : Prop where
  translated : Translated st nx (fs.flatMap Ltl.conjuncts) qs
  one : ∀ f ∈ fs, f.Gr1 nx
  faithful : ∀ f ∈ fs, Faithful st f

section
variable {st : Style} {nx : Bool} {fs : List Ltl} {qs : List (Ltl × Fml)}

theorem Faith.mem (h : Faith st nx fs qs) {q : Ltl × Fml} (hq : q ∈ qs) : ∃ f ∈ fs, q.1 ∈ f.conjuncts := by
  have : q.1 ∈ fs.flatMap Ltl.conjuncts := by rw [h.translated.of]; exact List.mem_map_of_mem hq
  exact List.mem_flatMap.mp this

theorem Faith.holds (h : Faith st nx fs qs) {q : Ltl × Fml} (hq : q ∈ qs) {sp : SpecFile} {P Q : Pos sp.In sp.Out}
    {σ : Nat → Word → Bool} {n : Nat} (h3 : ∀ u ∈ q.1.role.2.uses (later nx q.1), sp.look P Q (valueName st.name u) = σ (n + u.2.toNat) u.1) :
    sp.holds P Q q.2 ↔ q.1.role.2.Holds σ (n + (later nx q.1).toNat) := by
  obtain ⟨f, hf, hc⟩ := h.mem hq
  exact (h.translated.tr q hq).holds (h.one f hf _ hc) ((lits_role _ _).mpr ((lits_conjuncts _ _).mp (h.faithful f hf) _ hc)) h3

theorem Faith.all (h : Faith st nx fs qs) (σ : Nat → Word → Bool) : (∀ f ∈ fs, f.Holds σ 0) ↔ ∀ q ∈ qs, q.1.Holds σ 0 := by
  rw [holds_all, h.translated.of, List.forall_mem_map]

theorem env_keeps (h : Faith st false fs qs) {sp : SpecFile} (hu : sp.Unambiguous) (hs : ∀ f ∈ fs, EnvScoped st.name sp.inputs sp.outputs f)
    (e1 : sp.envInit = formulasOf .init qs) (e2 : sp.envTrans = formulasOf .safety qs) (e3 : sp.envLiveness = formulasOf .liveness qs) (r : Nat → Pos sp.In sp.Out) :
    EnvKeeps sp r ↔ ∀ f ∈ fs, f.Holds (valuesOf sp st.name r) 0 := by
  have sh : ∀ c, later false c = false := fun c => by simp [later]
  have sc : ∀ q ∈ qs, ∀ u ∈ q.1.role.2.uses false,
      match q.1.role.1 with
      | .init => st.name u.1 ∈ sp.inputs ∧ u.2 = false
      | .safety => st.name u.1 ∈ sp.inputs ∨ st.name u.1 ∈ sp.outputs ∧ u.2 = false
      | .liveness => st.name u.1 ∈ sp.inputs ++ sp.outputs := by
    intro q hq
    obtain ⟨f, hf, hc⟩ := h.mem hq
    exact hs f hf _ hc
  have k1 : ∀ q ∈ qs, q.1.role.1 = .init → (sp.holds ((r 0).1, fun _ => false) ((r 0).1, fun _ => false) q.2 ↔ q.1.role.2.Holds (valuesOf sp st.name r) 0) := by
    intro q hq hk
    have := h.holds hq (sp := sp) (P := ((r 0).1, fun _ => false)) (Q := ((r 0).1, fun _ => false)) (σ := valuesOf sp st.name r) (n := 0) ?_
    · rwa [sh] at this
    · rw [sh]
      rintro ⟨x, p⟩ hx
      have s := sc q hq _ hx
      rw [hk] at s
      obtain ⟨s1, rfl⟩ : st.name x ∈ sp.inputs ∧ p = false := s
      rw [look_value hu _ _ _ (List.mem_append_left _ s1)]
      exact now_input _ _ _ s1
  have k2 : ∀ q ∈ qs, q.1.role.1 = .safety → ∀ n, (sp.holds (r n) ((r (n + 1)).1, fun _ => false) q.2 ↔ q.1.role.2.Holds (valuesOf sp st.name r) n) := by
    intro q hq hk n
    have := h.holds hq (sp := sp) (P := r n) (Q := ((r (n + 1)).1, fun _ => false)) (σ := valuesOf sp st.name r) (n := n) ?_
    · rwa [sh] at this
    · rw [sh]
      rintro ⟨x, p⟩ hx
      have s := sc q hq _ hx
      rw [hk] at s
      have s' : st.name x ∈ sp.inputs ∨ st.name x ∈ sp.outputs ∧ p = false := s
      rw [look_value hu _ _ _ (List.mem_append.mpr (s'.imp_right And.left))]
      rcases s' with s' | ⟨_, rfl⟩
      · cases p
        · rfl
        · exact now_input _ _ _ s'
      · rfl
  have k3 : ∀ q ∈ qs, q.1.role.1 = .liveness → ∀ n, (sp.holds (r n) (r (n + 1)) q.2 ↔ q.1.role.2.Holds (valuesOf sp st.name r) n) := by
    intro q hq hk n
    have := h.holds hq (sp := sp) (P := r n) (Q := r (n + 1)) (σ := valuesOf sp st.name r) (n := n) ?_
    · rwa [sh] at this
    · rw [sh]
      rintro ⟨x, p⟩ hx
      have s := sc q hq _ hx
      rw [hk] at s
      rw [look_value hu _ _ _ s]
      cases p <;> rfl
  rw [h.all]
  simp only [EnvKeeps, SpecFile.game, e1, e2, e3, List.forall_mem_map, forall_formulas]
  constructor
  · rintro ⟨a1, a2, a3⟩ q hq
    rw [holds_role]
    exact ⟨fun hk => (k1 q hq hk).mp (a1 q hq hk), fun hk n => (k2 q hq hk n).mp (a2 n q hq hk),
      fun hk m => (a3 q hq hk m).imp fun n hn => ⟨hn.1, (k3 q hq hk n).mp hn.2⟩⟩
  · intro a
    replace a := fun q hq => (holds_role _ _).mp (a q hq)
    exact ⟨fun q hq hk => (k1 q hq hk).mpr ((a q hq).1 hk), fun n q hq hk => (k2 q hq hk n).mpr ((a q hq).2.1 hk n),
      fun q hq hk m => ((a q hq).2.2 hk m).imp fun n hn => ⟨hn.1, (k3 q hq hk n).mpr hn.2⟩⟩

theorem sys_keeps (h : Faith st true fs qs) {sp : SpecFile} (hu : sp.Unambiguous) (hs : ∀ f ∈ fs, SysScoped st.name sp.inputs sp.outputs f)
    (e1 : sp.sysInit = formulasOf .init qs) (e2 : sp.sysTrans = formulasOf .safety qs) (e3 : sp.sysLiveness = formulasOf .liveness qs) (r : Nat → Pos sp.In sp.Out) :
    SysKeeps sp r ↔ ∀ f ∈ fs, f.Holds (valuesOf sp st.name r) 0 := by
  have sc : ∀ q ∈ qs, ∀ u ∈ q.1.role.2.uses false, st.name u.1 ∈ sp.inputs ++ sp.outputs ∧ (q.1.role.1 = .init → u.2 = false) := by
    intro q hq
    obtain ⟨f, hf, hc⟩ := h.mem hq
    exact hs f hf _ hc
  have sc' : ∀ q ∈ qs, ∀ p, ∀ u ∈ q.1.role.2.uses p, st.name u.1 ∈ sp.inputs ++ sp.outputs := by
    intro q hq p u hx
    obtain ⟨v, hv, e⟩ := uses_any _ p false u hx
    exact e ▸ (sc q hq v hv).1
  have k : ∀ q ∈ qs, ∀ n, (sp.holds (r n) (r (n + 1)) q.2 ↔ q.1.role.2.Holds (valuesOf sp st.name r) (n + (later true q.1).toNat)) := by
    intro q hq n
    refine h.holds hq ?_
    rintro ⟨x, p⟩ hx
    rw [look_value hu _ _ _ (sc' q hq _ _ hx)]
    cases p <;> rfl
  have k1 : ∀ q ∈ qs, q.1.role.1 = .init → (sp.holds (r 0) (r 0) q.2 ↔ q.1.role.2.Holds (valuesOf sp st.name r) 0) := by
    intro q hq hk
    have sh : later true q.1 = false := by simp [later, hk]
    have := h.holds hq (sp := sp) (P := r 0) (Q := r 0) (σ := valuesOf sp st.name r) (n := 0) ?_
    · rwa [sh] at this
    · rw [sh]
      rintro ⟨x, p⟩ hx
      obtain ⟨s1, s2⟩ := sc q hq _ hx
      obtain rfl : p = false := s2 hk
      rw [look_value hu _ _ _ s1]
      rfl
  have k2 : ∀ q ∈ qs, q.1.role.1 = .safety → ∀ n, (sp.holds (r n) (r (n + 1)) q.2 ↔ q.1.role.2.Holds (valuesOf sp st.name r) n) := by
    intro q hq hk n
    have sh : later true q.1 = false := by simp [later, hk]
    have := k q hq n
    rwa [sh] at this
  have k3 : ∀ q ∈ qs, q.1.role.1 = .liveness → ∀ n, (sp.holds (r n) (r (n + 1)) q.2 ↔ q.1.role.2.Holds (valuesOf sp st.name r) (n + 1)) := by
    intro q hq hk n
    have sh : later true q.1 = true := by simp [later, hk]
    have := k q hq n
    rwa [sh] at this
  rw [h.all]
  simp only [SysKeeps, SpecFile.game, e1, e2, e3, List.forall_mem_map, forall_formulas]
  constructor
  · rintro ⟨a1, a2, a3⟩ q hq
    rw [holds_role]
    refine ⟨fun hk => (k1 q hq hk).mp (a1 q hq hk), fun hk n => (k2 q hq hk n).mp (a2 n q hq hk), fun hk m => ?_⟩
    obtain ⟨n, hn, ha⟩ := a3 q hq hk m
    exact ⟨n + 1, by omega, (k3 q hq hk n).mp ha⟩
  · intro a
    replace a := fun q hq => (holds_role _ _).mp (a q hq)
    refine ⟨fun q hq hk => (k1 q hq hk).mpr ((a q hq).1 hk), fun n q hq hk => (k2 q hq hk n).mpr ((a q hq).2.1 hk n), fun q hq hk m => ?_⟩
    obtain ⟨n, hn, ha⟩ := (a q hq).2.2 hk (m + 1)
    obtain ⟨n, rfl⟩ : ∃ k, n = k + 1 := ⟨n - 1, by omega⟩
    exact ⟨n, by omega, (k3 q hq hk n).mpr ha⟩

end

end Slugs.Model.LtlText
