import Verif.Lemmas.AigerCircuit
import Verif.Lemmas.AigerGame

/-!
The error signal of the circuit, and realizability.
-/

namespace Slugs.Model.Aiger

open Slugs.Spec Slugs.Spec.Aag

variable {sp : SpecFile} {d d' : Dict} {P : Pieces} {comment : List Char} {inp : Nat → Nat → Bool} {x : Nat → Nat → Bool}

theorem lit_iff {fs : List Fml} {n : Nat} {G : List (Nat × Nat × Nat)} {r : Nat} (c : Computes d [] (conj fs) n G r) {v : Nat → Bool} (h0 : v 0 = false) (hs : Sat v G)
    {ρ : Word → Bool} (hρ : ∀ f ∈ fs, ∀ x ∈ f.vars, val d v x = ρ x) : lit v r = true ↔ ∀ f ∈ fs, f.eval ρ [] = some true := by
  have e := c.value v h0 hs
  simp only [vals, List.map_nil] at e
  have : lit v r = true ↔ (conj fs).eval (val d v) [] = some true := by rw [e]; simp
  rw [this, conj_eval]
  exact forall₂_congr fun f hf => by rw [Fml.eval_congr f [] (hρ f hf)]

theorem check_value {v : Nat → Bool} {g a neg init trans u : Nat} (hn : neg = 0 ∨ neg = 1) (h : Sat v (checks g a neg init trans u)) :
    lit v g = (lit v a && (decide (neg = 1) ^^ (if lit v 4 then lit v trans else lit v init))) := by
  have e1 := h _ (List.mem_cons_self ..)
  have e2 := h _ (List.mem_cons_of_mem _ (List.mem_cons_self ..))
  have e3 := h _ (List.mem_cons_of_mem _ (List.mem_cons_of_mem _ (List.mem_cons_self ..)))
  have e4 := h _ (List.mem_cons_of_mem _ (List.mem_cons_of_mem _ (List.mem_cons_of_mem _ (List.mem_cons_self ..))))
  dsimp only at e1 e2 e3 e4
  rw [lit_xor, lit_succ v (a := 4) rfl] at e3
  rw [lit_xor] at e4
  rw [lit_succ v (show (u * 2 + 4) % 2 = 0 by omega), lit_succ v (show (u * 2 + 6) % 2 = 0 by omega), e3, e4] at e2
  rcases hn with rfl | rfl
  · rw [e1, Nat.add_zero, e2]
    cases lit v a <;> cases lit v 4 <;> cases lit v init <;> cases lit v trans <;> rfl
  · rw [e1, lit_succ v (show (u * 2 + 2) % 2 = 0 by omega), e2]
    cases lit v a <;> cases lit v 4 <;> cases lit v init <;> cases lit v trans <;> rfl

/-! ### Names and numbers -/

theorem values_now (hu : sp.Unambiguous) {k : Nat} {y : Word} (h : (sp.inputs ++ sp.outputs)[k]? = some y) (v : Nat → Bool) :
    sp.now (sp.values v).1 (sp.values v).2 y = v k := by
  have hn : (sp.inputs ++ sp.outputs).Nodup := by
    rw [SpecFile.Unambiguous, SpecFile.names, List.append_assoc] at hu
    exact (List.nodup_append.mp hu).1
  obtain ⟨hk, e⟩ := List.getElem?_eq_some_iff.mp h
  have hi := hn.idxOf_getElem k hk
  rw [e] at hi
  rw [SpecFile.now]
  by_cases h1 : y ∈ sp.inputs
  · rw [dif_pos h1]
    simp only [SpecFile.values]
    rw [List.idxOf_append_of_mem h1] at hi
    rw [hi]
  · have h2 : y ∈ sp.outputs := by
      have := List.mem_of_getElem? h
      rw [List.mem_append] at this
      exact this.resolve_left h1
    rw [dif_neg h1, dif_pos h2]
    simp only [SpecFile.values]
    rw [List.idxOf_append_of_notMem h1] at hi
    rw [hi]

theorem prime_dropLast (y : Word) : (prime y).dropLast = y := by simp [prime]

theorem prime_not_declared (hu : sp.Unambiguous) {y : Word} (h : y ∈ sp.inputs ++ sp.outputs) : prime y ∉ sp.inputs ++ sp.outputs := by
  intro h'
  rw [SpecFile.Unambiguous, SpecFile.names, List.append_assoc] at hu
  refine (List.nodup_append.mp hu).2.2 _ h' (prime y) ?_ rfl
  rw [List.mem_append] at h ⊢
  exact h.imp (fun h => List.mem_map_of_mem h) (fun h => List.mem_map_of_mem h)

theorem inputs_get {k : Nat} (hk : k < (sp.inputs ++ sp.outputs).length) : (theAag sp.inputs sp.outputs comment P).inputs[k]? = some (2 * (3 + k)) := by
  simp only [theAag]
  rw [List.getElem?_map, List.getElem?_eq_getElem (by rw [List.length_range']; exact hk), List.getElem_range']
  simp

/-! ### Values of the variables in a run -/

section
variable (h : Built sp d d' P) (hu : sp.Unambiguous) (R : (theAag sp.inputs sp.outputs comment P).Run inp x)
include h R

theorem val_now {k : Nat} {y : Word} (hk : (sp.inputs ++ sp.outputs)[k]? = some y) (t : Nat) : val d (x t) y = inp t k := by
  rw [val, h.look k y hk, Option.getD_some]
  refine R.input t k _ ?_
  have := (List.getElem?_eq_some_iff.mp hk).1
  exact inputs_get this

theorem val_next {k : Nat} {y : Word} (hk : (sp.inputs ++ sp.outputs)[k]? = some y) (t : Nat) : val d' (x t) (prime y) = inp t k := by
  rw [val, (h.lookT k y hk).2, Option.getD_some]
  refine R.input t k _ ?_
  have := (List.getElem?_eq_some_iff.mp hk).1
  exact inputs_get this

theorem val_old {k : Nat} {y : Word} (hk : (sp.inputs ++ sp.outputs)[k]? = some y) (t : Nat) : val d' (x (t + 1)) y = inp t k := by
  have hl := (List.getElem?_eq_some_iff.mp hk).1
  rw [val, (h.lookT k y hk).1, Option.getD_some,
    R.next t (2 * ((sp.inputs ++ sp.outputs).length + 6 + k), 2 * (3 + k)) (by
      simp only [theAag]
      exact List.mem_append_left _ (List.mem_cons_of_mem _ (List.mem_map.mpr ⟨k, List.mem_range.mpr hl, rfl⟩)))]
  refine R.input t k _ ?_
  exact inputs_get hl

include hu

theorem val_look {y : Word} (hy : y ∈ sp.names) (t : Nat) : val d' (x (t + 1)) y = sp.look (sp.values (inp t)) (sp.values (inp (t + 1))) y := by
  by_cases hy' : y ∈ sp.inputs ++ sp.outputs
  · obtain ⟨k, _, hk⟩ := getElem_mem_names hy'
    rw [val_old h R hk, SpecFile.look, if_pos hy', values_now hu hk]
  · have : ∃ z ∈ sp.inputs ++ sp.outputs, prime z = y := by
      simp only [SpecFile.names, List.mem_append, List.mem_map, not_or] at hy hy' ⊢
      rcases hy with ((hx | hx) | ⟨z, hz, rfl⟩) | ⟨z, hz, rfl⟩
      · exact absurd hx hy'.1
      · exact absurd hx hy'.2
      · exact ⟨z, .inl hz, rfl⟩
      · exact ⟨z, .inr hz, rfl⟩
    obtain ⟨z, hz, rfl⟩ := this
    obtain ⟨k, _, hk⟩ := getElem_mem_names hz
    rw [val_next h R hk, SpecFile.look, if_neg hy', prime_dropLast, values_now hu hk]

variable (hw : sp.WellScoped)
include hw

theorem sat_pieces (t : Nat) : Sat (x t) P.G1 ∧ Sat (x t) P.G2 ∧ Sat (x t) P.G3 ∧ Sat (x t) P.G4 ∧
    Sat (x t) (checks (2 * ((sp.inputs ++ sp.outputs).length + 4)) (2 * ((sp.inputs ++ sp.outputs).length + 3) + 1) 0 P.r1 P.r2 (P.mid (sp.inputs ++ sp.outputs).length)) ∧
    Sat (x t) (checks (2 * ((sp.inputs ++ sp.outputs).length + 5)) (2 * ((sp.inputs ++ sp.outputs).length + 4)) 1 P.r3 P.r4 (P.top (sp.inputs ++ sp.outputs).length)) := by
  have : Sat (x t) (P.gates (sp.inputs ++ sp.outputs).length) := fun g hg => R.gate t g hg
  rw [Pieces.gates] at this
  exact ⟨this.left.left.left, this.left.left.right, this.right.left.left, this.right.left.right, this.left.right, this.right.right⟩

theorem envInit_iff (t : Nat) : lit (x t) P.r1 = true ↔ sp.game.initEnv (sp.values (inp t)).1 := by
  refine lit_iff h.c1 (R.const t) (sat_pieces h hu R hw t).1 fun f hf y hy => ?_
  have hi := hw.envInit f hf y hy
  obtain ⟨k, _, hk⟩ := getElem_mem_names (List.mem_append_left sp.outputs hi)
  rw [val_now h R hk, SpecFile.look, if_pos (List.mem_append_left _ hi), ← values_now hu hk (inp t), SpecFile.now, SpecFile.now, dif_pos hi, dif_pos hi]

theorem sysInit_iff (t : Nat) : lit (x t) P.r3 = true ↔ sp.game.initSys (sp.values (inp t)) := by
  refine lit_iff h.c3 (R.const t) (sat_pieces h hu R hw t).2.2.1 fun f hf y hy => ?_
  have hi := hw.sysInit f hf y hy
  obtain ⟨k, _, hk⟩ := getElem_mem_names hi
  rw [val_now h R hk, SpecFile.look, if_pos hi, ← values_now hu hk (inp t)]

theorem envTrans_iff (t : Nat) : lit (x (t + 1)) P.r2 = true ↔ sp.game.safetyEnv (sp.values (inp t)) (sp.values (inp (t + 1))).1 := by
  refine lit_iff h.c2 (R.const _) (sat_pieces h hu R hw _).2.1 fun f hf y hy => ?_
  have hi := hw.envTrans f hf y hy
  rw [val_look h hu R (List.mem_append_left _ hi)]
  rw [SpecFile.look, SpecFile.look]
  by_cases hy' : y ∈ sp.inputs ++ sp.outputs
  · rw [if_pos hy', if_pos hy']
  · rw [if_neg hy', if_neg hy']
    rw [List.mem_append] at hi
    obtain ⟨z, hz, rfl⟩ := List.mem_map.mp (hi.resolve_left hy')
    rw [prime_dropLast, SpecFile.now, SpecFile.now, dif_pos hz, dif_pos hz]

theorem sysTrans_iff (t : Nat) : lit (x (t + 1)) P.r4 = true ↔ sp.game.safetySys (sp.values (inp t)) (sp.values (inp (t + 1))) :=
  lit_iff h.c4 (R.const _) (sat_pieces h hu R hw _).2.2.2.1 fun f hf y hy => val_look h hu R (hw.sysTrans f hf y hy) t

theorem first_zero : lit (x 0) 4 = false := R.reset (4, 1) (by simp [theAag])

theorem first_succ (t : Nat) : lit (x (t + 1)) 4 = true := by
  rw [R.next t (4, 1) (by simp [theAag])]
  simp [lit, R.const t]

/-- The gate for the assumptions. -/
theorem assumed_iff (t : Nat) : lit (x t) (2 * ((sp.inputs ++ sp.outputs).length + 4)) = true ↔ sp.game.AssumedUpTo (fun t => sp.values (inp t)) t := by
  have hv : (2 * ((sp.inputs ++ sp.outputs).length + 3), 2 * ((sp.inputs ++ sp.outputs).length + 4) + 1) ∈ (theAag sp.inputs sp.outputs comment P).latches := by
    simp [theAag]
  have hc := fun t => check_value (.inl rfl) (sat_pieces h hu R hw t).2.2.2.2.1
  induction t with
  | zero =>
    rw [hc, first_zero h hu R hw, lit_succ _ (by omega), R.reset _ hv]
    simp only [Bool.not_false, Bool.true_and, Bool.false_eq_true, if_false, show decide (0 = 1) = false from rfl, Bool.false_xor]
    rw [envInit_iff h hu R hw, Game.AssumedUpTo]
    exact ⟨fun a => ⟨a, fun k hk => absurd hk (by omega)⟩, fun a => a.1⟩
  | succ t ih =>
    rw [hc, first_succ h hu R hw, lit_succ _ (by omega), R.next t _ hv]
    simp only [if_true, show decide (0 = 1) = false from rfl, Bool.false_xor]
    rw [lit_succ _ (by omega), Bool.not_not, Bool.and_eq_true]
    refine (and_congr ih (envTrans_iff h hu R hw t)).trans ?_
    rw [Game.AssumedUpTo, Game.AssumedUpTo]
    constructor
    · rintro ⟨⟨a, b⟩, c⟩
      refine ⟨a, fun k hk => ?_⟩
      rcases Nat.lt_succ_iff_lt_or_eq.mp hk with hk | rfl
      · exact b k hk
      · exact c
    · rintro ⟨a, b⟩
      exact ⟨⟨a, fun k hk => b k (by omega)⟩, b t (by omega)⟩

/-- The output of the circuit. -/
theorem err_iff (t : Nat) : lit (x t) (2 * ((sp.inputs ++ sp.outputs).length + 5)) = true ↔
    sp.game.AssumedUpTo (fun t => sp.values (inp t)) t ∧ ¬ sp.game.Kept (fun t => sp.values (inp t)) t := by
  rw [check_value (.inr rfl) (sat_pieces h hu R hw t).2.2.2.2.2, Bool.and_eq_true, assumed_iff h hu R hw]
  refine and_congr_right fun _ => ?_
  simp only [decide_true, Bool.true_xor, Bool.not_eq_true']
  cases t with
  | zero =>
    rw [first_zero h hu R hw, if_neg (by decide), Game.Kept, ← sysInit_iff h hu R hw, Bool.not_eq_true]
  | succ t =>
    rw [first_succ h hu R hw, if_pos rfl, Game.Kept, ← sysTrans_iff h hu R hw, Bool.not_eq_true]

end

/-! ### Realizability -/

theorem controllable_iff (hc : ∀ y ∈ sp.inputs, ¬ txt!"controllable_" <+: y) (k : Nat) (hk : k < (sp.inputs ++ sp.outputs).length) :
    (theAag sp.inputs sp.outputs comment P).Controllable k ↔ sp.inputs.length ≤ k := by
  simp only [Aag.Controllable, theAag]
  constructor
  · rintro ⟨y, hy, hp⟩
    by_contra hlt
    rw [List.getElem?_append_left (by omega)] at hy
    exact hc y (List.mem_of_getElem? hy) hp
  · intro hle
    rw [List.length_append] at hk
    refine ⟨txt!"controllable_" ++ sp.outputs[k - sp.inputs.length], ?_, List.prefix_append _ _⟩
    rw [List.getElem?_append_right hle, List.getElem?_map, List.getElem?_eq_getElem (by omega)]
    rfl

theorem idxOf_length {l : List Word} {y : Word} (h : y ∈ l) : l.idxOf y < l.length := List.idxOf_lt_length_iff.mpr h

/-- The numbers of the inputs for values of the inputs of the specification. -/
def ofIn (sp : SpecFile) (i : sp.In) (k : Nat) : Bool := if h : k < sp.inputs.length then i ⟨sp.inputs[k], List.getElem_mem h⟩ else false

/-- The same for the outputs. -/
def ofOut (sp : SpecFile) (o : sp.Out) (k : Nat) : Bool :=
  if h : k - sp.inputs.length < sp.outputs.length then o ⟨sp.outputs[k - sp.inputs.length], List.getElem_mem h⟩ else false

theorem ofIn_values (sp : SpecFile) (i : sp.In) (v : Nat → Bool) (hv : ∀ k < sp.inputs.length, v k = ofIn sp i k) : (sp.values v).1 = i := by
  funext y
  have hy := idxOf_length y.2
  simp only [SpecFile.values]
  rw [hv _ hy, ofIn, dif_pos hy]
  congr 1
  exact Subtype.ext (List.getElem_idxOf hy)

theorem ofOut_values (sp : SpecFile) (o : sp.Out) (v : Nat → Bool) (hv : ∀ k < sp.outputs.length, v (sp.inputs.length + k) = ofOut sp o (sp.inputs.length + k)) :
    (sp.values v).2 = o := by
  funext y
  have hy := idxOf_length y.2
  simp only [SpecFile.values]
  rw [hv _ hy, ofOut, dif_pos (by omega)]
  congr 1
  apply Subtype.ext
  simp only [Nat.add_sub_cancel_left]
  exact List.getElem_idxOf hy

theorem seen_map {α β : Type} (f : α → β) (u : Nat → α) : ∀ t, (seen u t).map f = seen (fun t => f (u t)) t
  | 0 => rfl
  | t + 1 => by rw [seen, List.map_cons, seen_map f u t]; rfl

/-- The circuit is realizable if and only if the specification is. -/
theorem realizable_iff (h : Built sp d d' P) (hu : sp.Unambiguous) (hw : sp.WellScoped) (hl : sp.sysLiveness = [])
    (hc : ∀ y ∈ sp.inputs, ¬ txt!"controllable_" <+: y) : (theAag sp.inputs sp.outputs comment P).Realizable ↔ sp.game.Realizable := by
  haveI : Inhabited sp.In := ⟨fun _ => false⟩
  haveI : Inhabited sp.Out := ⟨fun _ => false⟩
  rw [realizable_iff_mealy sp.game (by simp [SpecFile.game, hl])]
  constructor
  · rintro ⟨σ, hσ⟩
    refine ⟨fun l => (sp.values (σ (l.map (ofIn sp)))).2, fun i t ha => ?_⟩
    obtain ⟨x, R⟩ := exists_run (h.valid hw comment) ((theAag sp.inputs sp.outputs comment P).played σ fun t => ofIn sp (i t))
    have e := hσ _ x R t _ (by simp only [theAag]; exact List.mem_singleton.mpr rfl)
    have hp : (fun t => sp.values ((theAag sp.inputs sp.outputs comment P).played σ (fun t => ofIn sp (i t)) t)) =
        play (fun l => (sp.values (σ (l.map (ofIn sp)))).2) i := by
      funext t
      rw [play]
      refine Prod.ext ?_ ?_
      · refine ofIn_values sp (i t) _ fun k hk => ?_
        rw [Aag.played, if_neg]
        rw [controllable_iff hc k (by rw [List.length_append]; omega)]
        omega
      · funext y
        have hy := idxOf_length y.2
        simp only [SpecFile.values, Aag.played]
        rw [if_pos ((controllable_iff hc _ (by rw [List.length_append]; omega)).mpr (by omega)), seen_map]
    by_contra hk
    have := (err_iff h hu R hw t).mpr
    rw [hp] at this
    rw [this ⟨ha, hk⟩] at e
    exact absurd e (by decide)
  · rintro ⟨m, hm⟩
    refine ⟨fun l => ofOut sp (m (l.map fun v => (sp.values v).1)), fun u x R t o ho => ?_⟩
    simp only [theAag, List.mem_singleton] at ho
    subst ho
    have hp : (fun t => sp.values ((theAag sp.inputs sp.outputs comment P).played (fun l => ofOut sp (m (l.map fun v => (sp.values v).1))) u t)) =
        play m fun t => (sp.values (u t)).1 := by
      funext t
      rw [play]
      refine Prod.ext ?_ ?_
      · funext y
        have hy := idxOf_length y.2
        simp only [SpecFile.values, Aag.played]
        rw [if_neg]
        rw [controllable_iff hc _ (by rw [List.length_append]; omega)]
        omega
      · refine ofOut_values sp _ _ fun k hk => ?_
        rw [Aag.played, if_pos ((controllable_iff hc _ (by rw [List.length_append]; omega)).mpr (by omega)), seen_map]
    rw [← Bool.not_eq_true, err_iff h hu R hw t, hp]
    rintro ⟨ha, hk⟩
    exact hk (hm _ t ha)

end Slugs.Model.Aiger
