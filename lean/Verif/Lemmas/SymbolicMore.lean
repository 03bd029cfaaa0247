import Verif.Model.SymbolicMore
import Verif.Props.Symbolic
import Verif.Props.Cooperative
import Verif.Props.FastSlow

/-!
What symbolic strategies mean, for an arbitrary game over the variables of a file.
-/

namespace Slugs.Props

open Slugs.Spec Slugs.Model

variable {B : Type} [DecidableEq B] [L : BddLib B]

/-- How a strategy is executed if it pursues `N` goals.  If the goal number and its next value are variables (`ge = true`), a transition of the strategy determines
both.  If there is a selector (`ge = false`), the executor takes a transition that is allowed with selector 0, and moves on to the next goal exactly if the same
transition is also allowed with selector 1. -/
def Executes (ge : Bool) (sp : SpecFile) (R : SymbolicStrategy B) (N : Nat) (s t : Pos sp.In sp.Out) (j j' : Nat) : Prop :=
  if ge then Allows sp R s t j j'
  else AllowsSel sp R s t j false ∧ (AllowsSel sp R s t j true → j' = (j + 1) % N) ∧ (¬ AllowsSel sp R s t j true → j' = j)

/-- The header and the bits of a strategy for `N` goals can be read: it lists the declared variables first, then the counter bits (and their primed versions, or else the
selector) under their names; there are enough bits; each combination of positions and counter values is described by an assignment, and the strategy has the
same value on all assignments that describe the same combination. -/
structure Readable (ge : Bool) (sp : SpecFile) (R : SymbolicStrategy B) (N : Nat) : Prop where
  bits : N < 2 ^ R.counterPre.length
  pre : ∀ k v, R.counterPre[k]? = some v → R.table.names[v]? = some (counterName k)
  post : ∀ k v, R.counterPost[k]? = some v → R.table.names[v]? = some (prime (counterName k))
  both : ge = true → R.counterPost.length = R.counterPre.length
  selector : ge = false → R.table.names[R.selector]? = some txt!"strat_type"
  describes : ∀ (s t : Pos sp.In sp.Out) (j j' : Nat) (b : Bool), ∃ a, Assigns sp R.table.names s t a ∧ Holds R.counterPre j a ∧
      Holds R.counterPost j' a ∧ (ge = false → a R.selector = b)
  unambiguous : ∀ (s t : Pos sp.In sp.Out) (j j' : Nat) (a a' : Asg), j < 2 ^ R.counterPre.length → j' < 2 ^ R.counterPre.length →
      Assigns sp R.table.names s t a → Assigns sp R.table.names s t a' → Holds R.counterPre j a → Holds R.counterPre j a' →
      Holds R.counterPost j' a → Holds R.counterPost j' a' → (ge = false → a R.selector = a' R.selector) →
      L.eval R.strategy a = L.eval R.strategy a'

/-- The strategy is the one extracted for the game `g`, except that the types in the table may differ. -/
structure FromGame (ge : Bool) {ds : Decls} (F : Section → List Fml) (hn : (tableOf ds).names.Nodup) (g : Game (specOf ds F).In (specOf ds F).Out)
    (dump : Dump (T (specOf ds F).In (specOf ds F).Out)) (R : SymbolicStrategy B) : Prop where
  out : ∃ R', R' = extractSymbolic ge (tableOf ds) ((gameCtx g).map ((tableLayout ds hn).enc B)) (Dump.map ((tableLayout ds hn).enc B) dump) ∧
    R.table.names = R'.table.names ∧ R.counterPre = R'.counterPre ∧ R.counterPost = R'.counterPost ∧ R.selector = R'.selector ∧
    R.strategy = R'.strategy

theorem allocCounters_types (ge : Bool) (n : Nat) : ∀ (fuel i : Nat) (tab tab' : VarTable) (xs ys : List Nat), tab.names = tab'.names →
    (allocCounters ge n fuel i tab xs ys).1.names = (allocCounters ge n fuel i tab' xs ys).1.names ∧
    (allocCounters ge n fuel i tab xs ys).2 = (allocCounters ge n fuel i tab' xs ys).2 := by
  intro fuel
  induction fuel with
  | zero => intro i tab tab' xs ys h; exact ⟨h, rfl⟩
  | succ fuel ih =>
    intro i tab tab' xs ys h
    simp only [allocCounters]
    split
    · cases ge
      · simp only [Bool.false_eq_true, if_false, h]
        exact ih _ _ _ _ _ (by simp [VarTable.add, h])
      · have e : (tab.add .symbolicStrategyCounterVar (counterName xs.length)).names =
            (tab'.add .symbolicStrategyCounterVar (counterName xs.length)).names := by simp [VarTable.add, h]
        simp only [if_true, h, e]
        exact ih _ _ _ _ _ (by simp [VarTable.add, h])
    · exact ⟨h, rfl⟩

/-- The extraction with the types for fast and slow outputs. -/
theorem extractSymbolic_fs (ge : Bool) (ds : Decls) (P : Name → Bool) (c : Ctx B) (dump : Dump B) {R R' : SymbolicStrategy B}
    (hR : R = extractSymbolic ge ⟨(tableOf ds).names, fsTypes ds P⟩ c dump) (hR' : R' = extractSymbolic ge (tableOf ds) c dump) :
    R.table.names = R'.table.names ∧ R.counterPre = R'.counterPre ∧ R.counterPost = R'.counterPost ∧ R.selector = R'.selector ∧
    R.strategy = R'.strategy := by
  subst hR hR'
  obtain ⟨h1, h2⟩ := allocCounters_types ge c.livenessGuarantees.length (c.livenessGuarantees.length + 1) 1
    ⟨(tableOf ds).names, fsTypes ds P⟩ (tableOf ds) [] [] rfl
  simp only [extractSymbolic, h2, bddMgr_fs, h1]
  refine ⟨?_, trivial, trivial, trivial, trivial⟩
  cases ge
  · simp [VarTable.add, h1]
  · simpa using h1

variable {ge : Bool} {ds : Decls} {F : Section → List Fml} {hn : (tableOf ds).names.Nodup} {g : Game (specOf ds F).In (specOf ds F).Out}
  {dump : Dump (T (specOf ds F).In (specOf ds F).Out)} {R : SymbolicStrategy B}

theorem FromGame.readable (h : FromGame ge F hn g dump R) : Readable ge (specOf ds F) R g.guarantees.length := by
  obtain ⟨R', hR, e1, e2, e3, e4, e5⟩ := h.out
  obtain ⟨m, hs, _⟩ := extractSymbolic_shape ge (tableOf ds) ((gameCtx g).map ((tableLayout ds hn).enc B)) (Dump.map ((tableLayout ds hn).enc B) dump)
  rw [← hR] at hs
  have hbits := hs.bits
  have e0 : ((gameCtx g).map ((tableLayout ds hn).enc B)).livenessGuarantees.length = g.guarantees.length := List.length_map _
  rw [e0] at hbits
  have hnames := hs.names.trans (List.append_assoc _ _ _)
  have hgetn : ∀ {k y : Nat}, k < m → y < stride ge → R'.table.names[(tableOf ds).names.length + (stride ge * k + y)]? =
      (if ge then [counterName k, counterName k ++ ['\'']] else [counterName k])[y]? := by
    intro k y hk hy
    have hin : stride ge * k + y < (counterNames ge m).length := by
      rw [length_counterNames]
      have : stride ge * m = stride ge * k + stride ge * (m - k) := by rw [← Nat.mul_add]; congr 1; omega
      have : stride ge * 1 ≤ stride ge * (m - k) := Nat.mul_le_mul_left _ (by omega)
      omega
    rw [hnames, List.getElem?_append_right (by omega), Nat.add_sub_cancel_left, List.getElem?_append_left hin]
    exact counterNames_get ge hk hy
  constructor
  · rw [e2, hs.pre]; simpa using hbits
  · intro k v hv
    rw [e2, hs.pre, List.getElem?_map] at hv
    rw [e1]
    obtain ⟨k', hk, rfl⟩ := Option.map_eq_some_iff.mp hv
    obtain ⟨hkm, rfl⟩ := List.getElem?_eq_some_iff.mp hk
    simp only [List.length_range] at hkm
    rw [List.getElem_range]
    have := hgetn (y := 0) hkm (by cases ge <;> simp [stride])
    rw [Nat.add_zero] at this
    rw [this]
    cases ge <;> rfl
  · intro k v hv
    rw [e3, hs.post] at hv
    rw [e1]
    cases ge with
    | false => simp at hv
    | true =>
      simp only [if_true, List.getElem?_map] at hv
      obtain ⟨k', hk, rfl⟩ := Option.map_eq_some_iff.mp hv
      obtain ⟨hkm, rfl⟩ := List.getElem?_eq_some_iff.mp hk
      simp only [List.length_range] at hkm
      rw [List.getElem_range]
      have := hgetn (y := 1) hkm (by simp [stride])
      exact this
  · intro hge
    subst hge
    rw [e2, e3, hs.pre, hs.post]
    simp
  · intro hge
    subst hge
    rw [e1, e4, hs.sel, hnames, List.getElem?_append_right (by omega), Nat.add_sub_cancel_left,
      List.getElem?_append_right (by rw [length_counterNames]), length_counterNames]
    simp
  · intro s t j j' b
    rw [e1, e2, e3, e4]
    obtain ⟨a, h1, h2, h3⟩ := exists_assignment (tableLayout ds hn) (by simp [tableOf]) hs s t j j' b
    exact ⟨a, (assigns_pos F hn hnames).mpr ⟨h1, h2⟩, h3⟩
  · rw [e1, e2, e3, e4, e5]
    intro s t j j' a a' hj hj' ha ha' h1 h1' h2 h2' h3
    obtain ⟨p1, p2⟩ := (assigns_pos F hn hnames).mp ha
    obtain ⟨q1, q2⟩ := (assigns_pos F hn hnames).mp ha'
    rw [Bool.eq_iff_iff]
    cases ge with
    | true =>
      exact (step_goalEncoded (tableLayout ds hn) g dump hR p1 p2 h1 h2 hj hj').trans
        (step_goalEncoded (tableLayout ds hn) g dump hR q1 q2 h1' h2' hj hj').symm
    | false =>
      refine (step_selector (tableLayout ds hn) g dump hR p1 p2 h1 hj).trans ?_
      rw [h3 rfl]
      exact (step_selector (tableLayout ds hn) g dump hR q1 q2 h1' hj).symm

theorem FromGame.allows_iff (h : FromGame true F hn g dump R) {s t : Pos (specOf ds F).In (specOf ds F).Out} {j j' : Nat}
    (hj : j < 2 ^ R.counterPre.length) (hj' : j' < 2 ^ R.counterPre.length) :
    Allows (specOf ds F) R s t j j' ↔ j < g.guarantees.length ∧ strat (entries dump j) s t ∧
      (goalAt g j s t → j' = (j + 1) % g.guarantees.length) ∧ (¬ goalAt g j s t → j' = j) := by
  obtain ⟨R', hR, e1, e2, e3, e4, e5⟩ := h.out
  obtain ⟨m, hs, _⟩ := extractSymbolic_shape true (tableOf ds) ((gameCtx g).map ((tableLayout ds hn).enc B)) (Dump.map ((tableLayout ds hn).enc B) dump)
  rw [← hR] at hs
  have hnames := hs.names.trans (List.append_assoc _ _ _)
  rw [Allows, e1, e2, e3, e5]
  rw [e2] at hj hj'
  constructor
  · rintro ⟨a, h1, h2, h3, h4⟩
    obtain ⟨p1, p2⟩ := (assigns_pos F hn hnames).mp h1
    exact (step_goalEncoded (tableLayout ds hn) g dump hR p1 p2 h2 h3 hj hj').mp h4
  · intro h4
    obtain ⟨a, h1, h2, h3, h5, _⟩ := exists_assignment (tableLayout ds hn) (by simp [tableOf]) hs s t j j' false
    exact ⟨a, (assigns_pos F hn hnames).mpr ⟨h1, h2⟩, h3, h5, (step_goalEncoded (tableLayout ds hn) g dump hR h1 h2 h3 h5 hj hj').mpr h4⟩

theorem FromGame.allowsSel_iff (h : FromGame false F hn g dump R) {s t : Pos (specOf ds F).In (specOf ds F).Out} {j : Nat} {b : Bool}
    (hj : j < 2 ^ R.counterPre.length) :
    AllowsSel (specOf ds F) R s t j b ↔ j < g.guarantees.length ∧ strat (entries dump j) s t ∧ (b = true → goalAt g j s t) := by
  obtain ⟨R', hR, e1, e2, e3, e4, e5⟩ := h.out
  obtain ⟨m, hs, _⟩ := extractSymbolic_shape false (tableOf ds) ((gameCtx g).map ((tableLayout ds hn).enc B)) (Dump.map ((tableLayout ds hn).enc B) dump)
  rw [← hR] at hs
  have hnames := hs.names.trans (List.append_assoc _ _ _)
  rw [AllowsSel, e1, e2, e4, e5]
  rw [e2] at hj
  constructor
  · rintro ⟨a, h1, h2, h3, h4⟩
    obtain ⟨p1, p2⟩ := (assigns_pos F hn hnames).mp h1
    have := (step_selector (tableLayout ds hn) g dump hR p1 p2 h2 hj).mp h4
    rw [h3] at this
    exact this
  · intro h4
    obtain ⟨a, h1, h2, h3, _, h5⟩ := exists_assignment (tableLayout ds hn) (by simp [tableOf]) hs s t j 0 b
    refine ⟨a, (assigns_pos F hn hnames).mpr ⟨h1, h2⟩, h3, h5 rfl, (step_selector (tableLayout ds hn) g dump hR h1 h2 h3 hj).mpr ?_⟩
    rw [h5 rfl]
    exact h4

/-- The meaning of executing the strategy. -/
theorem FromGame.executes_iff (h : FromGame ge F hn g dump R) {s t : Pos (specOf ds F).In (specOf ds F).Out} {j j' : Nat}
    (hj : j < g.guarantees.length) (hj' : j' < 2 ^ R.counterPre.length) :
    Executes ge (specOf ds F) R g.guarantees.length s t j j' ↔ strat (entries dump j) s t ∧
      (goalAt g j s t → j' = (j + 1) % g.guarantees.length) ∧ (¬ goalAt g j s t → j' = j) := by
  have hb := lt_trans hj h.readable.bits
  cases ge with
  | true =>
    simp only [Executes, if_true]
    rw [h.allows_iff hb hj']
    exact ⟨fun h => h.2, fun h => ⟨hj, h⟩⟩
  | false =>
    simp only [Executes, Bool.false_eq_true, if_false]
    rw [h.allowsSel_iff hb, h.allowsSel_iff hb]
    constructor
    · rintro ⟨⟨_, h1, _⟩, h2, h3⟩
      exact ⟨h1, fun hg => h2 ⟨hj, h1, fun _ => hg⟩, fun hg => h3 fun ⟨_, _, h4⟩ => hg (h4 rfl)⟩
    · rintro ⟨h1, h2, h3⟩
      exact ⟨⟨hj, h1, nofun⟩, fun h4 => h2 (h4.2.2 rfl), fun h4 => h3 fun hg => h4 ⟨hj, h1, fun _ => hg⟩⟩

/-- From winning positions, no input is blocked. -/
theorem FromGame.total {Z : Set (Pos (specOf ds F).In (specOf ds F).Out)} (h : FromGame ge F hn g dump R) (hfam : Family g Z (entries dump))
    {s : Pos (specOf ds F).In (specOf ds F).Out} {j : Nat} {i : (specOf ds F).In} (hs : s ∈ Z) (hj : j < g.guarantees.length) (hi : g.safetyEnv s i) :
    ∃ o j', j' < g.guarantees.length ∧ Executes ge (specOf ds F) R g.guarantees.length s (i, o) j j' := by
  classical
  have hb := h.readable.bits
  obtain ⟨o, ho⟩ := strat_exists g ((hfam _ _ (List.getElem?_eq_getElem hj)).covers hs) hi
  have hm : (j + 1) % g.guarantees.length < g.guarantees.length := Nat.mod_lt _ (by omega)
  by_cases hr : goalAt g j s (i, o)
  · exact ⟨o, (j + 1) % g.guarantees.length, hm, (h.executes_iff hj (by omega)).mpr ⟨ho, fun _ => rfl, fun h => absurd hr h⟩⟩
  · exact ⟨o, j, hj, (h.executes_iff hj (by omega)).mpr ⟨ho, fun h => absurd h hr, fun _ => rfl⟩⟩

/-- Steps are safe, stay in the winning positions, and the counter moves. -/
theorem FromGame.step {Z : Set (Pos (specOf ds F).In (specOf ds F).Out)} (h : FromGame ge F hn g dump R) (hfam : Family g Z (entries dump))
    {s t : Pos (specOf ds F).In (specOf ds F).Out} {j j' : Nat} (hj : j < g.guarantees.length) (hj' : j' < 2 ^ R.counterPre.length)
    (ha : Executes ge (specOf ds F) R g.guarantees.length s t j j') :
    g.safetySys s t ∧ t ∈ Z ∧ j' < g.guarantees.length ∧
      (goalAt g j s t → j' = (j + 1) % g.guarantees.length) ∧ (¬ goalAt g j s t → j' = j) := by
  classical
  obtain ⟨h1, h2, h3⟩ := (h.executes_iff hj hj').mp ha
  have hl := hfam _ _ (List.getElem?_eq_getElem hj)
  refine ⟨hl.safe (strat_mem h1), hl.stays (strat_mem h1), ?_, h2, h3⟩
  by_cases hg : goalAt g j s t
  · rw [h2 hg]; exact Nat.mod_lt _ (by omega)
  · rw [h3 hg]; exact hj

/-- Runs are live. -/
theorem FromGame.live {Z : Set (Pos (specOf ds F).In (specOf ds F).Out)} (h : FromGame ge F hn g dump R) (hfam : Family g Z (entries dump))
    (p : Nat → Pos (specOf ds F).In (specOf ds F).Out) (j : Nat → Nat) (hp : p 0 ∈ Z) (hj : ∀ n, j n < g.guarantees.length)
    (hrun : ∀ n, Executes ge (specOf ds F) R g.guarantees.length (p n) (p (n + 1)) (j n) (j (n + 1)))
    (henv : ∀ n, g.safetyEnv (p n) (p (n + 1)).1) : g.Live p := by
  have hb := h.readable.bits
  have hst := fun n => (h.executes_iff (hj n) (lt_trans (hj (n + 1)) hb)).mp (hrun n)
  refine family_live g hfam p j hj hp (fun n => strat_used (hst n).1 (henv n)) fun n => ⟨(hst n).2.2, fun hg => ?_⟩
  have hlt := hj n
  refine ⟨1, Nat.le_refl 1, by omega, (hst n).2.1 hg, ?_⟩
  intro l hl
  have : l = 0 := by omega
  subst this
  rw [Nat.add_zero, Nat.mod_eq_of_lt hlt]
  exact hg

end Slugs.Props
