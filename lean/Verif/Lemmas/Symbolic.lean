import Verif.Model.Symbolic
import Verif.Spec.Symbolic
import Verif.Lemmas.Checked
import Verif.Lemmas.ExplicitSpec

/-! What the extraction of symbolic strategies yields. -/

namespace Slugs.Model

open Slugs.Spec

variable {B : Type} [DecidableEq B] [L : BddLib B]

/-- How many variables are allocated per bit. -/
def stride (goalEncoded : Bool) : Nat := if goalEncoded then 2 else 1

/-- The names of the first `m` counter bits. -/
def counterNames (goalEncoded : Bool) (m : Nat) : List Name :=
  (List.range m).flatMap fun k => if goalEncoded then [counterName k, counterName k ++ ['\'']] else [counterName k]

theorem counterNames_succ (ge : Bool) (m : Nat) : counterNames ge (m + 1) = counterNames ge m ++
    if ge then [counterName m, counterName m ++ ['\'']] else [counterName m] := by
  simp [counterNames, List.range_succ]

theorem length_counterNames (ge : Bool) (m : Nat) : (counterNames ge m).length = stride ge * m := by
  induction m with
  | zero => simp [counterNames]
  | succ m ih =>
    rw [counterNames_succ, List.length_append, ih]
    cases ge <;> simp [stride] <;> omega

theorem counterNames_get (ge : Bool) {k m y : Nat} (hk : k < m) (hy : y < stride ge) : (counterNames ge m)[stride ge * k + y]? =
    (if ge then [counterName k, counterName k ++ ['\'']] else [counterName k])[y]? := by
  obtain ⟨d, rfl⟩ : ∃ d, m = k + 1 + d := ⟨m - (k + 1), by omega⟩
  clear hk
  induction d with
  | zero =>
    rw [Nat.add_zero, counterNames_succ, List.getElem?_append_right (by rw [length_counterNames]; omega), length_counterNames]
    congr 1
    omega
  | succ d ih =>
    rw [show k + 1 + (d + 1) = (k + 1 + d) + 1 by omega, counterNames_succ, List.getElem?_append_left, ih]
    rw [length_counterNames, Nat.mul_add, Nat.mul_add]
    omega

theorem allocCounters_spec (ge : Bool) (n : Nat) (names : List Name) : ∀ (fuel m : Nat) (tab : VarTable), n + 1 ≤ fuel + m →
    tab.names = names ++ counterNames ge m →
    ∃ m' tab', allocCounters ge n fuel (2 ^ m) tab ((List.range m).map fun k => names.length + stride ge * k)
        (if ge then (List.range m).map fun k => names.length + 2 * k + 1 else []) =
      (tab', ((List.range m').map fun k => names.length + stride ge * k),
        (if ge then (List.range m').map fun k => names.length + 2 * k + 1 else [])) ∧
      tab'.names = names ++ counterNames ge m' ∧ n < 2 ^ m' := by
  intro fuel
  induction fuel with
  | zero =>
    intro m tab hm ht
    refine ⟨m, tab, rfl, ht, ?_⟩
    have := @Nat.lt_two_pow_self m
    omega
  | succ fuel ih =>
    intro m tab hm ht
    rw [allocCounters.eq_def]
    simp only
    have hlen : tab.names.length = names.length + stride ge * m := by
      rw [ht, List.length_append, length_counterNames]
    by_cases hi : 2 ^ m ≤ n
    · rw [if_pos hi]
      cases ge with
      | true =>
        obtain ⟨m', tab', h1, h2, h3⟩ := ih (m + 1) ((tab.add .symbolicStrategyCounterVar (counterName m)).add
          .symbolicStrategyCounterVar (counterName m ++ ['\''])) (by omega) (by
            simp [VarTable.add, ht, counterNames_succ])
        refine ⟨m', tab', ?_, h2, h3⟩
        rw [← h1]
        simp only [if_true, List.length_map, List.length_range, List.range_succ, List.map_append, List.map_cons, List.map_nil, pow_succ]
        simp only [VarTable.add, List.length_append, hlen]
        rfl
      | false =>
        obtain ⟨m', tab', h1, h2, h3⟩ := ih (m + 1) (tab.add .symbolicStrategyCounterVar (counterName m)) (by omega) (by
            simp [VarTable.add, ht, counterNames_succ])
        refine ⟨m', tab', ?_, h2, h3⟩
        rw [← h1]
        simp only [Bool.false_eq_true, if_false, List.length_map, List.length_range, List.range_succ, List.map_append, List.map_cons,
          List.map_nil, pow_succ, hlen]
    · rw [if_neg hi]
      exact ⟨m, tab, rfl, ht, by omega⟩

theorem eval_encoding (i : Nat) (a : Asg) : ∀ (vs : List Nat) (k : Nat) (acc : B), L.eval (encoding i k vs acc) a = true ↔
    L.eval acc a = true ∧ ∀ m v, vs[m]? = some v → a v = i.testBit (k + m) := by
  intro vs
  induction vs with
  | nil => intro k acc; simp [encoding]
  | cons v vs ih =>
    intro k acc
    rw [encoding, ih, L.eval_and]
    have e : L.eval (if i.testBit k then L.var v else L.not (L.var v)) a = true ↔ a v = i.testBit k := by
      cases h : i.testBit k <;> simp [L.eval_not, L.eval_var]
    rw [Bool.and_eq_true, e]
    constructor
    · rintro ⟨⟨h1, h2⟩, h3⟩
      refine ⟨h1, fun m v' hv => ?_⟩
      cases m with
      | zero => simp at hv; subst hv; exact h2
      | succ m => rw [h3 m v' (by simpa using hv)]; congr 1; omega
    · rintro ⟨h1, h2⟩
      refine ⟨⟨h1, by simpa using h2 0 v rfl⟩, fun m v' hv => ?_⟩
      rw [h2 (m + 1) v' (by simpa using hv)]; congr 1; omega

theorem eval_encoding_tt (i : Nat) (a : Asg) (vs : List Nat) : L.eval (encoding (B := B) i 0 vs L.tt) a = true ↔ Holds vs i a := by
  rw [eval_encoding]; simp [L.eval_tt, Holds]

theorem eval_combineGoals (ge : Bool) (n : Nat) (pos : Nat → B) (pn qn : List Nat) (sel : Nat) (a : Asg) :
    ∀ (Gs : List B) (i : Nat) (acc : B), L.eval (combineGoals ge n pos pn qn sel i Gs acc) a = true ↔
      L.eval acc a = true ∨ ∃ m G, Gs[m]? = some G ∧ Holds pn (i + m) a ∧ L.eval (pos (i + m)) a = true ∧
        (if ge then (Holds qn ((i + m + 1) % n) a ∧ L.eval G a = true) ∨ (Holds qn (i + m) a ∧ ¬ L.eval G a = true)
          else a sel = false ∨ L.eval G a = true) := by
  intro Gs
  induction Gs with
  | nil => intro i acc; simp [combineGoals]
  | cons G Gs ih =>
    intro i acc
    rw [combineGoals, ih, L.eval_or]
    simp only
    have e : L.eval (if ge = true then
          L.and (L.and (encoding i 0 pn L.tt) (pos i)) (L.or (L.and (encoding ((i + 1) % n) 0 qn L.tt) G)
            (L.and (encoding i 0 qn L.tt) (L.not G)))
        else L.and (L.and (encoding i 0 pn L.tt) (pos i)) (L.or (L.not (L.var sel)) G)) a = true ↔
        Holds pn i a ∧ L.eval (pos i) a = true ∧
        (if ge then (Holds qn ((i + 1) % n) a ∧ L.eval G a = true) ∨ (Holds qn i a ∧ ¬ L.eval G a = true)
          else a sel = false ∨ L.eval G a = true) := by
      cases ge
      · simp only [Bool.false_eq_true, if_false, L.eval_and, L.eval_or, L.eval_not, L.eval_var, Bool.and_eq_true, Bool.or_eq_true,
          eval_encoding_tt, and_assoc, Bool.not_eq_true']
      · simp only [if_true, L.eval_and, L.eval_or, L.eval_not, Bool.and_eq_true, Bool.or_eq_true,
          eval_encoding_tt, and_assoc, Bool.not_eq_true', Bool.not_eq_true]
    rw [Bool.or_eq_true, e, or_assoc]
    refine or_congr Iff.rfl ?_
    constructor
    · rintro (h | ⟨m, G', h1, h2⟩)
      · exact ⟨0, G, rfl, h⟩
      · refine ⟨m + 1, G', by simpa using h1, ?_⟩
        rw [show i + (m + 1) = i + 1 + m by omega]; exact h2
    · rintro ⟨m, G', h1, h2⟩
      cases m with
      | zero => simp at h1; subst h1; exact .inl h2
      | succ m =>
        refine .inr ⟨m, G', by simpa using h1, ?_⟩
        rw [show i + 1 + m = i + (m + 1) by omega]; exact h2

/-- The shape of what is written. -/
structure SymbolicShape (ge : Bool) (names : List Name) (n : Nat) (R : SymbolicStrategy B) (m : Nat) : Prop where
  pre : R.counterPre = (List.range m).map fun k => names.length + stride ge * k
  post : R.counterPost = if ge then (List.range m).map fun k => names.length + 2 * k + 1 else []
  sel : R.selector = names.length + stride ge * m
  names : R.table.names = names ++ counterNames ge m ++ if ge then [] else [txt!"strat_type"]
  bits : n < 2 ^ m

theorem extractSymbolic_shape (ge : Bool) (tab : VarTable) (c : Ctx B) (dump : Dump B) :
    ∃ m, SymbolicShape ge tab.names c.livenessGuarantees.length (extractSymbolic ge tab c dump) m ∧
      (extractSymbolic ge tab c dump).strategy = combineGoals ge c.livenessGuarantees.length (positional (bddMgr B tab.types) dump)
        (extractSymbolic ge tab c dump).counterPre (extractSymbolic ge tab c dump).counterPost
        (extractSymbolic ge tab c dump).selector 0 c.livenessGuarantees L.ff := by
  obtain ⟨m, tab', h1, h2, h3⟩ := allocCounters_spec ge c.livenessGuarantees.length tab.names (c.livenessGuarantees.length + 1) 0 tab
    (by omega) (by simp [counterNames])
  have h1' : allocCounters ge c.livenessGuarantees.length (c.livenessGuarantees.length + 1) 1 tab [] [] =
      (tab', ((List.range m).map fun k => tab.names.length + stride ge * k),
        (if ge then (List.range m).map fun k => tab.names.length + 2 * k + 1 else [])) := by
    rw [← h1]; cases ge <;> simp
  refine ⟨m, ?_, rfl⟩
  constructor
  · simp only [extractSymbolic, h1']
  · simp only [extractSymbolic, h1']
  · simp only [extractSymbolic, h1']
    rw [h2, List.length_append, length_counterNames]
  · simp only [extractSymbolic, h1']
    cases ge <;> simp [VarTable.add, h2]
  · exact h3

/-- Numbers below `2 ^ m` are determined by the bits. -/
theorem holds_inj {vs : List Nat} {i j : Nat} {a : Asg} (hi : i < 2 ^ vs.length) (hj : j < 2 ^ vs.length) (h1 : Holds vs i a)
    (h2 : Holds vs j a) : i = j := by
  apply Nat.eq_of_testBit_eq
  intro k
  by_cases hk : k < vs.length
  · rw [← h1 k _ (List.getElem?_eq_getElem hk), ← h2 k _ (List.getElem?_eq_getElem hk)]
  · rw [Nat.testBit_lt_two_pow (lt_of_lt_of_le hi (Nat.pow_le_pow_right (by omega) (by omega))),
      Nat.testBit_lt_two_pow (lt_of_lt_of_le hj (Nat.pow_le_pow_right (by omega) (by omega)))]

theorem assigns_pos {ds : Decls} (F : Section → List Fml) (hn : (tableOf ds).names.Nodup) {names extra : List Name}
    (he : names = (tableOf ds).names ++ extra) {s t : Pos (specOf ds F).In (specOf ds F).Out} {a : Asg} :
    Assigns (specOf ds F) names s t a ↔
      s = curPos ((tableLayout ds hn).get a) ∧ t = nxtPos ((tableLayout ds hn).get a) := by
  have key : ∀ z : DSlot ds, names.idxOf (slotEntry z).1 = slotCode z := fun z => by
    rw [he, List.idxOf_append_of_mem (slotName_mem z), slotCode]
  constructor
  · rintro ⟨h1, h2⟩
    refine ⟨Prod.ext ?_ ?_, Prod.ext ?_ ?_⟩
    · funext x; rw [← (h1 x).1]; exact congrArg a (key (.ci x))
    · funext x; rw [← (h2 x).1]; exact congrArg a (key (.co x))
    · funext x; rw [← (h1 x).2]; exact congrArg a (key (.ni x))
    · funext x; rw [← (h2 x).2]; exact congrArg a (key (.no x))
  · rintro ⟨rfl, rfl⟩
    exact ⟨fun x => ⟨congrArg a (key (.ci x)), congrArg a (key (.ni x))⟩,
      fun x => ⟨congrArg a (key (.co x)), congrArg a (key (.no x))⟩⟩

/-- The meaning of what is written. -/
theorem extractSymbolic_eval {X Y : Type} {tab : VarTable} (lay : Layout X Y tab.types) (g : Game (X → Bool) (Y → Bool)) (ge : Bool)
    (dump : Dump (T (X → Bool) (Y → Bool))) {R : SymbolicStrategy B}
    (hR : R = extractSymbolic ge tab ((gameCtx g).map (lay.enc B)) (Dump.map (lay.enc B) dump))
    {s t : Pos (X → Bool) (Y → Bool)} {a : Asg} (hs1 : s = curPos (lay.get a)) (hs2 : t = nxtPos (lay.get a)) :
    L.eval R.strategy a = true ↔ ∃ i G, g.guarantees[i]? = some G ∧ Holds R.counterPre i a ∧
      strat (entries dump i) s t ∧
      (if ge then (Holds R.counterPost ((i + 1) % g.guarantees.length) a ∧ G s t) ∨
          (Holds R.counterPost i a ∧ ¬ G s t) else a R.selector = false ∨ G s t) := by
  obtain ⟨m, hs, hc⟩ := extractSymbolic_shape ge tab ((gameCtx g).map (lay.enc B)) (Dump.map (lay.enc B) dump)
  rw [← hR] at hs hc
  rw [hc, eval_combineGoals]
  have e1 : ((gameCtx g).map (lay.enc B)).livenessGuarantees = g.guarantees.map (lay.enc B) := rfl
  have e2 : ∀ i, L.eval (positional (bddMgr B tab.types) (Dump.map (lay.enc B) dump) i) a = true ↔
      strat (entries dump i) s t := by
    intro i
    rw [positional_hom (lay.hom B) dump i, lay.eval_enc, positional_eq, ← hs1, ← hs2]
  have e3 : ∀ G, L.eval (lay.enc B G) a = true ↔ G s t := fun G => by
    rw [lay.eval_enc B, ← hs1, ← hs2]
  rw [e1, L.eval_ff]
  simp only [Bool.false_eq_true, false_or, List.getElem?_map, Nat.zero_add, List.length_map]
  constructor
  · rintro ⟨i, G', h1, h2, h3, h4⟩
    obtain ⟨G, h5, rfl⟩ := Option.map_eq_some_iff.mp h1
    refine ⟨i, G, h5, h2, (e2 i).mp h3, ?_⟩
    rw [e3] at h4
    exact h4
  · rintro ⟨i, G, h1, h2, h3, h4⟩
    refine ⟨i, lay.enc B G, by rw [h1]; rfl, h2, (e2 i).mpr h3, ?_⟩
    rw [e3]
    exact h4

/-- Transitions of a strategy with an encoded goal. -/
theorem step_goalEncoded {X Y : Type} {tab : VarTable} (lay : Layout X Y tab.types) (g : Game (X → Bool) (Y → Bool))
    (dump : Dump (T (X → Bool) (Y → Bool))) {R : SymbolicStrategy B}
    (hR : R = extractSymbolic true tab ((gameCtx g).map (lay.enc B)) (Dump.map (lay.enc B) dump))
    {s t : Pos (X → Bool) (Y → Bool)} {a : Asg} (hs1 : s = curPos (lay.get a)) (hs2 : t = nxtPos (lay.get a)) {j j' : Nat}
    (h1 : Holds R.counterPre j a) (h2 : Holds R.counterPost j' a) (hj : j < 2 ^ R.counterPre.length) (hj' : j' < 2 ^ R.counterPre.length) :
    L.eval R.strategy a = true ↔ j < g.guarantees.length ∧ strat (entries dump j) s t ∧
      (goalAt g j s t → j' = (j + 1) % g.guarantees.length) ∧ (¬ goalAt g j s t → j' = j) := by
  obtain ⟨m, hs, _⟩ := extractSymbolic_shape true tab ((gameCtx g).map (lay.enc B)) (Dump.map (lay.enc B) dump)
  rw [← hR] at hs
  have hm : R.counterPre.length = m := by rw [hs.pre]; simp
  have hm' : R.counterPost.length = m := by rw [hs.post]; simp
  have hn : g.guarantees.length < 2 ^ m := by
    have := hs.bits
    simpa [Ctx.map, gameCtx] using this
  rw [hm] at hj hj'
  rw [extractSymbolic_eval lay g true dump hR hs1 hs2]
  simp only [if_true]
  have inj : ∀ {i}, i < g.guarantees.length → Holds R.counterPre i a → i = j := fun hi h =>
    holds_inj (by rw [hm]; omega) (by rw [hm]; exact hj) h h1
  have inj' : ∀ {i}, i < g.guarantees.length → Holds R.counterPost i a → i = j' := fun hi h =>
    holds_inj (by rw [hm']; omega) (by rw [hm']; exact hj') h h2
  constructor
  · rintro ⟨i, G, h3, h4, h5, h6⟩
    have hi : i < g.guarantees.length := (List.getElem?_eq_some_iff.mp h3).1
    have := inj hi h4
    subst this
    refine ⟨hi, h5, ?_, ?_⟩
    · rintro ⟨G', h7, h8⟩
      rw [h3] at h7
      cases h7
      rcases h6 with ⟨h6, _⟩ | ⟨_, h6⟩
      · exact (inj' (Nat.mod_lt _ (by omega)) h6).symm
      · exact absurd h8 h6
    · intro h7
      rcases h6 with ⟨_, h6⟩ | ⟨h6, _⟩
      · exact absurd ⟨G, h3, h6⟩ h7
      · exact (inj' hi h6).symm
  · rintro ⟨hi, h5, h6, h7⟩
    refine ⟨j, _, List.getElem?_eq_getElem hi, h1, h5, ?_⟩
    by_cases hg : goalAt g j s t
    · refine .inl ⟨h6 hg ▸ h2, ?_⟩
      obtain ⟨G, h8, h9⟩ := hg
      rw [List.getElem?_eq_getElem hi] at h8
      cases h8
      exact h9
    · exact .inr ⟨h7 hg ▸ h2, fun h => hg ⟨_, List.getElem?_eq_getElem hi, h⟩⟩

/-- Transitions of a strategy with a selector. -/
theorem step_selector {X Y : Type} {tab : VarTable} (lay : Layout X Y tab.types) (g : Game (X → Bool) (Y → Bool))
    (dump : Dump (T (X → Bool) (Y → Bool))) {R : SymbolicStrategy B}
    (hR : R = extractSymbolic false tab ((gameCtx g).map (lay.enc B)) (Dump.map (lay.enc B) dump))
    {s t : Pos (X → Bool) (Y → Bool)} {a : Asg} (hs1 : s = curPos (lay.get a)) (hs2 : t = nxtPos (lay.get a)) {j : Nat}
    (h1 : Holds R.counterPre j a) (hj : j < 2 ^ R.counterPre.length) :
    L.eval R.strategy a = true ↔ j < g.guarantees.length ∧ strat (entries dump j) s t ∧ (a R.selector = true → goalAt g j s t) := by
  obtain ⟨m, hs, _⟩ := extractSymbolic_shape false tab ((gameCtx g).map (lay.enc B)) (Dump.map (lay.enc B) dump)
  rw [← hR] at hs
  have hm : R.counterPre.length = m := by rw [hs.pre]; simp
  have hn : g.guarantees.length < 2 ^ m := by
    have := hs.bits
    simpa [Ctx.map, gameCtx] using this
  rw [hm] at hj
  rw [extractSymbolic_eval lay g false dump hR hs1 hs2]
  simp only [Bool.false_eq_true, if_false]
  have inj : ∀ {i}, i < g.guarantees.length → Holds R.counterPre i a → i = j := fun hi h =>
    holds_inj (by rw [hm]; omega) (by rw [hm]; exact hj) h h1
  constructor
  · rintro ⟨i, G, h3, h4, h5, h6⟩
    have hi : i < g.guarantees.length := (List.getElem?_eq_some_iff.mp h3).1
    have := inj hi h4
    subst this
    refine ⟨hi, h5, fun h7 => ?_⟩
    rw [h7] at h6
    exact ⟨G, h3, h6.resolve_left (by simp)⟩
  · rintro ⟨hi, h5, h6⟩
    refine ⟨j, _, List.getElem?_eq_getElem hi, h1, h5, ?_⟩
    cases hsel : a R.selector with
    | false => exact .inl rfl
    | true =>
      obtain ⟨G, h8, h9⟩ := h6 hsel
      rw [List.getElem?_eq_getElem hi] at h8
      cases h8
      exact .inr h9

/-- Every transition has an assignment. -/
theorem exists_assignment {X Y : Type} {tab : VarTable} (lay : Layout X Y tab.types) (hty : tab.types.length = tab.names.length) {ge : Bool}
    {n m : Nat} {R : SymbolicStrategy B}
    (hs : SymbolicShape ge tab.names n R m) (s t : Pos (X → Bool) (Y → Bool)) (j j' : Nat) (b : Bool) :
    ∃ a : Asg, s = curPos (lay.get a) ∧ t = nxtPos (lay.get a) ∧ Holds R.counterPre j a ∧ Holds R.counterPost j' a ∧
      (ge = false → a R.selector = b) := by
  let a0 : Asg := lay.put (slots s t) (fun _ => false)
  let a : Asg := fun k => if k < tab.names.length then a0 k else
    if ge then (if (k - tab.names.length) % 2 = 0 then j.testBit ((k - tab.names.length) / 2) else j'.testBit ((k - tab.names.length) / 2))
    else if k - tab.names.length < m then j.testBit (k - tab.names.length) else b
  have hget : lay.get a = slots s t := by
    rw [← lay.get_put (slots s t) (fun _ => false)]
    funext z
    have := lay.bound z
    rw [hty] at this
    simp only [Layout.get, a, this, if_true, a0]
  refine ⟨a, by rw [hget]; rfl, by rw [hget]; rfl, ?_, ?_, ?_⟩
  · intro k v hv
    rw [hs.pre, List.getElem?_map] at hv
    obtain ⟨k', hk, rfl⟩ := Option.map_eq_some_iff.mp hv
    obtain ⟨hkm, rfl⟩ := List.getElem?_eq_some_iff.mp hk
    simp only [List.length_range] at hkm
    simp only [List.getElem_range]
    cases ge with
    | true =>
      have e1 : ¬ tab.names.length + 2 * k < tab.names.length := by omega
      have e2 : tab.names.length + 2 * k - tab.names.length = 2 * k := by omega
      simp [a, stride, e1, e2]
    | false => simp [a, stride, hkm]
  · intro k v hv
    rw [hs.post] at hv
    cases ge with
    | false => simp at hv
    | true =>
      simp only [if_true, List.getElem?_map] at hv
      obtain ⟨k', hk, rfl⟩ := Option.map_eq_some_iff.mp hv
      obtain ⟨hkm, rfl⟩ := List.getElem?_eq_some_iff.mp hk
      simp only [List.getElem_range]
      have e1 : ¬ tab.names.length + 2 * k + 1 < tab.names.length := by omega
      have e2 : tab.names.length + 2 * k + 1 - tab.names.length = 2 * k + 1 := by omega
      have e3 : (2 * k + 1) % 2 = 1 := by omega
      have e4 : (2 * k + 1) / 2 = k := by omega
      simp [a, e1, e2, e3, e4]
  · intro hge
    subst hge
    rw [hs.sel]
    simp [a, stride]

end Slugs.Model
