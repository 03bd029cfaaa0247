import Verif.Lemmas.CinderellaFile
import Verif.Lemmas.GameRestart

/-! The game that the benchmark denotes is the game of Cinderella and her stepmother (C86). -/

namespace Slugs.Model.Cinderella

open Slugs.Spec Slugs.Spec.Structured Slugs.Model.Structured Slugs.Spec.Cinderella

/-! ### Games without liveness guarantees -/

/-- A set of positions that the system can always stay in is winning. -/
theorem wins_invariant {I O : Type} {g : Game I O} (hg : g.guarantees = []) (inv : Pos I O → Prop) (d : O)
    (h : ∀ p, inv p → ∀ i, g.safetyEnv p i → ∃ o, g.safetySys p (i, o) ∧ inv (i, o)) {s : Pos I O} (hs : inv s) : g.SysWins s := by
  classical
  let out : Pos I O → I → O := fun p i => if hx : ∃ o, g.safetySys p (i, o) ∧ inv (i, o) then hx.choose else d
  have hout : ∀ p i, inv p → g.safetyEnv p i → g.safetySys p (i, out p i) ∧ inv (i, out p i) := by
    intro p i hp hi
    have hx := h p hp i hi
    simp only [out, dif_pos hx]
    exact hx.choose_spec
  let σ : SysStrategy I O := fun l i => match l with
    | [] => d
    | p :: _ => out p i
  have key : ∀ l, g.SysHist σ s l → ∀ p, l.head? = some p → inv p := by
    intro l hl
    induction hl with
    | start => intro p hp; cases hp; exact hs
    | step _ he ih => intro p hp; cases hp; exact (hout _ _ (ih _ rfl) he).2
  refine ⟨σ, fun cur l i hl hi => (hout cur i (key _ hl cur rfl) hi).1, fun p _ _ b hb => ?_⟩
  rw [hg] at hb
  cases hb

/-- From a winning position, the system can move to a winning position. -/
theorem wins_step {I O : Type} {g : Game I O} {s : Pos I O} (h : g.SysWins s) {i : I} (hi : g.safetyEnv s i) : ∃ o, g.safetySys s (i, o) ∧ g.SysWins (i, o) := by
  obtain ⟨σ, hσ⟩ := h
  exact ⟨σ [s] i, hσ.1 s [] i .start hi, wins_after hσ (.step .start hi)⟩

/-! ### Values -/

/-- Values for declared variables. -/
def mkVal (ds : List Decl) (f : Word → Int) (h : ∀ d ∈ ds, d.Ok (f d.name)) : Valuation ds :=
  ⟨fun w => if w ∈ ds.map Decl.name then f w else 0, fun d hd => by
    have : d.name ∈ ds.map Decl.name := List.mem_map_of_mem hd
    simp only [if_pos this]
    exact h d hd, fun x hx => if_neg hx⟩

theorem mkVal_mem {ds : List Decl} {f : Word → Int} {h : ∀ d ∈ ds, d.Ok (f d.name)} {w : Word} (hw : w ∈ ds.map Decl.name) : (mkVal ds f h).1 w = f w := if_pos hw

/-- The number in the name of a variable. -/
def numOf (w : Word) : Nat := digitsVal (w.drop 1)

theorem numOf_x (i : Nat) : numOf (xName i) = i := digitsVal_decimal i
theorem numOf_y (i : Nat) : numOf (yName i) = i := digitsVal_decimal i

variable (n power capacity units : Nat)

abbrev T : SSpec := theSpec n power capacity units

variable {n power capacity units}

def inOf (x : Nat → Nat) (hx : ∀ i, i < n → x i ≤ units) : (T n power capacity units).In :=
  mkVal _ (fun w => (x (numOf w) : Int)) (by
    intro d hd
    simp only [theSpec, List.mem_map, List.mem_range] at hd
    obtain ⟨i, hi, rfl⟩ := hd
    have := hx i hi
    simp only [Decl.Ok, numOf_x]
    omega)

def outOf (b : Nat → Nat) (e : Nat) (hb : ∀ i, i < n → b i ≤ capacity) (he : e < n) : (T n power capacity units).Out :=
  mkVal _ (fun w => if w = txt!"e" then (e : Int) else (b (numOf w) : Int)) (by
    intro d hd
    simp only [theSpec, List.mem_append, List.mem_map, List.mem_range, List.mem_singleton] at hd
    rcases hd with ⟨i, hi, rfl⟩ | rfl
    · have := hb i hi
      have hy : yName i ≠ txt!"e" := by simp [yName]
      simp only [Decl.Ok, if_neg hy, numOf_y]
      omega
    · simp only [Decl.Ok, if_true]
      omega)

theorem inOf_x {x : Nat → Nat} {hx : ∀ i, i < n → x i ≤ units} {i : Nat} (hi : i < n) :
    (inOf (power := power) (capacity := capacity) x hx).1 (xName i) = x i := by
  rw [inOf, mkVal_mem (mem_x n power capacity units hi), numOf_x]

theorem outOf_y {b : Nat → Nat} {e : Nat} {hb : ∀ i, i < n → b i ≤ capacity} {he : e < n} {i : Nat} (hi : i < n) :
    (outOf (power := power) (units := units) b e hb he).1 (yName i) = b i := by
  have hy : yName i ≠ txt!"e" := by simp [yName]
  rw [outOf, mkVal_mem (mem_y n power capacity units hi), if_neg hy, numOf_y]

theorem outOf_e {b : Nat → Nat} {e : Nat} {hb : ∀ i, i < n → b i ≤ capacity} {he : e < n} :
    (outOf (power := power) (units := units) b e hb he).1 txt!"e" = e := by
  rw [outOf, mkVal_mem (mem_e n power capacity units), if_pos rfl]

/-- The units that are added. -/
def xs (i : (T n power capacity units).In) (k : Nat) : Nat := (i.1 (xName k)).toNat
/-- The contents of the buckets. -/
def ys (o : (T n power capacity units).Out) (k : Nat) : Nat := (o.1 (yName k)).toNat
/-- The bucket that is chosen. -/
def ee (o : (T n power capacity units).Out) : Nat := (o.1 txt!"e").toNat

theorem x_range (i : (T n power capacity units).In) {k : Nat} (hk : k < n) : i.1 (xName k) = xs i k ∧ xs i k ≤ units := by
  have := i.2.1 ⟨xName k, some (0, (units : Int))⟩ (List.mem_map.mpr ⟨k, List.mem_range.mpr hk, rfl⟩)
  simp only [Decl.Ok] at this
  rw [xs]
  omega

theorem y_range (o : (T n power capacity units).Out) {k : Nat} (hk : k < n) : o.1 (yName k) = ys o k ∧ ys o k ≤ capacity := by
  have := o.2.1 ⟨yName k, some (0, (capacity : Int))⟩ (List.mem_append_left _ (List.mem_map.mpr ⟨k, List.mem_range.mpr hk, rfl⟩))
  simp only [Decl.Ok] at this
  rw [ys]
  omega

theorem e_range (hn : 1 ≤ n) (o : (T n power capacity units).Out) : o.1 txt!"e" = ee o ∧ ee o < n := by
  have := o.2.1 ⟨txt!"e", some (0, ((n - 1 : Nat) : Int))⟩ (List.mem_append_right _ (List.mem_singleton.mpr rfl))
  simp only [Decl.Ok] at this
  rw [ee]
  omega

/-! ### Looking up names -/

theorem y_not_input (i : Nat) : yName i ∉ (T n power capacity units).inputNames := by
  rw [theSpec_inputs]
  intro h
  obtain ⟨j, _, hj⟩ := List.mem_map.mp h
  simp [xName, yName] at hj

theorem e_not_input : txt!"e" ∉ (T n power capacity units).inputNames := by
  rw [theSpec_inputs]
  intro h
  obtain ⟨j, _, hj⟩ := List.mem_map.mp h
  simp [xName] at hj

theorem prime_not_name (w : Word) : prime w ∉ (T n power capacity units).names := by
  intro h
  rw [SSpec.names, theSpec_inputs, theSpec_outputs] at h
  have hp : '\'' ∈ prime w := by simp [prime]
  simp only [List.mem_append, List.mem_map, List.mem_singleton] at h
  rcases h with ⟨i, _, h⟩ | ⟨i, _, h⟩ | h
  · rw [← h] at hp; exact x_plain i hp
  · rw [← h] at hp; exact y_plain i hp
  · rw [h] at hp; revert hp; decide

variable {p q : Pos (T n power capacity units).In (T n power capacity units).Out}

theorem look_next (w : Word) : (T n power capacity units).look p q (prime w) = (T n power capacity units).now q w := by
  rw [SSpec.look, if_neg (prime_not_name w), prime, List.dropLast_concat]

theorem now_x {i : Nat} (hi : i < n) : (T n power capacity units).now p (xName i) = xs p.1 i := by
  rw [SSpec.now, if_pos (mem_x n power capacity units hi), (x_range p.1 hi).1]

theorem now_y {i : Nat} (hi : i < n) : (T n power capacity units).now p (yName i) = ys p.2 i := by
  rw [SSpec.now, if_neg (y_not_input i), (y_range p.2 hi).1]

theorem look_x {i : Nat} (hi : i < n) : (T n power capacity units).look p q (xName i) = xs p.1 i := by
  rw [SSpec.look, SSpec.names, if_pos (List.mem_append_left _ (mem_x n power capacity units hi)), now_x hi]

theorem look_y {i : Nat} (hi : i < n) : (T n power capacity units).look p q (yName i) = ys p.2 i := by
  rw [SSpec.look, SSpec.names, if_pos (List.mem_append_right _ (mem_y n power capacity units hi)), now_y hi]

theorem look_e (hn : 1 ≤ n) : (T n power capacity units).look p q txt!"e" = ee p.2 := by
  rw [SSpec.look, SSpec.names, if_pos (List.mem_append_right _ (mem_e n power capacity units)), SSpec.now, if_neg e_not_input, (e_range hn p.2).1]

/-! ### The formulas -/

theorem emptied_iff {n power e i : Nat} (hp : 1 ≤ power) (he : e < n) (hi : i < n) : Emptied n power e i ↔ (e ≤ i ∧ i < e + power) ∨ i + n ≤ e + (power - 1) := by
  constructor
  · rintro ⟨k, hk, h⟩
    have hd := Nat.div_add_mod (e + k) n
    rw [← h] at hd
    cases hq : (e + k) / n with
    | zero => rw [hq] at hd; left; omega
    | succ m =>
      rw [hq, Nat.mul_succ] at hd
      right
      have : 0 ≤ n * m := Nat.zero_le _
      omega
  · rintro (⟨h1, h2⟩ | h)
    · exact ⟨i - e, by omega, by rw [show e + (i - e) = i by omega, Nat.mod_eq_of_lt hi]⟩
    · exact ⟨i + n - e, by omega, by rw [show e + (i + n - e) = i + n by omega, Nat.add_mod_right, Nat.mod_eq_of_lt hi]⟩

theorem emptied_holds {f : Word → Bool} {v : Word → Int} {bounds : Bounds} {e i : Nat} (hp : 1 ≤ power) (he : e < n) (hi : i < n) (hv : v txt!"e" = e) :
    (emptiedFml n power i).holds bounds f v = true ↔ Emptied n power e i := by
  rw [emptied_iff hp he hi]
  simp only [emptiedFml, SFml.holds, NExp.value, Cmp.holds, hv, Bool.or_eq_true, Bool.and_eq_true, decide_eq_true_eq]
  omega

theorem sumExp_value {bounds : Bounds} {v : Word → Int} {x : Nat → Nat} : ∀ (is : List Nat) (i : Nat), (∀ j ∈ i :: is, v (prime (xName j)) = x j) →
    (sumExp i is).value bounds v = (((i :: is).map x).sum : Nat)
  | [], i, h => by simp [sumExp, NExp.value, h i]
  | j :: is, i, h => by
    rw [sumExp, NExp.value, sumExp_value is j fun k hk => h k (List.mem_cons_of_mem _ hk), NExp.value, h i (by simp)]
    simp

theorem sum_holds {f : Word → Bool} {v : Word → Int} {bounds : Bounds} {x : Nat → Nat} (hv : ∀ i, i < n → v (prime (xName i)) = x i) :
    (sumFml units (List.range n)).holds bounds f v = true ↔ CanAdd n units x := by
  rw [CanAdd]
  have hl : ∀ j ∈ List.range n, v (prime (xName j)) = x j := fun j h => hv j (List.mem_range.mp h)
  cases he : List.range n with
  | nil => simp [sumFml, SFml.holds]
  | cons i is =>
    rw [he] at hl
    simp only [sumFml, SFml.holds, Cmp.holds, sumExp_value is i hl, NExp.value, decide_eq_true_eq]
    omega

/-! ### The game -/

theorem game_safetyEnv (d : (T n power capacity units).Out) (i : (T n power capacity units).In) : (T n power capacity units).game.safetyEnv p i ↔ CanAdd n units (xs i) := by
  have key : ∀ o, (T n power capacity units).holds p (i, o) (.infix (sumFml units (List.range n))) ↔ CanAdd n units (xs i) :=
    fun o => sum_holds fun k hk => by rw [look_next, now_x hk]
  constructor
  · intro h
    exact (key d).mp (h _ (List.mem_singleton.mpr rfl) d)
  · intro h c hc o
    rw [List.mem_singleton.mp hc]
    exact (key o).mpr h

theorem game_initEnv (d : (T n power capacity units).Out) (i : (T n power capacity units).In) : (T n power capacity units).game.initEnv i ↔ ∀ k, k < n → xs i k = 0 := by
  have key : ∀ o k, k < n → ((T n power capacity units).holds (i, o) (i, o) (.infix (zeroFml (xName k))) ↔ xs i k = 0) := by
    intro o k hk
    simp only [SSpec.holds, zeroFml, SFml.holds, Cmp.holds, NExp.value, look_x hk, decide_eq_true_eq]
    omega
  constructor
  · intro h k hk
    exact (key d k hk).mp (h _ (List.mem_map.mpr ⟨k, List.mem_range.mpr hk, rfl⟩) d)
  · intro h c hc o
    obtain ⟨k, hk, rfl⟩ := List.mem_map.mp hc
    have hk := List.mem_range.mp hk
    exact (key o k hk).mpr (h k hk)

theorem game_initSys : (T n power capacity units).game.initSys p ↔ ∀ k, k < n → ys p.2 k = 0 := by
  have key : ∀ k, k < n → ((T n power capacity units).holds p p (.infix (zeroFml (yName k))) ↔ ys p.2 k = 0) := by
    intro k hk
    simp only [SSpec.holds, zeroFml, SFml.holds, Cmp.holds, NExp.value, look_y hk, decide_eq_true_eq]
    omega
  constructor
  · intro h k hk
    exact (key k hk).mp (h _ (List.mem_map.mpr ⟨k, List.mem_range.mpr hk, rfl⟩))
  · intro h c hc
    obtain ⟨k, hk, rfl⟩ := List.mem_map.mp hc
    have hk := List.mem_range.mp hk
    exact (key k hk).mpr (h k hk)

theorem game_safetySys (hn : 1 ≤ n) (hp : 1 ≤ power) : (T n power capacity units).game.safetySys p q ↔ Round n power (ee p.2) (ys p.2) (xs q.1) (ys q.2) := by
  have he := (e_range hn p.2).2
  have hm : ∀ k, k < n → ((emptiedFml n power k).holds (T n power capacity units).bounds (fun x => (T n power capacity units).look p q x = 1)
      ((T n power capacity units).look p q) = true ↔ Emptied n power (ee p.2) k) := fun k hk => emptied_holds hp he hk (look_e hn)
  have key1 : ∀ k, k < n → ((T n power capacity units).holds p q (.infix (keepFml n power k)) ↔ (¬ Emptied n power (ee p.2) k → ys q.2 k = ys p.2 k + xs q.1 k)) := by
    intro k hk
    rw [← hm k hk]
    simp only [SSpec.holds, keepFml, SFml.holds, Cmp.holds, NExp.value, look_next, now_x hk, now_y hk, look_y hk, Bool.or_eq_true, Bool.not_not, decide_eq_true_eq]
    constructor
    · rintro (h | h) h'
      · exact absurd h h'
      · omega
    · intro h
      by_cases h' : (emptiedFml n power k).holds (T n power capacity units).bounds (fun x => (T n power capacity units).look p q x = 1) ((T n power capacity units).look p q) = true
      · exact .inl h'
      · have := h h'; right; omega
  have key2 : ∀ k, k < n → ((T n power capacity units).holds p q (.infix (emptyFml n power k)) ↔ (Emptied n power (ee p.2) k → ys q.2 k = xs q.1 k)) := by
    intro k hk
    rw [← hm k hk]
    simp only [SSpec.holds, emptyFml, SFml.holds, Cmp.holds, NExp.value, look_next, now_x hk, now_y hk, Bool.or_eq_true, Bool.not_eq_true', decide_eq_true_eq]
    constructor
    · rintro (h | h) h'
      · rw [h'] at h; cases h
      · omega
    · intro h
      by_cases h' : (emptiedFml n power k).holds (T n power capacity units).bounds (fun x => (T n power capacity units).look p q x = 1) ((T n power capacity units).look p q) = true
      · have := h h'; right; omega
      · exact .inl (Bool.not_eq_true _ ▸ h')
  constructor
  · intro h k hk
    exact ⟨(key2 k hk).mp (h _ (List.mem_append_right _ (List.mem_map.mpr ⟨k, List.mem_range.mpr hk, rfl⟩))),
      (key1 k hk).mp (h _ (List.mem_append_left _ (List.mem_map.mpr ⟨k, List.mem_range.mpr hk, rfl⟩)))⟩
  · intro h c hc
    rcases List.mem_append.mp hc with hc | hc
    · obtain ⟨k, hk, rfl⟩ := List.mem_map.mp hc
      have hk := List.mem_range.mp hk
      exact (key1 k hk).mpr (h k hk).2
    · obtain ⟨k, hk, rfl⟩ := List.mem_map.mp hc
      have hk := List.mem_range.mp hk
      exact (key2 k hk).mpr (h k hk).1

theorem canAdd_le {x : Nat → Nat} (h : CanAdd n units x) {i : Nat} (hi : i < n) : x i ≤ units :=
  Nat.le_trans (List.single_le_sum (by simp) _ (List.mem_map.mpr ⟨i, List.mem_range.mpr hi, rfl⟩)) h

theorem canAdd_congr {x x' : Nat → Nat} (h : ∀ i, i < n → x i = x' i) : CanAdd n units x ↔ CanAdd n units x' := by
  rw [CanAdd, CanAdd, List.map_congr_left fun i hi => h i (List.mem_range.mp hi)]

/-- Cinderella wins with the contents `b` when choosing `e`, with the winning contents `W`. -/
def Choice (n power capacity units : Nat) (W : (Nat → Nat) → Prop) (b : Nat → Nat) (e : Nat) : Prop :=
  e < n ∧ ∀ x b', CanAdd n units x → Round n power e b x b' → (∀ i, i < n → b' i ≤ capacity) ∧ W b'

theorem realizable_iff (hn : 1 ≤ n) (hp : 1 ≤ power) : (T n power capacity units).game.Realizable ↔ CinderellaWins n power capacity units := by
  classical
  have d : (T n power capacity units).Out := outOf (fun _ => 0) 0 (by simp) hn
  constructor
  · intro h
    let i0 : (T n power capacity units).In := inOf (fun _ => 0) (by simp)
    obtain ⟨o0, h0, hw0⟩ := h i0 ((game_initEnv d i0).mpr fun k hk => by
      have : ((xs i0 k : Nat) : Int) = 0 := by rw [← (x_range i0 hk).1]; exact inOf_x hk
      omega)
    rw [game_initSys] at h0
    refine ⟨fun b => ∃ p, (T n power capacity units).game.SysWins p ∧ ∀ k, k < n → ys p.2 k = b k, ?_, ?_⟩
    · intro b hb
      exact ⟨_, hw0, fun k hk => by rw [h0 k hk, hb k hk]⟩
    · rintro b ⟨p, hw, hb⟩
      refine ⟨ee p.2, (e_range hn p.2).2, ?_⟩
      intro x b' hx hr
      let i : (T n power capacity units).In := inOf x fun k hk => canAdd_le hx hk
      have hxi : ∀ k, k < n → xs i k = x k := by
        intro k hk
        have : ((xs i k : Nat) : Int) = x k := by rw [← (x_range i hk).1]; exact inOf_x hk
        omega
      obtain ⟨o, ho, hwo⟩ := wins_step hw ((game_safetyEnv d i).mpr ((canAdd_congr hxi).mpr hx))
      rw [game_safetySys hn hp] at ho
      have hy : ∀ k, k < n → ys o k = b' k := by
        intro k hk
        by_cases hm : Emptied n power (ee p.2) k
        · rw [(ho k hk).1 hm, (hr k hk).1 hm]; exact hxi k hk
        · rw [(ho k hk).2 hm, (hr k hk).2 hm, hb k hk]; exact congrArg _ (hxi k hk)
      exact ⟨fun k hk => by rw [← hy k hk]; exact (y_range o hk).2, _, hwo, hy⟩
  · rintro ⟨W, hz, hW⟩
    have hstep : ∀ p : Pos (T n power capacity units).In (T n power capacity units).Out, Choice n power capacity units W (ys p.2) (ee p.2) → ∀ i,
        (T n power capacity units).game.safetyEnv p i → ∃ o, (T n power capacity units).game.safetySys p (i, o) ∧ Choice n power capacity units W (ys o) (ee o) := by
      intro p hc i hi
      rw [game_safetyEnv d] at hi
      let b' : Nat → Nat := fun k => if k < n then (if Emptied n power (ee p.2) k then xs i k else ys p.2 k + xs i k) else 0
      have hr : Round n power (ee p.2) (ys p.2) (xs i) b' := by
        intro k hk
        exact ⟨fun hm => by simp only [b', if_pos hk, if_pos hm], fun hm => by simp only [b', if_pos hk, if_neg hm]⟩
      obtain ⟨hb, hw⟩ := hc.2 _ _ hi hr
      obtain ⟨e, he, hx⟩ := hW b' hw
      let o : (T n power capacity units).Out := outOf b' e hb he
      have hy : ∀ k, k < n → ys o k = b' k := by
        intro k hk
        have : ((ys o k : Nat) : Int) = b' k := by rw [← (y_range o hk).1]; exact outOf_y hk
        omega
      have hee : ee o = e := by
        have : ((ee o : Nat) : Int) = e := by rw [← (e_range hn o).1]; exact outOf_e
        omega
      refine ⟨o, (game_safetySys hn hp).mpr fun k hk => ?_, by rw [hee]; exact he, ?_⟩
      · rw [show ys (i, o).2 k = b' k from hy k hk]
        exact hr k hk
      · intro x c hcx hrx
        rw [hee] at hrx
        exact hx x c hcx fun k hk => by rw [← hy k hk]; exact hrx k hk
    intro i hi
    obtain ⟨e, he, hx⟩ := hW (fun _ => 0) (hz _ fun _ _ => rfl)
    let o : (T n power capacity units).Out := outOf (fun _ => 0) e (by simp) he
    have hy : ∀ k, k < n → ys o k = 0 := by
      intro k hk
      have : ((ys o k : Nat) : Int) = (0 : Nat) := by rw [← (y_range o hk).1]; exact outOf_y hk
      omega
    have hee : ee o = e := by
      have : ((ee o : Nat) : Int) = e := by rw [← (e_range hn o).1]; exact outOf_e
      omega
    refine ⟨o, game_initSys.mpr hy, wins_invariant rfl (fun p => Choice n power capacity units W (ys p.2) (ee p.2)) d hstep ⟨by rw [hee]; exact he, ?_⟩⟩
    intro x c hcx hrx
    rw [show ee (i, o).2 = e from hee] at hrx
    exact hx x c hcx fun k hk => by rw [← hy k hk]; exact hrx k hk

end Slugs.Model.Cinderella
