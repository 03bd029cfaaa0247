import Verif.Lemmas.FactorySpec
import Verif.Lemmas.CinderellaGame

/-! The game that the benchmark about the assembly line denotes (C89). -/

namespace Slugs.Model.Factory

open Slugs.Spec Slugs.Spec.Structured Slugs.Model.Structured Slugs.Model.Cinderella Slugs.Model.InfixTree Slugs.Spec.Factory

variable {n m k most : Nat}

/-! ### Values -/

abbrev E (n m k most : Nat) : SSpec := theSpec n m k most

/-- The value of a variable. -/
def iv (i : (E n m k most).In) (x : Word) : Nat := (i.1 x).toNat
def ov (o : (E n m k most).Out) (x : Word) : Nat := (o.1 x).toNat

/-- The task has been performed on the object at the place. -/
def Has (i : (E n m k most).In) (a b : Nat) : Prop := i.1 (pName a b) = 1

def armsOf (o : (E n m k most).Out) : Arms := ⟨ov o a1, ov o a2, ov o o1, ov o o2⟩

theorem in_range (i : (E n m k most).In) {x : Word} {b : Nat} (hx : (⟨x, some (0, (b : Int))⟩ : Decl) ∈ (E n m k most).inputs) : i.1 x = iv i x ∧ iv i x ≤ b := by
  have := i.2.1 _ hx
  simp only [Decl.Ok] at this
  rw [iv]
  omega

theorem out_range (o : (E n m k most).Out) {x : Word} {b : Nat} (hx : (⟨x, some (0, (b : Int))⟩ : Decl) ∈ (E n m k most).outputs) : o.1 x = ov o x ∧ ov o x ≤ b := by
  have := o.2.1 _ hx
  simp only [Decl.Ok] at this
  rw [ov]
  omega

theorem mc_range (i : (E n m k most).In) : i.1 mc = iv i mc ∧ iv i mc ≤ k - 1 := in_range i (by simp [theSpec])
theorem er_range (i : (E n m k most).In) : i.1 er = iv i er ∧ iv i er ≤ most := in_range i (by simp [theSpec])
theorem a1_range (o : (E n m k most).Out) : o.1 a1 = ov o a1 ∧ ov o a1 ≤ n - 1 := out_range o (by simp [theSpec])
theorem a2_range (o : (E n m k most).Out) : o.1 a2 = ov o a2 ∧ ov o a2 ≤ n - 1 := out_range o (by simp [theSpec])
theorem o1_range (o : (E n m k most).Out) : o.1 o1 = ov o o1 ∧ ov o o1 ≤ m - 1 := out_range o (by simp [theSpec])
theorem o2_range (o : (E n m k most).Out) : o.1 o2 = ov o o2 ∧ ov o o2 ≤ m - 1 := out_range o (by simp [theSpec])

theorem p_not_int {x : Word} (hx : x ∈ intNames) (a b : Nat) : pName a b ≠ x := by
  rintro rfl
  have : ∀ y ∈ intNames, y.head? ≠ some 'p' := by decide
  exact this _ hx rfl

open Classical in
/-- The value for a state. -/
noncomputable def valueIn (s : State) (x : Word) : Int :=
  if x = mc then (s.time : Int) else if x = er then (s.errors : Int) else if ∃ a b, x = pName a b ∧ s.done a b then 1 else 0

noncomputable def inOf (s : State) (h1 : s.time ≤ k - 1) (h2 : s.errors ≤ most) : (E n m k most).In :=
  mkVal _ (valueIn s) (by
    intro d hd
    simp only [theSpec, List.mem_cons, List.mem_append, List.mem_map, List.not_mem_nil, or_false] at hd
    rcases hd with rfl | ⟨x, hx, rfl⟩ | rfl
    · simp only [valueIn, Decl.Ok, if_true]; omega
    · obtain ⟨a, _, b, _, rfl⟩ := mem_positions.mp hx
      simp only [valueIn, Decl.Ok, if_neg (p_not_int (x := mc) (by decide) a b), if_neg (p_not_int (x := er) (by decide) a b)]
      split
      · exact .inr rfl
      · exact .inl rfl
    · simp only [valueIn, Decl.Ok, if_neg (show er ≠ mc by decide), if_true]; omega)

theorem inOf_values {s : State} {h1 : s.time ≤ k - 1} {h2 : s.errors ≤ most} : iv (inOf (n := n) (m := m) s h1 h2) mc = s.time ∧
    iv (inOf (n := n) (m := m) s h1 h2) er = s.errors ∧ ∀ a < n, ∀ b < m, (Has (inOf (n := n) (m := m) s h1 h2) a b ↔ s.done a b) := by
  have key : ∀ x ∈ inNames n m, (inOf (n := n) (m := m) s h1 h2).1 x = valueIn s x := fun x hx => mkVal_mem (by
    have := theSpec_inputs n m k most
    rw [SSpec.inputNames] at this
    rw [this]; exact hx)
  refine ⟨?_, ?_, ?_⟩
  · rw [iv, key _ mc_in]; simp [valueIn]
  · rw [iv, key _ er_in]; simp [valueIn, show er ≠ mc by decide]
  · intro a ha b hb
    rw [Has, key _ (p_in ha hb), valueIn, if_neg (p_not_int (x := mc) (by decide) a b), if_neg (p_not_int (x := er) (by decide) a b)]
    constructor
    · intro h
      split at h
      · rename_i hx
        obtain ⟨a', b', hx, hd⟩ := hx
        obtain ⟨rfl, rfl⟩ := pName_inj hx
        exact hd
      · cases h
    · intro h
      exact if_pos ⟨a, b, rfl, h⟩

def outOf (a : Arms) (h1 : a.pos1 ≤ n - 1) (h2 : a.pos2 ≤ n - 1) (h3 : a.op1 ≤ m - 1) (h4 : a.op2 ≤ m - 1) : (E n m k most).Out :=
  mkVal _ (fun x => if x = a1 then (a.pos1 : Int) else if x = a2 then (a.pos2 : Int) else if x = o1 then (a.op1 : Int) else (a.op2 : Int)) (by
    intro d hd
    simp only [theSpec, List.mem_cons, List.not_mem_nil, or_false] at hd
    rcases hd with rfl | rfl | rfl | rfl <;>
      simp only [Decl.Ok, show a2 ≠ a1 by decide, show o1 ≠ a1 by decide, show o1 ≠ a2 by decide, show o2 ≠ a1 by decide, show o2 ≠ a2 by decide,
        show o2 ≠ o1 by decide, if_true, if_false] <;> omega)

theorem outOf_arms {a : Arms} {h1 : a.pos1 ≤ n - 1} {h2 : a.pos2 ≤ n - 1} {h3 : a.op1 ≤ m - 1} {h4 : a.op2 ≤ m - 1} :
    armsOf (outOf (k := k) (most := most) a h1 h2 h3 h4) = a := by
  have key : ∀ x ∈ outNames, (outOf (k := k) (most := most) a h1 h2 h3 h4).1 x =
      if x = a1 then (a.pos1 : Int) else if x = a2 then (a.pos2 : Int) else if x = o1 then (a.op1 : Int) else (a.op2 : Int) := fun x hx => mkVal_mem hx
  rw [armsOf, ov, ov, ov, ov, key _ a1_out, key _ a2_out, key _ o1_out, key _ o2_out]
  simp [show a2 ≠ a1 by decide, show o1 ≠ a1 by decide, show o1 ≠ a2 by decide, show o2 ≠ a1 by decide, show o2 ≠ a2 by decide, show o2 ≠ o1 by decide]

/-! ### Looking up names -/

variable {p q : Pos (E n m k most).In (E n m k most).Out}

theorem out_not_in {x : Word} (hx : x ∈ outNames) : x ∉ inNames n m := by
  intro h
  have := names_nodup n m
  rw [List.nodup_append] at this
  exact this.2.2 x h x hx rfl

theorem prime_not (x : Word) : prime x ∉ inNames n m ++ outNames := by
  have ht : ∀ y ∈ inNames n m ++ outNames, '\'' ∉ y := by
    intro y hy
    simp only [inNames, outNames, List.mem_append, List.mem_cons, List.not_mem_nil, or_false] at hy
    rcases hy with (rfl | hy | rfl) | rfl | rfl | rfl | rfl
    · decide
    · obtain ⟨i, _, j, _, rfl⟩ := mem_positions.mp hy
      exact (p_tidy i j).2.2.1
    all_goals decide
  exact fun h => ht _ h (by simp [prime])

theorem look_in {x : Word} (hx : x ∈ inNames n m) : (E n m k most).look p q x = p.1.1 x := by
  rw [SSpec.look, SSpec.names, theSpec_inputs, if_pos (List.mem_append_left _ hx), SSpec.now, theSpec_inputs, if_pos hx]

theorem look_out {x : Word} (hx : x ∈ outNames) : (E n m k most).look p q x = p.2.1 x := by
  rw [SSpec.look, SSpec.names, theSpec_outputs, if_pos (List.mem_append_right _ hx), SSpec.now, theSpec_inputs, if_neg (out_not_in hx)]

theorem look_in' {x : Word} (hx : x ∈ inNames n m) : (E n m k most).look p q (prime x) = q.1.1 x := by
  rw [SSpec.look, SSpec.names, theSpec_inputs, theSpec_outputs, if_neg (prime_not x), SSpec.now, theSpec_inputs, prime, List.dropLast_concat, if_pos hx]

theorem look_out' {x : Word} (hx : x ∈ outNames) : (E n m k most).look p q (prime x) = q.2.1 x := by
  rw [SSpec.look, SSpec.names, theSpec_inputs, theSpec_outputs, if_neg (prime_not x), SSpec.now, theSpec_inputs, prime, List.dropLast_concat, if_neg (out_not_in hx)]

theorem l_mc : (E n m k most).look p q mc = iv p.1 mc := by rw [look_in mc_in, (mc_range p.1).1]
theorem l_er : (E n m k most).look p q er = iv p.1 er := by rw [look_in er_in, (er_range p.1).1]
theorem l_a1 : (E n m k most).look p q a1 = ov p.2 a1 := by rw [look_out a1_out, (a1_range p.2).1]
theorem l_a2 : (E n m k most).look p q a2 = ov p.2 a2 := by rw [look_out a2_out, (a2_range p.2).1]
theorem l_o1 : (E n m k most).look p q o1 = ov p.2 o1 := by rw [look_out o1_out, (o1_range p.2).1]
theorem l_o2 : (E n m k most).look p q o2 = ov p.2 o2 := by rw [look_out o2_out, (o2_range p.2).1]
theorem n_mc : (E n m k most).look p q mcN = iv q.1 mc := by rw [show mcN = prime mc from rfl, look_in' mc_in, (mc_range q.1).1]
theorem n_er : (E n m k most).look p q erN = iv q.1 er := by rw [show erN = prime er from rfl, look_in' er_in, (er_range q.1).1]
theorem n_a1 : (E n m k most).look p q a1N = ov q.2 a1 := by rw [show a1N = prime a1 from rfl, look_out' a1_out, (a1_range q.2).1]
theorem n_a2 : (E n m k most).look p q a2N = ov q.2 a2 := by rw [show a2N = prime a2 from rfl, look_out' a2_out, (a2_range q.2).1]
theorem l_p {a b : Nat} (ha : a < n) (hb : b < m) : ((E n m k most).look p q (pName a b) = 1) = Has p.1 a b := by rw [look_in (p_in ha hb), Has]
theorem n_p {a b : Nat} (ha : a < n) (hb : b < m) : ((E n m k most).look p q (prime (pName a b)) = 1) = Has q.1 a b := by rw [look_in' (p_in ha hb), Has]

/-! ### The game -/

theorem game_initEnv (d : (E n m k most).Out) (i : (E n m k most).In) : (E n m k most).game.initEnv i ↔ iv i mc = 0 ∧ ∀ a < n, ∀ b < m, Has i a b := by
  have key : ∀ o, (∀ c ∈ (E n m k most).envInit, (E n m k most).holds (i, o) (i, o) c) ↔ iv i mc = 0 ∧ ∀ a < n, ∀ b < m, Has i a b := by
    intro o
    simp only [theSpec, List.forall_mem_cons, List.forall_mem_map]
    refine and_congr ?_ ?_
    · simp only [SSpec.holds, con, t_ei, FTree.fml, SFml.holds, Cmp.holds, NExp.value]
      simp only [l_mc, decide_eq_true_eq]
      omega
    · constructor
      · intro h a ha b hb
        have := h _ (mem_positions.mpr ⟨a, ha, b, hb, rfl⟩)
        simp only [SSpec.holds, con, FTree.fml, SFml.holds, decide_eq_true_eq, l_p ha hb] at this
        exact this
      · intro h x hx
        obtain ⟨a, ha, b, hb, rfl⟩ := mem_positions.mp hx
        simp only [SSpec.holds, con, FTree.fml, SFml.holds, decide_eq_true_eq, l_p ha hb]
        exact h a ha b hb
  rw [← key d]
  constructor
  · intro hh c hc; exact hh c hc d
  · intro hh c hc o
    exact ((key o).mpr ((key d).mp hh)) c hc

theorem game_initSys : (E n m k most).game.initSys p ↔ armsOf p.2 = startArms := by
  show (∀ c ∈ (E n m k most).sysInit, (E n m k most).holds p p c) ↔ _
  simp only [theSpec, List.forall_mem_cons, List.not_mem_nil, IsEmpty.forall_iff, implies_true, and_true, SSpec.holds, con, t_si1, t_si2, t_si3, t_si4, FTree.fml, SFml.holds,
    Cmp.holds, NExp.value]
  simp only [l_a1, l_a2, l_o1, l_o2, decide_eq_true_eq, armsOf, startArms, Arms.mk.injEq]
  omega

theorem game_safetySys (hn : 3 ≤ n) (hm : 1 ≤ m) : (E n m k most).game.safetySys p q ↔ Move n m (armsOf p.2) (armsOf q.2) ∧ (iv q.1 mc = 0 → ∀ b < m, Has p.1 (n - 1) b) := by
  show (∀ c ∈ (E n m k most).sysTrans, (E n m k most).holds p q c) ↔ _
  simp only [theSpec, List.forall_mem_append, List.forall_mem_cons, List.forall_mem_map, List.not_mem_nil, IsEmpty.forall_iff, implies_true, and_true]
  refine and_congr ?_ ?_
  · simp only [SSpec.holds, con, t_st1, t_st2, t_st3, t_st4, t_st5, FTree.fml, SFml.holds, Cmp.holds, NExp.value]
    simp only [l_a1, l_a2, n_a1, n_a2, decide_eq_true_eq]
    have b2 := (a2_range q.2).2
    have b3 := (o1_range q.2).2
    have b4 := (o2_range q.2).2
    constructor
    · rintro ⟨h1, h2, h3, h4, h5⟩
      exact ⟨by simp only [armsOf]; omega, by simp only [armsOf]; omega, by simp only [armsOf]; omega, by simp only [armsOf]; omega, by simp only [armsOf]; omega,
        by simp only [armsOf]; omega⟩
    · rintro ⟨h1, h2, h3, h4, h5, h6⟩
      simp only [armsOf] at h1 h2 h3 h4 h5 h6
      omega
  · have key : ∀ b < m, ((E n m k most).holds p q (con (t_safe n b)) ↔ (iv q.1 mc = 0 → Has p.1 (n - 1) b)) := by
      intro b hb
      simp only [SSpec.holds, con, t_safe, FTree.fml, SFml.holds, Cmp.holds, NExp.value, Bool.not_eq_true', Bool.and_eq_false_iff, Bool.not_eq_false', decide_eq_true_eq,
        decide_eq_false_iff_not, l_p (show n - 1 < n by omega) hb, n_mc]
      by_cases h : iv q.1 mc = 0
      · simp [h]
      · simp [h]
    constructor
    · intro h h0 b hb
      exact (key b hb).mp (h b (List.mem_range.mpr hb)) h0
    · intro h b hb
      have hb := List.mem_range.mp hb
      exact (key b hb).mpr fun h0 => h h0 b hb

theorem tree_holds (bounds : Bounds) (b : Word → Bool) (val : Word → Int) : ∀ (js : List Nat) (t : FTree), ((someTree t js).fml.holds bounds b val = true ↔
    t.fml.holds bounds b val = true ∨ ∃ j ∈ js, b (prime (pName 0 j)) = true)
  | [], t => by simp [someTree]
  | j :: js, t => by
    rw [someTree, tree_holds bounds b val js]
    simp [FTree.fml, SFml.holds, or_assoc]

theorem holds_new (hn : 3 ≤ n) (hm : 1 ≤ m) : (E n m k most).holds p q (con (newTree m)) ↔ (iv q.1 mc = 0 → (∃ j < m, Has q.1 0 j) ∨ iv p.1 er < iv q.1 er) := by
  have ht := tree_holds (E n m k most).bounds (fun x => (E n m k most).look p q x = 1) ((E n m k most).look p q) (List.range m).tail (.atom (prime (pName 0 (List.range m).head!)))
  have hm' := range_cons hm
  have h2 : (someTree (.atom (prime (pName 0 (List.range m).head!))) (List.range m).tail).fml.holds (E n m k most).bounds (fun x => (E n m k most).look p q x = 1)
      ((E n m k most).look p q) = true ↔ ∃ j < m, Has q.1 0 j := by
    rw [ht]
    constructor
    · rintro (h | ⟨j, hj, h⟩)
      · have hj : (List.range m).head! < m := List.mem_range.mp (by rw [hm']; simp)
        refine ⟨_, hj, ?_⟩
        simpa only [FTree.fml, SFml.holds, decide_eq_true_eq, n_p (show 0 < n by omega) hj] using h
      · have hj : j < m := List.mem_range.mp (by rw [hm']; exact List.mem_cons_of_mem _ hj)
        exact ⟨j, hj, by simpa only [decide_eq_true_eq, n_p (show 0 < n by omega) hj] using h⟩
    · rintro ⟨j, hj, h⟩
      have hx : j ∈ (List.range m).head! :: (List.range m).tail := by rw [← hm']; exact List.mem_range.mpr hj
      rcases List.mem_cons.mp hx with hx | hx
      · left
        rw [← hx]
        simpa only [FTree.fml, SFml.holds, decide_eq_true_eq, n_p (show 0 < n by omega) hj] using h
      · right
        exact ⟨j, hx, by simpa only [decide_eq_true_eq, n_p (show 0 < n by omega) hj] using h⟩
  show (newTree m).fml.holds _ _ _ = true ↔ _
  simp only [newTree, t_some, FTree.fml, SFml.holds, Bool.or_eq_true, h2, Cmp.holds, NExp.value, n_mc, n_er, l_er, Bool.not_eq_true', decide_eq_true_eq, decide_eq_false_iff_not]
  constructor
  · rintro (h | h | h) h0
    · omega
    · exact .inl h
    · right; omega
  · intro h
    by_cases h0 : iv q.1 mc = 0
    · rcases h h0 with h | h
      · exact .inr (.inl h)
      · right; right; omega
    · left; omega

theorem beq_iff (x y : Bool) : ((x == y) = true) = (x = true ↔ y = true) := by cases x <;> cases y <;> decide

theorem holds_first (hn : 3 ≤ n) {j : Nat} (hj : j < m) : (E n m k most).holds p q (con (t_first j)) ↔
    (iv q.1 mc ≠ 0 → (Has q.1 0 j ↔ Has p.1 0 j ∨ (armsOf p.2).Work 0 j)) := by
  simp only [SSpec.holds, con, t_first, FTree.fml, SFml.holds, Cmp.holds, NExp.value, beq_iff, Bool.or_eq_true, Bool.and_eq_true, Bool.not_eq_true',
    decide_eq_true_eq, decide_eq_false_iff_not, ne_eq]
  simp only [l_p (show 0 < n by omega) hj, n_p (show 0 < n by omega) hj, n_mc, l_a1, l_a2, l_o1, l_o2, Nat.cast_inj, Arms.Work, armsOf]
  by_cases h0 : iv q.1 mc = 0
  · simp [h0]
  · simp [h0, or_assoc]

theorem holds_other {i j : Nat} (hi : i + 1 < n) (hj : j < m) : (E n m k most).holds p q (con (t_other i j)) ↔
    (Has q.1 (i + 1) j ↔ (Has p.1 (i + 1) j ∧ iv q.1 mc ≠ 0) ∨ (armsOf p.2).Work (i + 1) j ∨ (Has p.1 i j ∧ iv q.1 mc = 0)) := by
  simp only [SSpec.holds, con, t_other, FTree.fml, SFml.holds, Cmp.holds, NExp.value, beq_iff, Bool.or_eq_true, Bool.and_eq_true, decide_eq_true_eq, ne_eq]
  simp only [l_p hi hj, n_p hi hj, l_p (show i < n by omega) hj, n_mc, l_a1, l_a2, l_o1, l_o2, Nat.cast_inj, Arms.Work, armsOf, or_assoc]
  simp only [decide_eq_true_eq]

theorem game_safetyEnv (d : (E n m k most).Out) (hn : 3 ≤ n) (hm : 1 ≤ m) (i : (E n m k most).In) : (E n m k most).game.safetyEnv p i ↔
    (iv i mc = 0 → (∃ j < m, Has i 0 j) ∨ iv p.1 er < iv i er) ∧ iv p.1 er ≤ iv i er ∧
    (∀ j < m, iv i mc ≠ 0 → (Has i 0 j ↔ Has p.1 0 j ∨ (armsOf p.2).Work 0 j)) ∧
    (∀ a, a + 1 < n → ∀ j < m, (Has i (a + 1) j ↔ (Has p.1 (a + 1) j ∧ iv i mc ≠ 0) ∨ (armsOf p.2).Work (a + 1) j ∨ (Has p.1 a j ∧ iv i mc = 0))) ∧
    (iv p.1 mc < k - 1 → iv i mc = iv p.1 mc + 1) ∧ (iv p.1 mc = k - 1 → iv i mc = 0) := by
  have key : ∀ o, (∀ c ∈ (E n m k most).envTrans, (E n m k most).holds p (i, o) c) ↔
      (iv i mc = 0 → (∃ j < m, Has i 0 j) ∨ iv p.1 er < iv i er) ∧ iv p.1 er ≤ iv i er ∧
      (∀ j < m, iv i mc ≠ 0 → (Has i 0 j ↔ Has p.1 0 j ∨ (armsOf p.2).Work 0 j)) ∧
      (∀ a, a + 1 < n → ∀ j < m, (Has i (a + 1) j ↔ (Has p.1 (a + 1) j ∧ iv i mc ≠ 0) ∨ (armsOf p.2).Work (a + 1) j ∨ (Has p.1 a j ∧ iv i mc = 0))) ∧
      (iv p.1 mc < k - 1 → iv i mc = iv p.1 mc + 1) ∧ (iv p.1 mc = k - 1 → iv i mc = 0) := by
    intro o
    simp only [theSpec, List.forall_mem_append, List.forall_mem_cons, List.forall_mem_map, List.not_mem_nil, IsEmpty.forall_iff, implies_true, and_true, and_assoc]
    refine and_congr (holds_new hn hm) (and_congr ?_ (and_congr ?_ (and_congr ?_ (and_congr ?_ ?_))))
    · simp only [SSpec.holds, con, t_er2, FTree.fml, SFml.holds, Cmp.holds, NExp.value, n_er, l_er, decide_eq_true_eq]
      omega
    · constructor
      · intro h j hj; exact (holds_first hn hj).mp (h j (List.mem_range.mpr hj))
      · intro h j hj; exact (holds_first hn (List.mem_range.mp hj)).mpr (h j (List.mem_range.mp hj))
    · constructor
      · intro h a ha j hj; exact (holds_other ha hj).mp (h _ (mem_others.mpr ⟨a, ha, j, hj, rfl⟩))
      · intro h t ht
        obtain ⟨a, ha, j, hj, rfl⟩ := mem_others.mp ht
        exact (holds_other ha hj).mpr (h a ha j hj)
    · simp only [SSpec.holds, con, t_cnt1, FTree.fml, SFml.holds, Cmp.holds, NExp.value, n_mc, l_mc, Bool.or_eq_true, Bool.not_eq_true', decide_eq_true_eq, decide_eq_false_iff_not]
      omega
    · simp only [SSpec.holds, con, t_cnt2, FTree.fml, SFml.holds, Cmp.holds, NExp.value, n_mc, l_mc, Bool.or_eq_true, Bool.not_eq_true', decide_eq_true_eq, decide_eq_false_iff_not]
      omega
  rw [← key d]
  constructor
  · intro hs c hc; exact hs c hc d
  · intro hs c hc o
    exact ((key o).mpr ((key d).mp hs)) c hc

/-- The input has the values of the state, but for the errors. -/
structure Matches (i : (E n m k most).In) (s : State) : Prop where
  time : iv i mc = s.time
  done : ∀ a < n, ∀ b < m, (Has i a b ↔ s.done a b)

theorem realizable_iff (hn : 3 ≤ n) (hm : 1 ≤ m) (hk : 1 ≤ k) : (E n m k most).game.Realizable ↔ Manages n m k most := by
  classical
  have d : (E n m k most).Out := outOf startArms (Nat.zero_le _) (show 2 ≤ n - 1 by omega) (Nat.zero_le _) (Nat.zero_le _)
  constructor
  · intro hr
    refine ⟨fun s a => ∃ p, (E n m k most).game.SysWins p ∧ Matches p.1 s ∧ iv p.1 er = s.errors ∧ armsOf p.2 = a, ?_, ?_⟩
    · intro s hs
      let i0 : (E n m k most).In := inOf s (by rw [hs.time]; omega) (by rw [hs.errors]; omega)
      have hi : iv i0 mc = s.time ∧ iv i0 er = s.errors ∧ ∀ a < n, ∀ b < m, (Has i0 a b ↔ s.done a b) := inOf_values
      obtain ⟨o, ho, hw⟩ := hr i0 ((game_initEnv d i0).mpr ⟨hi.1.trans hs.time, fun a ha b hb => (hi.2.2 a ha b hb).mpr (hs.done a ha b hb)⟩)
      exact ⟨_, hw, ⟨hi.1, hi.2.2⟩, hi.2.1, game_initSys.mp ho⟩
    · rintro s _ ⟨p, hp, hm1, he, rfl⟩ s' hs
      have r1 := (mc_range p.1).2
      have hmv : Moves k s ↔ iv p.1 mc = k - 1 := by rw [Moves, ← hm1.time]; omega
      have ht : s'.time = 0 ↔ Moves k s := by
        constructor
        · intro h0
          apply Classical.byContradiction
          intro h
          have := hs.waits h
          omega
        · exact hs.moved
      let i : (E n m k most).In := inOf s' (by
        by_cases h : Moves k s
        · rw [hs.moved h]; omega
        · rw [hs.waits h, ← hm1.time]
          rw [hmv] at h
          omega) hs.most
      have hi : iv i mc = s'.time ∧ iv i er = s'.errors ∧ ∀ a < n, ∀ b < m, (Has i a b ↔ s'.done a b) := inOf_values
      have hx : ∀ b < m, (Has i 0 b ↔ s'.done 0 b) := hi.2.2 0 (by omega)
      have hse : (E n m k most).game.safetyEnv p i := by
        refine (game_safetyEnv d hn hm i).mpr ⟨?_, ?_, ?_, ?_, ?_, ?_⟩
        · intro h0
          rw [hi.1, ht] at h0
          by_cases hg : ∃ j < m, s'.done 0 j
          · obtain ⟨j, hj, h⟩ := hg
            exact .inl ⟨j, hj, (hx j hj).mpr h⟩
          · right
            have := hs.bad h0 fun j hj h => hg ⟨j, hj, h⟩
            rw [hi.2.1, he]; omega
        · rw [hi.2.1, he]
          by_cases h0 : Moves k s
          · by_cases hg : ∃ j < m, s'.done 0 j
            · rw [hs.good (.inr hg)]
            · have := hs.bad h0 fun j hj h => hg ⟨j, hj, h⟩
              omega
          · rw [hs.good (.inl h0)]
        · intro j hj h0
          rw [hi.1, Ne, ht] at h0
          rw [hx j hj, hs.stay h0 0 (by omega) j hj, hm1.done 0 (by omega) j hj]
        · intro a ha j hj
          rw [hi.2.2 _ ha j hj, hi.1, Ne, ht, hm1.done _ ha j hj, hm1.done a (by omega) j hj]
          by_cases h0 : Moves k s
          · rw [hs.pass h0 a ha j hj]
            simp [h0, or_comm]
          · rw [hs.stay h0 _ ha j hj]
            simp [h0]
        · intro h
          have h0 : ¬ Moves k s := by rw [hmv]; omega
          rw [hi.1, hs.waits h0, hm1.time]
        · intro h
          rw [hi.1, hs.moved (hmv.mpr h)]
      obtain ⟨o, hsy, hwo⟩ := wins_step hp hse
      obtain ⟨g1, g2⟩ := (game_safetySys hn hm).mp hsy
      refine ⟨fun h0 j hj => ?_, _, g1, _, hwo, ⟨hi.1, hi.2.2⟩, hi.2.1, rfl⟩
      exact (hm1.done _ (by omega) j hj).mp (g2 (by rw [hi.1]; exact hs.moved h0) j hj)
  · rintro ⟨W, h0, hW⟩
    let inv : Pos (E n m k most).In (E n m k most).Out → Prop := fun p => ∃ s, W s (armsOf p.2) ∧ Matches p.1 s ∧ s.errors ≤ iv p.1 er
    have hstep : ∀ p, inv p → ∀ i, (E n m k most).game.safetyEnv p i → ∃ o, (E n m k most).game.safetySys p (i, o) ∧ inv (i, o) := by
      rintro p ⟨s, hs, hm1, he⟩ i hi
      rw [game_safetyEnv d hn hm] at hi
      obtain ⟨i1, i2, i3, i4, i5, i6⟩ := hi
      have r1 := (mc_range p.1).2
      have r2 := (er_range i).2
      have hmv : Moves k s ↔ iv p.1 mc = k - 1 := by rw [Moves, ← hm1.time]; omega
      have ht : iv i mc = 0 ↔ Moves k s := by
        rw [hmv]
        constructor
        · intro h
          apply Classical.byContradiction
          intro h'
          have := i5 (by omega)
          omega
        · exact i6
      let s0 : State := ⟨iv i mc, fun a b => Has i a b, if Moves k s ∧ ∀ j < m, ¬ Has i 0 j then s.errors + 1 else s.errors⟩
      have hel : s0.errors ≤ iv i er := by
        simp only [s0]
        split
        · rename_i h
          rcases i1 (ht.mpr h.1) with ⟨j, hj, h'⟩ | h'
          · exact absurd h' (h.2 j hj)
          · omega
        · omega
      have hS : Step n m k most (armsOf p.2) s s0 := {
        moved := fun h => ht.mpr h
        waits := fun h => by
          rw [hmv] at h
          rw [← hm1.time]
          exact i5 (by omega)
        stay := fun h a ha j hj => by
          rw [← ht] at h
          rw [← hm1.done a ha j hj]
          show Has i a j ↔ _
          cases a with
          | zero => exact i3 j hj h
          | succ a => rw [i4 a ha j hj]; simp [h]
        pass := fun h a ha j hj => by
          rw [← ht] at h
          rw [← hm1.done a (by omega) j hj]
          show Has i (a + 1) j ↔ _
          rw [i4 a ha j hj]
          simp [h, or_comm]
        good := fun h => by
          simp only [s0]
          rw [if_neg]
          rintro ⟨h1, h2⟩
          rcases h with h | ⟨j, hj, h⟩
          · exact h h1
          · exact h2 j hj h
        bad := fun h1 h2 => if_pos ⟨h1, h2⟩
        most := Nat.le_trans hel r2 }
      obtain ⟨g1, a', g2, g3⟩ := hW s _ hs s0 hS
      have hv := outOf_arms (n := n) (m := m) (k := k) (most := most) (a := a') (h1 := by have := g2.apart; have := g2.inside; omega) (h2 := by have := g2.inside; omega)
        (h3 := by have := g2.task1; omega) (h4 := by have := g2.task2; omega)
      refine ⟨outOf a' (by have := g2.apart; have := g2.inside; omega) (by have := g2.inside; omega) (by have := g2.task1; omega) (by have := g2.task2; omega),
        (game_safetySys hn hm).mpr ⟨?_, ?_⟩, s0, ?_, ⟨rfl, fun a _ b _ => Iff.rfl⟩, hel⟩
      · rw [hv]; exact g2
      · intro hz b hb
        exact (hm1.done _ (by omega) b hb).mpr (g1 (ht.mp hz) b hb)
      · rw [hv]; exact g3
    intro i hi
    rw [game_initEnv d] at hi
    let s0 : State := ⟨0, fun a b => Has i a b, 0⟩
    have hv := outOf_arms (n := n) (m := m) (k := k) (most := most) (a := startArms) (h1 := Nat.zero_le _) (h2 := show 2 ≤ n - 1 by omega) (h3 := Nat.zero_le _) (h4 := Nat.zero_le _)
    refine ⟨outOf startArms (Nat.zero_le _) (show 2 ≤ n - 1 by omega) (Nat.zero_le _) (Nat.zero_le _), game_initSys.mpr hv, wins_invariant rfl inv d hstep ⟨s0, ?_, ⟨hi.1, fun a _ b _ => Iff.rfl⟩, Nat.zero_le _⟩⟩
    show W s0 (armsOf _)
    rw [hv]
    exact h0 s0 ⟨rfl, hi.2, rfl⟩

end Slugs.Model.Factory
