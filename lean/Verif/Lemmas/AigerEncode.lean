import Verif.Spec.Aiger
import Verif.Model.Aiger
import Verif.Lemmas.Parser
import Verif.Lemmas.Decoder
import Verif.Lemmas.StructuredLex

/-!
The gates for a formula compute its value.
-/

namespace Slugs.Model.Aiger

open Slugs.Spec Slugs.Spec.Aag Slugs.Model.Structured

/-! ### Literals -/

theorem xor_one_even (n : Nat) : (2 * n) ^^^ 1 = 2 * n + 1 := by
  apply Nat.eq_of_testBit_eq
  intro i
  rw [Nat.testBit_xor]
  cases i with
  | zero => simp [Nat.testBit_zero]
  | succ i => simp [Nat.testBit_succ]; congr 1; omega

theorem xor_one_odd (n : Nat) : (2 * n + 1) ^^^ 1 = 2 * n := by rw [← xor_one_even, Nat.xor_assoc]; simp

theorem xor_one_div (a : Nat) : (a ^^^ 1) / 2 = a / 2 := by
  rcases Nat.mod_two_eq_zero_or_one a with h | h
  · have : a = 2 * (a / 2) := by omega
    rw [this, xor_one_even]; omega
  · have : a = 2 * (a / 2) + 1 := by omega
    rw [this, xor_one_odd]; omega

theorem lit_xor (v : Nat → Bool) (a : Nat) : lit v (a ^^^ 1) = !lit v a := by
  rcases Nat.mod_two_eq_zero_or_one a with h | h
  · have : a = 2 * (a / 2) := by omega
    rw [this, xor_one_even, lit, lit, if_neg (by omega), if_pos (by omega)]
    congr 2; omega
  · have : a = 2 * (a / 2) + 1 := by omega
    rw [this, xor_one_odd, lit, lit, if_pos (by omega), if_neg (by omega), Bool.not_not]
    congr 1; omega

theorem lit_succ (v : Nat → Bool) {a : Nat} (h : a % 2 = 0) : lit v (a + 1) = !lit v a := by
  rw [lit, lit, if_neg (by omega), if_pos h]
  congr 2; omega

theorem lit_even (v : Nat → Bool) (n : Nat) : lit v (2 * n) = v n := by
  rw [lit, if_pos (by omega)]; congr 1; omega

/-! ### Known literals -/

theorem over_mono {K K' : List Nat} (h : ∀ k ∈ K, k ∈ K') {l : Nat} (hl : Over K l) : Over K' l := hl.imp id (h _)

theorem over_xor {K : List Nat} {l : Nat} (h : Over K l) : Over K (l ^^^ 1) := by
  rcases h with h | h
  · left
    have := xor_one_div l
    omega
  · right; rw [xor_one_div]; exact h

theorem ordered_mono {K : List Nat} {G : List (Nat × Nat × Nat)} (h : Ordered K G) : ∀ {K' : List Nat}, (∀ k ∈ K, k ∈ K') → Ordered K' G := by
  induction h with
  | nil => intro _ _; exact .nil
  | cons ha hb _ ih =>
    intro K' hK
    refine .cons (over_mono hK ha) (over_mono hK hb) (ih fun k hk => ?_)
    rcases List.mem_cons.mp hk with rfl | hk
    · exact List.mem_cons_self ..
    · exact List.mem_cons_of_mem _ (hK k hk)

theorem ordered_append {K : List Nat} {G G' : List (Nat × Nat × Nat)} (h : Ordered K G) (h' : Ordered (G.map Prod.fst ++ K) G') : Ordered K (G ++ G') := by
  induction h with
  | nil => exact h'
  | cons ha hb _ ih =>
    refine .cons ha hb (ih (ordered_mono h' fun k hk => ?_))
    simp only [List.map_cons, List.cons_append, List.mem_cons, List.mem_append] at hk ⊢
    tauto

/-! ### States -/

/-- The state after some gates have been written. -/
def emit (s : St) (G : List (Nat × Nat × Nat)) : St := ⟨s.used + G.length, s.nofGates + G.length, s.lines ++ G.map fun g => [g.1, g.2.1, g.2.2]⟩

theorem emit_emit (s : St) (G G' : List (Nat × Nat × Nat)) : emit (emit s G) G' = emit s (G ++ G') := by simp [emit, Nat.add_assoc]

theorem emit_nil (s : St) : emit s [] = s := by simp [emit]

/-- The gates are numbered from `n + 1` on. -/
def Numbered (n : Nat) (G : List (Nat × Nat × Nat)) : Prop := G.map Prod.fst = (List.range' (n + 1) G.length).map (2 * ·)

theorem Numbered.append {n : Nat} {G G' : List (Nat × Nat × Nat)} (h : Numbered n G) (h' : Numbered (n + G.length) G') : Numbered n (G ++ G') := by
  rw [Numbered] at *
  rw [List.map_append, h, h', List.length_append, ← List.range'_append_1, List.map_append]
  congr 3
  omega

/-- The gates have the right values. -/
def Sat (v : Nat → Bool) (G : List (Nat × Nat × Nat)) : Prop := ∀ g ∈ G, lit v g.1 = (lit v g.2.1 && lit v g.2.2)

theorem Sat.left {v : Nat → Bool} {G G' : List (Nat × Nat × Nat)} (h : Sat v (G ++ G')) : Sat v G := fun g hg => h g (List.mem_append_left _ hg)

theorem Sat.right {v : Nat → Bool} {G G' : List (Nat × Nat × Nat)} (h : Sat v (G ++ G')) : Sat v G' := fun g hg => h g (List.mem_append_right _ hg)

/-! ### Words -/

theorem cut_joinWords {w : Word} (h : ' ' ∉ w) (ws : List Word) : cut (joinWords (w :: ws)) = (w, joinWords ws) := by
  have h1 : ∀ c ∈ w, decide (c ≠ ' ') = true := fun c hc => by simp only [decide_eq_true_eq]; rintro rfl; exact h hc
  cases ws with
  | nil =>
    simp only [joinWords, cut]
    rw [List.takeWhile_eq_self_iff.mpr h1, List.dropWhile_eq_nil_iff.mpr h1]
    rfl
  | cons w' ws =>
    simp only [joinWords, cut]
    rw [List.takeWhile_append_of_pos h1, List.dropWhile_append_of_pos h1]
    simp

theorem blank_joinWords {w w' : Word} {ws : List Word} : ' ' ∈ joinWords (w :: w' :: ws) := by simp [joinWords]

theorem length_joinWords : ∀ ws : List Word, ws.length ≤ (joinWords ws).length + 1
  | [] => by simp
  | [w] => by simp
  | w :: w' :: ws => by
    have := length_joinWords (w' :: ws)
    simp only [joinWords, List.length_append, List.length_cons] at *
    omega

theorem decimal_plain (n : Nat) : ' ' ∉ decimal n := fun h => absurd (decimal_digits n _ h) (by decide)

theorem int2_decimal (n : Nat) : StuckAt.int2 (decimal n) = some (n : Int) := by
  rw [StuckAt.int2, if_neg]
  · exact Decoder.toInt_strNat n
  · rintro (h | ⟨c, hc, h1, h2⟩)
    · exact absurd (decimal_digits n _ h) (by decide)
    · have := decimal_digits n c hc
      rw [digit_not_space this] at h1
      exact absurd h1 (by decide)

/-! ### Formulas -/

/-- The value of a name. -/
def val (d : Dict) (v : Nat → Bool) (x : Word) : Bool := lit v ((d.lookup x).getD 0)

/-- The values of stored literals. -/
def vals (v : Nat → Bool) (memory : List Nat) : List (Option Bool) := memory.map fun m => some (lit v m)

/-- The names have literals over the known variables. -/
def Scoped (d : Dict) (K : List Nat) (xs : List Word) : Prop := ∀ x ∈ xs, ∀ l, d.lookup x = some l → Over K l

/-- The gates compute the formula. -/
structure Computes (d : Dict) (memory : List Nat) (φ : Fml) (n : Nat) (G : List (Nat × Nat × Nat)) (r : Nat) : Prop where
  numbered : Numbered n G
  ordered : ∀ K, Scoped d K φ.vars → (∀ m ∈ memory, Over K m) → Ordered K G ∧ Over (G.map Prod.fst ++ K) r
  value : ∀ v, v 0 = false → Sat v G → φ.eval (val d v) (vals v memory) = some (lit v r)

/-- The gates compute the elements of a buffer. -/
structure ComputesBuffer (d : Dict) (memory : List Nat) (fs : List Fml) (n : Nat) (G : List (Nat × Nat × Nat)) (memory' : List Nat) : Prop where
  numbered : Numbered n G
  length : memory'.length = memory.length + fs.length
  ordered : ∀ K, Scoped d K (Fml.varsBuffer fs) → (∀ m ∈ memory, Over K m) → Ordered K G ∧ ∀ m ∈ memory', Over (G.map Prod.fst ++ K) m
  value : ∀ v, v 0 = false → Sat v G → Fml.evalBuffer (val d v) (vals v memory) fs = vals v memory'

/-- A name that the program can look up. -/
def Usable (d : Dict) (x : Word) : Prop := x ∉ reserved ∧ ' ' ∉ x ∧ ∃ l, d.lookup x = some l

theorem numbered_one (n : Nat) (a b : Nat) : Numbered n [((n + 1) * 2, a, b)] := by simp [Numbered, Nat.mul_comm]

theorem numbered_three (n : Nat) (a b c d e f : Nat) : Numbered n [(n * 2 + 2, a, b), (n * 2 + 4, c, d), (n * 2 + 6, e, f)] := by
  simp [Numbered, List.range'_succ]; omega

theorem over_left {K : List Nat} {G G' : List (Nat × Nat × Nat)} {l : Nat} (h : Over (G.map Prod.fst ++ K) l) : Over (G'.map Prod.fst ++ (G.map Prod.fst ++ K)) l :=
  over_mono (fun k hk => List.mem_append_right _ hk) h

theorem over_assoc {K : List Nat} {G G' : List (Nat × Nat × Nat)} {l : Nat} (h : Over (G'.map Prod.fst ++ (G.map Prod.fst ++ K)) l) :
    Over ((G ++ G').map Prod.fst ++ K) l :=
  over_mono (fun k hk => by simp only [List.map_append, List.mem_append] at hk ⊢; tauto) h

/-- Two formulas and some gates for an operator. -/
theorem computes_bin {d : Dict} {memory : List Nat} {op : BinOp} {f g : Fml} {n : Nat} {G1 G2 G3 : List (Nat × Nat × Nat)} {a b r : Nat}
    (h1 : Computes d memory f n G1 a) (h2 : Computes d memory g (n + G1.length) G2 b) (h3 : Numbered (n + (G1 ++ G2).length) G3)
    (h4 : ∀ K, Over K a → Over K b → Ordered K G3 ∧ Over (G3.map Prod.fst ++ K) r)
    (h5 : ∀ v, v 0 = false → Sat v G3 → op.apply (lit v a) (lit v b) = lit v r) :
    Computes d memory (.bin op f g) n ((G1 ++ G2) ++ G3) r := by
  refine ⟨(h1.numbered.append h2.numbered).append h3, fun K hs hm => ?_, fun v h0 hv => ?_⟩
  · obtain ⟨o1, r1⟩ := h1.ordered K (fun x hx => hs x (by simp [Fml.vars, hx])) hm
    have hK : ∀ k ∈ K, k ∈ G1.map Prod.fst ++ K := fun k hk => List.mem_append_right _ hk
    obtain ⟨o2, r2⟩ := h2.ordered (G1.map Prod.fst ++ K) (fun x hx l hl => over_mono hK (hs x (by simp [Fml.vars, hx]) l hl)) (fun m h => over_mono hK (hm m h))
    obtain ⟨o3, r3⟩ := h4 _ (over_assoc (over_left (G' := G2) r1)) (over_assoc r2)
    exact ⟨ordered_append (ordered_append o1 o2) o3, over_assoc r3⟩
  · rw [Fml.eval, h1.value v h0 hv.left.left, h2.value v h0 hv.left.right]
    simp [h5 v h0 hv.right]

theorem recall_nat (memory : List Nat) (i : Nat) : Aiger.recall memory (i : Int) = memory[i]? := by simp [Aiger.recall]

mutual

theorem encode_spec (d : Dict) : ∀ (φ : Fml) (memory : List Nat) (ws : List Word) (s : St) (fuel : Nat), φ.words.length ≤ fuel → φ.Wf memory.length →
    (∀ x ∈ φ.vars, Usable d x) → ∃ G r, encode d fuel memory (joinWords (φ.words ++ ws)) s = some (joinWords ws, r, emit s G) ∧ Computes d memory φ s.used G r
  | φ, memory, ws, s, 0, hf, _, _ => by
    exfalso
    cases φ with
    | const b => cases b <;> simp [Fml.words] at hf
    | _ => simp [Fml.words] at hf
  | .const true, memory, ws, s, fuel + 1, _, _, _ => by
    refine ⟨[], 1, ?_, by simp [Numbered], fun K _ _ => ⟨.nil, .inl (by decide)⟩, fun v h0 _ => by simp [Fml.eval, lit, h0]⟩
    simp [encode, Fml.words, cut_joinWords, emit_nil]
  | .const false, memory, ws, s, fuel + 1, _, _, _ => by
    refine ⟨[], 0, ?_, by simp [Numbered], fun K _ _ => ⟨.nil, .inl (by decide)⟩, fun v h0 _ => by simp [Fml.eval, lit, h0]⟩
    simp [encode, Fml.words, cut_joinWords, emit_nil]
  | .var x, memory, ws, s, fuel + 1, _, _, hx => by
    obtain ⟨h1, h2, l, hl⟩ := hx x (by simp [Fml.vars])
    simp only [reserved, List.mem_cons, List.not_mem_nil, or_false, not_or] at h1
    refine ⟨[], l, ?_, by simp [Numbered], fun K hs _ => ⟨.nil, hs x (by simp [Fml.vars]) l hl⟩, fun v h0 _ => by simp [Fml.eval, val, hl]⟩
    simp [encode, Fml.words, cut_joinWords h2, emit_nil, h1, hl]
  | .not f, memory, ws, s, fuel + 1, hf, hw, hx => by
    obtain ⟨G, r, h1, h2⟩ := encode_spec d f memory ws s fuel (by simp [Fml.words] at hf; omega) hw (by simpa [Fml.vars] using hx)
    refine ⟨G, r ^^^ 1, ?_, h2.numbered, fun K hs hm => ?_, fun v h0 hv => ?_⟩
    · simp [encode, Fml.words, cut_joinWords, h1]
    · obtain ⟨o, ho⟩ := h2.ordered K (by simpa [Fml.vars] using hs) hm
      exact ⟨o, over_xor ho⟩
    · rw [Fml.eval, h2.value v h0 hv, lit_xor]; rfl
  | .bin op f g, memory, ws, s, fuel + 1, hf, hw, hx => by
    obtain ⟨G1, a, h1, c1⟩ := encode_spec d f memory (g.words ++ ws) s fuel (by simp [Fml.words] at hf; omega) hw.1 (fun x h => hx x (by simp [Fml.vars, h]))
    obtain ⟨G2, b, h2, c2⟩ := encode_spec d g memory ws (emit s G1) fuel (by simp [Fml.words] at hf; omega) hw.2 (fun x h => hx x (by simp [Fml.vars, h]))
    rw [emit_emit] at h2
    cases op with
    | or =>
      refine ⟨(G1 ++ G2) ++ [((s.used + (G1 ++ G2).length + 1) * 2, a ^^^ 1, b ^^^ 1)], ((s.used + (G1 ++ G2).length + 1) * 2) ^^^ 1, ?_,
        computes_bin c1 c2 (numbered_one _ _ _) (fun K ha hb => ⟨.cons (over_xor ha) (over_xor hb) .nil, over_xor (.inr ?_)⟩) fun v h0 hv => ?_⟩
      · simp only [encode, Fml.words, List.cons_append, List.append_assoc, BinOp.word]
        rw [cut_joinWords (by decide)]
        simp only [h1, h2, Option.bind_eq_bind, Option.bind_some]
        simp [emit, St.use, St.count, St.line, Nat.add_assoc]
      · refine List.mem_append_left _ (List.mem_singleton.mpr ?_); dsimp only; omega
      · have := hv _ (List.mem_singleton.mpr rfl)
        rw [lit_xor, this, lit_xor, lit_xor]
        simp [BinOp.apply]
    | xor =>
      have hn : ∀ n k : Nat, 2 * ((n * 2 + 2 * k) / 2) = n * 2 + 2 * k := fun n k => by omega
      refine ⟨(G1 ++ G2) ++ [((s.used + (G1 ++ G2).length) * 2 + 2, a ^^^ 1, b ^^^ 1), ((s.used + (G1 ++ G2).length) * 2 + 4, a, b),
          ((s.used + (G1 ++ G2).length) * 2 + 6, (s.used + (G1 ++ G2).length) * 2 + 3, (s.used + (G1 ++ G2).length) * 2 + 5)],
        (s.used + (G1 ++ G2).length + 3) * 2, ?_, computes_bin c1 c2 (numbered_three _ _ _ _ _ _ _)
          (fun K ha hb => ⟨.cons (over_xor ha) (over_xor hb) (.cons ?_ ?_ (.cons ?_ ?_ .nil)), .inr ?_⟩) fun v h0 hv => ?_⟩
      · simp only [encode, Fml.words, List.cons_append, List.append_assoc, BinOp.word]
        rw [cut_joinWords (by decide)]
        simp only [h1, h2, Option.bind_eq_bind, Option.bind_some]
        simp [emit, St.use, St.count, St.line, Nat.add_assoc]
      · exact over_mono (fun k hk => List.mem_cons_of_mem _ hk) ha
      · exact over_mono (fun k hk => List.mem_cons_of_mem _ hk) hb
      · refine .inr (List.mem_cons_of_mem _ (List.mem_cons.mpr (.inl ?_))); omega
      · refine .inr (List.mem_cons.mpr (.inl ?_)); omega
      · simp only [List.map_cons, List.map_nil, List.mem_append, List.mem_cons, List.not_mem_nil, or_false]
        left; right; right; omega
      · have e1 := hv _ (List.mem_cons_self ..)
        have e2 := hv _ (List.mem_cons_of_mem _ (List.mem_cons_self ..))
        have e3 := hv _ (List.mem_cons_of_mem _ (List.mem_cons_of_mem _ (List.mem_cons_self ..)))
        dsimp only at e1 e2 e3
        rw [lit_succ v (show ((s.used + (G1 ++ G2).length) * 2 + 2) % 2 = 0 by omega), e1,
          lit_succ v (show ((s.used + (G1 ++ G2).length) * 2 + 4) % 2 = 0 by omega), e2, lit_xor, lit_xor] at e3
        rw [show (s.used + (G1 ++ G2).length + 3) * 2 = (s.used + (G1 ++ G2).length) * 2 + 6 by omega, e3]
        cases lit v a <;> cases lit v b <;> rfl
    | and =>
      refine ⟨(G1 ++ G2) ++ [((s.used + (G1 ++ G2).length + 1) * 2, a, b)], (s.used + (G1 ++ G2).length + 1) * 2, ?_,
        computes_bin c1 c2 (numbered_one _ _ _) (fun K ha hb => ⟨.cons ha hb .nil, .inr ?_⟩) fun v h0 hv => ?_⟩
      · simp only [encode, Fml.words, List.cons_append, List.append_assoc, BinOp.word]
        rw [cut_joinWords (by decide)]
        simp only [h1, h2, Option.bind_eq_bind, Option.bind_some]
        simp [emit, St.use, St.count, St.line, Nat.add_assoc]
      · refine List.mem_append_left _ (List.mem_singleton.mpr ?_); dsimp only; omega
      · have := hv _ (List.mem_singleton.mpr rfl)
        rw [this]; rfl
  | .buffer fs, memory, ws, s, fuel + 1, hf, hw, hx => by
    obtain ⟨G, M, h1, h2⟩ := encodeParts_spec d fs [] ws s fuel (by simp [Fml.words] at hf; omega) hw.2 (by simpa [Fml.vars] using hx)
    have hM : M ≠ [] := by
      rw [← List.length_pos_iff, h2.length]
      have := List.length_pos_iff.mpr hw.1
      omega
    have hb : ∃ w ws', Fml.wordsBuffer fs ++ ws = w :: ws' := by
      cases hfs : fs with
      | nil => exact absurd hfs hw.1
      | cons f fs' =>
        cases hfw : f.words with
        | nil => exact absurd hfw (words_ne_nil f)
        | cons w ws' => exact ⟨w, ws' ++ Fml.wordsBuffer fs' ++ ws, by simp [Fml.wordsBuffer, hfw]⟩
    obtain ⟨w, ws', hww⟩ := hb
    refine ⟨G, M.getLast hM, ?_, h2.numbered, fun K hs _ => ?_, fun v h0 hv => ?_⟩
    · have : cutNumber (joinWords (decimal fs.length :: (Fml.wordsBuffer fs ++ ws))) = (decimal fs.length, joinWords (Fml.wordsBuffer fs ++ ws)) := by
        rw [cutNumber, if_pos (by rw [hww]; exact blank_joinWords), cut_joinWords (decimal_plain _)]
      simp [encode, Fml.words, cut_joinWords, this, int2_decimal, h1, List.getLast?_eq_some_getLast hM]
    · obtain ⟨o, hm⟩ := h2.ordered K (by simpa [Fml.vars] using hs) (by simp)
      exact ⟨o, hm _ (List.getLast_mem hM)⟩
    · have := h2.value v h0 hv
      rw [Fml.eval]
      simp only [vals, List.map_nil] at this
      rw [this, List.getLast?_map, List.getLast?_eq_some_getLast hM]
      rfl
  | .recall i, memory, ws, s, fuel + 1, _, hw, _ => by
    have hi : i < memory.length := hw
    refine ⟨[], memory[i], ?_, by simp [Numbered], fun K _ hm => ⟨.nil, hm _ (List.getElem_mem _)⟩, fun v h0 _ => by simp [Fml.eval, vals, hi]⟩
    simp [encode, Fml.words, cut_joinWords, cut_joinWords (decimal_plain i), int2_decimal, recall_nat, hi, emit_nil]

theorem encodeParts_spec (d : Dict) : ∀ (fs : List Fml) (memory : List Nat) (ws : List Word) (s : St) (fuel : Nat), (Fml.wordsBuffer fs).length ≤ fuel →
    Fml.WfBuffer memory.length fs → (∀ x ∈ Fml.varsBuffer fs, Usable d x) →
    ∃ G M, encodeParts (encode d fuel) fs.length memory (joinWords (Fml.wordsBuffer fs ++ ws)) s = some (joinWords ws, M, emit s G) ∧
      ComputesBuffer d memory fs s.used G M
  | [], memory, ws, s, fuel, _, _, _ =>
    ⟨[], memory, by simp [encodeParts, Fml.wordsBuffer, emit_nil], by simp [Numbered], by simp, fun K _ hm => ⟨.nil, by simpa using hm⟩,
      fun v _ _ => by simp [Fml.evalBuffer]⟩
  | f :: fs, memory, ws, s, fuel, hf, hw, hx => by
    obtain ⟨G1, a, h1, c1⟩ := encode_spec d f memory (Fml.wordsBuffer fs ++ ws) s fuel (by simp [Fml.wordsBuffer] at hf; omega) hw.1
      (fun x h => hx x (by simp [Fml.varsBuffer, h]))
    obtain ⟨G2, M, h2, c2⟩ := encodeParts_spec d fs (memory ++ [a]) ws (emit s G1) fuel (by simp [Fml.wordsBuffer] at hf; omega) (by simpa using hw.2)
      (fun x h => hx x (by simp [Fml.varsBuffer, h]))
    rw [emit_emit] at h2
    refine ⟨G1 ++ G2, M, ?_, c1.numbered.append c2.numbered, by rw [c2.length]; simp; omega, fun K hs hm => ?_, fun v h0 hv => ?_⟩
    · simp [encodeParts, Fml.wordsBuffer, h1, h2]
    · obtain ⟨o1, r1⟩ := c1.ordered K (fun x hx => hs x (by simp [Fml.varsBuffer, hx])) hm
      have hK : ∀ k ∈ K, k ∈ G1.map Prod.fst ++ K := fun k hk => List.mem_append_right _ hk
      obtain ⟨o2, r2⟩ := c2.ordered (G1.map Prod.fst ++ K) (fun x hx l hl => over_mono hK (hs x (by simp [Fml.varsBuffer, hx]) l hl)) (fun m h => by
        rcases List.mem_append.mp h with h | h
        · exact over_mono hK (hm m h)
        · rw [List.mem_singleton.mp h]; exact r1)
      exact ⟨ordered_append o1 o2, fun m h => over_assoc (r2 m h)⟩
    · rw [Fml.evalBuffer, c1.value v h0 hv.left, ← c2.value v h0 hv.right]
      simp [vals]

end

end Slugs.Model.Aiger
