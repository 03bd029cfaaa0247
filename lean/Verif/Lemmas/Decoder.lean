import Verif.Model.Decoder
import Verif.Spec.Decoded
import Verif.Lemmas.StructuredGame
import Verif.Lemmas.StructuredLines
import Verif.Lemmas.Printing
import Mathlib.Algebra.BigOperators.Group.List.Basic
import Mathlib.Data.List.Perm.Basic

/-!
What the decoder for integer variables does to the values of a state.
-/

namespace Slugs.Model.Decoder

open Slugs.Spec Slugs.Spec.Structured Slugs.Model Slugs.Model.Structured

/-! ### Strings -/

theorem withCommas_eq (l : List (List Char)) : withCommas l = (txt!", ").intercalate l := by
  induction l with
  | nil => rfl
  | cons a l ih =>
    cases l with
    | nil => simp [withCommas, List.intercalate]
    | cons b l => rw [withCommas, ih]; simp [List.intercalate]

theorem strInt_eq (z : Int) : strInt z = intText z := by
  cases z with
  | ofNat n => simp [strInt, intText, strNat_eq]
  | negSucc n =>
    rw [strInt, intText, if_pos (Int.negSucc_lt_zero n), strNat_eq]
    congr 1

theorem split_none {c : Char} {a : List Char} (h : c ∉ a) : split [c] a = [a] := by
  have := splitAux_sep (sep := [c]) rfl 0 [] a [] h
  rw [List.append_nil] at this
  rw [split, this]
  simp [splitAux]

theorem split_cons {c : Char} {a b : List Char} (h : c ∉ a) : split [c] (a ++ c :: b) = a :: split [c] b := by
  rw [split, splitAux_sep rfl 0 _ a [] h, splitAux, if_pos (by simp [List.isPrefixOf])]
  simp [split]

theorem split_commas : ∀ {l : List (List Char)}, l ≠ [] → (∀ a ∈ l, ',' ∉ a) → split txt!", " (withCommas l) = l
  | [], h, _ => absurd rfl h
  | [a], _, h => by
    have := splitAux_sep (sep := txt!", ") rfl 0 [] a [] (h a (by simp))
    rw [List.append_nil] at this
    rw [withCommas, split, this]
    simp [splitAux]
  | a :: b :: l, _, h => by
    have ih := split_commas (l := b :: l) (by simp) (fun x hx => h x (List.mem_cons_of_mem _ hx))
    rw [withCommas, List.append_assoc, split, splitAux_sep rfl 0 _ a [] (h a (by simp))]
    simp only [List.cons_append, List.nil_append, List.append_nil]
    rw [splitAux, if_pos (by simp [List.isPrefixOf])]
    simp only [List.length_cons, List.length_nil, Nat.reduceAdd, Nat.reduceSub, List.reverse_reverse]
    rw [splitAux]
    rw [split] at ih
    rw [ih]

theorem contains_iff {sub s : List Char} : contains sub s = true ↔ sub <:+: s := by
  rw [contains, List.any_eq_true, List.infix_iff_prefix_suffix]
  simp only [List.mem_tails, List.isPrefixOf_iff_prefix]
  constructor
  · rintro ⟨t, h1, h2⟩; exact ⟨t, h2, h1⟩
  · rintro ⟨t, h1, h2⟩; exact ⟨t, h2, h1⟩

theorem isNumber_strNat (n : Nat) : IsNumber (strNat n) n :=
  ⟨strNat n, by rw [strNat_eq]; exact decimal_ne_nil n, by rw [strNat_eq]; exact decimal_digits n, .inl ⟨rfl, by rw [strNat_eq, digitsVal_decimal]⟩⟩

theorem toInt_strNat (n : Nat) : toInt (strNat n) = some (n : Int) := by
  have := toInt_number (isNumber_strNat n) (s := []) (t := []) (by simp) (by simp)
  simpa using this

theorem strInt_nonneg {z : Int} (h : 0 ≤ z) : strInt z = strNat z.toNat := by
  cases z with
  | ofNat n => rfl
  | negSucc n => omega

theorem toInt_strInt {z : Int} (h : 0 ≤ z) : toInt (strInt z) = some z := by
  rw [strInt_nonneg h, toInt_strNat]
  congr 1
  omega

theorem digit_ne {c d : Char} (h : isDigit c = true) (hd : isDigit d = false) : c ≠ d := by rintro rfl; rw [h] at hd; cases hd

theorem not_mem_strNat {n : Nat} {d : Char} (hd : isDigit d = false) : d ∉ strNat n := fun h => by
  rw [strNat_eq] at h
  exact digit_ne (decimal_digits n d h) hd rfl

theorem not_mem_strInt {z : Int} (h : 0 ≤ z) {d : Char} (hd : isDigit d = false) : d ∉ strInt z := by
  rw [strInt_nonneg h]; exact not_mem_strNat hd

/-! ### The names of bits -/

theorem bitName_zero (x : Word) (lo hi : Int) : bitName x lo hi 0 = x ++ '@' :: (txt!"0." ++ strInt lo ++ '.' :: strInt hi) := by
  have : strNat 0 = txt!"0" := by decide
  simp [bitName, this]

theorem bitName_succ (x : Word) (lo hi : Int) {k : Nat} (h : 0 < k) : bitName x lo hi k = x ++ '@' :: strNat k := by
  rw [bitName, if_neg (by omega)]
  simp

theorem split_zero {x : Word} (hx : '@' ∉ x) {lo hi : Int} (h1 : 0 ≤ lo) (h2 : 0 ≤ hi) :
    split ['@'] (bitName x lo hi 0) = [x, txt!"0." ++ strInt lo ++ '.' :: strInt hi] := by
  rw [bitName_zero, split_one hx]
  have := not_mem_strInt h1 (d := '@') (by decide)
  have := not_mem_strInt h2 (d := '@') (by decide)
  simp [*]

theorem split_bit {x : Word} (hx : '@' ∉ x) {lo hi : Int} {k : Nat} (h : 0 < k) : split ['@'] (bitName x lo hi k) = [x, strNat k] := by
  rw [bitName_succ _ _ _ h, split_one hx (not_mem_strNat (by decide))]

theorem split_parts {lo hi : Int} (h1 : 0 ≤ lo) (h2 : 0 ≤ hi) : split ['.'] (txt!"0." ++ strInt lo ++ '.' :: strInt hi) = [['0'], strInt lo, strInt hi] := by
  have e : txt!"0." ++ strInt lo ++ '.' :: strInt hi = ['0'] ++ '.' :: (strInt lo ++ '.' :: strInt hi) := by simp
  rw [e, split_cons (by decide), split_one (not_mem_strInt h1 (by decide)) (not_mem_strInt h2 (by decide))]

theorem contains_zero (x : Word) (lo hi : Int) : contains txt!"@0." (bitName x lo hi 0) = true := by
  rw [contains_iff, bitName_zero]
  exact ⟨x, strInt lo ++ '.' :: strInt hi, by simp⟩

theorem not_contains_bit {x : Word} (hx : '@' ∉ x) {lo hi : Int} {k : Nat} (h : 0 < k) : contains txt!"@0." (bitName x lo hi k) = false := by
  rw [Bool.eq_false_iff, ne_eq, contains_iff, bitName_succ _ _ _ h]
  rintro ⟨s, t, e⟩
  have e' : s ++ '@' :: (txt!"0." ++ t) = x ++ '@' :: strNat k := by rw [← e]; simp
  have hs : '@' ∉ s := by
    intro hm
    have hc : List.count '@' (x ++ '@' :: strNat k) = 1 := by
      rw [List.count_append, List.count_cons_self, List.count_eq_zero_of_not_mem hx, List.count_eq_zero_of_not_mem (not_mem_strNat (by decide))]
    rw [← e', List.count_append, List.count_cons_self] at hc
    have := List.count_pos_iff.mpr hm
    omega
  obtain ⟨_, e2⟩ := split_at e' hs hx
  have : '.' ∈ strNat k := by rw [← e2]; simp
  exact not_mem_strNat (by decide) this

theorem not_contains_plain {x : Word} (hx : '@' ∉ x) : contains txt!"@0." x = false := by
  rw [Bool.eq_false_iff, ne_eq, contains_iff]
  intro h
  exact hx (h.subset (by simp))

/-- The characters that do not occur in names. -/
def special : List Char := [':', ',', ' ', '<', '>', '\n', '\r']

theorem flat_chars {ds : List Decl} (h : DeclsOk ds) {w : Word} (hw : w ∈ flatNames ds) {c : Char} (hc : c ∈ special) : c ∉ w := by
  intro hm
  obtain ⟨d, hd, hw⟩ := List.mem_flatMap.mp hw
  have hx : c ∉ d.name := by
    intro hm
    have := (h.tidy d hd).2.1 c hm
    revert this
    simp only [special, List.mem_cons, List.not_mem_nil, or_false] at hc
    rcases hc with rfl | rfl | rfl | rfl | rfl | rfl | rfl <;> decide
  rcases mem_bitsOf.mp hw with ⟨_, rfl⟩ | ⟨lo, hi, k, _, _, rfl⟩
  · exact hx hm
  · have := bitName_chars c hm
    simp only [special, List.mem_cons, List.not_mem_nil, or_false] at hc
    rcases this with h1 | h1 | h1 | h1 | h1
    · exact hx h1
    all_goals
      revert h1
      rcases hc with rfl | rfl | rfl | rfl | rfl | rfl | rfl <;> decide

/-! ### One state -/

/-- The values of the names. -/
def comps (ρ : Word → Bool) (names : List Word) : List (Word × List Char) := names.map fun w => (w, bitText (ρ w))

theorem readBit_bitText (b : Bool) : readBit (bitText b) = some (b.toNat : Int) := by cases b <;> decide

theorem mapM_some {α β : Type} {f : α → Option β} {g : α → β} : ∀ {l : List α}, (∀ a ∈ l, f a = some (g a)) → l.mapM f = some (l.map g)
  | [], _ => rfl
  | a :: l, h => by
    rw [List.mapM_cons, h a (by simp), mapM_some (fun b hb => h b (List.mem_cons_of_mem _ hb))]
    rfl

/-- What a name contributes to the value of the variable `x`. -/
def contribution (x : Word) (ρ : Word → Bool) (w : Word) : Int :=
  match split ['@'] w with
  | [y, k] => if y = x ∧ '.' ∉ k then ((ρ w).toNat : Int) * 2 ^ ((toInt k).getD 0).toNat else 0
  | _ => 0

theorem foldlM_sum {f : Int → Word → Option Int} {g : Word → Int} : ∀ {l : List Word} {v : Int}, (∀ w ∈ l, ∀ v, f v w = some (v + g w)) →
    l.foldlM f v = some (v + (l.map g).sum)
  | [], v, _ => by simp
  | w :: l, v, h => by
    rw [List.foldlM_cons, h w (by simp)]
    simp only [Option.bind_eq_bind, Option.bind_some]
    rw [foldlM_sum (fun u hu => h u (List.mem_cons_of_mem _ hu)), List.map_cons, List.sum_cons, add_assoc]

theorem addBit_eq {ds : List Decl} (h : DeclsOk ds) {w : Word} (hw : w ∈ flatNames ds) (x : Word) (ρ : Word → Bool) (v : Int) :
    addBit x v (w, bitText (ρ w)) = some (v + contribution x ρ w) := by
  obtain ⟨d, hd, hw⟩ := List.mem_flatMap.mp hw
  have hat := (h.tidy d hd).2.2.2.1
  rcases mem_bitsOf.mp hw with ⟨_, rfl⟩ | ⟨lo, hi, k, hr, _, rfl⟩
  · simp only [addBit, contribution, split_none hat, add_zero]
  · obtain ⟨hlo, hlh⟩ := h.range d hd lo hi hr
    rcases Nat.eq_zero_or_pos k with rfl | hk
    · have : ¬ (d.name = x ∧ '.' ∉ txt!"0." ++ strInt lo ++ '.' :: strInt hi) := fun h => h.2 (by simp)
      simp only [addBit, contribution, split_zero hat hlo (le_trans hlo hlh), if_neg this, add_zero]
    · simp only [addBit, contribution, split_bit hat hk]
      by_cases hx : d.name = x
      · have hc : d.name = x ∧ '.' ∉ strNat k := ⟨hx, not_mem_strNat (by decide)⟩
        rw [if_pos hc, if_pos hc, toInt_strNat, readBit_bitText]
        simp only [Option.getD_some, Int.toNat_natCast]
        rw [if_pos (by omega)]
      · rw [if_neg (fun h => hx h.1), if_neg (fun h => hx h.1), add_zero]

theorem binary_cons_sum (b : Bool) (l : List Bool) : (binary (b :: l) : Int) = b.toNat + 2 * binary l := by
  rw [binary]; push_cast; rfl

theorem binary_sum (f : Nat → Bool) : ∀ n, (binary ((List.range n).map f) : Int) = ((List.range n).map fun k => ((f k).toNat : Int) * 2 ^ k).sum
  | 0 => by simp [binary]
  | n + 1 => by
    rw [List.range_succ, List.map_append, binary_append, List.map_append, List.sum_append, ← binary_sum f n]
    simp [binary]
    ring

/-- The value of a variable, from its bits in any order. -/
theorem contribution_sum {ds : List Decl} (h : DeclsOk ds) {d : Decl} (hd : d ∈ ds) {lo hi : Int} (hr : d.range = some (lo, hi)) (hlt : lo < hi) (ρ : Word → Bool) :
    ((ρ (bitName d.name lo hi 0)).toNat : Int) + ((flatNames ds).map (contribution d.name ρ)).sum = binary ((bitsOf d).map ρ) := by
  have hzero : ∀ e ∈ ds, e.name ≠ d.name → ((bitsOf e).map (contribution d.name ρ)).sum = 0 := by
    intro e he hne
    refine List.sum_eq_zero fun z hz => ?_
    obtain ⟨w, hw, rfl⟩ := List.mem_map.mp hz
    have hat := (h.tidy e he).2.2.2.1
    rcases mem_bitsOf.mp hw with ⟨_, rfl⟩ | ⟨lo', hi', k, hr', _, rfl⟩
    · simp only [contribution, split_none hat]
    · obtain ⟨hlo, hlh⟩ := h.range e he lo' hi' hr'
      rcases Nat.eq_zero_or_pos k with rfl | hk
      · simp only [contribution, split_zero hat hlo (le_trans hlo hlh), if_neg (fun h : e.name = d.name ∧ _ => hne h.1)]
      · simp only [contribution, split_bit hat hk, if_neg (fun h : e.name = d.name ∧ _ => hne h.1)]
  obtain ⟨a, b, hab⟩ := List.append_of_mem hd
  have hnd := h.nodup
  rw [hab, List.map_append, List.map_cons] at hnd
  have hsum : ∀ l : List Decl, (∀ e ∈ l, e ∈ ds ∧ e.name ≠ d.name) → ((flatNames l).map (contribution d.name ρ)).sum = 0 := by
    intro l
    induction l with
    | nil => intro _; rfl
    | cons e l ih =>
      intro hl
      rw [flatNames, List.flatMap_cons, List.map_append, List.sum_append, hzero e (hl e (by simp)).1 (hl e (by simp)).2]
      rw [flatNames] at ih
      rw [ih fun e he => hl e (List.mem_cons_of_mem _ he), add_zero]
  have ha := hsum a fun e he => ⟨by rw [hab]; simp [he], fun hn => (List.nodup_append.mp hnd).2.2 _ (List.mem_map_of_mem he) d.name (by simp) hn⟩
  have hb := hsum b fun e he => ⟨by rw [hab]; simp [he], fun hn => by
    have := (List.nodup_cons.mp (List.nodup_append.mp hnd).2.1).1
    exact this (hn ▸ List.mem_map_of_mem he)⟩
  have hat := (h.tidy d hd).2.2.2.1
  obtain ⟨hlo, hlh⟩ := h.range d hd lo hi hr
  rw [hab, flatNames_append, List.map_append, List.sum_append, ha, zero_add]
  rw [show flatNames (d :: b) = bitsOf d ++ flatNames b from rfl, List.map_append, List.sum_append, hb, add_zero]
  have hn : ∃ n, bitsFor (hi - lo) = n + 1 := by
    refine Nat.exists_eq_succ_of_ne_zero ?_
    rw [bitsFor, ne_eq, Nat.size_eq_zero]
    omega
  obtain ⟨n, hn⟩ := hn
  have e : bitsOf d = (List.range (n + 1)).map (bitName d.name lo hi) := by rw [bitsOf, hr]; dsimp only; rw [bitNames_eq, hn]
  rw [e, List.map_map, List.map_map, binary_sum]
  rw [List.range_succ_eq_map, List.map_cons, List.sum_cons, List.map_cons, List.sum_cons]
  have h0 : contribution d.name ρ (bitName d.name lo hi 0) = 0 := by
    simp only [contribution, split_zero hat hlo (le_trans hlo hlh)]
    rw [if_neg (fun h => h.2 (by simp))]
  simp only [Function.comp_apply, h0, pow_zero, mul_one, zero_add, List.map_map]
  congr 2
  refine List.map_congr_left fun k hk => ?_
  have hc : True ∧ '.' ∉ strNat (k + 1) := ⟨trivial, not_mem_strNat (by decide)⟩
  simp only [Function.comp_apply, contribution, split_bit hat (Nat.succ_pos k), Nat.succ_eq_add_one, toInt_strNat, Option.getD_some, Int.toNat_natCast]
  rw [if_pos hc]

/-- The variable whose first bit has this name. -/
def leader (ds : List Decl) (w : Word) : Option Decl := ds.find? fun d => (bitsOf d).head? = some w

theorem bits_visible {d : Decl} {lo hi : Int} (hr : d.range = some (lo, hi)) : (0 < bitsFor (hi - lo)) ↔ d.visible = true := by
  rw [Decl.visible, hr]
  simp only [decide_eq_true_eq]
  rw [bitsFor, Nat.pos_iff_ne_zero, ne_eq, Nat.size_eq_zero]
  omega

theorem leader_first {ds : List Decl} (h : DeclsOk ds) {d : Decl} (hd : d ∈ ds) {w : Word} (hw : (bitsOf d).head? = some w) : leader ds w = some d := by
  cases hf : leader ds w with
  | none =>
    rw [leader, List.find?_eq_none] at hf
    exact absurd (by simpa using hw) (hf d hd)
  | some e =>
    have h1 := List.mem_of_find?_eq_some hf
    have h2 := List.find?_some hf
    simp only [decide_eq_true_eq] at h2
    exact congrArg some (h.same h1 hd (bits_disjoint (h.tidy e h1) (h.tidy d hd) (List.mem_of_mem_head? h2) (List.mem_of_mem_head? hw)))

theorem leader_rest {ds : List Decl} (h : DeclsOk ds) {d : Decl} (hd : d ∈ ds) {lo hi : Int} {k : Nat} (hk : 0 < k) : leader ds (bitName d.name lo hi k) = none := by
  rw [leader, List.find?_eq_none]
  intro e he hm
  simp only [decide_eq_true_eq] at hm
  rw [bitsOf] at hm
  cases hr : e.range with
  | none =>
    rw [hr] at hm
    simp only [List.head?_cons, Option.some.injEq] at hm
    exact (h.tidy e he).2.2.2.1 (hm ▸ at_bitName ..)
  | some q =>
    obtain ⟨lo', hi'⟩ := q
    rw [hr] at hm
    dsimp only at hm
    rw [bitNames_eq] at hm
    cases hn : bitsFor (hi' - lo') with
    | zero => rw [hn] at hm; cases hm
    | succ n =>
      rw [hn, List.range_succ_eq_map] at hm
      simp only [List.map_cons, List.head?_cons, Option.some.injEq] at hm
      have := (bitName_inj (h.tidy e he).2.2.2.1 (h.tidy d hd).2.2.2.1 hm).2
      omega

theorem leaders {ds : List Decl} (h : DeclsOk ds) : (flatNames ds).filterMap (leader ds) = ds.filter Decl.visible := by
  have key : ∀ l : List Decl, (∀ d ∈ l, d ∈ ds) → (flatNames l).filterMap (leader ds) = l.filter Decl.visible := by
    intro l
    induction l with
    | nil => intro _; rfl
    | cons d l ih =>
      intro hl
      have hd := hl d (by simp)
      rw [show flatNames (d :: l) = bitsOf d ++ flatNames l from rfl, List.filterMap_append, ih fun e he => hl e (List.mem_cons_of_mem _ he)]
      have : (bitsOf d).filterMap (leader ds) = if d.visible = true then [d] else [] := by
        cases hr : d.range with
        | none =>
          have hb : bitsOf d = [d.name] := by rw [bitsOf, hr]
          rw [hb, if_pos (by rw [Decl.visible, hr])]
          simp [leader_first h hd (w := d.name) (by rw [hb]; rfl)]
        | some q =>
          obtain ⟨lo, hi⟩ := q
          have hb : bitsOf d = (List.range (bitsFor (hi - lo))).map (bitName d.name lo hi) := by rw [bitsOf, hr]; rfl
          cases hn : bitsFor (hi - lo) with
          | zero =>
            rw [if_neg (by rw [← bits_visible hr]; omega), hb, hn]
            rfl
          | succ n =>
            rw [if_pos (by rw [← bits_visible hr]; omega)]
            have h0 : (bitsOf d).head? = some (bitName d.name lo hi 0) := by
              rw [hb, hn, List.range_succ_eq_map]; rfl
            rw [hb, hn, List.range_succ_eq_map, List.map_cons, List.filterMap_cons, leader_first h hd h0]
            simp only [List.map_map, List.cons.injEq, true_and]
            rw [List.filterMap_eq_nil_iff]
            intro w hw
            obtain ⟨k, _, rfl⟩ := List.mem_map.mp hw
            exact leader_rest h hd (Nat.succ_pos k)
      rw [this, List.filter_cons]
      split <;> rfl
  exact key ds fun d hd => hd

theorem parsedValue_first {ds : List Decl} (h : DeclsOk ds) {names : List Word} (hp : names.Perm (flatNames ds)) (ρ : Word → Bool) {d : Decl} (hd : d ∈ ds)
    {lo hi : Int} (hr : d.range = some (lo, hi)) (hlt : lo < hi) :
    parsedValue (comps ρ names) (bitName d.name lo hi 0, bitText (ρ (bitName d.name lo hi 0))) = some (valueText d (decode ρ d)) := by
  have hat := (h.tidy d hd).2.2.2.1
  obtain ⟨hlo, hlh⟩ := h.range d hd lo hi hr
  have hfold : (comps ρ names).foldlM (addBit d.name) (lo + ((ρ (bitName d.name lo hi 0)).toNat : Int)) =
      some (lo + (ρ (bitName d.name lo hi 0)).toNat + (names.map (contribution d.name ρ)).sum) := by
    rw [comps, List.foldlM_map]
    exact foldlM_sum fun w hw v => addBit_eq h (hp.mem_iff.mp hw) d.name ρ v
  have hsum : (names.map (contribution d.name ρ)).sum = ((flatNames ds).map (contribution d.name ρ)).sum := (hp.map _).sum_eq
  rw [hsum, add_assoc, contribution_sum h hd hr hlt] at hfold
  rw [parsedValue]
  simp only [split_zero hat hlo (le_trans hlo hlh), split_parts hlo (le_trans hlo hlh), if_true, toInt_strInt hlo, toInt_strInt (le_trans hlo hlh), readBit_bitText, hfold,
    Option.map_some, valueText, hr, decode]
  rw [strInt_eq]

/-- The first bits, with the values of their variables. -/
theorem parsedValues_eq {ds : List Decl} (h : DeclsOk ds) {names : List Word} (hp : names.Perm (flatNames ds)) (ρ : Word → Bool) :
    parsedValues (comps ρ names) = some ((names.filter (contains txt!"@0.")).map fun w => (w, ((leader ds w).map fun d => valueText d (decode ρ d)).getD [])) := by
  have e : (comps ρ names).filter (fun a => contains txt!"@0." a.1) = comps ρ (names.filter (contains txt!"@0.")) := by
    rw [comps, comps, List.filter_map]
    rfl
  rw [parsedValues, e, show comps ρ (names.filter (contains txt!"@0.")) = (names.filter (contains txt!"@0.")).map fun w => (w, bitText (ρ w)) from rfl]
  rw [List.mapM_map]
  refine mapM_some fun w hw => ?_
  obtain ⟨hw, hc⟩ := List.mem_filter.mp hw
  obtain ⟨d, hd, hb⟩ := List.mem_flatMap.mp (hp.mem_iff.mp hw)
  have hat := (h.tidy d hd).2.2.2.1
  rcases mem_bitsOf.mp hb with ⟨_, rfl⟩ | ⟨lo, hi, k, hr, hk, rfl⟩
  · rw [not_contains_plain hat] at hc; cases hc
  · rcases Nat.eq_zero_or_pos k with rfl | hk0
    · have hlt : lo < hi := by
        have := (bits_visible hr).mp hk
        rw [Decl.visible, hr] at this
        simpa using this
      have h0 : (bitsOf d).head? = some (bitName d.name lo hi 0) := by
        rw [bitsOf, hr]
        dsimp only
        obtain ⟨n, hn⟩ := Nat.exists_eq_succ_of_ne_zero (Nat.pos_iff_ne_zero.mp hk)
        rw [bitNames_eq, hn, List.range_succ_eq_map]
        rfl
      simp only [Function.comp_apply, parsedValue_first h hp ρ hd hr hlt, Option.map_some, leader_first h hd h0, Option.getD_some]
    · rw [not_contains_bit hat hk0] at hc; cases hc

theorem lookup_map_mem {names : List Word} (f : Word → List Char) {w : Word} (h : w ∈ names) : (names.map fun w => (w, f w)).lookup w = some (f w) := by
  induction names with
  | nil => cases h
  | cons a l ih =>
    rw [List.map_cons, List.lookup_cons]
    by_cases e : w = a
    · subst e; simp
    · rw [show (w == a) = false by simpa using e]
      exact ih ((List.mem_cons.mp h).resolve_left e)

theorem lookup_map_not_mem {names : List Word} (f : Word → List Char) {w : Word} (h : w ∉ names) : (names.map fun w => (w, f w)).lookup w = none := by
  induction names with
  | nil => rfl
  | cons a l ih =>
    rw [List.mem_cons, not_or] at h
    rw [List.map_cons, List.lookup_cons, show (w == a) = false by simpa using h.1]
    exact ih h.2

theorem decode_bool {d : Decl} (hr : d.range = none) (ρ : Word → Bool) : valueText d (decode ρ d) = d.name ++ [':'] ++ bitText (ρ d.name) := by
  rw [valueText, decode, hr]
  cases ρ d.name <;> simp [bitText]

/-- The components of a state after decoding. -/
theorem filtered_eq {ds : List Decl} (h : DeclsOk ds) {names : List Word} (hp : names.Perm (flatNames ds)) (ρ : Word → Bool) :
    (comps ρ names).flatMap (filtered ((names.filter (contains txt!"@0.")).map fun w => (w, ((leader ds w).map fun d => valueText d (decode ρ d)).getD []))) =
      (names.filterMap (leader ds)).map fun d => valueText d (decode ρ d) := by
  rw [comps, List.flatMap_map, List.map_filterMap, List.filterMap_eq_flatMap_toList]
  refine List.flatMap_congr fun w hw => ?_
  rw [filtered, ← List.map_reverse]
  obtain ⟨d, hd, hb⟩ := List.mem_flatMap.mp (hp.mem_iff.mp hw)
  have hat := (h.tidy d hd).2.2.2.1
  rcases mem_bitsOf.mp hb with ⟨hr, rfl⟩ | ⟨lo, hi, k, hr, hk, rfl⟩
  · rw [lookup_map_not_mem _ (by simp [not_contains_plain hat])]
    simp only [if_neg hat]
    rw [leader_first h hd (by rw [bitsOf, hr]; rfl)]
    simp [decode_bool hr]
  · rcases Nat.eq_zero_or_pos k with rfl | hk0
    · rw [lookup_map_mem _ (by simp [contains_zero, hw])]
      have h0 : (bitsOf d).head? = some (bitName d.name lo hi 0) := by
        rw [bitsOf, hr]
        dsimp only
        obtain ⟨n, hn⟩ := Nat.exists_eq_succ_of_ne_zero (Nat.pos_iff_ne_zero.mp hk)
        rw [bitNames_eq, hn, List.range_succ_eq_map]
        rfl
      simp [leader_first h hd h0]
    · rw [lookup_map_not_mem _ (by simp [not_contains_bit hat hk0])]
      simp only [if_pos (at_bitName ..)]
      rw [leader_rest h hd hk0]
      rfl

/-- The values of a state: integer variables get their values. -/
theorem decodeState_eq {ds : List Decl} (h : DeclsOk ds) {names : List Word} (hp : names.Perm (flatNames ds)) (hne : names ≠ []) (ρ : Word → Bool) :
    decodeState (labelText (names.map fun w => (w, ρ w))) =
      some (withCommas ((names.filterMap (leader ds)).map fun d => valueText d (decode ρ d))) := by
  have e : labelText (names.map fun w => (w, ρ w)) = withCommas (names.map fun w => w ++ [':'] ++ bitText (ρ w)) := by
    rw [labelText, List.map_map]; rfl
  have hs : split txt!", " (labelText (names.map fun w => (w, ρ w))) = names.map fun w => w ++ [':'] ++ bitText (ρ w) := by
    rw [e]
    refine split_commas (by simpa using hne) fun a ha => ?_
    obtain ⟨w, hw, rfl⟩ := List.mem_map.mp ha
    have := flat_chars h (hp.mem_iff.mp hw) (c := ',') (by decide)
    cases ρ w <;> simp [bitText, this]
  have hc : (split txt!", " (labelText (names.map fun w => (w, ρ w)))).mapM component = some (comps ρ names) := by
    rw [hs, List.mapM_map]
    refine mapM_some fun w hw => ?_
    have := flat_chars h (hp.mem_iff.mp hw) (c := ':') (by decide)
    rw [Function.comp_apply, component, List.append_assoc, List.singleton_append, split_one this (by cases ρ w <;> decide)]
  rw [decodeState, hc]
  simp only [parsedValues_eq h hp ρ]
  rw [filtered_eq h hp ρ]

/-! ### Lines -/

theorem readlinesAux_line (l : List Char) (rest : List Char) : ∀ cur, '\n' ∉ l → '\r' ∉ l →
    readlinesAux cur (l ++ '\n' :: rest) = (cur.reverse ++ l ++ ['\n']) :: readlinesAux [] rest := by
  induction l with
  | nil => intro cur _ _; simp [readlinesAux]
  | cons c l ih =>
    intro cur h1 h2
    rw [List.mem_cons, not_or] at h1 h2
    rw [List.cons_append, readlinesAux, if_neg (by rintro (rfl | rfl); exacts [h1.1 rfl, h2.1 rfl]), ih _ h1.2 h2.2]
    · simp
    · rintro _ rfl; exact absurd rfl h2.1

theorem readlines_line {l : List Char} (h1 : '\n' ∉ l) (h2 : '\r' ∉ l) (rest : List Char) : readlines (l ++ '\n' :: rest) = (l ++ ['\n']) :: readlines rest := by
  rw [readlines, readlinesAux_line l rest [] h1 h2]; rfl

theorem decodeLine_state {P Q R : List Char} (h1 : '<' ∉ P) (h2 : '>' ∉ Q) :
    decodeLine (P ++ '<' :: (Q ++ '>' :: R)) = (decodeState Q).map fun t => P ++ ['<'] ++ t ++ ['>'] ++ R := by
  have tw : ∀ (c : Char) (A B : List Char), c ∉ A → (A ++ c :: B).takeWhile (· ≠ c) = A ∧ (A ++ c :: B).dropWhile (· ≠ c) = c :: B := by
    intro c A B hc
    have hA : ∀ a ∈ A, (decide (a ≠ c)) = true := by intro a ha; simp; rintro rfl; exact hc ha
    exact ⟨by rw [List.takeWhile_append_of_pos hA]; simp, by rw [List.dropWhile_append_of_pos hA]; simp⟩
  rw [decodeLine, if_pos (by simp)]
  obtain ⟨a1, a2⟩ := tw '<' P (Q ++ '>' :: R) h1
  obtain ⟨b1, b2⟩ := tw '>' Q R h2
  simp only [a1, a2, List.drop_succ_cons, List.drop_zero, b1, b2]
  rw [if_pos (by simp)]

theorem decodeLine_other {l : List Char} (h : '<' ∉ l) : decodeLine l = some l := by
  rw [decodeLine, if_neg (fun h' => h h'.1)]

/-- One state, with the text of its values. -/
def stateWith (st : PState) (t : List Char) : List Char :=
  txt!"State " ++ decimal st.num ++ txt!" with rank " ++ decimal st.rank ++ txt!" -> <" ++ t ++ txt!">\n\tWith successors : " ++
    withCommas (st.succ.map decimal) ++ ['\n']

theorem decimal_not_mem (n : Nat) {d : Char} (hd : isDigit d = false) : d ∉ decimal n := fun h => digit_ne (decimal_digits n d h) hd rfl

theorem commas_not_mem {l : List (List Char)} {d : Char} (hd : d ≠ ',' ∧ d ≠ ' ') (h : ∀ a ∈ l, d ∉ a) : d ∉ withCommas l := by
  induction l with
  | nil => simp [withCommas]
  | cons a l ih =>
    cases l with
    | nil => simpa [withCommas] using h
    | cons b l =>
      rw [withCommas]
      simp only [List.mem_append, not_or]
      exact ⟨⟨h a (by simp), by simp [hd]⟩, ih fun x hx => h x (List.mem_cons_of_mem _ hx)⟩

theorem decodeText_states (P : PState → List Char) : ∀ (sts : List PState), (∀ st ∈ sts, '>' ∉ labelText st.label ∧ '\n' ∉ labelText st.label ∧ '\r' ∉ labelText st.label ∧
      decodeState (labelText st.label) = some (P st)) → decodeText (sts.map stateText).flatten = some (sts.map fun st => stateWith st (P st)).flatten
  | [], _ => rfl
  | st :: sts, h => by
    have ih := decodeText_states P sts fun st hst => h st (List.mem_cons_of_mem _ hst)
    obtain ⟨h1, h2, h3, h4⟩ := h st (by simp)
    have hnum : ∀ d, isDigit d = false → d ∉ decimal st.num ∧ d ∉ decimal st.rank := fun d hd => ⟨decimal_not_mem _ hd, decimal_not_mem _ hd⟩
    have hs : ∀ d, isDigit d = false → d ≠ ',' ∧ d ≠ ' ' → d ∉ withCommas (st.succ.map decimal) := by
      intro d hd hc
      refine commas_not_mem hc fun a ha => ?_
      obtain ⟨n, _, rfl⟩ := List.mem_map.mp ha
      exact decimal_not_mem _ hd
    have e : ((st :: sts).map stateText).flatten =
        (txt!"State " ++ decimal st.num ++ txt!" with rank " ++ decimal st.rank ++ txt!" -> " ++ '<' :: (labelText st.label ++ ['>'])) ++ '\n' ::
          ((txt!"\tWith successors : " ++ withCommas (st.succ.map decimal)) ++ '\n' :: (sts.map stateText).flatten) := by
      simp [stateText]
    have l1 := decodeLine_state (P := txt!"State " ++ decimal st.num ++ txt!" with rank " ++ decimal st.rank ++ txt!" -> ") (Q := labelText st.label) (R := ['\n'])
      (by simp [hnum '<' (by decide)]) h1
    have l2 := decodeLine_other (l := txt!"\tWith successors : " ++ withCommas (st.succ.map decimal) ++ ['\n']) (by simp [hs '<' (by decide) (by decide)])
    have r1 := readlines_line (l := txt!"State " ++ decimal st.num ++ txt!" with rank " ++ decimal st.rank ++ txt!" -> " ++ '<' :: (labelText st.label ++ ['>']))
      (by simp [hnum '\n' (by decide), h2]) (by simp [hnum '\r' (by decide), h3])
    have r2 := readlines_line (l := txt!"\tWith successors : " ++ withCommas (st.succ.map decimal))
      (by simp [hs '\n' (by decide) (by decide)]) (by simp [hs '\r' (by decide) (by decide)])
    have l1' : decodeLine (txt!"State " ++ decimal st.num ++ txt!" with rank " ++ decimal st.rank ++ txt!" -> " ++ '<' :: (labelText st.label ++ ['>']) ++ ['\n']) =
        some (txt!"State " ++ decimal st.num ++ txt!" with rank " ++ decimal st.rank ++ txt!" -> " ++ ['<'] ++ P st ++ ['>'] ++ ['\n']) := by
      rw [h4, Option.map_some] at l1
      rw [← l1]
      congr 1
      simp
    rw [decodeText] at ih ⊢
    rw [e, r1, r2, List.mapM_cons, l1', List.mapM_cons, l2]
    cases hm : (readlines (sts.map stateText).flatten).mapM decodeLine with
    | none => rw [hm] at ih; cases ih
    | some L =>
      rw [hm] at ih
      simp only [Option.map_some, Option.some.injEq] at ih
      simp only [Option.bind_eq_bind, Option.bind_some, Option.pure_def, Option.map_some, Option.some.injEq, List.flatten_cons, ih, List.map_cons, stateWith]
      simp

end Slugs.Model.Decoder
