import Verif.Lemmas.ResilienceInfty
import Verif.Lemmas.Printing
import Mathlib.Tactic.Ring
import Mathlib.Tactic.Positivity

/-!
The formulas that are composed by `writeMixedRobustSpecification`, and what they say.
-/

namespace Slugs.Model.Resilience

open Slugs.Spec Slugs.Model.Core

/-- What is said by a line. -/
def mean (ρ : Word → Bool) (l : List Char) : Prop := Yes ρ (rdLine l)

/-- The line is a formula over the given names. -/
structure Ok (U : Word → Prop) (l : List Char) : Prop where
  line : ItemLine l
  writes : Writes l (rdLine l)
  wf : (rdLine l).Wf 0
  vars : ∀ x ∈ (rdLine l).vars, U x

variable {U : Word → Prop}

theorem ok_of {l : List Char} {φ : Fml} (h1 : ItemLine l) (h2 : Writes l φ) (h3 : φ.Wf 0) (h4 : ∀ x ∈ φ.vars, U x) : Ok U l ∧ rdLine l = φ := by
  have e := rdLine_eq h2.line
  exact ⟨⟨h1, e ▸ h2, e ▸ h3, e ▸ h4⟩, e⟩

theorem Ok.mono {U' : Word → Prop} {l : List Char} (h : Ok U l) (hu : ∀ x, U x → U' x) : Ok U' l := ⟨h.line, h.writes, h.wf, fun x hx => hu x (h.vars x hx)⟩

theorem ok_true : Ok U txt!"1" ∧ ∀ ρ, mean ρ txt!"1" := by
  obtain ⟨h, e⟩ := ok_of (U := U) (itemLine_of (l := txt!"1") (by decide) (by decide) (by decide) (by decide)) writes_true (by simp [Fml.Wf]) (by simp [Fml.vars])
  exact ⟨h, fun ρ => by rw [mean, e]; rfl⟩

theorem ok_false : Ok U txt!"0" ∧ ∀ ρ, ¬ mean ρ txt!"0" := by
  obtain ⟨h, e⟩ := ok_of (U := U) (itemLine_of (l := txt!"0") (by decide) (by decide) (by decide) (by decide)) writes_false (by simp [Fml.Wf]) (by simp [Fml.vars])
  exact ⟨h, fun ρ => by rw [mean, e]; simp [Yes, Fml.eval]⟩

theorem ok_not {l : List Char} (h : Ok U l) : Ok U (txt!"! " ++ l) ∧ ∀ ρ, mean ρ (txt!"! " ++ l) ↔ ¬ mean ρ l := by
  have hl : ItemLine (txt!"! " ++ l) := by
    refine itemLine_of (by simp) (fun c hc => ?_) (fun c hc => ?_) ?_
    · cases hc
      decide
    · rw [List.getLast?_append_of_ne_nil _ h.line.ne] at hc
      exact itemLine_last h.line c hc
    · simp [h.line.clean]
  obtain ⟨h1, e⟩ := ok_of (U := U) hl (writes_not h.writes) h.wf h.vars
  exact ⟨h1, fun ρ => by rw [mean, e, yes_not h.wf]; rfl⟩

theorem bin_line (op : BinOp) {a b : List Char} (ha : ItemLine a) (hb : ItemLine b) : ItemLine (op.word ++ txt!" " ++ a ++ txt!" " ++ b) := by
  refine itemLine_of (by simp) (fun c hc => ?_) (fun c hc => ?_) ?_
  · cases op <;> cases hc <;> decide
  · rw [List.getLast?_append_of_ne_nil _ hb.ne] at hc
    exact itemLine_last hb c hc
  · have : '\n' ∉ op.word := by cases op <;> decide
    simp [this, ha.clean, hb.clean]

theorem ok_bin (op : BinOp) {a b : List Char} (ha : Ok U a) (hb : Ok U b) :
    Ok U (op.word ++ txt!" " ++ a ++ txt!" " ++ b) ∧ rdLine (op.word ++ txt!" " ++ a ++ txt!" " ++ b) = .bin op (rdLine a) (rdLine b) :=
  ok_of (bin_line op ha.line hb.line) (writes_bin op ha.writes hb.writes) ⟨ha.wf, hb.wf⟩ fun x hx => by
    rw [Fml.vars, List.mem_append] at hx
    exact hx.elim (ha.vars x) (hb.vars x)

theorem ok_or {a b : List Char} (ha : Ok U a) (hb : Ok U b) :
    Ok U (txt!"| " ++ a ++ txt!" " ++ b) ∧ ∀ ρ, mean ρ (txt!"| " ++ a ++ txt!" " ++ b) ↔ mean ρ a ∨ mean ρ b := by
  obtain ⟨h, e⟩ := ok_bin .or ha hb
  exact ⟨h, fun ρ => (iff_of_eq (congrArg (Yes ρ) e)).trans (yes_or ha.wf hb.wf)⟩

theorem ok_and {a b : List Char} (ha : Ok U a) (hb : Ok U b) :
    Ok U (txt!"& " ++ a ++ txt!" " ++ b) ∧ ∀ ρ, mean ρ (txt!"& " ++ a ++ txt!" " ++ b) ↔ mean ρ a ∧ mean ρ b := by
  obtain ⟨h, e⟩ := ok_bin .and ha hb
  exact ⟨h, fun ρ => (iff_of_eq (congrArg (Yes ρ) e)).trans (yes_and ha.wf hb.wf)⟩

theorem ops_succ (n : Nat) (op : Char) (l : List Char) : ops (n + 1) op ++ l = ops n op ++ ([op, ' '] ++ l) := by
  rw [ops, ops, List.replicate_succ', List.flatten_append]
  simp

theorem ok_ors : ∀ {as : List (List Char)} {a : List Char}, Ok U a → (∀ b ∈ as, Ok U b) →
    Ok U (ops as.length '|' ++ joinWords (a :: as)) ∧ ∀ ρ, mean ρ (ops as.length '|' ++ joinWords (a :: as)) ↔ mean ρ a ∨ ∃ b ∈ as, mean ρ b
  | [], a, ha, _ => by simpa [ops, joinWords] using ha
  | b :: as, a, ha, hs => by
    rw [List.forall_mem_cons] at hs
    obtain ⟨h1, h2⟩ := ok_or ha hs.1
    obtain ⟨h3, h4⟩ := ok_ors h1 hs.2
    have e : ops (b :: as).length '|' ++ joinWords (a :: b :: as) = ops as.length '|' ++ joinWords ((txt!"| " ++ a ++ txt!" " ++ b) :: as) := by
      rw [List.length_cons, ops_succ]
      congr 1
      cases as <;> simp [joinWords]
    rw [e]
    refine ⟨h3, fun ρ => ?_⟩
    rw [h4 ρ, h2 ρ]
    simp only [List.mem_cons, exists_eq_or_imp, or_assoc]

theorem ok_ands : ∀ {as : List (List Char)} {a : List Char}, Ok U a → (∀ b ∈ as, Ok U b) →
    Ok U (ops as.length '&' ++ joinWords (a :: as)) ∧ ∀ ρ, mean ρ (ops as.length '&' ++ joinWords (a :: as)) ↔ mean ρ a ∧ ∀ b ∈ as, mean ρ b
  | [], a, ha, _ => by simpa [ops, joinWords] using ha
  | b :: as, a, ha, hs => by
    rw [List.forall_mem_cons] at hs
    obtain ⟨h1, h2⟩ := ok_and ha hs.1
    obtain ⟨h3, h4⟩ := ok_ands h1 hs.2
    have e : ops (b :: as).length '&' ++ joinWords (a :: b :: as) = ops as.length '&' ++ joinWords ((txt!"& " ++ a ++ txt!" " ++ b) :: as) := by
      rw [List.length_cons, ops_succ]
      congr 1
      cases as <;> simp [joinWords]
    rw [e]
    refine ⟨h3, fun ρ => ?_⟩
    rw [h4 ρ, h2 ρ]
    simp only [List.mem_cons, forall_eq_or_imp, and_assoc]

/-- Operands, and one more at the end. -/
theorem ok_ors_last {as : List (List Char)} {a : List Char} (ha : Ok U a) (hs : ∀ b ∈ as, Ok U b) :
    Ok U (ops as.length '|' ++ joinWords (as ++ [a])) ∧ ∀ ρ, mean ρ (ops as.length '|' ++ joinWords (as ++ [a])) ↔ (∃ b ∈ as, mean ρ b) ∨ mean ρ a := by
  cases as with
  | nil => simpa [ops, joinWords] using ha
  | cons b as =>
    rw [List.forall_mem_cons] at hs
    obtain ⟨h1, h2⟩ := ok_ors (as := as ++ [a]) hs.1 (by
      intro x hx
      rcases List.mem_append.mp hx with hx | hx
      · exact hs.2 x hx
      · rwa [List.mem_singleton.mp hx])
    have e : (as ++ [a]).length = (b :: as).length := by simp
    rw [e] at h1 h2
    refine ⟨h1, fun ρ => (h2 ρ).trans ?_⟩
    simp only [List.mem_append, List.mem_cons, List.not_mem_nil, or_false, exists_eq_or_imp]
    constructor
    · rintro (h | ⟨x, h | rfl, hx⟩)
      · exact .inl (.inl h)
      · exact .inl (.inr ⟨x, h, hx⟩)
      · exact .inr hx
    · rintro ((h | ⟨x, h, hx⟩) | h)
      · exact .inl h
      · exact .inr ⟨x, .inl h, hx⟩
      · exact .inr ⟨a, .inr rfl, h⟩

theorem ok_ands_last {as : List (List Char)} {a : List Char} (ha : Ok U a) (hs : ∀ b ∈ as, Ok U b) :
    Ok U (ops as.length '&' ++ joinWords (as ++ [a])) ∧ ∀ ρ, mean ρ (ops as.length '&' ++ joinWords (as ++ [a])) ↔ (∀ b ∈ as, mean ρ b) ∧ mean ρ a := by
  cases as with
  | nil => simpa [ops, joinWords] using ha
  | cons b as =>
    rw [List.forall_mem_cons] at hs
    obtain ⟨h1, h2⟩ := ok_ands (as := as ++ [a]) hs.1 (by
      intro x hx
      rcases List.mem_append.mp hx with hx | hx
      · exact hs.2 x hx
      · rwa [List.mem_singleton.mp hx])
    have e : (as ++ [a]).length = (b :: as).length := by simp
    rw [e] at h1 h2
    refine ⟨h1, fun ρ => (h2 ρ).trans ?_⟩
    simp only [List.mem_append, List.mem_cons, List.not_mem_nil, or_false, forall_eq_or_imp]
    constructor
    · rintro ⟨h, h'⟩
      exact ⟨⟨h, fun x hx => h' x (.inl hx)⟩, h' a (.inr rfl)⟩
    · rintro ⟨⟨h, h'⟩, ha⟩
      refine ⟨h, ?_⟩
      rintro x (hx | rfl)
      · exact h' x hx
      · exact ha

/-! ### The names of the bits -/

theorem counterName_chars (i : Nat) : ∀ c ∈ counterName i, isSpace c = false ∧ c ≠ '\'' := by
  intro c hc
  rcases List.mem_append.mp hc with hc | hc
  · have : ∀ c ∈ txt!"_ResilienceCounter_", isSpace c = false ∧ c ≠ '\'' := by decide
    exact this c hc
  · have hd := decimal_digits i c hc
    constructor
    · cases hs : isSpace c with
      | false => rfl
      | true => rw [not_digit_of_space hs] at hd; cases hd
    · rintro rfl
      revert hd
      decide

theorem counterName_ne (i : Nat) : counterName i ≠ [] := by simp [counterName]

theorem counterName_head (i : Nat) : (counterName i).head? = some '_' := rfl

theorem counterName_inj {i j : Nat} (h : counterName i = counterName j) : i = j := decimal_inj (List.append_cancel_left h)

theorem not_reserved_of_head {x : List Char} (h : x.head? = some '_') : x ∉ reserved := by
  intro hx
  have : ∀ y ∈ reserved, y.head? ≠ some '_' := by decide
  exact this x hx h

theorem ok_name {x : List Char} (h : x.head? = some '_') (hs : ∀ c ∈ x, isSpace c = false) (hu : U x) : Ok U x ∧ ∀ ρ, mean ρ x ↔ ρ x = true := by
  have hne : x ≠ [] := by rintro rfl; cases h
  obtain ⟨h1, e⟩ := ok_of (U := U) (itemLine_of hne (fun c hc => by rw [h] at hc; cases hc; decide) (fun c hc => hs c (List.mem_of_getLast? hc))
    (fun hn => absurd (hs _ hn) (by decide))) (writes_var hne hs (not_reserved_of_head h)) (by simp [Fml.Wf]) (by simpa [Fml.vars] using hu)
  refine ⟨h1, fun ρ => ?_⟩
  rw [mean, e]
  simp [Yes, Fml.eval]

theorem ok_counter {i : Nat} (hu : U (counterName i)) : Ok U (counterName i) ∧ ∀ ρ, mean ρ (counterName i) ↔ ρ (counterName i) = true :=
  ok_name (counterName_head i) (fun c hc => (counterName_chars i c hc).1) hu

theorem ok_counter' {i : Nat} (hu : U (prime (counterName i))) :
    Ok U (prime (counterName i)) ∧ ∀ ρ, mean ρ (prime (counterName i)) ↔ ρ (prime (counterName i)) = true := by
  refine ok_name rfl (fun c hc => ?_) hu
  rcases List.mem_append.mp hc with hc | hc
  · exact (counterName_chars i c hc).1
  · rw [List.mem_singleton.mp hc]
    decide

/-! ### The values of the counter -/

theorem binaryEncode_length (n : Nat) (value : Int) : (binaryEncode n value).length = n := by
  induction n generalizing value with
  | zero => rfl
  | succ n ih => rw [binaryEncode, List.length_cons, ih]

theorem binaryEncode_get (n : Nat) (value : Int) (j : Nat) (h : j < n) : (binaryEncode n value)[j]? = some (decide ((value / 2 ^ j) % 2 = 1)) := by
  induction n generalizing value j with
  | zero => omega
  | succ n ih =>
    rw [binaryEncode]
    cases j with
    | zero => simp
    | succ j =>
      rw [List.getElem?_cons_succ, ih _ _ (by omega), pow_succ', Int.ediv_ediv_of_nonneg (by norm_num)]

/-- The bits of the value, which may be negative. -/
theorem bits_value (b : Nat) (value : Int) {c : Nat} (hc : c < 2 ^ b) :
    (∀ j, j < b → c.testBit j = decide ((value / 2 ^ j) % 2 = 1)) ↔ (c : Int) = value % 2 ^ b := by
  have key : ∀ j, c.testBit j = decide (((c : Int) / 2 ^ j) % 2 = 1) := by
    intro j
    rw [Nat.testBit_eq_decide_div_mod_eq]
    congr 1
    have : ((c / 2 ^ j % 2 : Nat) : Int) = (c : Int) / 2 ^ j % 2 := by push_cast; rfl
    rw [← this]
    exact propext ⟨fun h => by rw [h]; rfl, fun h => by exact_mod_cast h⟩
  induction b generalizing value c with
  | zero =>
    have : c = 0 := by simpa using hc
    subst this
    simp [Int.emod_one]
  | succ b ih =>
    have e0 : (c : Int) % 2 = value % 2 ∧ (((c / 2 : Nat) : Int) = value / 2 % 2 ^ b) ↔ (c : Int) = value % 2 ^ (b + 1) := by
      have h1 : value % 2 ^ (b + 1) = value % 2 + 2 * (value / 2 % 2 ^ b) := by
        rw [pow_succ', Int.emod_def, Int.emod_def value 2, Int.emod_def (value / 2), Int.ediv_ediv_of_nonneg (by norm_num)]
        ring
      rw [h1]
      have h2 : ((c / 2 : Nat) : Int) = (c : Int) / 2 := by push_cast; rfl
      rw [h2]
      omega
    have hlt : c / 2 < 2 ^ b := by rw [pow_succ] at hc; omega
    have ih' := ih (value / 2) hlt (fun j => by
      rw [Nat.testBit_eq_decide_div_mod_eq]
      congr 1
      have : ((c / 2 / 2 ^ j % 2 : Nat) : Int) = ((c / 2 : Nat) : Int) / 2 ^ j % 2 := by push_cast; rfl
      rw [← this]
      exact propext ⟨fun h => by rw [h]; rfl, fun h => by exact_mod_cast h⟩)
    refine Iff.trans ?_ (Iff.trans (and_congr Iff.rfl ih') e0)
    constructor
    · intro h
      refine ⟨?_, fun j hj => ?_⟩
      · have := h 0 (by omega)
        rw [key] at this
        simp only [pow_zero, Int.ediv_one, decide_eq_decide] at this
        omega
      · have := h (j + 1) (by omega)
        rw [Nat.testBit_succ] at this
        rw [this, pow_succ', Int.ediv_ediv_of_nonneg (by norm_num)]
    · rintro ⟨h0, h⟩ j hj
      cases j with
      | zero =>
        rw [key]
        simp only [pow_zero, Int.ediv_one, decide_eq_decide]
        omega
      | succ j =>
        rw [Nat.testBit_succ, h j (by omega), pow_succ', Int.ediv_ediv_of_nonneg (by norm_num)]

theorem ok_selector (b : Nat) (value : Int) (hu : ∀ j, j < b → U (counterName j)) :
    Ok U (selector b value) ∧ ∀ ρ (c : Nat), c < 2 ^ b → (∀ j, j < b → ρ (counterName j) = c.testBit j) → (mean ρ (selector b value) ↔ (c : Int) = value % 2 ^ b) := by
  have hlen : ((List.range b).zipWith (fun i (v : Bool) => (if v then [] else txt!"! ") ++ counterName i) (binaryEncode b value)).length = b := by
    rw [List.length_zipWith, List.length_range, binaryEncode_length, min_self]
  have get : ∀ j, j < b → ((List.range b).zipWith (fun i (v : Bool) => (if v then [] else txt!"! ") ++ counterName i) (binaryEncode b value))[j]? =
      some ((if decide ((value / 2 ^ j) % 2 = 1) then [] else txt!"! ") ++ counterName j) := by
    intro j hj
    rw [List.getElem?_zipWith, List.getElem?_range hj, binaryEncode_get b value j hj]
  have okj : ∀ j, j < b → Ok U ((if decide ((value / 2 ^ j) % 2 = 1) then [] else txt!"! ") ++ counterName j) ∧
      ∀ ρ, mean ρ ((if decide ((value / 2 ^ j) % 2 = 1) then [] else txt!"! ") ++ counterName j) ↔ ρ (counterName j) = decide ((value / 2 ^ j) % 2 = 1) := by
    intro j hj
    obtain ⟨h1, h2⟩ := ok_counter (hu j hj)
    cases decide ((value / 2 ^ j) % 2 = 1) with
    | true => exact ⟨h1, h2⟩
    | false =>
      obtain ⟨h3, h4⟩ := ok_not h1
      refine ⟨h3, fun ρ => (h4 ρ).trans ?_⟩
      rw [h2]
      simp
  obtain ⟨h1, h2⟩ := ok_ands_last (as := (List.range b).zipWith (fun i (v : Bool) => (if v then [] else txt!"! ") ++ counterName i) (binaryEncode b value)) (ok_true (U := U)).1 (by
    intro x hx
    obtain ⟨j, hj⟩ := List.mem_iff_getElem?.mp hx
    have hjb : j < b := hlen ▸ (List.getElem?_eq_some_iff.mp hj).1
    rw [get j hjb] at hj
    cases hj
    exact (okj j hjb).1)
  rw [hlen] at h1 h2
  refine ⟨h1, fun ρ c hc hρ => (h2 ρ).trans ?_⟩
  rw [← bits_value b value hc]
  constructor
  · rintro ⟨h, _⟩ j hj
    have := h _ (List.mem_iff_getElem?.mpr ⟨j, get j hj⟩)
    rw [(okj j hj).2, hρ j hj] at this
    exact this
  · intro h
    refine ⟨fun x hx => ?_, (ok_true (U := U)).2 ρ⟩
    obtain ⟨j, hj⟩ := List.mem_iff_getElem?.mp hx
    have hjb : j < b := hlen ▸ (List.getElem?_eq_some_iff.mp hj).1
    rw [get j hjb] at hj
    cases hj
    rw [(okj j hjb).2, hρ j hjb]
    exact h j hjb

theorem mod_two_pow_bit (x i : Nat) : x % 2 ^ (i + 1) = x % 2 ^ i + 2 ^ i * (x.testBit i).toNat := by
  rw [Nat.mod_pow_succ, Nat.testBit_eq_decide_div_mod_eq]
  rcases Nat.mod_two_eq_zero_or_one (x / 2 ^ i) with h | h <;> simp [h]

theorem ok_smaller (reference : Nat) : ∀ (n : Nat), (∀ j, j < n → U (prime (counterName j))) →
    Ok U (smaller reference n) ∧ ∀ ρ (c : Nat), (∀ j, j < n → ρ (prime (counterName j)) = c.testBit j) → (mean ρ (smaller reference n) ↔ c % 2 ^ n ≤ reference % 2 ^ n)
  | 0, _ => by
    refine ⟨ok_true.1, fun ρ c _ => ?_⟩
    simp only [pow_zero, Nat.mod_one, le_refl, iff_true]
    exact (ok_true (U := U)).2 ρ
  | n + 1, hu => by
    obtain ⟨h1, h2⟩ := ok_smaller reference n fun j hj => hu j (by omega)
    obtain ⟨h3, h4⟩ := ok_counter' (hu n (by omega))
    obtain ⟨h5, h6⟩ := ok_not h3
    rw [smaller]
    have hlt : ∀ x : Nat, x % 2 ^ n < 2 ^ n := fun x => Nat.mod_lt _ (by positivity)
    cases hr : reference.testBit n with
    | true =>
      obtain ⟨h7, h8⟩ := ok_or h5 h1
      have e : (if true = true then txt!"| ! " else txt!"& ! ") ++ prime (counterName n) ++ txt!" " ++ smaller reference n =
          txt!"| " ++ (txt!"! " ++ prime (counterName n)) ++ txt!" " ++ smaller reference n := by simp
      rw [e]
      refine ⟨h7, fun ρ c hρ => (h8 ρ).trans ?_⟩
      rw [h6, h4, h2 ρ c fun j hj => hρ j (by omega), hρ n (by omega), mod_two_pow_bit, mod_two_pow_bit, hr]
      have := hlt c
      have := hlt reference
      cases c.testBit n <;> simp <;> omega
    | false =>
      obtain ⟨h7, h8⟩ := ok_and h5 h1
      have e : (if false = true then txt!"| ! " else txt!"& ! ") ++ prime (counterName n) ++ txt!" " ++ smaller reference n =
          txt!"& " ++ (txt!"! " ++ prime (counterName n)) ++ txt!" " ++ smaller reference n := by simp
      rw [e]
      refine ⟨h7, fun ρ c hρ => (h8 ρ).trans ?_⟩
      rw [h6, h4, h2 ρ c fun j hj => hρ j (by omega), hρ n (by omega), mod_two_pow_bit, mod_two_pow_bit, hr]
      have := hlt c
      have := hlt reference
      cases c.testBit n <;> simp <;> omega

/-! ### Combinations -/

theorem mem_combinations {β : Type} : ∀ {r : Nat} {l s : List β}, s ∈ combinations r l ↔ s.Sublist l ∧ s.length = r
  | 0, l, s => by
    rw [combinations, List.mem_singleton]
    exact ⟨fun h => by simp [h], fun h => List.length_eq_zero_iff.mp h.2⟩
  | r + 1, [], s => by
    rw [combinations]
    simp only [List.not_mem_nil, List.sublist_nil, false_iff, not_and]
    rintro rfl
    simp
  | r + 1, a :: as, s => by
    rw [combinations, List.mem_append, List.mem_map]
    constructor
    · rintro (⟨t, ht, rfl⟩ | h)
      · obtain ⟨h1, h2⟩ := mem_combinations.mp ht
        exact ⟨h1.cons_cons a, by simp [h2]⟩
      · obtain ⟨h1, h2⟩ := mem_combinations.mp h
        exact ⟨h1.cons a, h2⟩
    · rintro ⟨h1, h2⟩
      cases h1 with
      | cons _ h => exact .inr (mem_combinations.mpr ⟨h, h2⟩)
      | cons_cons _ h => exact .inl ⟨_, mem_combinations.mpr ⟨h, by simpa using h2⟩, rfl⟩

/-- In all combinations there is an element without the property. -/
theorem all_combinations {β : Type} (p : β → Bool) (r : Nat) (l : List β) : (∀ s ∈ combinations r l, ∃ a ∈ s, p a = false) ↔ l.countP p < r := by
  constructor
  · intro h
    by_contra hn
    push Not at hn
    have hs : ((l.filter p).take r).Sublist l := (List.take_sublist _ _).trans List.filter_sublist
    have hl : ((l.filter p).take r).length = r := by
      rw [List.length_take, ← List.countP_eq_length_filter]
      omega
    obtain ⟨a, ha, hp⟩ := h _ (mem_combinations.mpr ⟨hs, hl⟩)
    have := (List.mem_filter.mp (List.mem_of_mem_take ha)).2
    rw [hp] at this
    cases this
  · intro h s hs
    obtain ⟨h1, h2⟩ := mem_combinations.mp hs
    by_contra hn
    push Not at hn
    have : s.countP p = s.length := List.countP_eq_length.mpr fun a ha => by simpa using hn a ha
    have := h1.countP_le (p := p)
    omega

end Slugs.Model.Resilience
