import Verif.Spec.StructuredFile
import Verif.Lemmas.StructuredMeaning
import Verif.Lemmas.Stream
import Mathlib.Data.Nat.Bitwise

/-!
The bits of the variables of a structured specification: their names, the formulas for their limits, and the encoding of values.
-/

namespace Slugs.Model.Structured

open Slugs.Spec Slugs.Spec.Structured

/-! ### The number of bits -/

theorem nofBitsAux_eq {d : Int} (hd : 0 ≤ d) : ∀ (k n : Nat), n ≤ bitsFor d → bitsFor d ≤ n + k → nofBitsAux k n d = bitsFor d
  | 0, n, h1, h2 => by rw [nofBitsAux]; omega
  | k + 1, n, h1, h2 => by
    rw [nofBitsAux]
    have key : (2 : Int) ^ n ≤ d ↔ n < bitsFor d := by
      rw [bitsFor, Nat.lt_size]
      constructor
      · intro h
        have : ((2 ^ n : Nat) : Int) ≤ d := by push_cast; exact h
        omega
      · intro h
        have : ((2 ^ n : Nat) : Int) ≤ (d.toNat : Int) := by exact_mod_cast h
        rw [Int.toNat_of_nonneg hd] at this
        push_cast at this
        exact this
    by_cases hn : n < bitsFor d
    · rw [if_pos (key.mpr hn)]
      exact nofBitsAux_eq hd k (n + 1) hn (by omega)
    · rw [if_neg (fun h => hn (key.mp h))]
      omega

theorem size_le (n : Nat) : n.size ≤ n := by
  rw [Nat.size_le]
  exact Nat.lt_two_pow_self

theorem nofBits_eq {lo hi : Int} (h : lo ≤ hi) : nofBitsAux ((hi - lo).toNat + 1) 0 (hi - lo) = bitsFor (hi - lo) :=
  nofBitsAux_eq (by omega) _ _ (Nat.zero_le _) (by have := size_le (hi - lo).toNat; rw [bitsFor]; omega)

theorem lt_bitsFor {lo hi v : Int} (h : lo ≤ v ∧ v ≤ hi) : (v - lo).toNat < 2 ^ bitsFor (hi - lo) := by
  have : (hi - lo).toNat < 2 ^ bitsFor (hi - lo) := by rw [bitsFor]; exact Nat.lt_size_self _
  omega

/-! ### The names of bits -/

def bitName (x : Word) (lo hi : Int) (i : Nat) : Word :=
  x ++ txt!"@" ++ strNat i ++ (if i = 0 then txt!"." ++ strInt lo ++ txt!"." ++ strInt hi else [])

theorem bitNames_eq (x : Word) (lo hi : Int) (n : Nat) : bitNames x lo hi n = (List.range n).map (bitName x lo hi) := rfl

/-- The bits of a variable (a Boolean variable is its own bit). -/
def bitsOf (d : Decl) : List Word :=
  match d.range with
  | none => [d.name]
  | some (lo, hi) => bitNames d.name lo hi (bitsFor (hi - lo))

def flatNames (ds : List Decl) : List Word := ds.flatMap bitsOf

theorem split_at {x x' r r' : List Char} {c : Char} (h : x ++ c :: r = x' ++ c :: r') (h1 : c ∉ x) (h2 : c ∉ x') : x = x' ∧ r = r' := by
  induction x generalizing x' with
  | nil =>
    cases x' with
    | nil => simpa using h
    | cons a x' => simp at h h2; exact absurd h.1 h2.1
  | cons a x ih =>
    cases x' with
    | nil => simp at h h1; exact absurd h.1.symm h1.1
    | cons b x' =>
      simp only [List.cons_append, List.cons.injEq] at h
      obtain ⟨rfl, h⟩ := h
      obtain ⟨rfl, e⟩ := ih h (fun hh => h1 (by simp [hh])) (fun hh => h2 (by simp [hh]))
      exact ⟨rfl, e⟩

theorem strNat_eq (n : Nat) : strNat n = decimal n := rfl

theorem bitName_inj {x x' : Word} {lo hi lo' hi' : Int} {i i' : Nat} (hx : '@' ∉ x) (hx' : '@' ∉ x') (h : bitName x lo hi i = bitName x' lo' hi' i') :
    x = x' ∧ i = i' := by
  have h0 : x ++ '@' :: (strNat i ++ (if i = 0 then txt!"." ++ strInt lo ++ txt!"." ++ strInt hi else [])) =
      x' ++ '@' :: (strNat i' ++ (if i' = 0 then txt!"." ++ strInt lo' ++ txt!"." ++ strInt hi' else [])) := by
    have := h
    simp only [bitName, List.append_assoc, List.cons_append, List.nil_append] at this ⊢
    exact this
  obtain ⟨e1, e2⟩ := split_at h0 hx hx'
  refine ⟨e1, ?_⟩
  have tw : ∀ (j : Nat) (a b : Int), (strNat j ++ (if j = 0 then txt!"." ++ strInt a ++ txt!"." ++ strInt b else [])).takeWhile isDigit = strNat j := by
    intro j a b
    rw [List.takeWhile_append_of_pos (by rw [strNat_eq]; exact decimal_digits j)]
    split
    · rw [List.append_assoc, List.append_assoc]
      simp only [List.cons_append, List.nil_append]
      rw [List.takeWhile_cons_of_neg (by decide), List.append_nil]
    · simp
  have := congrArg (List.takeWhile isDigit) e2
  rw [tw, tw, strNat_eq, strNat_eq] at this
  have := congrArg digitsVal this
  rwa [digitsVal_decimal, digitsVal_decimal] at this

theorem at_bitName (x : Word) (lo hi : Int) (i : Nat) : '@' ∈ bitName x lo hi i := by simp [bitName]

theorem digit_ne_prime {c : Char} (h : isDigit c = true) : c ≠ '\'' := by rintro rfl; revert h; decide

theorem strInt_chars (z : Int) : ∀ c ∈ strInt z, isDigit c = true ∨ c = '-' := by
  intro c hc
  cases z with
  | ofNat n => exact .inl (decimal_digits n c hc)
  | negSucc n =>
    rcases List.mem_cons.mp hc with rfl | hc
    · exact .inr rfl
    · exact .inl (decimal_digits _ c hc)

theorem bitName_chars {x : Word} {lo hi : Int} {i : Nat} : ∀ c ∈ bitName x lo hi i, c ∈ x ∨ c = '@' ∨ c = '.' ∨ c = '-' ∨ isDigit c = true := by
  intro c hc
  simp only [bitName, List.mem_append, List.mem_singleton] at hc
  rcases hc with ((hc | hc) | hc) | hc
  · exact .inl hc
  · exact .inr (.inl hc)
  · exact .inr (.inr (.inr (.inr (decimal_digits _ c hc))))
  · split at hc
    · simp only [List.mem_append, List.mem_singleton] at hc
      rcases hc with ((hc | hc) | hc) | hc
      · exact .inr (.inr (.inl hc))
      · rcases strInt_chars _ c hc with h | h
        · exact .inr (.inr (.inr (.inr h)))
        · exact .inr (.inr (.inr (.inl h)))
      · exact .inr (.inr (.inl hc))
      · rcases strInt_chars _ c hc with h | h
        · exact .inr (.inr (.inr (.inr h)))
        · exact .inr (.inr (.inr (.inl h)))
    · cases hc

/-- Declarations that make sense. -/
structure DeclsOk (ds : List Decl) : Prop where
  tidy : ∀ d ∈ ds, Tidy d.name
  nodup : (ds.map Decl.name).Nodup
  range : ∀ d ∈ ds, ∀ lo hi, d.range = some (lo, hi) → 0 ≤ lo ∧ lo ≤ hi

theorem DeclsOk.same {ds : List Decl} (h : DeclsOk ds) {d e : Decl} (hd : d ∈ ds) (he : e ∈ ds) (hn : d.name = e.name) : d = e :=
  List.inj_on_of_nodup_map h.nodup hd he hn

theorem mem_bitsOf {d : Decl} {w : Word} : w ∈ bitsOf d ↔ (d.range = none ∧ w = d.name) ∨
    ∃ lo hi k, d.range = some (lo, hi) ∧ k < bitsFor (hi - lo) ∧ w = bitName d.name lo hi k := by
  rw [bitsOf]
  cases hr : d.range with
  | none => simp
  | some q =>
    obtain ⟨lo, hi⟩ := q
    simp only [bitNames_eq, List.mem_map, List.mem_range, reduceCtorEq, false_and, false_or, Option.some.injEq, Prod.mk.injEq]
    constructor
    · rintro ⟨k, hk, rfl⟩; exact ⟨lo, hi, k, ⟨rfl, rfl⟩, hk, rfl⟩
    · rintro ⟨_, _, k, ⟨rfl, rfl⟩, hk, rfl⟩; exact ⟨k, hk, rfl⟩

theorem bits_disjoint {d e : Decl} (hd : Tidy d.name) (he : Tidy e.name) {w : Word} (h1 : w ∈ bitsOf d) (h2 : w ∈ bitsOf e) : d.name = e.name := by
  rcases mem_bitsOf.mp h1 with ⟨_, rfl⟩ | ⟨lo, hi, k, _, _, rfl⟩ <;> rcases mem_bitsOf.mp h2 with ⟨_, h⟩ | ⟨lo', hi', k', _, _, h⟩
  · exact h
  · exact absurd (h ▸ at_bitName ..) hd.2.2.2.1
  · exact absurd (h ▸ at_bitName ..) he.2.2.2.1
  · exact (bitName_inj hd.2.2.2.1 he.2.2.2.1 h).1

theorem bitsOf_nodup {d : Decl} (hd : Tidy d.name) : (bitsOf d).Nodup := by
  rw [bitsOf]
  cases d.range with
  | none => simp
  | some q =>
    obtain ⟨lo, hi⟩ := q
    dsimp only
    rw [bitNames_eq]
    exact List.Nodup.map (fun i j h => (bitName_inj hd.2.2.2.1 hd.2.2.2.1 h).2) List.nodup_range

theorem flatNames_nodup : ∀ {ds : List Decl}, DeclsOk ds → (flatNames ds).Nodup
  | [], _ => by simp [flatNames]
  | d :: ds, h => by
    have hd := h.tidy d (by simp)
    have h' : DeclsOk ds := ⟨fun e he => h.tidy e (by simp [he]), (List.nodup_cons.mp h.nodup).2, fun e he => h.range e (by simp [he])⟩
    rw [flatNames, List.flatMap_cons, List.nodup_append]
    refine ⟨bitsOf_nodup hd, flatNames_nodup h', fun w h1 w' h2 => ?_⟩
    rintro rfl
    obtain ⟨e, he, h2⟩ := List.mem_flatMap.mp h2
    have := bits_disjoint hd (h'.tidy e he) h1 h2
    exact (List.nodup_cons.mp h.nodup).1 (this ▸ List.mem_map_of_mem he)

theorem prime_not_bit {d : Decl} (hd : Tidy d.name) {w : Word} (hw : w ∈ bitsOf d) : '\'' ∉ w := by
  intro h
  rcases mem_bitsOf.mp hw with ⟨_, rfl⟩ | ⟨lo, hi, k, _, _, rfl⟩
  · exact hd.2.2.1 h
  · rcases bitName_chars _ h with h | h | h | h | h
    · exact hd.2.2.1 h
    · revert h; decide
    · revert h; decide
    · revert h; decide
    · exact digit_ne_prime h rfl

/-! ### Limits -/

def limitF (names : List Word) (limitDiff : Nat) : Fml :=
  (names.zip (List.range names.length)).foldl
    (fun acc (q : Word × Nat) => if 2 ^ q.2 &&& limitDiff ≠ 0 then .bin .or (.not (.var q.1)) acc else .bin .and (.not (.var q.1)) acc) (.const false)

theorem limit_text (names : List Word) (n : Nat) : join (limitTokens names n) = (limitF names n).text := by
  refine join_sp ?_
  rw [limitTokens, limitF]
  refine sp_foldl _ _ _ (fun toks φ q h => ?_) _ _ (sp_lit txt!"0")
  dsimp only
  split
  · exact Sp.append (w1 := [txt!"|", txt!"!", q.1]) (Sp.cons (ws := [txt!"|", txt!"!"]) (ws' := [q.1]) (by simp) rfl (sp_lit q.1)) h
  · exact Sp.append (w1 := [txt!"&", txt!"!", q.1]) (Sp.cons (ws := [txt!"&", txt!"!"]) (ws' := [q.1]) (by simp) rfl (sp_lit q.1)) h

theorem and_two_pow (i n : Nat) : 2 ^ i &&& n ≠ 0 ↔ n.testBit i = true := by
  rw [Nat.and_comm, Nat.and_two_pow]
  cases n.testBit i <;> simp

theorem mod_two_pow_succ' (n i : Nat) : n % 2 ^ (i + 1) = n % 2 ^ i + 2 ^ i * (n.testBit i).toNat := by
  rw [Nat.pow_succ, Nat.mod_mul, Nat.testBit_eq_decide_div_mod_eq]
  have := Nat.mod_two_eq_zero_or_one (n / 2 ^ i)
  rcases this with h | h <;> simp [h]

theorem zip_range_snoc (names : List Word) (x : Word) :
    (names ++ [x]).zip (List.range (names ++ [x]).length) = names.zip (List.range names.length) ++ [(x, names.length)] := by
  rw [List.length_append, List.length_singleton, List.range_succ, List.zip_append (by simp)]
  rfl

theorem limit_eval (names : List Word) (n : Nat) (ρ : Word → Bool) (st : List (Option Bool)) :
    (limitF names n).eval ρ st = some (decide (binary (names.map ρ) < n % 2 ^ names.length)) := by
  induction names using List.reverseRecOn with
  | nil => simp [limitF, Fml.eval, binary, Nat.mod_one]
  | append_singleton names x ih =>
    have e : limitF (names ++ [x]) n = if 2 ^ names.length &&& n ≠ 0 then .bin .or (.not (.var x)) (limitF names n) else .bin .and (.not (.var x)) (limitF names n) := by
      rw [limitF, zip_range_snoc, List.foldl_append]
      rfl
    have hlt := binary_lt (names.map ρ)
    rw [List.length_map] at hlt
    have hm : n % 2 ^ names.length < 2 ^ names.length := Nat.mod_lt _ (by positivity)
    rw [e, List.map_append, binary_append, List.length_append, List.length_singleton, mod_two_pow_succ', List.length_map]
    by_cases hb : n.testBit names.length = true
    · rw [if_pos ((and_two_pow _ _).mpr hb), Fml.eval, Fml.eval, Fml.eval, ih, hb]
      simp only [Option.map_some, Option.bind_some, BinOp.apply, Option.some.injEq, List.map_singleton]
      rw [Bool.eq_iff_iff, Bool.or_eq_true, decide_eq_true_iff, decide_eq_true_iff]
      generalize ρ x = b
      cases b
      · simp [binary]; omega
      · simp [binary]
    · rw [if_neg (fun h => hb ((and_two_pow _ _).mp h)), Fml.eval, Fml.eval, Fml.eval, ih]
      rw [Bool.not_eq_true] at hb
      rw [hb]
      simp only [Option.map_some, Option.bind_some, BinOp.apply, Option.some.injEq, List.map_singleton]
      rw [Bool.eq_iff_iff, Bool.and_eq_true, decide_eq_true_iff, decide_eq_true_iff]
      generalize ρ x = b
      cases b
      · simp [binary]
      · simp [binary]; omega

theorem limit_syn (names : List Word) (n : Nat) : (limitF names n).Wf 0 ∧ ∀ x ∈ (limitF names n).vars, x ∈ names := by
  have : Syn (fun x => x ∈ names) 0 (limitF names n) := by
    rw [limitF]
    refine syn_foldl _ _ (fun φ q hq h => ?_) _ ?_
    · have hm : q.1 ∈ names := (List.of_mem_zip hq).1
      split
      · exact Syn.bin (Syn.not (Syn.var hm)) h
      · exact Syn.bin (Syn.not (Syn.var hm)) h
    · exact Syn.const _
  exact this

/-! ### Encoding values -/

open Classical in
/-- The bits of the values `v` of the variables. -/
noncomputable def enc (ds : List Decl) (v : Word → Int) (w : Word) : Bool :=
  decide (∃ d ∈ ds, (d.range = none ∧ w = d.name ∧ v d.name = 1) ∨
    ∃ lo hi k, d.range = some (lo, hi) ∧ k < bitsFor (hi - lo) ∧ w = bitName d.name lo hi k ∧ (v d.name - lo).toNat.testBit k = true)

theorem enc_iff {ds : List Decl} {v : Word → Int} {w : Word} : enc ds v w = true ↔ ∃ d ∈ ds, (d.range = none ∧ w = d.name ∧ v d.name = 1) ∨
    ∃ lo hi k, d.range = some (lo, hi) ∧ k < bitsFor (hi - lo) ∧ w = bitName d.name lo hi k ∧ (v d.name - lo).toNat.testBit k = true := by
  classical
  unfold enc
  simp only [decide_eq_true_eq]

theorem enc_bool {ds : List Decl} (h : DeclsOk ds) {d : Decl} (hd : d ∈ ds) (hr : d.range = none) (v : Word → Int) :
    enc ds v d.name = decide (v d.name = 1) := by
  rw [Bool.eq_iff_iff, enc_iff, decide_eq_true_iff]
  constructor
  · rintro ⟨e, he, ⟨_, h1, h2⟩ | ⟨lo, hi, k, _, _, h1, _⟩⟩
    · rw [h1]; exact h2
    · exact absurd (h1 ▸ at_bitName ..) (h.tidy d hd).2.2.2.1
  · exact fun h1 => ⟨d, hd, .inl ⟨hr, rfl, h1⟩⟩

theorem enc_bit {ds : List Decl} (h : DeclsOk ds) {d : Decl} (hd : d ∈ ds) {lo hi : Int} (hr : d.range = some (lo, hi)) (v : Word → Int) {k : Nat}
    (hk : k < bitsFor (hi - lo)) : enc ds v (bitName d.name lo hi k) = (v d.name - lo).toNat.testBit k := by
  rw [Bool.eq_iff_iff, enc_iff]
  constructor
  · rintro ⟨e, he, ⟨_, h1, h2⟩ | ⟨lo', hi', k', h1, h2, h3, h4⟩⟩
    · exact absurd (h1 ▸ at_bitName ..) (h.tidy e he).2.2.2.1
    · obtain ⟨e1, rfl⟩ := bitName_inj (h.tidy d hd).2.2.2.1 (h.tidy e he).2.2.2.1 h3
      cases h.same hd he e1
      rw [hr] at h1
      cases h1
      exact h4
  · exact fun h1 => ⟨d, hd, .inr ⟨lo, hi, k, hr, hk, rfl, h1⟩⟩

theorem binary_testBit (n m : Nat) : binary ((List.range n).map fun k => m.testBit k) = m % 2 ^ n := by
  induction n with
  | zero => simp [binary, Nat.mod_one]
  | succ n ih =>
    rw [List.range_succ, List.map_append, binary_append, ih, List.length_map, List.length_range, mod_two_pow_succ']
    cases hb : m.testBit n <;> simp [binary, hb]

theorem testBit_binary : ∀ (l : List Bool) (k : Nat), (binary l).testBit k = (l[k]?).getD false
  | [], k => by simp [binary]
  | b :: l, 0 => by cases b <;> simp [binary, Nat.testBit_zero]
  | b :: l, k + 1 => by
    rw [Nat.testBit_add_one, binary]
    have : (b.toNat + 2 * binary l) / 2 = binary l := by cases b <;> simp <;> omega
    rw [this, testBit_binary l k]
    simp

theorem binary_bits {ds : List Decl} (h : DeclsOk ds) {d : Decl} (hd : d ∈ ds) {lo hi : Int} (hr : d.range = some (lo, hi)) {v : Word → Int}
    (hv : d.Ok (v d.name)) : binary ((bitsOf d).map (enc ds v)) = (v d.name - lo).toNat := by
  rw [Decl.Ok, hr] at hv
  have e : (bitsOf d).map (enc ds v) = (List.range (bitsFor (hi - lo))).map fun k => (v d.name - lo).toNat.testBit k := by
    rw [bitsOf, hr]
    dsimp only
    rw [bitNames_eq, List.map_map]
    refine List.map_congr_left fun k hk => ?_
    exact enc_bit h hd hr v (List.mem_range.mp hk)
  rw [e, binary_testBit, Nat.mod_eq_of_lt (lt_bitsFor hv)]

/-- The bits do not exceed the limits. -/
def InRange (ds : List Decl) (ρ : Word → Bool) : Prop :=
  ∀ d ∈ ds, ∀ lo hi, d.range = some (lo, hi) → binary ((bitsOf d).map ρ) < (hi - lo + 1).toNat

theorem inRange_enc {ds : List Decl} (h : DeclsOk ds) (v : Valuation ds) : InRange ds (enc ds v.1) := by
  intro d hd lo hi hr
  have hv := v.2.1 d hd
  rw [binary_bits h hd hr hv]
  rw [Decl.Ok, hr] at hv
  dsimp only at hv
  omega

theorem InRange.congr {ds : List Decl} {ρ ρ' : Word → Bool} (h : InRange ds ρ) (he : ∀ w ∈ flatNames ds, ρ w = ρ' w) : InRange ds ρ' := by
  intro d hd lo hi hr
  have := h d hd lo hi hr
  rwa [List.map_congr_left (fun w hw => he w (List.mem_flatMap.mpr ⟨d, hd, hw⟩))] at this

/-- The value of a variable. -/
def decode (ρ : Word → Bool) (d : Decl) : Int :=
  match d.range with
  | none => if ρ d.name then 1 else 0
  | some (lo, _) => lo + binary ((bitsOf d).map ρ)

theorem exists_enc {ds : List Decl} (h : DeclsOk ds) {ρ : Word → Bool} (hr : InRange ds ρ) : ∃ v : Valuation ds, ∀ w ∈ flatNames ds, ρ w = enc ds v.1 w := by
  let v : Word → Int := fun x => ((ds.find? fun d => d.name = x).map (decode ρ)).getD 0
  have hv : ∀ d ∈ ds, v d.name = decode ρ d := by
    intro d hd
    have : (ds.find? fun e => e.name = d.name) = some d := by
      cases hf : ds.find? fun e => e.name = d.name with
      | none => simp at hf; exact absurd rfl (hf d hd)
      | some e =>
        have h1 := List.mem_of_find?_eq_some hf
        have h2 := List.find?_some hf
        simp at h2
        rw [h.same h1 hd h2]
    simp only [v, this, Option.map_some, Option.getD_some]
  refine ⟨⟨v, fun d hd => ?_, fun x hx => ?_⟩, fun w hw => ?_⟩
  · rw [hv d hd, Decl.Ok, decode]
    cases hrd : d.range with
    | none => dsimp only; split <;> simp
    | some q =>
      obtain ⟨lo, hi⟩ := q
      have := hr d hd lo hi hrd
      have := h.range d hd lo hi hrd
      dsimp only
      omega
  · have : (ds.find? fun d => d.name = x) = none := by
      rw [List.find?_eq_none]
      intro d hd hn
      simp at hn
      exact hx (hn ▸ List.mem_map_of_mem hd)
    simp only [v, this, Option.map_none, Option.getD_none]
  · obtain ⟨d, hd, hw⟩ := List.mem_flatMap.mp hw
    dsimp only
    rcases mem_bitsOf.mp hw with ⟨hn, rfl⟩ | ⟨lo, hi, k, hs, hk, rfl⟩
    · rw [enc_bool h hd hn, hv d hd, decode, hn]
      cases ρ d.name <;> simp
    · rw [enc_bit h hd hs v hk, hv d hd, decode, hs]
      dsimp only
      have : (lo + (binary ((bitsOf d).map ρ) : Int) - lo).toNat = binary ((bitsOf d).map ρ) := by omega
      rw [this, testBit_binary, bitsOf, hs]
      dsimp only
      rw [bitNames_eq, List.map_map, List.getElem?_map, List.getElem?_range hk]
      rfl

theorem enc_inj {ds : List Decl} (h : DeclsOk ds) {v v' : Valuation ds} (he : ∀ w ∈ flatNames ds, enc ds v.1 w = enc ds v'.1 w) : v = v' := by
  refine Subtype.ext (funext fun x => ?_)
  by_cases hx : x ∈ ds.map Decl.name
  · obtain ⟨d, hd, rfl⟩ := List.mem_map.mp hx
    have h1 := v.2.1 d hd
    have h2 := v'.2.1 d hd
    cases hr : d.range with
    | none =>
      have := he d.name (List.mem_flatMap.mpr ⟨d, hd, mem_bitsOf.mpr (.inl ⟨hr, rfl⟩)⟩)
      rw [enc_bool h hd hr, enc_bool h hd hr, decide_eq_decide] at this
      rw [Decl.Ok, hr] at h1 h2
      dsimp only at h1 h2
      omega
    | some q =>
      obtain ⟨lo, hi⟩ := q
      have e1 := binary_bits h hd hr h1
      have e2 := binary_bits h hd hr h2
      rw [List.map_congr_left (fun w hw => he w (List.mem_flatMap.mpr ⟨d, hd, hw⟩)), e2] at e1
      rw [Decl.Ok, hr] at h1 h2
      dsimp only at h1 h2
      omega
  · rw [v.2.2 x hx, v'.2.2 x hx]

end Slugs.Model.Structured
