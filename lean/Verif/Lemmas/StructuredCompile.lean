import Verif.Lemmas.StructuredNumbers

/-!
The translation of formulas with numbers into formulas of slugs: what is written can be read, and it has the right meaning.
-/

namespace Slugs.Model.Structured

open Slugs.Spec (Word Fml BinOp joinWords prime decimal)
open Slugs.Spec.Structured

/-! ### Strings -/

/-- The strings, joined by blanks, give the words, joined by blanks. -/
def Sp (toks : List (List Char)) (ws : List Word) : Prop :=
  ∃ wss : List (List Word), toks = wss.map joinWords ∧ ws = wss.flatten ∧ ∀ l ∈ wss, l ≠ []

theorem Sp.append {t1 t2 : List (List Char)} {w1 w2 : List Word} (h1 : Sp t1 w1) (h2 : Sp t2 w2) : Sp (t1 ++ t2) (w1 ++ w2) := by
  obtain ⟨l1, rfl, rfl, a1⟩ := h1
  obtain ⟨l2, rfl, rfl, a2⟩ := h2
  refine ⟨l1 ++ l2, by simp, by simp, fun l hl => ?_⟩
  rcases List.mem_append.mp hl with hl | hl
  · exact a1 l hl
  · exact a2 l hl

theorem Sp.one {ws : List Word} (h : ws ≠ []) : Sp [joinWords ws] ws := ⟨[ws], rfl, by simp, by simpa using h⟩

theorem Sp.cons {t : List Char} {ts : List (List Char)} {ws ws' : List Word} (h : ws ≠ []) (ht : t = joinWords ws) (h2 : Sp ts ws') :
    Sp (t :: ts) (ws ++ ws') := by
  subst ht
  exact (Sp.one h).append h2

theorem Sp.nil : Sp [] [] := ⟨[], rfl, rfl, by simp⟩

theorem joinWords_append {a b : List Word} (ha : a ≠ []) (hb : b ≠ []) : joinWords (a ++ b) = joinWords a ++ ' ' :: joinWords b := by
  induction a with
  | nil => exact absurd rfl ha
  | cons w a ih =>
    cases a with
    | nil =>
      cases b with
      | nil => exact absurd rfl hb
      | cons v b => rfl
    | cons v a =>
      have := ih (by simp)
      have e1 : joinWords (w :: v :: a ++ b) = w ++ ' ' :: joinWords (v :: a ++ b) := rfl
      have e2 : joinWords (w :: v :: a) = w ++ ' ' :: joinWords (v :: a) := rfl
      rw [e1, e2, this]
      simp

theorem join_sp {toks : List (List Char)} {ws : List Word} (h : Sp toks ws) : join toks = joinWords ws := by
  obtain ⟨l, rfl, rfl, a⟩ := h
  induction l with
  | nil => rfl
  | cons w l ih =>
    have hw := a w (by simp)
    have ih := ih fun x hx => a x (by simp [hx])
    cases l with
    | nil => simp [join]
    | cons v l =>
      have hv := a v (by simp)
      have e1 : join ((w :: v :: l).map joinWords) = joinWords w ++ ' ' :: join ((v :: l).map joinWords) := rfl
      have e2 : (w :: v :: l).flatten = w ++ (v :: l).flatten := rfl
      rw [e1, e2, ih, joinWords_append hw]
      rw [List.flatten_cons]
      intro h
      exact hv (List.append_eq_nil_iff.mp h).1

theorem words_ne_nil (φ : Fml) : φ.words ≠ [] := by
  cases φ with
  | const b => cases b <;> simp [Fml.words]
  | _ => simp [Fml.words]

/-! ### Numbers as lists of formulas -/

def addJointF : List (Fml × Fml) → List Fml → List Fml
  | [], mem => mem
  | (a, b) :: l, mem =>
    addJointF l (mem ++ [.bin .xor (.bin .xor a b) (.recall (mem.length - 1))] ++
      [.bin .or (.bin .or (.bin .and a b) (.bin .and (.recall (mem.length - 1)) a)) (.bin .and (.recall (mem.length - 1)) b)])

def addRestF : List Fml → List Fml → List Fml
  | [], mem => mem
  | b :: l, mem => addRestF l (mem ++ [.bin .xor b (.recall (mem.length - 1))] ++ [.bin .and b (.recall (mem.length - 1))])

def addSortedF (p1 p2 : List Fml) (mem : List Fml) : List Fml × List Fml :=
  match p1, p2 with
  | a :: p1', b :: p2' =>
    let mem2 := addRestF (p2'.drop p1'.length) (addJointF (p1'.zip p2') (mem ++ [.bin .xor a b] ++ [.bin .and a b]))
    ((List.range p2.length).map (fun i => .recall (i * 2 + mem.length)) ++ [.recall (mem2.length - 1)], mem2)
  | _, _ => (p2, mem)

def addBitsF (p1 p2 : List Fml) (mem : List Fml) : List Fml × List Fml :=
  if p1.length = 0 then (p2, mem)
  else if p2.length = 0 then (p1, mem)
  else if p2.length < p1.length then addSortedF p2 p1 mem
  else addSortedF p1 p2 mem

def numeralF : Nat → Nat → List Fml
  | 0, _ => []
  | k + 1, n => if n = 0 then [] else .const (n % 2 == 1) :: numeralF k (n / 2)

def varF (nm : Names) (p : Bool) (x : Word) : List Fml :=
  ((nm.bits (unprimed x)).getD []).map fun b => .var (if isPrimed x || p then prime b else b)

def compN (nm : Names) (p : Bool) : NExp → List Fml → List Fml × List Fml
  | .num n, mem => (numeralF (n + 1) n, mem)
  | .var x, mem =>
    match nm.limits (unprimed x) with
    | none => ([], mem)
    | some (lo, _) => if lo = 0 then (varF nm p x, mem) else addBitsF (varF nm p x) (numeralF (lo.toNat + 1) lo.toNat) mem
  | .add a b, mem =>
    let r1 := compN nm p a mem
    let r2 := compN nm p b r1.2
    addBitsF r1.1 r2.1 r2.2
  | .overwrite a b, mem =>
    let r1 := compN nm p a mem
    let r2 := compN nm p b r1.2
    (r1.1 ++ r2.1.drop r1.1.length, r2.2)

def greaterF (strict : Bool) (p1 p2 : List Fml) : Fml :=
  let joint := (p1.zip p2).foldl (fun acc (a, b) => .bin .or (.bin .and a (.not b)) (.bin .and (.bin .or (.not b) a) acc)) (.const !strict)
  let more := (p2.drop p1.length).foldl (fun acc b => .bin .and (.not b) acc) joint
  (p1.drop p2.length).foldl (fun acc a => .bin .or a acc) more

def smallerF (strict : Bool) (p1 p2 : List Fml) : Fml :=
  let joint := (p1.zip p2).foldl (fun acc (a, b) => .bin .or (.bin .and (.not a) b) (.bin .and (.bin .or b (.not a)) acc)) (.const !strict)
  let more := (p1.drop p2.length).foldl (fun acc b => .bin .and (.not b) acc) joint
  (p2.drop p1.length).foldl (fun acc a => .bin .or a acc) more

def equalF (p1 p2 : List Fml) : Fml :=
  let joint := (p1.zip p2).foldl (fun acc (a, b) => .bin .and (.not (.bin .xor a b)) acc) (.const true)
  let more := (p1.drop p2.length).foldl (fun acc b => .bin .and (.not b) acc) joint
  (p2.drop p1.length).foldl (fun acc b => .bin .and (.not b) acc) more

def cmpF : Cmp → List Fml → List Fml → Fml
  | .gt, p1, p2 => greaterF true p1 p2
  | .ge, p1, p2 => greaterF false p1 p2
  | .lt, p1, p2 => smallerF true p1 p2
  | .le, p1, p2 => smallerF false p1 p2
  | .eq, p1, p2 => equalF p1 p2
  | .ne, p1, p2 => .not (equalF p1 p2)

def compF (nm : Names) : SFml → Bool → Fml
  | .tt, _ => .const true
  | .ff, _ => .const false
  | .atom x, p => .var (if p then prime x else x)
  | .cmp o a b, p =>
    let r1 := compN nm p a []
    let r2 := compN nm p b r1.2
    .buffer (r2.2 ++ [cmpF o r1.1 r2.1])
  | .not f, p => .not (compF nm f p)
  | .next f, _ => compF nm f true
  | .and f g, p => .bin .and (compF nm f p) (compF nm g p)
  | .or f g, p => .bin .or (compF nm f p) (compF nm g p)
  | .imp f g, p => .bin .or (.not (compF nm f p)) (compF nm g p)
  | .iff f g, p => .bin .or (.bin .and (.not (compF nm f p)) (.not (compF nm g p))) (.bin .and (compF nm f p) (compF nm g p))

/-! ### What is written -/

/-- The strings are the formulas. -/
def Written (mem : Parts) (fs : List Fml) : Prop := List.Forall₂ (fun part φ => Sp part φ.words) mem fs

theorem Written.snoc {mem : Parts} {fs : List Fml} {part : List (List Char)} {φ : Fml} (h : Written mem fs) (hp : Sp part φ.words) :
    Written (mem ++ [part]) (fs ++ [φ]) := List.rel_append h (.cons hp .nil)

theorem Written.length {mem : Parts} {fs : List Fml} (h : Written mem fs) : mem.length = fs.length := List.Forall₂.length_eq h

theorem sp_text (φ : Fml) : Sp [φ.text] φ.words := Sp.one (words_ne_nil φ)

theorem sp_lit (w : Word) : Sp [w] [w] := Sp.one (ws := [w]) (by simp)

theorem written_joint : ∀ (l : List (Fml × Fml)) {mem : Parts} {fs : List Fml}, Written mem fs →
    Written (addJoint (l.map fun q => (q.1.text, q.2.text)) mem) (addJointF l fs)
  | [], _, _, h => h
  | (a, b) :: l, mem, fs, h => by
    rw [List.map_cons, addJoint, addJointF]
    refine written_joint l (Written.snoc (Written.snoc h ?_) ?_)
    · have := ((((Sp.one (ws := [txt!"^", txt!"^"]) (by simp)).append (sp_text a)).append (sp_text b)).append (sp_lit txt!"?")).append
        (sp_lit (decimal (mem.length - 1)))
      rw [h.length] at this
      simpa [Fml.words, joinWords, BinOp.word, strNat, decimal, h.length] using this
    · have := ((((((((Sp.one (ws := [txt!"|", txt!"|", txt!"&"]) (by simp)).append (sp_text a)).append (sp_text b)).append
        (Sp.one (ws := [txt!"&", txt!"?"]) (by simp))).append (sp_lit (decimal (mem.length - 1)))).append (sp_text a)).append
        (Sp.one (ws := [txt!"&", txt!"?"]) (by simp))).append (sp_lit (decimal (mem.length - 1)))).append (sp_text b)
      rw [h.length] at this
      simpa [Fml.words, joinWords, BinOp.word, strNat, decimal, h.length] using this

theorem written_rest : ∀ (l : List Fml) {mem : Parts} {fs : List Fml}, Written mem fs → Written (addRest (l.map Fml.text) mem) (addRestF l fs)
  | [], _, _, h => h
  | b :: l, mem, fs, h => by
    rw [List.map_cons, addRest, addRestF]
    refine written_rest l (Written.snoc (Written.snoc h ?_) ?_)
    · have := (((sp_lit txt!"^").append (sp_text b)).append (sp_lit txt!"?")).append (sp_lit (decimal (mem.length - 1)))
      rw [h.length] at this
      simpa [Fml.words, joinWords, BinOp.word, strNat, decimal, h.length] using this
    · have := (((sp_lit txt!"&").append (sp_text b)).append (sp_lit txt!"?")).append (sp_lit (decimal (mem.length - 1)))
      rw [h.length] at this
      simpa [Fml.words, joinWords, BinOp.word, strNat, decimal, h.length] using this

theorem recall_text (i : Nat) : recallText i = (Fml.recall i).text := rfl

theorem written_sorted (p1 p2 : List Fml) {mem : Parts} {fs : List Fml} (h : Written mem fs) :
    (addSorted (p1.map Fml.text) (p2.map Fml.text) mem).1 = (addSortedF p1 p2 fs).1.map Fml.text ∧
      Written (addSorted (p1.map Fml.text) (p2.map Fml.text) mem).2 (addSortedF p1 p2 fs).2 := by
  cases p1 with
  | nil => exact ⟨rfl, h⟩
  | cons a p1 =>
    cases p2 with
    | nil => exact ⟨rfl, h⟩
    | cons b p2 =>
      have hw : Written (addSorted ((a :: p1).map Fml.text) ((b :: p2).map Fml.text) mem).2 (addSortedF (a :: p1) (b :: p2) fs).2 := by
        simp only [List.map_cons, addSorted, addSortedF]
        have h2 : Written (mem ++ [[txt!"^", a.text, b.text]] ++ [[txt!"&", a.text, b.text]]) (fs ++ [.bin .xor a b] ++ [.bin .and a b]) := by
          refine Written.snoc (Written.snoc h ?_) ?_
          · simpa [Fml.words, BinOp.word] using ((sp_lit txt!"^").append (sp_text a)).append (sp_text b)
          · simpa [Fml.words, BinOp.word] using ((sp_lit txt!"&").append (sp_text a)).append (sp_text b)
        have h3 := written_rest (p2.drop p1.length) (written_joint (p1.zip p2) h2)
        rw [List.map_drop] at h3
        have e : (p1.zip p2).map (fun q => (q.1.text, q.2.text)) = (p1.map Fml.text).zip (p2.map Fml.text) := by rw [List.zip_map]; rfl
        rw [e] at h3
        rw [List.length_map]
        exact h3
      refine ⟨?_, hw⟩
      have hl := hw.length
      simp only [List.map_cons, addSorted, addSortedF] at hl ⊢
      rw [hl]
      simp only [recall_text, List.map_append, List.map_map, List.map_cons, List.map_nil, h.length, List.length_cons, List.length_map]
      rfl

theorem written_add (p1 p2 : List Fml) {mem : Parts} {fs : List Fml} (h : Written mem fs) :
    (addBits (p1.map Fml.text) (p2.map Fml.text) mem).1 = (addBitsF p1 p2 fs).1.map Fml.text ∧
      Written (addBits (p1.map Fml.text) (p2.map Fml.text) mem).2 (addBitsF p1 p2 fs).2 := by
  rw [addBits, addBitsF, List.length_map, List.length_map]
  by_cases h1 : p1.length = 0
  · rw [if_pos h1, if_pos h1]; exact ⟨rfl, h⟩
  · rw [if_neg h1, if_neg h1]
    by_cases h2 : p2.length = 0
    · rw [if_pos h2, if_pos h2]; exact ⟨rfl, h⟩
    · rw [if_neg h2, if_neg h2]
      by_cases h3 : p2.length < p1.length
      · rw [if_pos h3, if_pos h3]; exact written_sorted p2 p1 h
      · rw [if_neg h3, if_neg h3]; exact written_sorted p1 p2 h

theorem numeral_text : ∀ k n, numeralBits k n = (numeralF k n).map Fml.text
  | 0, _ => rfl
  | k + 1, n => by
    rw [numeralBits, numeralF]
    by_cases h : n = 0
    · rw [if_pos h, if_pos h]; rfl
    · rw [if_neg h, if_neg h, List.map_cons, numeral_text k]
      by_cases h2 : n % 2 = 1
      · rw [if_pos h2, h2]; rfl
      · have e : (n % 2 == 1) = false := by simp [h2]
        rw [if_neg h2, e]; rfl

/-- The bits of the names fit to the bounds. -/
structure NamesOk (nm : Names) (bounds : Bounds) : Prop where
  limits : nm.limits = bounds
  bits : ∀ x lo hi, bounds x = some (lo, hi) → ∃ bs, nm.bits x = some bs ∧ bs.length = bitsFor (hi - lo)

theorem numeralF_length : ∀ k n, n < k → (numeralF k n).length = n.size
  | 0, _, h => absurd h (by omega)
  | k + 1, n, h => by
    rw [numeralF]
    by_cases h0 : n = 0
    · rw [if_pos h0, h0]; rfl
    · rw [if_neg h0, List.length_cons, numeralF_length k (n / 2) (by omega)]
      apply le_antisymm
      · rw [Nat.succ_le_iff, Nat.lt_size]
        have h1 : (n / 2).size < n.size ∨ n.size ≤ (n / 2).size := lt_or_ge _ _
        rcases h1 with h1 | h1
        · exact Nat.lt_size.mp h1
        · rw [Nat.size_le] at h1
          exfalso
          by_cases h2 : n / 2 = 0
          · rw [h2, Nat.size_zero] at h1
            omega
          · have h3 : (n / 2).size - 1 < (n / 2).size := by
              have := Nat.size_pos.mpr (Nat.pos_of_ne_zero h2)
              omega
            rw [Nat.lt_size] at h3
            have h4 : 2 ^ (n / 2).size = 2 * 2 ^ ((n / 2).size - 1) := by
              rw [← pow_succ']
              congr 1
              have := Nat.size_pos.mpr (Nat.pos_of_ne_zero h2)
              omega
            omega
      · rw [Nat.size_le, pow_succ]
        have := Nat.lt_size_self (n / 2)
        omega

theorem addSortedF_width (p1 p2 : List Fml) (fs : List Fml) (h : p1 ≠ []) (h2 : p2 ≠ []) : (addSortedF p1 p2 fs).1.length = p2.length + 1 := by
  cases p1 with
  | nil => exact absurd rfl h
  | cons a p1 =>
    cases p2 with
    | nil => exact absurd rfl h2
    | cons b p2 => simp [addSortedF]

theorem addBitsF_width (p1 p2 : List Fml) (fs : List Fml) : (addBitsF p1 p2 fs).1.length = sumWidth p1.length p2.length := by
  rw [addBitsF, sumWidth]
  by_cases h1 : p1.length = 0
  · rw [if_pos h1, if_pos h1]
  · rw [if_neg h1, if_neg h1]
    by_cases h2 : p2.length = 0
    · rw [if_pos h2, if_pos h2]
    · rw [if_neg h2, if_neg h2]
      have n1 : p1 ≠ [] := fun e => h1 (by rw [e]; rfl)
      have n2 : p2 ≠ [] := fun e => h2 (by rw [e]; rfl)
      by_cases h3 : p2.length < p1.length
      · rw [if_pos h3, addSortedF_width _ _ _ n2 n1, max_eq_left (by omega)]
      · rw [if_neg h3, addSortedF_width _ _ _ n1 n2, max_eq_right (by omega)]

theorem varF_length {nm : Names} {bounds : Bounds} (hn : NamesOk nm bounds) {p : Bool} {x : Word} {lo hi : Int} (h : bounds (unprimed x) = some (lo, hi)) :
    (varF nm p x).length = bitsFor (hi - lo) := by
  obtain ⟨bs, h1, h2⟩ := hn.bits _ lo hi h
  rw [varF, h1]
  simpa using h2

theorem compN_width {nm : Names} {bounds : Bounds} (hn : NamesOk nm bounds) {p : Bool} : ∀ {a : NExp}, a.Proper bounds p → ∀ fs,
    (compN nm p a fs).1.length = a.width bounds
  | .num n, _, fs => numeralF_length (n + 1) n (by omega)
  | .var x, h, fs => by
    obtain ⟨⟨lo, hi, h1, h2⟩, h3⟩ := h
    rw [compN, NExp.width, hn.limits, h1]
    dsimp only
    by_cases h0 : lo = 0
    · rw [if_pos h0, if_pos h0, varF_length hn h1, h0, sub_zero]
    · rw [if_neg h0, if_neg h0, addBitsF_width, varF_length hn h1, numeralF_length _ _ (by omega)]
  | .add a b, h, fs => by
    rw [compN, NExp.width, addBitsF_width, compN_width hn h.1, compN_width hn h.2]
  | .overwrite a b, h, fs => by
    rw [compN, NExp.width]
    have e1 := compN_width hn h.1 fs
    have e2 := compN_width hn h.2.1 (compN nm p a fs).2
    have := h.2.2
    simp only [List.length_append, List.length_drop, e1, e2]
    omega

theorem isPrimed_eq (x : Word) : endsWithPrime x = isPrimed x := rfl

theorem unprimed_eq (x : Word) : (if endsWithPrime x then x.dropLast else x) = unprimed x := rfl

theorem numIDBits_ok {nm : Names} {p : Bool} {x : Word} {b : List (List Char)} :
    numIDBits nm p x = .ok b ↔ ∃ bs, nm.bits (unprimed x) = some bs ∧ (p = true → isPrimed x = false) ∧
      b = bs.map fun c => (if isPrimed x || p then prime c else c) := by
  rw [numIDBits]
  dsimp only
  rw [isPrimed_eq, unprimed]
  cases hp : isPrimed x <;> cases p <;> simp only [Bool.and_true, Bool.and_false, Bool.true_and, Bool.false_and, Bool.false_eq_true, if_false, if_true, Bool.not_true,
    Bool.not_false, Bool.or_true, Bool.or_false, Bool.true_or, reduceCtorEq, false_implies, true_and, implies_true, imp_false, not_true, false_and, and_false, exists_false,
    false_iff, not_false_iff]
  · cases nm.bits x with
    | none => simp
    | some bs => simp [eq_comm]
  · cases nm.bits x with
    | none => simp
    | some bs => simp [eq_comm, prime]
  · cases nm.bits x.dropLast with
    | none => simp
    | some bs => simp [eq_comm, prime]

theorem varF_text {nm : Names} {p : Bool} {x : Word} {bs : List Word} (h : nm.bits (unprimed x) = some bs) :
    (varF nm p x).map Fml.text = bs.map fun c => (if isPrimed x || p then prime c else c) := by
  rw [varF, h, Option.getD_some, List.map_map]
  rfl

/-- Numbers are translated exactly if they are proper. -/
theorem recN_iff {nm : Names} {bounds : Bounds} (hn : NamesOk nm bounds) {p : Bool} : ∀ (a : NExp) {mem : Parts} {fs : List Fml}, Written mem fs →
    (a.Proper bounds p → ∃ mem', recN nm p a mem = .ok ((compN nm p a fs).1.map Fml.text, mem') ∧ Written mem' (compN nm p a fs).2) ∧
    ((∃ r, recN nm p a mem = .ok r) → a.Proper bounds p)
  | .num n, mem, fs, h => ⟨fun _ => ⟨mem, by rw [recN, numeral_text]; rfl, h⟩, fun _ => trivial⟩
  | .var x, mem, fs, h => by
    rw [recN, varParts, unprimed_eq, hn.limits, compN, hn.limits]
    constructor
    · rintro ⟨⟨lo, hi, h1, h2⟩, h3⟩
      obtain ⟨bs, e1, e2⟩ := hn.bits _ lo hi h1
      have e3 := numIDBits_ok.mpr ⟨bs, e1, h3, rfl⟩
      rw [h1]
      dsimp only
      rw [e3, ← varF_text e1]
      by_cases h0 : lo = 0
      · simp only [Py.bind, if_pos h0]
        exact ⟨mem, rfl, h⟩
      · simp only [Py.bind, if_neg h0]
        obtain ⟨n, rfl⟩ := Int.eq_ofNat_of_zero_le h2
        have := written_add (varF nm p x) (numeralF (n + 1) n) h
        rw [← numeral_text] at this
        exact ⟨_, by rw [Int.toNat_natCast, ← this.1], this.2⟩
    · rintro ⟨r, hr⟩
      cases hb : bounds (unprimed x) with
      | none => rw [hb] at hr; cases hr
      | some q =>
        obtain ⟨lo, hi⟩ := q
        rw [hb] at hr
        obtain ⟨b, e1, hr⟩ := Py.bind_ok.mp hr
        obtain ⟨bs, e1, e2, e3⟩ := numIDBits_ok.mp e1
        refine ⟨⟨lo, hi, hb, ?_⟩, e2⟩
        by_cases h0 : lo = 0
        · omega
        · rw [if_neg h0] at hr
          cases lo with
          | ofNat n => exact Int.natCast_nonneg n
          | negSucc n => cases hr
  | .add a b, mem, fs, h => by
    rw [recN, compN]
    constructor
    · rintro ⟨h1, h2⟩
      obtain ⟨m1, e1, w1⟩ := (recN_iff hn a h).1 h1
      obtain ⟨m2, e2, w2⟩ := (recN_iff hn b w1).1 h2
      have := written_add (compN nm p a fs).1 (compN nm p b (compN nm p a fs).2).1 w2
      rw [e1]
      simp only [Py.bind, e2]
      exact ⟨_, by rw [← this.1], this.2⟩
    · rintro ⟨r, hr⟩
      obtain ⟨r1, e1, hr⟩ := Py.bind_ok.mp hr
      obtain ⟨r2, e2, hr⟩ := Py.bind_ok.mp hr
      have pa := (recN_iff hn a h).2 ⟨r1, e1⟩
      obtain ⟨m1, k1, w1⟩ := (recN_iff hn a h).1 pa
      rw [e1] at k1
      cases k1
      exact ⟨pa, (recN_iff hn b w1).2 ⟨r2, e2⟩⟩
  | .overwrite a b, mem, fs, h => by
    rw [recN, compN]
    constructor
    · rintro ⟨h1, h2, h3⟩
      obtain ⟨m1, e1, w1⟩ := (recN_iff hn a h).1 h1
      obtain ⟨m2, e2, w2⟩ := (recN_iff hn b w1).1 h2
      rw [e1]
      simp only [Py.bind, e2]
      rw [List.length_map, List.length_map, compN_width hn h1, compN_width hn h2, if_pos h3]
      exact ⟨m2, by rw [List.map_append, List.map_drop], w2⟩
    · rintro ⟨r, hr⟩
      obtain ⟨r1, e1, hr⟩ := Py.bind_ok.mp hr
      obtain ⟨r2, e2, hr⟩ := Py.bind_ok.mp hr
      have pa := (recN_iff hn a h).2 ⟨r1, e1⟩
      obtain ⟨m1, k1, w1⟩ := (recN_iff hn a h).1 pa
      rw [e1] at k1
      cases k1
      have pb := (recN_iff hn b w1).2 ⟨r2, e2⟩
      obtain ⟨m2, k2, w2⟩ := (recN_iff hn b w1).1 pb
      rw [e2] at k2
      cases k2
      refine ⟨pa, pb, ?_⟩
      dsimp only at hr
      rw [List.length_map, List.length_map, compN_width hn pa, compN_width hn pb] at hr
      by_contra h3
      rw [if_neg h3] at hr
      cases hr

/-! Comparisons -/

theorem sp_foldl {A : Type} (l : List A) (f : List (List Char) → A → List (List Char)) (F : Fml → A → Fml)
    (h : ∀ acc φ a, Sp acc φ.words → Sp (f acc a) (F φ a).words) : ∀ acc φ, Sp acc φ.words → Sp (l.foldl f acc) (l.foldl F φ).words := by
  induction l with
  | nil => exact fun _ _ h => h
  | cons a l ih => exact fun acc φ hp => ih _ _ (h acc φ a hp)

theorem foldl_zip_text (p1 p2 : List Fml) (f : List (List Char) → List Char × List Char → List (List Char)) (start : List (List Char)) :
    ((p1.map Fml.text).zip (p2.map Fml.text)).foldl f start = (p1.zip p2).foldl (fun acc q => f acc (q.1.text, q.2.text)) start := by
  rw [List.zip_map, List.foldl_map]
  rfl

theorem sp_not {acc : List (List Char)} {φ : Fml} (b : Fml) (h : Sp acc φ.words) : Sp ([txt!"& !", b.text] ++ acc) (Fml.bin .and (.not b) φ).words := by
  have := ((Sp.one (ws := [txt!"&", txt!"!"]) (by simp)).append (sp_text b)).append h
  simpa [Fml.words, BinOp.word, joinWords] using this

theorem sp_or {acc : List (List Char)} {φ : Fml} (b : Fml) (h : Sp acc φ.words) : Sp ([txt!"|", b.text] ++ acc) (Fml.bin .or b φ).words := by
  have := ((Sp.one (ws := [txt!"|"]) (by simp)).append (sp_text b)).append h
  simpa [Fml.words, BinOp.word, joinWords] using this

theorem sp_start (strict : Bool) : Sp (if strict then [txt!"0"] else [txt!"1"]) (Fml.const !strict).words := by
  cases strict
  · exact sp_lit txt!"1"
  · exact sp_lit txt!"0"

theorem sp_greater (strict : Bool) (p1 p2 : List Fml) : Sp (greaterParts strict (p1.map Fml.text) (p2.map Fml.text)) (greaterF strict p1 p2).words := by
  rw [greaterParts, greaterF]
  simp only [List.length_map, ← List.map_drop, List.foldl_map, foldl_zip_text]
  refine sp_foldl _ _ _ (fun acc φ a h => sp_or a h) _ _ (sp_foldl _ _ _ (fun acc φ b h => sp_not b h) _ _ (sp_foldl _ _ _ (fun acc φ q h => ?_) _ _ (sp_start strict)))
  have := (((((((sp_lit txt!"|").append (sp_lit txt!"&")).append (sp_text q.1)).append (sp_lit txt!"!")).append (sp_text q.2)).append
    (Sp.one (ws := [txt!"&", txt!"|", txt!"!"]) (by simp))).append ((sp_text q.2).append (sp_text q.1))).append h
  simpa [Fml.words, BinOp.word, joinWords] using this

theorem sp_smaller (strict : Bool) (p1 p2 : List Fml) : Sp (smallerParts strict (p1.map Fml.text) (p2.map Fml.text)) (smallerF strict p1 p2).words := by
  rw [smallerParts, smallerF]
  simp only [List.length_map, ← List.map_drop, List.foldl_map, foldl_zip_text]
  refine sp_foldl _ _ _ (fun acc φ a h => sp_or a h) _ _ (sp_foldl _ _ _ (fun acc φ b h => sp_not b h) _ _ (sp_foldl _ _ _ (fun acc φ q h => ?_) _ _ (sp_start strict)))
  have := ((((((sp_lit txt!"|").append (Sp.one (ws := [txt!"&", txt!"!"]) (by simp))).append (sp_text q.1)).append (sp_text q.2)).append
    (Sp.one (ws := [txt!"&", txt!"|"]) (by simp))).append (((sp_text q.2).append (sp_lit txt!"!")).append (sp_text q.1))).append h
  simpa [Fml.words, BinOp.word, joinWords] using this

theorem sp_equal (p1 p2 : List Fml) : Sp (equalParts (p1.map Fml.text) (p2.map Fml.text)) (equalF p1 p2).words := by
  rw [equalParts, equalF]
  simp only [List.length_map, ← List.map_drop, List.foldl_map, foldl_zip_text]
  refine sp_foldl _ _ _ (fun acc φ a h => sp_not a h) _ _ (sp_foldl _ _ _ (fun acc φ b h => sp_not b h) _ _ (sp_foldl _ _ _ (fun acc φ q h => ?_) _ _ (sp_lit txt!"1")))
  have := (((sp_lit txt!"&").append (Sp.one (ws := [txt!"!", txt!"^"]) (by simp))).append ((sp_text q.1).append (sp_text q.2))).append h
  simpa [Fml.words, BinOp.word, joinWords] using this

theorem sp_cmp (o : Cmp) (p1 p2 : List Fml) : Sp (cmpParts o (p1.map Fml.text) (p2.map Fml.text)) (cmpF o p1 p2).words := by
  cases o with
  | gt => exact sp_greater true p1 p2
  | ge => exact sp_greater false p1 p2
  | lt => exact sp_smaller true p1 p2
  | le => exact sp_smaller false p1 p2
  | eq => exact sp_equal p1 p2
  | ne => exact (sp_lit txt!"!").append (sp_equal p1 p2)

theorem sp_buffer {mem : Parts} {fs : List Fml} (h : Written mem fs) : Sp mem.flatten (Fml.wordsBuffer fs) := by
  induction h with
  | nil => exact Sp.nil
  | cons h1 _ ih => rw [List.flatten_cons, Fml.wordsBuffer]; exact h1.append ih

/-- Formulas are translated exactly if they are proper. -/
theorem cmpl_iff {nm : Names} {bounds : Bounds} (hn : NamesOk nm bounds) : ∀ (f : SFml) (p : Bool),
    (f.Proper bounds p → ∃ toks, cmpl nm f p = .ok toks ∧ Sp toks (compF nm f p).words) ∧ ((∃ toks, cmpl nm f p = .ok toks) → f.Proper bounds p)
  | .tt, p => ⟨fun _ => ⟨_, rfl, sp_lit txt!"1"⟩, fun _ => trivial⟩
  | .ff, p => ⟨fun _ => ⟨_, rfl, sp_lit txt!"0"⟩, fun _ => trivial⟩
  | .atom x, p => by
    cases p with
    | false => exact ⟨fun _ => ⟨_, rfl, sp_lit x⟩, fun _ h => absurd h (by simp)⟩
    | true =>
      rw [cmpl, if_pos rfl]
      by_cases h : '\'' ∈ x
      · rw [if_pos h]
        exact ⟨fun h' => absurd h (h' rfl), fun ⟨_, h'⟩ => (by cases h')⟩
      · rw [if_neg h]
        exact ⟨fun _ => ⟨_, rfl, sp_lit _⟩, fun _ _ => h⟩
  | .cmp o a b, p => by
    rw [cmpl]
    constructor
    · rintro ⟨h1, h2⟩
      obtain ⟨m1, e1, w1⟩ := (recN_iff hn a .nil).1 h1
      obtain ⟨m2, e2, w2⟩ := (recN_iff hn b w1).1 h2
      rw [e1]
      simp only [Py.bind, e2]
      refine ⟨_, rfl, ?_⟩
      have := w2.snoc (sp_cmp o (compN nm p a []).1 (compN nm p b (compN nm p a []).2).1)
      rw [this.length]
      exact ((sp_lit txt!"$").append (sp_lit (decimal _))).append (sp_buffer this)
    · rintro ⟨r, hr⟩
      obtain ⟨r1, e1, hr⟩ := Py.bind_ok.mp hr
      obtain ⟨r2, e2, hr⟩ := Py.bind_ok.mp hr
      have pa := (recN_iff hn a .nil).2 ⟨r1, e1⟩
      obtain ⟨m1, k1, w1⟩ := (recN_iff hn a .nil).1 pa
      rw [e1] at k1
      cases k1
      exact ⟨pa, (recN_iff hn b w1).2 ⟨r2, e2⟩⟩
  | .not f, p => by
    rw [cmpl]
    constructor
    · intro h
      obtain ⟨t1, e1, w1⟩ := (cmpl_iff hn f p).1 h
      rw [e1]
      exact ⟨_, rfl, (sp_lit txt!"!").append w1⟩
    · rintro ⟨r, hr⟩
      obtain ⟨t1, e1, hr⟩ := Py.bind_ok.mp hr
      exact (cmpl_iff hn f p).2 ⟨t1, e1⟩
  | .next f, p => by
    rw [cmpl]
    cases p with
    | true => exact ⟨fun h => absurd h.1 (by simp), fun ⟨_, h⟩ => (by cases h)⟩
    | false =>
      have := cmpl_iff hn f true
      exact ⟨fun h => this.1 h.2, fun h => ⟨rfl, this.2 h⟩⟩
  | .and f g, p => by
    rw [cmpl]
    constructor
    · rintro ⟨h1, h2⟩
      obtain ⟨t1, e1, w1⟩ := (cmpl_iff hn f p).1 h1
      obtain ⟨t2, e2, w2⟩ := (cmpl_iff hn g p).1 h2
      rw [e1, e2]
      refine ⟨_, rfl, ?_⟩
      simpa [compF, Fml.words, BinOp.word] using ((sp_lit txt!"&").append w1).append w2
    · rintro ⟨r, hr⟩
      obtain ⟨t1, e1, hr⟩ := Py.bind_ok.mp hr
      obtain ⟨t2, e2, hr⟩ := Py.bind_ok.mp hr
      exact ⟨(cmpl_iff hn f p).2 ⟨t1, e1⟩, (cmpl_iff hn g p).2 ⟨t2, e2⟩⟩
  | .or f g, p => by
    rw [cmpl]
    constructor
    · rintro ⟨h1, h2⟩
      obtain ⟨t1, e1, w1⟩ := (cmpl_iff hn f p).1 h1
      obtain ⟨t2, e2, w2⟩ := (cmpl_iff hn g p).1 h2
      rw [e1, e2]
      refine ⟨_, rfl, ?_⟩
      simpa [compF, Fml.words, BinOp.word] using ((sp_lit txt!"|").append w1).append w2
    · rintro ⟨r, hr⟩
      obtain ⟨t1, e1, hr⟩ := Py.bind_ok.mp hr
      obtain ⟨t2, e2, hr⟩ := Py.bind_ok.mp hr
      exact ⟨(cmpl_iff hn f p).2 ⟨t1, e1⟩, (cmpl_iff hn g p).2 ⟨t2, e2⟩⟩
  | .imp f g, p => by
    rw [cmpl]
    constructor
    · rintro ⟨h1, h2⟩
      obtain ⟨t1, e1, w1⟩ := (cmpl_iff hn f p).1 h1
      obtain ⟨t2, e2, w2⟩ := (cmpl_iff hn g p).1 h2
      rw [e1, e2]
      refine ⟨_, rfl, ?_⟩
      simpa [compF, Fml.words, BinOp.word] using (((sp_lit txt!"|").append (sp_lit txt!"!")).append w1).append w2
    · rintro ⟨r, hr⟩
      obtain ⟨t1, e1, hr⟩ := Py.bind_ok.mp hr
      obtain ⟨t2, e2, hr⟩ := Py.bind_ok.mp hr
      exact ⟨(cmpl_iff hn f p).2 ⟨t1, e1⟩, (cmpl_iff hn g p).2 ⟨t2, e2⟩⟩
  | .iff f g, p => by
    rw [cmpl]
    constructor
    · rintro ⟨h1, h2⟩
      obtain ⟨t1, e1, w1⟩ := (cmpl_iff hn f p).1 h1
      obtain ⟨t2, e2, w2⟩ := (cmpl_iff hn g p).1 h2
      rw [e1, e2]
      refine ⟨_, rfl, ?_⟩
      simpa [compF, Fml.words, BinOp.word] using ((((((((sp_lit txt!"|").append (sp_lit txt!"&")).append (sp_lit txt!"!")).append w1).append (sp_lit txt!"!")).append
        w2).append (sp_lit txt!"&")).append w1).append w2
    · rintro ⟨r, hr⟩
      obtain ⟨t1, e1, hr⟩ := Py.bind_ok.mp hr
      obtain ⟨t2, e2, hr⟩ := Py.bind_ok.mp hr
      exact ⟨(cmpl_iff hn f p).2 ⟨t1, e1⟩, (cmpl_iff hn g p).2 ⟨t2, e2⟩⟩

end Slugs.Model.Structured
