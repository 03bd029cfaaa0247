import Verif.Lemmas.StructuredLex
import Verif.Lemmas.StructuredLR

/-!
The trees that the structured slugs compiler works on, and the formulas they stand for.
-/

namespace Slugs.Model.Structured

open Slugs.Spec (Word isDigit)
open Slugs.Spec.Structured

/-! ### Formulas with the same meaning -/

/-- All integer variables satisfy `Q`. -/
def NExpAll (Q : Word → Prop) : NExp → Prop
  | .num _ => True
  | .var x => Q x
  | .add a b => NExpAll Q a ∧ NExpAll Q b
  | .overwrite a b => NExpAll Q a ∧ NExpAll Q b

structure SEquiv (f g : SFml) : Prop where
  holds : ∀ bounds b val, f.holds bounds b val = g.holds bounds b val
  proper : ∀ bounds nx, f.Proper bounds nx ↔ g.Proper bounds nx
  atoms : ∀ nx, f.atoms nx = g.atoms nx
  numbers : ∀ nx, f.numbers nx = g.numbers nx

namespace SEquiv

theorem refl (f : SFml) : SEquiv f f := ⟨fun _ _ _ => rfl, fun _ _ => Iff.rfl, fun _ => rfl, fun _ => rfl⟩

theorem trans {f g h : SFml} (a : SEquiv f g) (b : SEquiv g h) : SEquiv f h :=
  ⟨fun x y z => (a.holds x y z).trans (b.holds x y z), fun x y => (a.proper x y).trans (b.proper x y), fun x => (a.atoms x).trans (b.atoms x),
    fun x => (a.numbers x).trans (b.numbers x)⟩

theorem symm {f g : SFml} (a : SEquiv f g) : SEquiv g f :=
  ⟨fun x y z => (a.holds x y z).symm, fun x y => (a.proper x y).symm, fun x => (a.atoms x).symm, fun x => (a.numbers x).symm⟩

theorem not {f g : SFml} (a : SEquiv f g) : SEquiv (.not f) (.not g) :=
  ⟨fun x y z => by simp only [SFml.holds, a.holds], fun x y => a.proper x y, fun x => a.atoms x, fun x => a.numbers x⟩

theorem next {f g : SFml} (a : SEquiv f g) : SEquiv (.next f) (.next g) :=
  ⟨fun x y z => by simp only [SFml.holds, a.holds], fun x y => and_congr_right fun _ => a.proper x true, fun _ => a.atoms true, fun _ => a.numbers true⟩

theorem and {f g f' g' : SFml} (a : SEquiv f g) (b : SEquiv f' g') : SEquiv (.and f f') (.and g g') :=
  ⟨fun x y z => by simp only [SFml.holds, a.holds, b.holds], fun x y => and_congr (a.proper x y) (b.proper x y),
    fun x => by simp only [SFml.atoms, a.atoms, b.atoms], fun x => by simp only [SFml.numbers, a.numbers, b.numbers]⟩

theorem or {f g f' g' : SFml} (a : SEquiv f g) (b : SEquiv f' g') : SEquiv (.or f f') (.or g g') :=
  ⟨fun x y z => by simp only [SFml.holds, a.holds, b.holds], fun x y => and_congr (a.proper x y) (b.proper x y),
    fun x => by simp only [SFml.atoms, a.atoms, b.atoms], fun x => by simp only [SFml.numbers, a.numbers, b.numbers]⟩

theorem imp {f g f' g' : SFml} (a : SEquiv f g) (b : SEquiv f' g') : SEquiv (.imp f f') (.imp g g') :=
  ⟨fun x y z => by simp only [SFml.holds, a.holds, b.holds], fun x y => and_congr (a.proper x y) (b.proper x y),
    fun x => by simp only [SFml.atoms, a.atoms, b.atoms], fun x => by simp only [SFml.numbers, a.numbers, b.numbers]⟩

theorem iff {f g f' g' : SFml} (a : SEquiv f g) (b : SEquiv f' g') : SEquiv (.iff f f') (.iff g g') :=
  ⟨fun x y z => by simp only [SFml.holds, a.holds, b.holds], fun x y => and_congr (a.proper x y) (b.proper x y),
    fun x => by simp only [SFml.atoms, a.atoms, b.atoms], fun x => by simp only [SFml.numbers, a.numbers, b.numbers]⟩

theorem and_assoc (f g h : SFml) : SEquiv (.and (.and f g) h) (.and f (.and g h)) :=
  ⟨fun x y z => by simp only [SFml.holds, Bool.and_assoc], fun x y => _root_.and_assoc, fun x => List.append_assoc _ _ _, fun x => List.append_assoc _ _ _⟩

theorem or_assoc (f g h : SFml) : SEquiv (.or (.or f g) h) (.or f (.or g h)) :=
  ⟨fun x y z => by simp only [SFml.holds, Bool.or_assoc], fun x y => _root_.and_assoc, fun x => List.append_assoc _ _ _, fun x => List.append_assoc _ _ _⟩

end SEquiv

/-- An operator on formulas for which brackets do not matter. -/
structure Assoc (op : SFml → SFml → SFml) : Prop where
  congr : ∀ {f g f' g'}, SEquiv f g → SEquiv f' g' → SEquiv (op f f') (op g g')
  assoc : ∀ f g h, SEquiv (op (op f g) h) (op f (op g h))

theorem assoc_and : Assoc .and := ⟨SEquiv.and, SEquiv.and_assoc⟩

theorem assoc_or : Assoc .or := ⟨SEquiv.or, SEquiv.or_assoc⟩

/-! ### What simplified trees stand for -/

def numOf : Tree → Option NExp
  | .leaf t =>
    if t.kind = .numeral then
      match toInt t.text with
      | some (.ofNat n) => some (.num n)
      | _ => none
    else if t.kind = .numID then some (.var t.text)
    else none
  | .node .NumberExpression [a, op, b] =>
    match op with
    | .node .AdditionOperator _ => (numOf a).bind fun x => (numOf b).map fun y => .add x y
    | _ => none
  | .node .NumberBrackets [l, a, r] =>
    match l, r with
    | .leaf l, .leaf r => if l.kind = .lpar ∧ r.kind = .rpar then numOf a else none
    | _, _ => none
  | .node .LeastSignificantBitOverwriteExpression (a :: _ :: b :: _) => (numOf a).bind fun x => (numOf b).map fun y => .overwrite x y
  | .node _ _ => none

def cmpOf : Tree → Option Cmp
  | .node .NumberComparisonOperator (.node .GreaterOperator _ :: _) => some .gt
  | .node .NumberComparisonOperator (.node .GreaterEqualOperator _ :: _) => some .ge
  | .node .NumberComparisonOperator (.node .SmallerOperator _ :: _) => some .lt
  | .node .NumberComparisonOperator (.node .SmallerEqualOperator _ :: _) => some .le
  | .node .NumberComparisonOperator (.node .EqualOperator _ :: _) => some .eq
  | .node .NumberComparisonOperator (.node .UnequalOperator _ :: _) => some .ne
  | _ => none

def foldFml (op : SFml → SFml → SFml) : List (Option SFml) → Option SFml
  | [] => none
  | r :: rs => rs.foldl (fun x y => x.bind fun f => y.map fun g => op f g) r

def flatNode (X : NT) (cs : List Tree) (r : List (Option SFml)) : Option SFml :=
  match X with
  | .Formula => if cs.length = 1 then (r[0]?).join else none
  | .Biimplication => ((r[0]?).join).bind fun f => ((r[1]?).join).map fun g => .iff f g
  | .Implication => ((r[0]?).join).bind fun f => ((r[1]?).join).map fun g => .imp f g
  | .Conjunction => foldFml .and r
  | .Disjunction => foldFml .or r
  | .UnaryFormula =>
    match cs with
    | .node .NotOperator _ :: _ => ((r[1]?).join).map .not
    | .node .NextOperator _ :: _ => ((r[1]?).join).map .next
    | _ => none
  | .Assignment =>
    match cs with
    | .leaf t :: _ => some (.atom t.text)
    | _ => none
  | .CalculationSubformula =>
    match cs with
    | [a, op, b] => (cmpOf op).bind fun o => (numOf a).bind fun x => (numOf b).map fun y => .cmp o x y
    | _ => none
  | _ => none

mutual

/-- The formula that a simplified tree stands for. -/
def flatFml : Tree → Option SFml
  | .leaf t => if t.kind = .TRUE then some .tt else if t.kind = .FALSE then some .ff else none
  | .node X cs => flatNode X cs (flatAll cs)

def flatAll : List Tree → List (Option SFml)
  | [] => []
  | c :: cs => flatFml c :: flatAll cs

end

theorem flatAll_append (l1 l2 : List Tree) : flatAll (l1 ++ l2) = flatAll l1 ++ flatAll l2 := by
  induction l1 with
  | nil => rfl
  | cons c l ih => rw [List.cons_append, flatAll, flatAll, ih]; rfl

theorem flatAll_ne_nil {l : List Tree} (h : l ≠ []) : flatAll l ≠ [] := by
  cases l with
  | nil => exact absurd rfl h
  | cons c l => rw [flatAll]; simp

/-! ### Nested conjunctions -/

def foldFrom (op : SFml → SFml → SFml) (x : Option SFml) (rs : List (Option SFml)) : Option SFml :=
  rs.foldl (fun x y => x.bind fun f => y.map fun g => op f g) x

theorem foldFrom_none (op : SFml → SFml → SFml) (rs : List (Option SFml)) : foldFrom op none rs = none := by
  induction rs with
  | nil => rfl
  | cons r rs ih => exact ih

theorem foldFrom_equiv {op : SFml → SFml → SFml} (ho : Assoc op) (f1 : SFml) : ∀ (rs : List (Option SFml)) (g h : SFml), SEquiv h (op f1 g) →
    (∀ f2, foldFrom op (some g) rs = some f2 → ∃ f, foldFrom op (some h) rs = some f ∧ SEquiv f (op f1 f2)) ∧
    (∀ f, foldFrom op (some h) rs = some f → ∃ f2, foldFrom op (some g) rs = some f2 ∧ SEquiv f (op f1 f2)) := by
  intro rs
  induction rs with
  | nil =>
    intro g h he
    refine ⟨fun f2 e => ?_, fun f e => ?_⟩
    · cases e; exact ⟨h, rfl, he⟩
    · cases e; exact ⟨g, rfl, he⟩
  | cons r rs ih =>
    intro g h he
    cases r with
    | none =>
      refine ⟨fun f2 e => ?_, fun f e => ?_⟩
      · have : foldFrom op none rs = some f2 := e
        rw [foldFrom_none] at this; cases this
      · have : foldFrom op none rs = some f := e
        rw [foldFrom_none] at this; cases this
    | some k => exact ih (op g k) (op h k) ((ho.congr he (SEquiv.refl k)).trans (ho.assoc f1 g k))

theorem foldFml_append {op : SFml → SFml → SFml} (ho : Assoc op) {l1 l2 : List (Option SFml)} (h1 : l1 ≠ []) (h2 : l2 ≠ []) :
    (∀ f1 f2, foldFml op l1 = some f1 → foldFml op l2 = some f2 → ∃ f, foldFml op (l1 ++ l2) = some f ∧ SEquiv f (op f1 f2)) ∧
    (∀ f, foldFml op (l1 ++ l2) = some f → ∃ f1 f2, foldFml op l1 = some f1 ∧ foldFml op l2 = some f2 ∧ SEquiv f (op f1 f2)) := by
  obtain ⟨r1, rs1, rfl⟩ := List.exists_cons_of_ne_nil h1
  obtain ⟨r2, rs2, rfl⟩ := List.exists_cons_of_ne_nil h2
  have e : foldFml op (r1 :: rs1 ++ r2 :: rs2) = foldFrom op (foldFrom op r1 rs1) (r2 :: rs2) := by
    rw [foldFrom, foldFrom, ← List.foldl_append]
    rfl
  have e1 : foldFml op (r1 :: rs1) = foldFrom op r1 rs1 := rfl
  have e2 : foldFml op (r2 :: rs2) = foldFrom op r2 rs2 := rfl
  rw [e, e1, e2]
  refine ⟨fun f1 f2 k1 k2 => ?_, fun f k => ?_⟩
  · rw [k1]
    cases r2 with
    | none => rw [foldFrom_none] at k2; cases k2
    | some g => exact (foldFrom_equiv ho f1 rs2 g (op f1 g) (SEquiv.refl _)).1 f2 k2
  · cases h : foldFrom op r1 rs1 with
    | none => rw [h, foldFrom_none] at k; cases k
    | some f1 =>
      rw [h] at k
      cases r2 with
      | none =>
        have : foldFrom op none rs2 = some f := k
        rw [foldFrom_none] at this; cases this
      | some g =>
        obtain ⟨f2, i1, i2⟩ := (foldFrom_equiv ho f1 rs2 g (op f1 g) (SEquiv.refl _)).2 f k
        exact ⟨f1, f2, rfl, i1, i2⟩

/-- Not a node without children. -/
def Solid (T : Tree) : Prop := ∀ X, T ≠ .node X []

theorem splice_two (X : NT) (T1 T2 : Tree) : splice X [T1, T2] = splice X [T1] ++ splice X [T2] := by
  cases T1 with
  | leaf t => rfl
  | node Y ds =>
    by_cases h : Y = X
    · simp only [splice, if_pos h, List.append_nil]
    · simp only [splice, if_neg h]; rfl

theorem splice_one {X : NT} {T : Tree} (h : Solid T) : splice X [T] ≠ [] := by
  cases T with
  | leaf t => simp [splice]
  | node Y ds =>
    by_cases hY : Y = X
    · simp only [splice, if_pos hY, List.append_nil]
      rintro rfl
      exact h _ rfl
    · simp [splice, if_neg hY]

theorem fold_splice_and (T : Tree) : foldFml .and (flatAll (splice .Conjunction [T])) = flatFml T := by
  cases T with
  | leaf t => rfl
  | node Y ds =>
    by_cases h : Y = .Conjunction
    · subst h
      simp only [splice, if_pos, List.append_nil]
      rfl
    · simp only [splice, if_neg h]
      rfl

theorem fold_splice_or (T : Tree) : foldFml .or (flatAll (splice .Disjunction [T])) = flatFml T := by
  cases T with
  | leaf t => rfl
  | node Y ds =>
    by_cases h : Y = .Disjunction
    · subst h
      simp only [splice, if_pos, List.append_nil]
      rfl
    · simp only [splice, if_neg h]
      rfl

theorem flatten_and (c1 c2 : Tree) : flatten (.node .Conjunction [c1, c2]) = .node .Conjunction (splice .Conjunction [flatten c1, flatten c2]) := rfl

theorem flatten_or (c1 c2 : Tree) : flatten (.node .Disjunction [c1, c2]) = .node .Disjunction (splice .Disjunction [flatten c1, flatten c2]) := rfl

theorem flat_and {T1 T2 : Tree} (h1 : Solid T1) (h2 : Solid T2) :
    (∀ f1 f2, flatFml T1 = some f1 → flatFml T2 = some f2 →
      ∃ f, flatFml (.node .Conjunction (splice .Conjunction [T1, T2])) = some f ∧ SEquiv f (.and f1 f2)) ∧
    (∀ f, flatFml (.node .Conjunction (splice .Conjunction [T1, T2])) = some f →
      ∃ f1 f2, flatFml T1 = some f1 ∧ flatFml T2 = some f2 ∧ SEquiv f (.and f1 f2)) := by
  have := foldFml_append assoc_and (flatAll_ne_nil (splice_one (X := .Conjunction) h1)) (flatAll_ne_nil (splice_one (X := .Conjunction) h2))
  rw [fold_splice_and, fold_splice_and, ← flatAll_append, ← splice_two] at this
  exact this

theorem flat_or {T1 T2 : Tree} (h1 : Solid T1) (h2 : Solid T2) :
    (∀ f1 f2, flatFml T1 = some f1 → flatFml T2 = some f2 →
      ∃ f, flatFml (.node .Disjunction (splice .Disjunction [T1, T2])) = some f ∧ SEquiv f (.or f1 f2)) ∧
    (∀ f, flatFml (.node .Disjunction (splice .Disjunction [T1, T2])) = some f →
      ∃ f1 f2, flatFml T1 = some f1 ∧ flatFml T2 = some f2 ∧ SEquiv f (.or f1 f2)) := by
  have := foldFml_append assoc_or (flatAll_ne_nil (splice_one (X := .Disjunction) h1)) (flatAll_ne_nil (splice_one (X := .Disjunction) h2))
  rw [fold_splice_or, fold_splice_or, ← flatAll_append, ← splice_two] at this
  exact this

theorem solid_splice {X : NT} {T1 T2 : Tree} (h1 : Solid T1) : Solid (.node X (splice X [T1, T2])) := by
  intro Y e
  injection e with _ e2
  rw [splice_two] at e2
  exact splice_one h1 (List.append_eq_nil_iff.mp e2).1

/-! ### Numerals -/

theorem strip_word {s : List Char} (h : ∀ c ∈ s, isspace c = false) : strip s = s := by
  have hd : ∀ l : List Char, (∀ c ∈ l, isspace c = false) → l.dropWhile isspace = l := by
    intro l hl
    cases l with
    | nil => rfl
    | cons c l => exact List.dropWhile_cons_of_neg (by rw [hl c (by simp)]; simp)
  rw [strip, hd s h, hd s.reverse (fun c hc => h c (by simpa using hc)), List.reverse_reverse]

theorem digitsAux_digits : ∀ (ds : List Char) (n : Nat) (b : Bool), (b = true ∨ ds ≠ []) → (∀ c ∈ ds, isDigit c = true) →
    digitsAux n b ds = some (ds.foldl (fun n c => 10 * n + (c.toNat - '0'.toNat)) n)
  | [], n, b, h, _ => by
    rcases h with rfl | h
    · rfl
    · exact absurd rfl h
  | c :: ds, n, b, _, hd => by
    have hc := hd c (by simp)
    have hc' : '0' ≤ c ∧ c ≤ '9' := by simpa [isDigit] using hc
    rw [digitsAux, if_pos hc', digitsAux_digits ds _ true (.inl rfl) (fun d h => hd d (by simp [h]))]
    rfl

theorem toInt_digits {ds : List Char} (h1 : ds ≠ []) (h2 : ∀ c ∈ ds, isDigit c = true) : toInt ds = some (.ofNat (Slugs.Spec.digitsVal ds)) := by
  have e : digitsAux 0 false ds = some (Slugs.Spec.digitsVal ds) := digitsAux_digits ds 0 false (.inr h1) h2
  rw [toInt, strip_word (fun c hc => digit_not_space (h2 c hc))]
  obtain ⟨c, cs, rfl⟩ := List.exists_cons_of_ne_nil h1
  have hc := h2 c (by simp)
  have hm : c ≠ '-' := by rintro rfl; revert hc; decide
  have hp : c ≠ '+' := by rintro rfl; revert hc; decide
  split
  · next heq => injection heq with h _; exact absurd h hm
  · next heq => injection heq with h _; exact absurd h hp
  · rw [e]; rfl

/-! ### Parse trees stand for formulas: soundness -/

/-- The syntactic categories whose members consist of symbols only. -/
def isOp (X : NT) : Bool :=
  match X with
  | .UntilOperator | .WeakUntilOperator | .ImplicationOperator | .BiimplicationOperator | .DisjunctionOperator | .ConjunctionOperator
  | .GreaterOperator | .SmallerOperator | .EqualOperator | .UnequalOperator | .SmallerEqualOperator | .GreaterEqualOperator
  | .AdditionOperator | .MultiplicationOperator | .LeastSignificantBitOverwriteOperator | .XorOperator | .FinallyOperator
  | .NextOperator | .GloballyOperator | .NotOperator => true
  | _ => false

/-- An operator. -/
def OpS (X : NT) (c : Tree) (ts : List Tok) : Prop :=
  isOp X = true ∧ c = .node X (ts.map .leaf) ∧ (X, ts.map fun t => Sym.t t.kind) ∈ rules

/-- What a simplified tree for a formula stands for. -/
def FML (n : Nat) (c' : Tree) (ts : List Tok) : Prop :=
  Solid (flatten c') ∧ ∀ f, flatFml (flatten c') = some f → ∃ g, Infix n ts g ∧ SEquiv f g

def FS (n : Nat) (c : Tree) (ts : List Tok) : Prop := ∃ c', clean c = some c' ∧ FML n c' ts

def NS (R : List Tok → NExp → Prop) (c : Tree) (ts : List Tok) : Prop :=
  ∃ c', clean c = some c' ∧ ∀ a, numOf (flatten c') = some a → R ts a

/-- Numerals consist of digits. -/
def Digits (ts : List Tok) : Prop := ∀ t ∈ ts, t.kind = .numeral → t.text ≠ [] ∧ ∀ d ∈ t.text, isDigit d = true

def comparisons : List NT := [.GreaterOperator, .GreaterEqualOperator, .SmallerOperator, .SmallerEqualOperator, .EqualOperator, .UnequalOperator]

def unaries : List NT := [.FinallyOperator, .NextOperator, .GloballyOperator, .NotOperator]

def Sound : Sym → Tree → List Tok → Prop
  | .t a, c, ts => ∃ tok, c = .leaf tok ∧ ts = [tok] ∧ tok.kind = a
  | .n X, c, ts =>
    match X with
    | .Formula => ∃ c', clean c = some (.node .Formula [c']) ∧ FML 0 c' ts
    | .Biimplication => FS 0 c ts
    | .Implication => FS 1 c ts
    | .Xor | .Disjunction => FS 2 c ts
    | .Conjunction => FS 3 c ts
    | .BinaryTemporalFormula | .UnaryFormula => FS 4 c ts
    | .AtomicFormula | .Brackets | .BooleanAtomicFormula | .Assignment | .CalculationSubformula => FS 5 c ts
    | .NumberExpression => NS InfixSum c ts
    | .MultiplicativeNumber | .LeastSignificantBitOverwriteExpression => NS InfixFactor c ts
    | .AtomicNumberExpression | .NumberBrackets => NS InfixNumber c ts
    | .NumberComparisonOperator => ∃ Y d, Y ∈ comparisons ∧ c = .node .NumberComparisonOperator [d] ∧ OpS Y d ts
    | .UnaryTemporalOperator => ∃ Y d, Y ∈ unaries ∧ c = .node .UnaryTemporalOperator [d] ∧ OpS Y d ts
    | .BinaryTemporalOperator => ∃ Y d, c = .node .BinaryTemporalOperator [d] ∧ OpS Y d ts
    | Y => OpS Y c ts

inductive SoundAll : List Sym → List Tree → List Tok → Prop
  | nil : SoundAll [] [] []
  | cons {s ss c cs ts us} : Sound s c ts → SoundAll ss cs us → SoundAll (s :: ss) (c :: cs) (ts ++ us)

theorem SoundAll.one {s : Sym} {cs : List Tree} {ts : List Tok} (h : SoundAll [s] cs ts) : ∃ c, cs = [c] ∧ Sound s c ts := by
  cases h with
  | cons h1 h2 =>
    cases h2
    exact ⟨_, rfl, by rw [List.append_nil]; exact h1⟩

theorem SoundAll.two {s1 s2 : Sym} {cs : List Tree} {ts : List Tok} (h : SoundAll [s1, s2] cs ts) :
    ∃ c1 c2 t1 t2, cs = [c1, c2] ∧ ts = t1 ++ t2 ∧ Sound s1 c1 t1 ∧ Sound s2 c2 t2 := by
  cases h with
  | cons h1 h2 =>
    obtain ⟨c, rfl, h⟩ := h2.one
    exact ⟨_, _, _, _, rfl, rfl, h1, h⟩

theorem SoundAll.three {s1 s2 s3 : Sym} {cs : List Tree} {ts : List Tok} (h : SoundAll [s1, s2, s3] cs ts) :
    ∃ c1 c2 c3 t1 t2 t3, cs = [c1, c2, c3] ∧ ts = t1 ++ t2 ++ t3 ∧ Sound s1 c1 t1 ∧ Sound s2 c2 t2 ∧ Sound s3 c3 t3 := by
  cases h with
  | cons h1 h2 =>
    obtain ⟨c1, c2, t1, t2, rfl, rfl, k1, k2⟩ := h2.two
    exact ⟨_, _, _, _, _, _, rfl, by rw [List.append_assoc], h1, k1, k2⟩

theorem soundAll_terminals : ∀ {rhs : List Sym} {cs : List Tree} {ts : List Tok}, SoundAll rhs cs ts → (∀ s ∈ rhs, ∃ a, s = .t a) →
    cs = ts.map .leaf ∧ rhs = ts.map fun t => Sym.t t.kind := by
  intro rhs cs ts h
  induction h with
  | nil => intro _; exact ⟨rfl, rfl⟩
  | @cons s ss c cs ts us h1 _ ih =>
    intro ht
    obtain ⟨a, rfl⟩ := ht s (by simp)
    obtain ⟨tok, rfl, rfl, rfl⟩ := h1
    obtain ⟨i1, i2⟩ := ih (fun s hs => ht s (by simp [hs]))
    rw [i1, i2]
    exact ⟨rfl, rfl⟩

theorem cleanAll_leaves (ts : List Tok) : cleanAll (ts.map .leaf) = ts.map fun t => some (Tree.leaf t) := by
  induction ts with
  | nil => rfl
  | cons t ts ih => rw [List.map_cons, cleanAll, ih]; rfl

theorem mapM_leaves (ts : List Tok) : (ts.map fun t => some (Tree.leaf t)).mapM id = some (ts.map Tree.leaf) := by
  induction ts with
  | nil => rfl
  | cons t ts ih => rw [List.map_cons, List.mapM_cons, ih]; rfl

theorem OpS.clean {X : NT} {c : Tree} {ts : List Tok} (h : OpS X c ts) : clean c = some c := by
  obtain ⟨h1, rfl, _⟩ := h
  rw [Structured.clean, cleanAll_leaves]
  have : cleanNode X (ts.map Tree.leaf) (ts.map fun t => some (Tree.leaf t)) = ((ts.map fun t => some (Tree.leaf t)).mapM id).map (.node X) := by
    cases X <;> first | rfl | cases h1
  rw [this, mapM_leaves]
  rfl

theorem rules_isOp {X : NT} {rhs : List Sym} (hX : isOp X = true) (hr : (X, rhs) ∈ rules) : ∀ s ∈ rhs, ∃ a, s = .t a := by
  have key : ∀ r ∈ rules, isOp r.1 = true → r.2.all (fun s => match s with | .t _ => true | .n _ => false) = true := by decide
  intro s hs
  have := List.all_eq_true.mp (key _ hr hX) s hs
  cases s with
  | t a => exact ⟨a, rfl⟩
  | n Y => cases this

theorem sound_op {X : NT} {rhs : List Sym} {cs : List Tree} {ts : List Tok} (hX : isOp X = true) (hr : (X, rhs) ∈ rules) (h : SoundAll rhs cs ts) :
    OpS X (.node X cs) ts := by
  obtain ⟨h1, h2⟩ := soundAll_terminals h (rules_isOp hX hr)
  refine ⟨hX, by rw [h1], ?_⟩
  rw [← h2]
  exact hr

theorem kinds_of {X : NT} {c : Tree} {ts : List Tok} (h : OpS X c ts) {l : List (List Term)}
    (hl : ∀ r ∈ rules, r.1 = X → ∃ k ∈ l, r.2 = k.map Sym.t) : ts.map Tok.kind ∈ l := by
  obtain ⟨k, hk, e⟩ := hl _ h.2.2 rfl
  have : ts.map Tok.kind = k := by
    have e' : (ts.map Tok.kind).map Sym.t = k.map Sym.t := by rw [List.map_map]; exact e
    exact (List.map_injective_iff.mpr (fun a b h => by cases h; rfl)) e'
  rw [this]
  exact hk

end Slugs.Model.Structured
