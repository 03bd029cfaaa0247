import Verif.Spec.SpecFile
import Mathlib.Data.Nat.Bits
import Mathlib.Data.Nat.Size

/-!
Structured specifications (`/repo/doc/input_formats.md`, "structuredslugs"): integer variables with bounds and formulas in infix notation.  First the formulas.
-/

namespace Slugs.Spec.Structured

/-! ### Symbols -/

/-- The kinds of symbols that occur in formulas (`eof`: the end of the line; `other`: no symbol of the language). -/
inductive Term where
  | bang | amp | lpar | rpar | star | plus | minus | slash | less | equal | greater | F | FALSE | G | LSB | subtraction | TRUE | U | W | X
  | lbrack | backslash | rbrack | caret | boolID | next | numID | numeral | bar | tilde | eof | other
  deriving DecidableEq, Repr

/-- A symbol with its text. -/
structure Tok where
  kind : Term
  text : List Char
  deriving DecidableEq, Repr

/-- White space (`str.isspace` of Python). -/
def pySpace (c : Char) : Bool :=
  let n := c.toNat
  (9 ≤ n && n ≤ 13) || (28 ≤ n && n ≤ 32) || n == 133 || n == 160 || n == 5760 || (8192 ≤ n && n ≤ 8202) || n == 8232 || n == 8233 || n == 8239 ||
    n == 8287 || n == 12288

/-- The characters with which a name can start. -/
def nameStart (c : Char) : Bool :=
  ('a' ≤ c && c ≤ 'z') || ('A' ≤ c && c ≤ 'Z') || c == '_' || c == '.' || c == '\'' || c == '@'

/-- The characters that can occur in a name. -/
def nameChar (c : Char) : Bool := nameStart c || isDigit c

/-- The symbol for a name, given the Boolean variables. -/
def nameTok (bools : List Word) (w : Word) : Tok :=
  if w = txt!"X" then ⟨.X, w⟩ else if w = txt!"F" then ⟨.F, w⟩ else if w = txt!"G" then ⟨.G, w⟩ else if w = txt!"U" then ⟨.U, w⟩
  else if w = txt!"W" then ⟨.W, w⟩ else if w = txt!"FALSE" then ⟨.FALSE, w⟩ else if w = txt!"TRUE" then ⟨.TRUE, w⟩
  else if w = txt!"next" then ⟨.next, w⟩ else if w = txt!"LEASTSIGNIFICANTBITOVERWRITES" then ⟨.LSB, w⟩
  else if w ∈ bools then ⟨.boolID, w⟩ else ⟨.numID, w⟩

/-- The symbols that consist of one character. -/
def charTok (c : Char) : Tok :=
  ⟨if c = '!' then .bang else if c = '&' then .amp else if c = '(' then .lpar else if c = ')' then .rpar else if c = '*' then .star
    else if c = '+' then .plus else if c = '-' then .minus else if c = '/' then .slash else if c = '<' then .less else if c = '=' then .equal
    else if c = '>' then .greater else if c = '[' then .lbrack else if c = '\\' then .backslash else if c = ']' then .rbrack
    else if c = '^' then .caret else if c = '|' then .bar else if c = '~' then .tilde else .other, [c]⟩

/-- The line consists of these symbols: names and numbers are as long as possible, and white space is skipped. -/
inductive Lexes (bools : List Word) : List Char → List Tok → Prop
  | nil : Lexes bools [] []
  | space {c cs ts} : pySpace c → Lexes bools cs ts → Lexes bools (c :: cs) ts
  | name {c w rest ts} : nameStart c → (∀ d ∈ w, nameChar d) → (∀ d, rest.head? = some d → nameChar d = false) → Lexes bools rest ts →
      Lexes bools (c :: w ++ rest) (nameTok bools (c :: w) :: ts)
  | number {w rest ts} : w ≠ [] → (∀ d ∈ w, isDigit d) → (∀ d, rest.head? = some d → isDigit d = false) → Lexes bools rest ts →
      Lexes bools (w ++ rest) (⟨.numeral, w⟩ :: ts)
  | char {c cs ts} : pySpace c = false → nameStart c = false → isDigit c = false → Lexes bools cs ts → Lexes bools (c :: cs) (charTok c :: ts)

/-! ### Formulas -/

/-- Numbers: `overwrite a b` is `b` with its lowest bits replaced by those of `a`. -/
inductive NExp where
  | num (n : Nat)
  | var (x : Word)
  | add (a b : NExp)
  | overwrite (a b : NExp)

inductive Cmp where
  | gt | ge | lt | le | eq | ne
  deriving DecidableEq

/-- Formulas.  The names of next values end with `'`; `next f` says that `f` holds in the next position. -/
inductive SFml where
  | tt
  | ff
  | atom (x : Word)
  | cmp (op : Cmp) (a b : NExp)
  | not (f : SFml)
  | next (f : SFml)
  | and (f g : SFml)
  | or (f g : SFml)
  | imp (f g : SFml)
  | iff (f g : SFml)

/-- The comparison operators. -/
def Cmp.kinds : Cmp → List Term
  | .gt => [.greater]
  | .ge => [.greater, .equal]
  | .lt => [.less]
  | .le => [.less, .equal]
  | .eq => [.equal]
  | .ne => [.bang, .equal]

mutual

/-- Numbers in infix notation.  Sums associate to the right. -/
inductive InfixSum : List Tok → NExp → Prop
  | one {ts a} : InfixFactor ts a → InfixSum ts a
  | add {ts us a b op} : InfixFactor ts a → op.kind = .plus → InfixSum us b → InfixSum (ts ++ op :: us) (.add a b)

inductive InfixFactor : List Tok → NExp → Prop
  | one {ts a} : InfixNumber ts a → InfixFactor ts a
  | overwrite {ts us a b op} : InfixNumber ts a → op.kind = .LSB → InfixNumber us b → InfixFactor (ts ++ op :: us) (.overwrite a b)

inductive InfixNumber : List Tok → NExp → Prop
  | var {t} : t.kind = .numID → InfixNumber [t] (.var t.text)
  | num {t} : t.kind = .numeral → InfixNumber [t] (.num (digitsVal t.text))
  | brackets {l r ts a} : l.kind = .lpar → InfixSum ts a → r.kind = .rpar → InfixNumber (l :: ts ++ [r]) a

end

/-- Formulas in infix notation.  The levels are those of the table of precedences: 0 bi-implication, 1 implication, 2 disjunction, 3 conjunction, 4 negation and
next, 5 what needs no brackets. -/
inductive Infix : Nat → List Tok → SFml → Prop
  | up {n ts f} : n < 5 → Infix (n + 1) ts f → Infix n ts f
  | iff {ts op us f g} : Infix 0 ts f → (op.map Tok.kind = [.less, .minus, .greater] ∨ op.map Tok.kind = [.less, .minus, .minus, .greater]) →
      Infix 1 us g → Infix 0 (ts ++ op ++ us) (.iff f g)
  | imp {ts op us f g} : Infix 1 ts f → (op.map Tok.kind = [.minus, .greater] ∨ op.map Tok.kind = [.minus, .minus, .greater]) →
      Infix 2 us g → Infix 1 (ts ++ op ++ us) (.imp f g)
  | or {ts op us f g} : Infix 2 ts f → (op.map Tok.kind = [.bar] ∨ op.map Tok.kind = [.bar, .bar] ∨ op.map Tok.kind = [.backslash, .slash]) →
      Infix 3 us g → Infix 2 (ts ++ op ++ us) (.or f g)
  | and {ts op us f g} : Infix 3 ts f → (op.map Tok.kind = [.amp] ∨ op.map Tok.kind = [.amp, .amp] ∨ op.map Tok.kind = [.slash, .backslash]) →
      Infix 4 us g → Infix 3 (ts ++ op ++ us) (.and f g)
  | not {op us f} : (op.kind = .bang ∨ op.kind = .tilde) → Infix 4 us f → Infix 4 (op :: us) (.not f)
  | next {op us f} : (op.map Tok.kind = [.next] ∨ op.map Tok.kind = [.X] ∨ op.map Tok.kind = [.lpar, .rpar]) → Infix 4 us f →
      Infix 4 (op ++ us) (.next f)
  | tt {t} : t.kind = .TRUE → Infix 5 [t] .tt
  | ff {t} : t.kind = .FALSE → Infix 5 [t] .ff
  | atom {t} : t.kind = .boolID → Infix 5 [t] (.atom t.text)
  | cmp {ts op us a b} (o : Cmp) : InfixSum ts a → op.map Tok.kind = o.kinds → InfixSum us b → Infix 5 (ts ++ op ++ us) (.cmp o a b)
  | brackets {l r ts f} : (l.kind = .lpar ∧ r.kind = .rpar ∨ l.kind = .lbrack ∧ r.kind = .rbrack) → Infix 0 ts f →
      Infix 5 (l :: ts ++ [r]) f

/-- The line is the formula `f`. -/
def IsFormula (bools : List Word) (line : List Char) (f : SFml) : Prop := ∃ ts, Lexes bools line ts ∧ Infix 0 ts f

/-! ### Their meaning -/

/-- Names of next values end with `'`. -/
def isPrimed (x : Word) : Bool := x.getLast? == some '\''

def unprimed (x : Word) : Word := if isPrimed x then x.dropLast else x

/-- The bounds of the integer variables. -/
abbrev Bounds := Word → Option (Int × Int)

/-- The number of bits that a difference of `d` from the lower bound needs. -/
def bitsFor (d : Int) : Nat := d.toNat.size

/-- The number of bits of a sum. -/
def sumWidth (m n : Nat) : Nat := if m = 0 then n else if n = 0 then m else max m n + 1

/-- The number of bits in which a number is represented. -/
def NExp.width (bounds : Bounds) : NExp → Nat
  | .num n => n.size
  | .var x =>
    match bounds (unprimed x) with
    | some (lo, hi) => if lo = 0 then bitsFor hi else sumWidth (bitsFor (hi - lo)) lo.toNat.size
    | none => 0
  | .add a b => sumWidth (a.width bounds) (b.width bounds)
  | .overwrite _ b => b.width bounds

/-- The value of a number; `val` gives the values of the integer variables (and, for primed names, their next values). -/
def NExp.value (bounds : Bounds) (val : Word → Int) : NExp → Int
  | .num n => n
  | .var x => val x
  | .add a b => a.value bounds val + b.value bounds val
  | .overwrite a b => b.value bounds val / 2 ^ a.width bounds * 2 ^ a.width bounds + a.value bounds val

def Cmp.holds : Cmp → Int → Int → Bool
  | .gt, a, b => a > b
  | .ge, a, b => a ≥ b
  | .lt, a, b => a < b
  | .le, a, b => a ≤ b
  | .eq, a, b => a = b
  | .ne, a, b => a ≠ b

/-- Whether a formula holds; `b` and `val` give the current values of variables and, for primed names, the next ones. -/
def SFml.holds (bounds : Bounds) (b : Word → Bool) (val : Word → Int) : SFml → Bool
  | .tt => true
  | .ff => false
  | .atom x => b x
  | .cmp o m n => o.holds (m.value bounds val) (n.value bounds val)
  | .not f => !f.holds bounds b val
  | .next f => f.holds bounds (fun x => b (prime x)) (fun x => val (prime x))
  | .and f g => f.holds bounds b val && g.holds bounds b val
  | .or f g => f.holds bounds b val || g.holds bounds b val
  | .imp f g => !f.holds bounds b val || g.holds bounds b val
  | .iff f g => f.holds bounds b val == g.holds bounds b val

/-- Proper numbers: variables are declared, with lower bounds that are not negative, and do not have a prime if `nx` (they are used for the next values already);
the number whose bits are replaced has more bits. -/
def NExp.Proper (bounds : Bounds) (nx : Bool) : NExp → Prop
  | .num _ => True
  | .var x => (∃ lo hi, bounds (unprimed x) = some (lo, hi) ∧ 0 ≤ lo) ∧ (nx → isPrimed x = false)
  | .add a b => a.Proper bounds nx ∧ b.Proper bounds nx
  | .overwrite a b => a.Proper bounds nx ∧ b.Proper bounds nx ∧ a.width bounds < b.width bounds

/-- Proper formulas: numbers are proper, and there is no `next` and no primed name below a `next`. -/
def SFml.Proper (bounds : Bounds) (nx : Bool) : SFml → Prop
  | .tt => True
  | .ff => True
  | .atom x => nx → '\'' ∉ x
  | .cmp _ a b => a.Proper bounds nx ∧ b.Proper bounds nx
  | .not f => f.Proper bounds nx
  | .next f => nx = false ∧ f.Proper bounds true
  | .and f g => f.Proper bounds nx ∧ g.Proper bounds nx
  | .or f g => f.Proper bounds nx ∧ g.Proper bounds nx
  | .imp f g => f.Proper bounds nx ∧ g.Proper bounds nx
  | .iff f g => f.Proper bounds nx ∧ g.Proper bounds nx

/-! ### The names that are used -/

def NExp.names : NExp → List Word
  | .num _ => []
  | .var x => [x]
  | .add a b => a.names ++ b.names
  | .overwrite a b => a.names ++ b.names

/-- The Boolean variables that a formula uses; next values are marked with `'`. -/
def SFml.atoms (nx : Bool) : SFml → List Word
  | .tt => []
  | .ff => []
  | .atom x => [if nx then prime x else x]
  | .cmp _ _ _ => []
  | .not f => f.atoms nx
  | .next f => f.atoms true
  | .and f g => f.atoms nx ++ g.atoms nx
  | .or f g => f.atoms nx ++ g.atoms nx
  | .imp f g => f.atoms nx ++ g.atoms nx
  | .iff f g => f.atoms nx ++ g.atoms nx

/-- The integer variables that a formula uses; next values are marked with `'`. -/
def SFml.numbers (nx : Bool) : SFml → List Word
  | .tt => []
  | .ff => []
  | .atom _ => []
  | .cmp _ a b => (a.names ++ b.names).map fun x => if nx then prime x else x
  | .not f => f.numbers nx
  | .next f => f.numbers true
  | .and f g => f.numbers nx ++ g.numbers nx
  | .or f g => f.numbers nx ++ g.numbers nx
  | .imp f g => f.numbers nx ++ g.numbers nx
  | .iff f g => f.numbers nx ++ g.numbers nx

/-! ### Binary numbers -/

/-- The value of a list of bits, the lowest bit first. -/
def binary : List Bool → Nat
  | [] => 0
  | b :: bs => b.toNat + 2 * binary bs

/-- `ρ` gives values to Boolean variables, `val` to integer variables.  The bits of an integer variable (`bits`) are the binary representation of its distance
from its lower bound; the same holds for next values. -/
def Encodes (bounds : Bounds) (bits : Word → Option (List Word)) (ρ : Word → Bool) (val : Word → Int) : Prop :=
  ∀ x lo hi bs, bounds x = some (lo, hi) → bits x = some bs →
    ((binary (bs.map ρ) : Nat) : Int) = val x - lo ∧ ((binary (bs.map fun b => ρ (prime b)) : Nat) : Int) = val (prime x) - lo

end Slugs.Spec.Structured
