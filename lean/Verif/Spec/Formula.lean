import Verif.Spec.Text

/-!
Formulas of the `slugsin` format (`/repo/doc/input_formats.md`, "slugsin"): abstract syntax, meaning, concrete syntax.
-/

namespace Slugs.Spec

abbrev Word := List Char

inductive BinOp where
  | or | xor | and
  deriving DecidableEq, Repr

def BinOp.apply : BinOp → Bool → Bool → Bool
  | .or, a, b => a || b
  | .xor, a, b => a != b
  | .and, a, b => a && b

def BinOp.word : BinOp → Word
  | .or => txt!"|"
  | .xor => txt!"^"
  | .and => txt!"&"

/-- Abstract syntax.  `buffer [f0,...,fn]` is written `$ n+1 f0 ... fn`, `recall i` is written `? i`. -/
inductive Fml where
  | const (b : Bool)
  | var (x : Word)
  | not (f : Fml)
  | bin (op : BinOp) (f g : Fml)
  | buffer (fs : List Fml)
  | recall (i : Nat)

mutual

/-- The meaning of a formula, given the values of the variables and of the formulas stored so far in the innermost buffer
around it.  `none` means that the formula has no meaning (it uses a buffer element that has not been stored). -/
def Fml.eval (ρ : Word → Bool) (stored : List (Option Bool)) : Fml → Option Bool
  | .const b => some b
  | .var x => some (ρ x)
  | .not f => (f.eval ρ stored).map (fun b => !b)
  | .bin op f g => (f.eval ρ stored).bind fun a => (g.eval ρ stored).map fun b => op.apply a b
  | .buffer fs => ((Fml.evalBuffer ρ [] fs).getLast?).join
  | .recall i => (stored[i]?).join

/-- The values of the elements of a buffer; each can use the ones before it. -/
def Fml.evalBuffer (ρ : Word → Bool) (stored : List (Option Bool)) : List Fml → List (Option Bool)
  | [] => stored
  | f :: fs => Fml.evalBuffer ρ (stored ++ [f.eval ρ stored]) fs

end

mutual

/-- Well-formedness: buffers are not empty and only elements that have been stored before are recalled.
`n` is the number of elements stored so far in the innermost buffer. -/
def Fml.Wf : Nat → Fml → Prop
  | _, .const _ => True
  | _, .var _ => True
  | n, .not f => f.Wf n
  | n, .bin _ f g => f.Wf n ∧ g.Wf n
  | _, .buffer fs => fs ≠ [] ∧ Fml.WfBuffer 0 fs
  | n, .recall i => i < n

def Fml.WfBuffer : Nat → List Fml → Prop
  | _, [] => True
  | n, f :: fs => f.Wf n ∧ Fml.WfBuffer (n + 1) fs

end

mutual

/-- The variables of a formula. -/
def Fml.vars : Fml → List Word
  | .const _ => []
  | .var x => [x]
  | .not f => f.vars
  | .bin _ f g => f.vars ++ g.vars
  | .buffer fs => Fml.varsBuffer fs
  | .recall _ => []

def Fml.varsBuffer : List Fml → List Word
  | [] => []
  | f :: fs => f.vars ++ Fml.varsBuffer fs

end

/-! ### Concrete syntax -/

/-- `inp` starts (after white space) with the word `w`, and `rest` follows. -/
def StartsWithWord (inp w rest : List Char) : Prop :=
  ∃ sp, inp = sp ++ w ++ rest ∧ (∀ c ∈ sp, isSpace c) ∧ w ≠ [] ∧ (∀ c ∈ w, isSpace c = false) ∧
    (∀ c, rest.head? = some c → isSpace c)

/-- `inp` starts (after white space) with a number, and `rest` follows.  Numbers may have a sign and are
understood modulo 2^32; their absolute value must be less than 2^32. -/
def StartsWithNumber (inp : List Char) (n : Nat) (rest : List Char) : Prop :=
  ∃ sp sign ds, inp = sp ++ sign ++ ds ++ rest ∧ (∀ c ∈ sp, isSpace c) ∧ ds ≠ [] ∧ (∀ c ∈ ds, isDigit c) ∧
    (∀ c, rest.head? = some c → isDigit c = false) ∧ digitsVal ds < 2 ^ 32 ∧
    ((sign = [] ∨ sign = ['+']) ∧ n = digitsVal ds ∨ sign = ['-'] ∧ n = (2 ^ 32 - digitsVal ds) % 2 ^ 32)

/-- Words that cannot be used as variables in formulas. -/
def reserved : List Word := [txt!"|", txt!"^", txt!"&", txt!"!", txt!"1", txt!"0", txt!"$", txt!"?"]

mutual

/-- `inp` starts with a text for the formula, and `rest` follows (the EBNF of the documentation). -/
inductive Reads : List Char → Fml → List Char → Prop
  | true {inp rest} : StartsWithWord inp txt!"1" rest → Reads inp (.const true) rest
  | false {inp rest} : StartsWithWord inp txt!"0" rest → Reads inp (.const false) rest
  | var {inp x rest} : StartsWithWord inp x rest → x ∉ reserved → Reads inp (.var x) rest
  | not {inp r rest f} : StartsWithWord inp txt!"!" r → Reads r f rest → Reads inp (.not f) rest
  | bin {inp r r' rest op f g} : StartsWithWord inp (BinOp.word op) r → Reads r f r' → Reads r' g rest →
      Reads inp (.bin op f g) rest
  | buffer {inp r r' rest n fs} : StartsWithWord inp txt!"$" r → StartsWithNumber r n r' → ReadsN n r' fs rest →
      Reads inp (.buffer fs) rest
  | recall {inp r i rest} : StartsWithWord inp txt!"?" r → StartsWithNumber r i rest → Reads inp (.recall i) rest

/-- `n` formulas in sequence. -/
inductive ReadsN : Nat → List Char → List Fml → List Char → Prop
  | nil {inp} : ReadsN 0 inp [] inp
  | cons {n inp r rest f fs} : Reads inp f r → ReadsN n r fs rest → ReadsN (n + 1) inp (f :: fs) rest

end

/-- The line consists of (a text for) the formula. -/
def ReadsLine (line : List Char) (f : Fml) : Prop := ∃ rest, Reads line f rest ∧ ∀ c ∈ rest, isSpace c

/-- `inp` starts with the given words, separated by any white space, and `rest` follows. -/
inductive Spells : List Char → List Word → List Char → Prop
  | nil {inp} : Spells inp [] inp
  | cons {inp w r ws rest} : StartsWithWord inp w r → Spells r ws rest → Spells inp (w :: ws) rest

/-- Decimal representation. -/
def decimal (n : Nat) : List Char := (Nat.toDigits 10 n)

mutual

/-- Writing a formula in the input syntax, as a list of words. -/
def Fml.words : Fml → List Word
  | .const true => [txt!"1"]
  | .const false => [txt!"0"]
  | .var x => [x]
  | .not f => txt!"!" :: f.words
  | .bin op f g => op.word :: (f.words ++ g.words)
  | .buffer fs => txt!"$" :: decimal fs.length :: Fml.wordsBuffer fs
  | .recall i => [txt!"?", decimal i]

def Fml.wordsBuffer : List Fml → List Word
  | [] => []
  | f :: fs => f.words ++ Fml.wordsBuffer fs

end

/-- Words joined by single blanks. -/
def joinWords : List Word → List Char
  | [] => []
  | [w] => w
  | w :: ws => w ++ ' ' :: joinWords ws

/-- Writing a formula in the input syntax. -/
def Fml.text (f : Fml) : List Char := joinWords f.words

end Slugs.Spec
