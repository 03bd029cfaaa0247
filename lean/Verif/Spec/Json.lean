import Verif.Spec.Explicit
import Verif.Spec.Counter

/-!
Specification: JSON texts (RFC 8259), and the JSON values that stand for explicit strategies.
-/

namespace Slugs.Spec

/-- A JSON value.  A number is given by its digits and signs; a string is a list of code points; the members of an object are kept in the order of the text. -/
inductive Json where
  | null
  | bool (b : Bool)
  | num (digits : List Char)
  | str (cs : List Nat)
  | arr (vs : List Json)
  | obj (ms : List (List Nat × Json))

/-- White space. -/
def isJsonSpace (c : Char) : Bool := c == ' ' || c == '\t' || c == '\n' || c == '\r'

def JsonSpace (w : List Char) : Prop := ∀ c ∈ w, isJsonSpace c = true

def isJsonDigit (c : Char) : Bool := decide ('0' ≤ c) && decide (c ≤ '9')

/-- `int`: no leading zeros. -/
def JsonInt (s : List Char) : Prop := s = ['0'] ∨ ∃ d ds, s = d :: ds ∧ isJsonDigit d = true ∧ d ≠ '0' ∧ ∀ c ∈ ds, isJsonDigit c = true

/-- `[ frac ]` -/
def JsonFrac (s : List Char) : Prop := s = [] ∨ ∃ ds, s = '.' :: ds ∧ ds ≠ [] ∧ ∀ c ∈ ds, isJsonDigit c = true

/-- `[ exp ]` -/
def JsonExp (s : List Char) : Prop :=
  s = [] ∨ ∃ e sign ds, s = e :: (sign ++ ds) ∧ (e = 'e' ∨ e = 'E') ∧ (sign = [] ∨ sign = ['+'] ∨ sign = ['-']) ∧ ds ≠ [] ∧ ∀ c ∈ ds, isJsonDigit c = true

/-- `number = [ minus ] int [ frac ] [ exp ]` -/
def JsonNumber (s : List Char) : Prop :=
  ∃ m i f e, s = m ++ i ++ f ++ e ∧ (m = [] ∨ m = ['-']) ∧ JsonInt i ∧ JsonFrac f ∧ JsonExp e

/-- The characters that are written with a backslash and one more character. -/
def jsonEscape (c : Char) : Option Nat :=
  [('"', 0x22), ('\\', 0x5C), ('/', 0x2F), ('b', 8), ('f', 0xC), ('n', 0xA), ('r', 0xD), ('t', 9)].lookup c

def jsonHex (c : Char) : Option Nat :=
  [('0', 0), ('1', 1), ('2', 2), ('3', 3), ('4', 4), ('5', 5), ('6', 6), ('7', 7), ('8', 8), ('9', 9), ('a', 10), ('b', 11), ('c', 12), ('d', 13), ('e', 14),
   ('f', 15), ('A', 10), ('B', 11), ('C', 12), ('D', 13), ('E', 14), ('F', 15)].lookup c

/-- What is between the quotation marks of a string.  (Pairs of surrogates are not combined.) -/
inductive JsonChars : List Nat → List Char → Prop
  | nil : JsonChars [] []
  | plain {c : Char} {cs : List Nat} {s : List Char} : 0x20 ≤ c.toNat → c ≠ '"' → c ≠ '\\' → JsonChars cs s → JsonChars (c.toNat :: cs) (c :: s)
  | escape {c : Char} {n : Nat} {cs : List Nat} {s : List Char} : jsonEscape c = some n → JsonChars cs s → JsonChars (n :: cs) ('\\' :: c :: s)
  | unicode {a b c d : Char} {i j k l : Nat} {cs : List Nat} {s : List Char} : jsonHex a = some i → jsonHex b = some j → jsonHex c = some k →
      jsonHex d = some l → JsonChars cs s → JsonChars ((((16 * i + j) * 16 + k) * 16 + l) :: cs) ('\\' :: 'u' :: a :: b :: c :: d :: s)

mutual

/-- The text is a value, without white space around it. -/
inductive JsonValue : Json → List Char → Prop
  | null : JsonValue .null txt!"null"
  | true : JsonValue (.bool true) txt!"true"
  | false : JsonValue (.bool false) txt!"false"
  | num {s : List Char} : JsonNumber s → JsonValue (.num s) s
  | str {cs : List Nat} {s : List Char} : JsonChars cs s → JsonValue (.str cs) ('"' :: (s ++ ['"']))
  | emptyArr {w : List Char} : JsonSpace w → JsonValue (.arr []) ('[' :: (w ++ [']']))
  | arr {vs : List Json} {s : List Char} : JsonElements vs s → JsonValue (.arr vs) ('[' :: (s ++ [']']))
  | emptyObj {w : List Char} : JsonSpace w → JsonValue (.obj []) ('{' :: (w ++ ['}']))
  | obj {ms : List (List Nat × Json)} {s : List Char} : JsonMembers ms s → JsonValue (.obj ms) ('{' :: (s ++ ['}']))

/-- The text is a sequence of values with commas in between. -/
inductive JsonElements : List Json → List Char → Prop
  | one {w w' s : List Char} {v : Json} : JsonSpace w → JsonValue v s → JsonSpace w' → JsonElements [v] (w ++ (s ++ w'))
  | cons {w w' s t : List Char} {v : Json} {vs : List Json} : JsonSpace w → JsonValue v s → JsonSpace w' → JsonElements vs t →
      JsonElements (v :: vs) (w ++ (s ++ (w' ++ ',' :: t)))

/-- The text is a sequence of members with commas in between. -/
inductive JsonMembers : List (List Nat × Json) → List Char → Prop
  | one {w1 w2 w3 w4 k s : List Char} {cs : List Nat} {v : Json} : JsonSpace w1 → JsonChars cs k → JsonSpace w2 → JsonSpace w3 → JsonValue v s → JsonSpace w4 →
      JsonMembers [(cs, v)] (w1 ++ '"' :: (k ++ '"' :: (w2 ++ ':' :: (w3 ++ (s ++ w4)))))
  | cons {w1 w2 w3 w4 k s t : List Char} {cs : List Nat} {v : Json} {ms : List (List Nat × Json)} : JsonSpace w1 → JsonChars cs k → JsonSpace w2 →
      JsonSpace w3 → JsonValue v s → JsonSpace w4 → JsonMembers ms t →
      JsonMembers ((cs, v) :: ms) (w1 ++ '"' :: (k ++ '"' :: (w2 ++ ':' :: (w3 ++ (s ++ (w4 ++ ',' :: t))))))

end

/-- `JSON-text = ws value ws` -/
def JsonText (v : Json) (s : List Char) : Prop := ∃ w s' w', s = w ++ (s' ++ w') ∧ JsonSpace w ∧ JsonValue v s' ∧ JsonSpace w'

/-! ### Strategies -/

def Json.text (s : List Char) : Json := .str (s.map Char.toNat)

def Json.nat (n : Nat) : Json := .num (decimal n)

/-- A state: its goal, the values of the variables and the numbers of the successors. -/
def PState.json (st : PState) : Json :=
  .obj [((txt!"rank").map Char.toNat, .nat st.rank), ((txt!"state").map Char.toNat, .arr (st.label.map fun l => .nat (if l.2 then 1 else 0))),
    ((txt!"trans").map Char.toNat, .arr (st.succ.map .nat))]

/-- A strategy: version numbers, the names of the variables, and the states with their numbers. -/
def strategyJson (names : List Word) (sts : List PState) : Json :=
  .obj [((txt!"version").map Char.toNat, .nat 0), ((txt!"slugs").map Char.toNat, .text txt!"0.0.1"), ((txt!"variables").map Char.toNat, .arr (names.map .text)),
    ((txt!"nodes").map Char.toNat, .obj (sts.map fun st => ((decimal st.num).map Char.toNat, st.json)))]

end Slugs.Spec
