import Verif.Spec.SpecFile

/-!
Formulas of linear temporal logic as texts (`/repo/tools/grammar.wi`): their symbols, their syntax, their meaning, and the form in which they can be translated to GR(1)
specifications.
-/

namespace Slugs.Spec.LtlText

/-! ### Symbols -/

/-- The kinds of symbols that occur in formulas (`eof`: the end of the text; `other`: no symbol of the language). -/
inductive Term where
  | bang | amp | lpar | rpar | star | plus | minus | slash | zero | one | semi | less | equal | greater | F | FALSE | G | TRUE | U | W | X
  | lbrack | backslash | rbrack | caret | id | next | bar | tilde | eof | other
  deriving DecidableEq, Repr

/-- A symbol with its text. -/
structure Tok where
  kind : Term
  text : List Char
  deriving DecidableEq, Repr

/-- The characters of which words consist. -/
def wordChar (c : Char) : Bool :=
  ('a' ≤ c && c ≤ 'z') || ('A' ≤ c && c ≤ 'Z') || ('0' ≤ c && c ≤ '9') || c == '_' || c == '.'

/-- The symbol for a word. -/
def wordTok (w : Word) : Tok :=
  ⟨if w = txt!"X" then .X else if w = txt!"F" then .F else if w = txt!"G" then .G else if w = txt!"U" then .U
    else if w = txt!"W" then .W else if w = txt!"0" then .zero else if w = txt!"1" then .one else if w = txt!"FALSE" then .FALSE
    else if w = txt!"TRUE" then .TRUE else if w = txt!"next" then .next else .id, w⟩

/-- The symbols that consist of one character. -/
def charTok (c : Char) : Tok :=
  ⟨if c = '!' then .bang else if c = '&' then .amp else if c = '(' then .lpar else if c = ')' then .rpar else if c = '*' then .star
    else if c = '+' then .plus else if c = '-' then .minus else if c = '/' then .slash else if c = ';' then .semi else if c = '<' then .less
    else if c = '=' then .equal else if c = '>' then .greater else if c = '[' then .lbrack else if c = '\\' then .backslash else if c = ']' then .rbrack
    else if c = '^' then .caret else if c = '|' then .bar else if c = '~' then .tilde else .other, [c]⟩

/-- The text consists of these symbols: words are as long as possible, and white space is skipped. -/
inductive Lexes : List Char → List Tok → Prop
  | nil : Lexes [] []
  | space {c cs ts} : isSpace c → Lexes cs ts → Lexes (c :: cs) ts
  | word {w rest ts} : w ≠ [] → (∀ d ∈ w, wordChar d) → (∀ d, rest.head? = some d → wordChar d = false) → Lexes rest ts → Lexes (w ++ rest) (wordTok w :: ts)
  | char {c cs ts} : isSpace c = false → wordChar c = false → Lexes cs ts → Lexes (c :: cs) (charTok c :: ts)

/-- No name starts with `FALSE`, `TRUE` or `next`. -/
def PlainNames (ts : List Tok) : Prop :=
  ∀ t ∈ ts, t.kind = .id → ¬ txt!"FALSE" <+: t.text ∧ ¬ txt!"TRUE" <+: t.text ∧ ¬ txt!"next" <+: t.text

/-! ### Formulas -/

/-- Formulas.  `lit x none` (just a name) says that `x` is true, and `lit x (some b)` compares the value of `x` with `b`. -/
inductive Ltl where
  | tt
  | ff
  | lit (x : Word) (v : Option Bool)
  | not (f : Ltl)
  | next (f : Ltl)
  | eventually (f : Ltl)
  | globally (f : Ltl)
  | and (f g : Ltl)
  | or (f g : Ltl)
  | xor (f g : Ltl)
  | imp (f g : Ltl)
  | iff (f g : Ltl)
  | strongUntil (f g : Ltl)
  | weakUntil (f g : Ltl)
  deriving DecidableEq

/-- Formulas in infix notation; operators associate to the left.  The levels are those of the table of precedences: 0 bi-implication, 1 implication, 2 exclusive or,
3 disjunction, 4 conjunction, 5 binary temporal operators, 6 unary operators, 7 what needs no brackets. -/
inductive Infix : Nat → List Tok → Ltl → Prop
  | up {n ts f} : n < 7 → Infix (n + 1) ts f → Infix n ts f
  | iff {ts op us f g} : Infix 0 ts f → op.map Tok.kind ∈ ([[.less, .minus, .greater], [.less, .minus, .minus, .greater]] : List (List Term)) →
      Infix 1 us g → Infix 0 (ts ++ op ++ us) (.iff f g)
  | imp {ts op us f g} : Infix 1 ts f → op.map Tok.kind ∈ ([[.minus, .greater], [.minus, .minus, .greater]] : List (List Term)) →
      Infix 2 us g → Infix 1 (ts ++ op ++ us) (.imp f g)
  | xor {ts op us f g} : Infix 2 ts f → op.map Tok.kind = [.caret] → Infix 3 us g → Infix 2 (ts ++ op ++ us) (.xor f g)
  | or {ts op us f g} : Infix 3 ts f → op.map Tok.kind ∈ ([[.plus], [.backslash, .slash], [.bar], [.bar, .bar]] : List (List Term)) →
      Infix 4 us g → Infix 3 (ts ++ op ++ us) (.or f g)
  | and {ts op us f g} : Infix 4 ts f → op.map Tok.kind ∈ ([[.star], [.slash, .backslash], [.amp], [.amp, .amp]] : List (List Term)) →
      Infix 5 us g → Infix 4 (ts ++ op ++ us) (.and f g)
  | strongUntil {ts op us f g} : Infix 5 ts f → op.map Tok.kind = [.U] → Infix 6 us g → Infix 5 (ts ++ op ++ us) (.strongUntil f g)
  | weakUntil {ts op us f g} : Infix 5 ts f → op.map Tok.kind = [.W] → Infix 6 us g → Infix 5 (ts ++ op ++ us) (.weakUntil f g)
  | not {op us f} : op.map Tok.kind ∈ ([[.bang], [.tilde]] : List (List Term)) → Infix 6 us f → Infix 6 (op ++ us) (.not f)
  | next {op us f} : op.map Tok.kind ∈ ([[.lpar, .rpar], [.next], [.X]] : List (List Term)) → Infix 6 us f → Infix 6 (op ++ us) (.next f)
  | eventually {op us f} : op.map Tok.kind ∈ ([[.less, .greater], [.F]] : List (List Term)) → Infix 6 us f → Infix 6 (op ++ us) (.eventually f)
  | globally {op us f} : op.map Tok.kind ∈ ([[.lbrack, .rbrack], [.G]] : List (List Term)) → Infix 6 us f → Infix 6 (op ++ us) (.globally f)
  | tt {t} : t.kind = .TRUE → Infix 7 [t] .tt
  | ff {t} : t.kind = .FALSE → Infix 7 [t] .ff
  | name {t} : t.kind = .id → Infix 7 [t] (.lit t.text none)
  | isZero {t e v} : t.kind = .id → e.kind = .equal → v.kind = .zero → Infix 7 [t, e, v] (.lit t.text (some false))
  | isOne {t e v} : t.kind = .id → e.kind = .equal → v.kind = .one → Infix 7 [t, e, v] (.lit t.text (some true))
  | brackets {l r ts f} : (l.kind = .lpar ∧ r.kind = .rpar ∨ l.kind = .lbrack ∧ r.kind = .rbrack) → Infix 0 ts f → Infix 7 (l :: ts ++ [r]) f

/-- The text is the formula `f`, followed by a semicolon. -/
def IsFormula (text : List Char) (f : Ltl) : Prop := ∃ ts e, Lexes text (ts ++ [e]) ∧ PlainNames ts ∧ Infix 0 ts f ∧ e.kind = .semi

/-- Whether a formula holds at some time in a sequence of valuations. -/
def Ltl.Holds (σ : Nat → Word → Bool) : Nat → Ltl → Prop
  | _, .tt => True
  | _, .ff => False
  | n, .lit x v => σ n x = v.getD true
  | n, .not f => ¬ f.Holds σ n
  | n, .next f => f.Holds σ (n + 1)
  | n, .eventually f => ∃ m, n ≤ m ∧ f.Holds σ m
  | n, .globally f => ∀ m, n ≤ m → f.Holds σ m
  | n, .and f g => f.Holds σ n ∧ g.Holds σ n
  | n, .or f g => f.Holds σ n ∨ g.Holds σ n
  | n, .xor f g => ¬ (f.Holds σ n ↔ g.Holds σ n)
  | n, .imp f g => f.Holds σ n → g.Holds σ n
  | n, .iff f g => f.Holds σ n ↔ g.Holds σ n
  | n, .strongUntil f g => ∃ m, n ≤ m ∧ g.Holds σ m ∧ ∀ k, n ≤ k → k < m → f.Holds σ k
  | n, .weakUntil f g => (∀ m, n ≤ m → f.Holds σ m) ∨ ∃ m, n ≤ m ∧ g.Holds σ m ∧ ∀ k, n ≤ k → k < m → f.Holds σ k

/-! ### GR(1) form -/

/-- Formulas about one step: no temporal operator apart from `next`, which does not occur below another `next` (nor at all if `nx`), and no exclusive or. -/
def Ltl.OneStep (nx : Bool) : Ltl → Prop
  | .tt | .ff | .lit _ _ => True
  | .not f => f.OneStep nx
  | .next f => nx = false ∧ f.OneStep true
  | .and f g | .or f g | .imp f g | .iff f g => f.OneStep nx ∧ g.OneStep nx
  | _ => False

/-- The parts of a conjunction. -/
def Ltl.conjuncts : Ltl → List Ltl
  | .and f g => f.conjuncts ++ g.conjuncts
  | f => [f]

/-- The kinds of constraints. -/
inductive Kind where
  | init | safety | liveness
  deriving DecidableEq

/-- The kind of a conjunct, and the formula about one step in it. -/
def Ltl.role : Ltl → Kind × Ltl
  | .globally (.eventually f) => (.liveness, f)
  | .globally f => (.safety, f)
  | f => (.init, f)

/-- A conjunction of initial, safety and liveness constraints; no `next` in liveness constraints if `nx`. -/
def Ltl.Gr1 (nx : Bool) (f : Ltl) : Prop := ∀ c ∈ f.conjuncts, c.role.2.OneStep (decide (c.role.1 = .liveness) && nx)

/-- The variables that a formula about one step uses, and whether their next values are used. -/
def Ltl.uses (nx : Bool) : Ltl → List (Word × Bool)
  | .lit x _ => [(x, nx)]
  | .tt | .ff => []
  | .not f | .eventually f | .globally f => f.uses nx
  | .next f => f.uses true
  | .and f g | .or f g | .xor f g | .imp f g | .iff f g | .strongUntil f g | .weakUntil f g => f.uses nx ++ g.uses nx

/-- No variable is compared with 0. -/
def Ltl.Positive : Ltl → Prop
  | .lit _ v => v ≠ some false
  | .tt | .ff => True
  | .not f | .next f | .eventually f | .globally f => f.Positive
  | .and f g | .or f g | .xor f g | .imp f g | .iff f g | .strongUntil f g | .weakUntil f g => f.Positive ∧ g.Positive

/-- All variables are compared with 0 or 1. -/
def Ltl.Compared : Ltl → Prop
  | .lit _ v => v ≠ none
  | .tt | .ff => True
  | .not f | .next f | .eventually f | .globally f => f.Compared
  | .and f g | .or f g | .xor f g | .imp f g | .iff f g | .strongUntil f g | .weakUntil f g => f.Compared ∧ g.Compared

/-- All names start with one character and a dot. -/
def Ltl.Prefixed (f : Ltl) : Prop := ∀ u ∈ f.uses false, u.1[1]? = some '.'

/-- The conjuncts only use the variables that slugs allows in assumptions: `name` are the names of variables in the translation. -/
def EnvScoped (name : Word → Word) (inputs outputs : List Word) (f : Ltl) : Prop :=
  ∀ c ∈ f.conjuncts, ∀ u ∈ c.role.2.uses false,
    match c.role.1 with
    | .init => name u.1 ∈ inputs ∧ u.2 = false
    | .safety => name u.1 ∈ inputs ∨ name u.1 ∈ outputs ∧ u.2 = false
    | .liveness => name u.1 ∈ inputs ++ outputs

/-- The conjuncts only use the variables that slugs allows in guarantees. -/
def SysScoped (name : Word → Word) (inputs outputs : List Word) (f : Ltl) : Prop :=
  ∀ c ∈ f.conjuncts, ∀ u ∈ c.role.2.uses false, name u.1 ∈ inputs ++ outputs ∧ (c.role.1 = .init → u.2 = false)

/-! ### What the result is to mean -/

/-- The values of variables in a sequence of positions; `name` are the names of variables in the translation. -/
def valuesOf (sp : SpecFile) (name : Word → Word) (r : Nat → Pos sp.In sp.Out) (n : Nat) (x : Word) : Bool := sp.now (r n).1 (r n).2 (name x)

/-- The environment satisfies all assumptions. -/
def EnvKeeps (sp : SpecFile) (r : Nat → Pos sp.In sp.Out) : Prop :=
  sp.game.initEnv (r 0).1 ∧ (∀ n, sp.game.safetyEnv (r n) (r (n + 1)).1) ∧ ∀ A ∈ sp.game.assumptions, ∀ m, ∃ n, m ≤ n ∧ A (r n) (r (n + 1))

/-- The system satisfies all guarantees. -/
def SysKeeps (sp : SpecFile) (r : Nat → Pos sp.In sp.Out) : Prop :=
  sp.game.initSys (r 0) ∧ (∀ n, sp.game.safetySys (r n) (r (n + 1))) ∧ ∀ G ∈ sp.game.guarantees, ∀ m, ∃ n, m ≤ n ∧ G (r n) (r (n + 1))

/-- The specification has the given variables, and in all sequences of positions the environment satisfies the assumptions if and only if all of `φs` hold, and the
system satisfies the guarantees if and only if all of `ψs` hold. -/
def Expresses (sp : SpecFile) (inputs outputs : List Word) (name : Word → Word) (φs ψs : List Ltl) : Prop :=
  sp.inputs = inputs ∧ sp.outputs = outputs ∧ ∀ r : Nat → Pos sp.In sp.Out,
    (EnvKeeps sp r ↔ ∀ φ ∈ φs, φ.Holds (valuesOf sp name r) 0) ∧ (SysKeeps sp r ↔ ∀ ψ ∈ ψs, ψ.Holds (valuesOf sp name r) 0)

/-- A name that slugs reads as such. -/
def UsableName (x : Word) : Prop := x ≠ [] ∧ (∀ c ∈ x, isSpace c = false) ∧ x ∉ reserved ∧ x.head? ≠ some '#' ∧ x.head? ≠ some '['

/-- Names that slugs reads as such; no name is used twice. -/
def UsableNames (inputs outputs : List Word) : Prop :=
  (∀ x ∈ inputs ++ outputs, UsableName x) ∧ (inputs ++ outputs ++ inputs.map prime ++ outputs.map prime).Nodup

/-! ### The files of LTLMop -/

/-- The lines of an LTL file that belong to the assumptions and to the guarantees; the first argument says which of them are open (`some false`: the assumptions). -/
inductive LtlParts : Option Bool → List (List Char) → List (List Char) → List (List Char) → Prop
  | nil {cur} : LtlParts cur [] [] []
  | assumptions {cur l ls as gs} : trim l = txt!"LTLSPEC -- Assumptions" → LtlParts (some false) ls as gs → LtlParts cur (l :: ls) as gs
  | guarantees {cur l ls as gs} : trim l = txt!"LTLSPEC -- Guarantees" → LtlParts (some true) ls as gs → LtlParts cur (l :: ls) as gs
  | skip {l ls as gs} : trim l ∉ [txt!"LTLSPEC -- Assumptions", txt!"LTLSPEC -- Guarantees"] → LtlParts none ls as gs → LtlParts none (l :: ls) as gs
  | assumption {l ls as gs} : trim l ∉ [txt!"LTLSPEC -- Assumptions", txt!"LTLSPEC -- Guarantees"] → LtlParts (some false) ls as gs →
      LtlParts (some false) (l :: ls) (trim l :: as) gs
  | guarantee {l ls as gs} : trim l ∉ [txt!"LTLSPEC -- Assumptions", txt!"LTLSPEC -- Guarantees"] → LtlParts (some true) ls as gs →
      LtlParts (some true) (l :: ls) as (trim l :: gs)

/-- The texts of the assumptions and of the guarantees in an LTL file: the lines, with blanks between them. -/
def LtlFile (text a g : List Char) : Prop := ∃ as gs, LtlParts none (splitLines text) as gs ∧ a = as.flatMap (' ' :: ·) ∧ g = gs.flatMap (' ' :: ·)

/-- The names that are declared in the modules `env` and `sys` of an SMV file. -/
inductive SmvDecls : Option Bool → List (List Char) → List Word → List Word → Prop
  | nil {cur} : SmvDecls cur [] [] []
  | env {cur l ls is os} : txt!"MODULE env" <+: trim l → SmvDecls (some false) ls is os → SmvDecls cur (l :: ls) is os
  | sys {cur l ls is os} : txt!"MODULE sys" <+: trim l → SmvDecls (some true) ls is os → SmvDecls cur (l :: ls) is os
  | skip {cur l ls is os} : ¬ txt!"MODULE env" <+: trim l → ¬ txt!"MODULE sys" <+: trim l → ¬ txt!" : " <:+: trim l ∨ cur = none → SmvDecls cur ls is os →
      SmvDecls cur (l :: ls) is os
  | input {l ls x t is os} : trim l = x ++ txt!" : " ++ t → x ≠ [] → (∀ c ∈ x, isSpace c = false) → SmvDecls (some false) ls is os →
      SmvDecls (some false) (l :: ls) (x :: is) os
  | output {l ls x t is os} : trim l = x ++ txt!" : " ++ t → x ≠ [] → (∀ c ∈ x, isSpace c = false) → SmvDecls (some true) ls is os →
      SmvDecls (some true) (l :: ls) is (x :: os)

/-! ### The files of RATSY -/

/-- The line with which a part of the file starts. -/
def ratsyHeader : Section → List Char
  | .input => txt!"[INPUT_VARIABLES]"
  | .output => txt!"[OUTPUT_VARIABLES]"
  | .envInit => txt!"[ENV_INITIAL]"
  | .sysInit => txt!"[SYS_INITIAL]"
  | .envTrans => txt!"[ENV_TRANSITIONS]"
  | .sysTrans => txt!"[SYS_TRANSITIONS]"
  | .envLiveness => txt!"[ENV_FAIRNESS]"
  | .sysLiveness => txt!"[SYS_FAIRNESS]"

/-- The lines of the file, each with the part it belongs to; blank lines and comments are skipped. -/
inductive RatsyContent : Option Section → List (List Char) → List (Section × List Char) → Prop
  | nil {cur} : RatsyContent cur [] []
  | skip {cur l ls items} : trim l = [] ∨ (trim l).head? = some '#' → RatsyContent cur ls items → RatsyContent cur (l :: ls) items
  | header {cur l ls items} (s : Section) : trim l = ratsyHeader s → RatsyContent (some s) ls items → RatsyContent cur (l :: ls) items
  | item {s l ls items} : trim l ≠ [] → (trim l).head? ≠ some '#' → (trim l).head? ≠ some '[' → RatsyContent (some s) ls items →
      RatsyContent (some s) (l :: ls) ((s, trim l) :: items)

/-- The parts of a text between semicolons, without white space around them; empty ones are left out. -/
def Semicolons (text : List Char) (parts : List (List Char)) : Prop :=
  ∃ ps, ps ≠ [] ∧ (∀ p ∈ ps, ';' ∉ p) ∧ text = List.intercalate [';'] ps ∧ parts = (ps.map trim).filter (· ≠ [])

/-- The file consists of these parts.  (The lines of a part are put together without anything in between.) -/
def RatsyFile (text : List Char) (part : Section → List (List Char)) : Prop :=
  ∃ items, RatsyContent none (splitLines text) items ∧ ∀ s, Semicolons (itemsOf s items).flatten (part s)

end Slugs.Spec.LtlText
