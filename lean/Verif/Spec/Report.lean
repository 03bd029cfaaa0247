import Verif.Spec.StructuredFile
import Verif.Spec.Analyze

/-! What the specification report is about: positions from which the system can make the environment fail, and texts in HTML files. -/

namespace Slugs.Spec

variable {I O : Type}

/-- The system can enforce from `s` that the environment fails: it has a strategy that only takes allowed moves, and on all infinite plays some liveness assumption
does not hold infinitely often.  (Plays end only where the environment has no allowed input.) -/
def Game.ForcesFailure (g : Game I O) (s : Pos I O) : Prop :=
  ∃ σ, (∀ cur h i, g.SysHist σ s (cur :: h) → g.safetyEnv cur i → g.safetySys cur (i, σ (cur :: h) i)) ∧
    ∀ p : Nat → Pos I O, (∀ n, g.SysHist σ s (prefixHist p n)) → ∃ a ∈ g.assumptions, ¬ InfOften a p

/-- A piece of an HTML file (first argument) without tags, and the text it stands for. -/
inductive ShowsText : List Char → List Char → Prop
  | nil : ShowsText [] []
  | plain {c h t} : c ≠ '<' → c ≠ '>' → c ≠ '&' → ShowsText h t → ShowsText (c :: h) (c :: t)
  | lt {h t} : ShowsText h t → ShowsText (txt!"&lt;" ++ h) ('<' :: t)
  | gt {h t} : ShowsText h t → ShowsText (txt!"&gt;" ++ h) ('>' :: t)
  | amp {h t} : ShowsText h t → ShowsText (txt!"&amp;" ++ h) ('&' :: t)

/-- The line after which nothing is shown. -/
def reportEnd : List Char := txt!"# --- End of the specification for the report"

/-- A line with nothing but white space. -/
def blankLine (l : List Char) : Bool := decide (trim l = [])

/-- The lines of a file that the report shows: those before the line that ends the specification for the report, without the blank lines at both ends.  Blank lines in
between are shown as empty lines. -/
def shownLines (text : List Char) : List (List Char) :=
  ((((splitLines text).takeWhile fun l => decide (trim l ≠ reportEnd)).dropWhile blankLine).reverse.dropWhile blankLine).reverse.map
    fun l => if blankLine l = true then [] else l

end Slugs.Spec
