import Verif.Spec.Text

/-!
The parts of the C++ standard library that the reader of slugs relies on, in the classic locale:
`std::getline`, `boost::trim`, `istream >> std::string`, `istream >> unsigned`.  These are models of library
behaviour (libstdc++), not of lines in `/repo`; each comment names the places in `/repo/src` that use it.
`boost::trim` (`synthesisContextBasics.cpp:146`) is `Spec.trim`, and repeated `std::getline` until it fails (`:147`) is
`Spec.splitLines`.
-/

namespace Slugs.Model

open Slugs.Spec

/-- `is >> word` (`synthesisContextBasics.cpp:24,97`): skip white space, then take everything up to the next
white space.  The word is empty if only white space is left. -/
def readWord (s : List Char) : List Char × List Char :=
  ((s.dropWhile isSpace).takeWhile (fun c => !isSpace c), (s.dropWhile isSpace).dropWhile (fun c => !isSpace c))

/-- `is >> u` for an `unsigned int` (`synthesisContextBasics.cpp:40,56`): skip white space, an optional sign, decimal
digits.  `none` means that the stream is in the failed state afterwards (no digits, or the number does not fit into
32 bits).  A negative number is converted modulo 2^32 (`std::num_get`). -/
def readUnsigned (s : List Char) : Option (Nat × List Char) :=
  let s := s.dropWhile isSpace
  let neg := s.head? == some '-'
  let s := if s.head? == some '-' || s.head? == some '+' then s.tail else s
  let ds := s.takeWhile isDigit
  let rest := s.dropWhile isDigit
  if ds.isEmpty then none
  else if digitsVal ds ≥ 2 ^ 32 then none
  else some (if neg then (2 ^ 32 - digitsVal ds) % 2 ^ 32 else digitsVal ds, rest)

end Slugs.Model
