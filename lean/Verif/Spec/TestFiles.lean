import Verif.Base
/-
What comparing two text files means.
-/
namespace Verif.Spec.TestFiles
open Verif

/-- The lines of a text: the parts between line ends; what follows the last line end is a line only if there is something. -/
def lines (t : Bytes) : List Bytes :=
  let parts := t.splitOn 0x0a
  if parts.getLast? = some [] then parts.dropLast else parts

/-- A line without carriage returns at its end. -/
def clean (l : Bytes) : Bytes := (l.reverse.dropWhile (· == 0x0d)).reverse

/-- White space. -/
def blank (c : UInt8) : Bool := c ∈ b! " \t\n\r" ∨ c = 0x0b ∨ c = 0x0c
/-- A line without white space at its ends. -/
def strip (l : Bytes) : Bytes := ((l.dropWhile blank).reverse.dropWhile blank).reverse

/-- The lines that count: those that are neither blank nor comments. -/
def counts (t : Bytes) : List Bytes := ((lines t).map strip).filter fun l => l ≠ [] ∧ l.head? ≠ some (c! "#")

end Verif.Spec.TestFiles
