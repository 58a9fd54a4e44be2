import Verif.Model.Chars
import Verif.Model.UrlCodec
/-
What the text of a query (`name=value&name=value`, also the body of a form) says, for every text: where it is divided, what
is left out, and which texts are refused. Stated by cutting the text as a whole, not character by character.
-/
namespace Verif.Spec.Query
open Verif Verif.UrlCodec

/-- Line ends and tabs count for nothing, wherever they stand. -/
def kept (t : Bytes) : Bytes := t.filter fun c => !(c == 0x0d || c == 0x0a || c == 0x09)

/-- The fields: what stands between the ampersands. -/
def fields (t : Bytes) : List Bytes := (kept t).splitOn (c! "&")

/-- The name: what stands before the first equals sign; the whole field, if it has none. -/
def nameOf (f : Bytes) : Bytes := f.takeWhile (· != c! "=")

/-- The values: what stands after the first equals sign, divided at the commas; one empty value, if there is none. -/
def valuesOf (f : Bytes) : List Bytes := ((f.dropWhile (· != c! "=")).drop 1).splitOn (c! ",")

/-- What a field says. A field without a name says nothing. -/
def pairsOf (f : Bytes) : List (Bytes × Bytes) :=
  if nameOf f = [] then [] else (valuesOf f).map fun v => (nameOf f, v)

/-- What the text says, decoded. -/
def pairs (t : Bytes) : List (Bytes × Bytes) := ((fields t).flatMap pairsOf).map fun p => (urlDecode p.1, urlDecode p.2)

/-- What the text has said to its end: the same without the value that nothing has closed yet, neither a comma nor an
    ampersand. -/
def finished (t : Bytes) : List (Bytes × Bytes) :=
  ((fields t).dropLast.flatMap pairsOf ++ (((fields t).getLast?.map pairsOf).getD []).dropLast).map
    fun p => (urlDecode p.1, urlDecode p.2)

/-- The texts that are accepted: no control characters but line ends and tabs, names up to 1024 and values up to 1048576
    characters as written. -/
structure Acceptable (t : Bytes) : Prop where
  printable : ∀ c ∈ kept t, isControl c = false
  names : ∀ f ∈ fields t, (nameOf f).length ≤ 1024
  values : ∀ f ∈ fields t, ∀ v ∈ valuesOf f, v.length ≤ 1048576

end Verif.Spec.Query
