import Verif.Model.FRI
import Mathlib.Data.Nat.Log

/-!
# The polynomials of the columns, and `plonk_permutation`

Models plonk/detail/column_polynomial.hpp and math/permutation.hpp.
-/

namespace Crypto3Zk

variable {F : Type} [Field F]

/-- `column_polynomial` (plonk/detail/column_polynomial.hpp:43-56) on the domain of `2 ^ n` points: the
coefficients, up to zeros at the end. `inverse_fft` (crypto3-math, external) fills a shorter vector with
zeros and throws for a longer one. -/
def columnPolynomial (L : FftLib F) (n : Nat) (column : List F) : Option (List F) :=
  if column.length ≤ 2 ^ n then
    some (L.coefficients (column ++ List.replicate (2 ^ n - column.length) 0))
  else none

/-- `column_range_polynomials` (plonk/detail/column_polynomial.hpp:58-90) -/
def columnRangePolynomials (L : FftLib F) (n : Nat) (columns : List (List F)) : Option (List (List F)) :=
  columns.mapM (columnPolynomial L n)

/-- `column_polynomial_dfs` (plonk/detail/column_polynomial.hpp:92-105): the values on the domain of `2 ^ n`
points. The constructor of `polynomial_dfs` and `resize` (crypto3-math, external) assert that the number of
values is a power of two, and that it is not reduced below the degree; `resize` goes through the
coefficients. -/
def columnPolynomialDfs (L : FftLib F) (n : Nat) (column : List F) : Option (List F) :=
  if column.length = 2 ^ Nat.log 2 column.length ∧ column.length ≤ 2 ^ n then
    FriPoly.on L (L.domain n) (.dfs column)
  else none

/-- `column_range_polynomial_dfs` (plonk/detail/column_polynomial.hpp:107-138) -/
def columnRangePolynomialDfs (L : FftLib F) (n : Nat) (columns : List (List F)) :
    Option (List (List F)) :=
  columns.mapM (columnPolynomialDfs L n)

/-- A cell: column and row (math/permutation.hpp:34-38). -/
abbrev GridCell := Nat × Nat

/-- `plonk_permutation` (math/permutation.hpp:34-38), by what `operator[]` returns: `std::map::operator[]`
makes a missing entry `(0, 0)`. -/
abbrev PlonkPermutation := GridCell → GridCell

/-- the constructor (math/permutation.hpp:40-47) -/
def PlonkPermutation.new (columns rows : Nat) : PlonkPermutation := fun c =>
  if c.1 < columns ∧ c.2 < rows then c else (0, 0)

/-- `cells_equal` (math/permutation.hpp:52-59) -/
def PlonkPermutation.cellsEqual (p : PlonkPermutation) (cell equalTo : GridCell) : PlonkPermutation :=
  fun c => if c = cell then p equalTo else p c

/-- a history of calls (calls of `cells_equal`, math/permutation.hpp:52-59) -/
def PlonkPermutation.run (p : PlonkPermutation) (calls : List (GridCell × GridCell)) : PlonkPermutation :=
  calls.foldl (fun p c => p.cellsEqual c.1 c.2) p

end Crypto3Zk
