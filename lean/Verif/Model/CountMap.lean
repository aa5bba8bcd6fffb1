/-!
# Model of the `std::unordered_map<Key, int>` counting idiom

Used by `term::operator==` (math/expression.hpp:571-608) and
`non_linear_combination::operator==` (math/non_linear_combination.hpp:145-175).
A map is an association list; `eq` is the key equality. The hash is irrelevant as long as equal
keys hash equally (property C08).
-/

namespace Crypto3Zk.CountMap

universe u

variable {K : Type u}

/-- `find(k)`; `++`/insert 1 (math/expression.hpp:573-580, non_linear_combination.hpp:152-159). -/
def inc (eq : K → K → Bool) : List (K × Int) → K → List (K × Int)
  | [], k => [(k, 1)]
  | (k', n) :: m, k => if eq k' k then (k', n + 1) :: m else (k', n) :: inc eq m k

/-- build the map from a range (math/expression.hpp:571-582, non_linear_combination.hpp:151-159). -/
def build (eq : K → K → Bool) (xs : List K) : List (K × Int) := xs.foldl (inc eq) []

/-- `find(k)`; `--`, or "return false" when absent (math/expression.hpp:595-602,
non_linear_combination.hpp:161-168). -/
def dec (eq : K → K → Bool) : List (K × Int) → K → Option (List (K × Int))
  | [], _ => none
  | (k', n) :: m, k =>
    if eq k' k then some ((k', n - 1) :: m) else (dec eq m k).map fun m' => (k', n) :: m'

/-- the complete comparison after the size check (math/expression.hpp:594-607,
non_linear_combination.hpp:149-174). -/
def sameCounts (eq : K → K → Bool) (xs ys : List K) : Bool :=
  match ys.foldlM (dec eq) (build eq xs) with
  | none => false
  | some m => m.all fun e => e.2 == 0

/-- comparison including the size check (math/expression.hpp:589-591,
non_linear_combination.hpp:146-147). -/
def eqv (eq : K → K → Bool) (xs ys : List K) : Bool :=
  if xs.length != ys.length then false else sameCounts eq xs ys

end Crypto3Zk.CountMap
