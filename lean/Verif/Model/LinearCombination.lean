import Mathlib.Algebra.Field.Defs

/-!
# Model of `math/linear_combination.hpp` and `math/linear_variable.hpp`

All paths are relative to `/repo/include/nil/crypto3/zk`.
A `linear_combination` is its `terms` vector; an out-of-bounds read is `none`.
-/

namespace Crypto3Zk

/-- `linear_term`: "coeff * x_{index}" (math/linear_combination.hpp:51-89). -/
structure LinearTerm (F : Type*) where
  index : Nat
  coeff : F
deriving DecidableEq, Repr

/-- `linear_combination::terms` (math/linear_combination.hpp:115-124). -/
abbrev LinComb (F : Type*) := List (LinearTerm F)

namespace LinComb

variable {F : Type*} [Field F]

/-- `linear_term(const VariableType &var)`: coefficient one
(math/linear_combination.hpp:63-64). -/
def ofVar (i : Nat) : LinearTerm F := ⟨i, 1⟩

/-- `linear_term::operator*(field_coeff)` (math/linear_combination.hpp:66-70). -/
def termScale (t : LinearTerm F) (c : F) : LinearTerm F := ⟨t.index, c * t.coeff⟩

/-- `linear_term::operator-()` (math/linear_combination.hpp:82-84):
`linear_term(index) * (-coeff)`. -/
def termNeg (t : LinearTerm F) : LinearTerm F := termScale (ofVar t.index) (-t.coeff)

/-- `linear_combination(field_coeff)` (math/linear_combination.hpp:127-129):
the constant is carried by variable 0. -/
def ofConst (c : F) : LinComb F := [termScale (ofVar 0) c]

/-- The loop of the vector constructor (math/linear_combination.hpp:148-156):
`cur` is `*result_it`, the second argument is the range still to be scanned. -/
def mergeRuns : LinearTerm F → List (LinearTerm F) → List (LinearTerm F)
  | cur, [] => [cur]
  | cur, t :: ts =>
    if t.index = cur.index then mergeRuns ⟨cur.index, cur.coeff + t.coeff⟩ ts
    else cur :: mergeRuns t ts

/-- `linear_combination(const std::vector<linear_term>&)`
(math/linear_combination.hpp:136-157). `std::sort` is not stable, so the sort is a
parameter; its contract is `IsIndexSort` in `Verif/Spec/LinearCombination.lean`. -/
def ofTerms (sort : List (LinearTerm F) → List (LinearTerm F))
    (all : List (LinearTerm F)) : LinComb F :=
  if all.isEmpty then []
  else match sort all with
    | [] => []            -- impossible: `std::sort` keeps the number of elements
    | c :: cs => mergeRuns c cs

/-- One read of the assignment in `evaluate`
(math/linear_combination.hpp:182): `index == 0 ? one : assignment[index - 1]`. -/
def readVar (assignment : List F) (i : Nat) : Option F :=
  if i = 0 then some 1 else assignment[i - 1]?

/-- `linear_combination::evaluate` (math/linear_combination.hpp:179-185).
`none` models an out-of-bounds read of `assignment`. -/
def evaluate (lc : LinComb F) (assignment : List F) : Option F :=
  lc.foldlM (fun acc lt => (readVar assignment lt.index).map fun v => acc + v * lt.coeff) 0

/-- `linear_combination::operator*(field_coeff)` (math/linear_combination.hpp:186-193). -/
def scale (lc : LinComb F) (c : F) : LinComb F := lc.map fun t => termScale t c

/-- `linear_combination::operator+` (math/linear_combination.hpp:194-227):
two-pointer merge by index, then the tail that is left. -/
def add : LinComb F → LinComb F → LinComb F
  | [], ys => ys
  | x :: xs, [] => x :: xs
  | x :: xs, y :: ys =>
    if x.index < y.index then x :: add xs (y :: ys)
    else if x.index > y.index then y :: add (x :: xs) ys
    else termScale (ofVar x.index) (x.coeff + y.coeff) :: add xs ys
termination_by xs ys => xs.length + ys.length

/-- unary `operator-` (math/linear_combination.hpp:231-233). -/
def neg (lc : LinComb F) : LinComb F := scale lc (-1)

/-- binary `operator-` (math/linear_combination.hpp:228-230). -/
def sub (xs ys : LinComb F) : LinComb F := add xs (neg ys)

/-- `operator==` (math/linear_combination.hpp:235-252): sort both term vectors by index
with the same (unstable) sort and compare elementwise. -/
def beq [DecidableEq F] (sort : List (LinearTerm F) → List (LinearTerm F))
    (xs ys : LinComb F) : Bool := decide (sort xs = sort ys)

/-- The sortedness loop of `is_valid` (math/linear_combination.hpp:255-260). -/
def strictlySorted : List (LinearTerm F) → Bool
  | [] => true
  | [_] => true
  | x :: y :: r => if x.index ≥ y.index then false else strictlySorted (y :: r)

/-- `is_valid(num_variables)` (math/linear_combination.hpp:254-269). `--terms.end()` on an
empty vector is undefined behaviour: `none`. -/
def isValid (lc : LinComb F) (numVariables : Nat) : Option Bool :=
  if strictlySorted lc then
    match lc.getLast? with
    | none => none
    | some t => if t.index ≥ numVariables then some false else some true
  else some false

/-- `linear_variable::operator+(lc)` (math/linear_variable.hpp:73-81): the other terms are
inserted before the variable. -/
def varAdd (i : Nat) (other : LinComb F) : LinComb F := other ++ [ofVar i]

/-- `linear_variable::operator-(lc)` (math/linear_variable.hpp:83-86). -/
def varSub (i : Nat) (other : LinComb F) : LinComb F := varAdd i (neg other)

/-- `field + lc` (math/linear_combination.hpp:279-284). -/
def constAdd (c : F) (lc : LinComb F) : LinComb F := add (ofConst c) lc

/-- `field - lc` (math/linear_combination.hpp:286-291). -/
def constSub (c : F) (lc : LinComb F) : LinComb F := sub (ofConst c) lc

end LinComb
end Crypto3Zk
