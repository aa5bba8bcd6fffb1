import Verif.Model.LinearCombination

/-!
# Model of the remaining operators of `math/linear_variable.hpp` and of `add_term`

`linear_variable::operator-()` (lines 88-90) names `linear_term<FieldType>`, which is not a linear term
over variables; it is not modelled.
-/

namespace Crypto3Zk.LinComb

variable {F : Type*} [Field F]

/-- `linear_variable::operator*` and `field * variable` (math/linear_variable.hpp:68-71, 97-101) -/
def varScale (i : Nat) (c : F) : LinearTerm F := termScale (ofVar i) c

/-- `field + variable` (math/linear_variable.hpp:103-107): `var + field_coeff`, with the implicit
`linear_combination(field_coeff)` -/
def constAddVar (c : F) (i : Nat) : LinComb F := varAdd i (ofConst c)

/-- `field - variable` (math/linear_variable.hpp:109-113), with the implicit
`linear_combination(variable)` -/
def constSubVar (c : F) (i : Nat) : LinComb F := sub (ofConst c) [ofVar i]

/-- `add_term(variable)` (math/linear_combination.hpp:168-170) -/
def addVar (lc : LinComb F) (i : Nat) : LinComb F := lc ++ [ofVar i]

/-- `add_term(variable, coeff)` (math/linear_combination.hpp:171-174) -/
def addVarCoeff (lc : LinComb F) (i : Nat) (c : F) : LinComb F := lc ++ [termScale (ofVar i) c]

/-- `add_term(term)` (math/linear_combination.hpp:175-177) -/
def addTerm (lc : LinComb F) (t : LinearTerm F) : LinComb F := lc ++ [t]

end Crypto3Zk.LinComb
