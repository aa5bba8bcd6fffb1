import Verif.Model.Poly

/-!
# Arithmetic of `math::polynomial`

`math::polynomial` is in the crypto3-math library, which is not part of `/repo`. Its operations are
modelled by the schoolbook algorithms on coefficient lists (lowest coefficient first). The library
removes trailing zero coefficients after an operation; the model does not, so a size in the model is
at least the size in the program.
-/

namespace Crypto3Zk

variable {F : Type*} [Field F]

/-- `operator+` (external) -/
def polyAdd : List F → List F → List F
  | [], b => b
  | a, [] => a
  | x :: a, y :: b => (x + y) :: polyAdd a b

/-- multiplication by a field element (external) -/
def polyScale (c : F) (a : List F) : List F := a.map fun x => c * x

/-- `operator-` (external) -/
def polySub (a b : List F) : List F := polyAdd a (polyScale (-1) b)

/-- `operator*` (external) -/
def polyMul : List F → List F → List F
  | [], _ => []
  | x :: a, b => polyAdd (polyScale x b) (0 :: polyMul a b)

/-- Horner-style long division: quotient (with leading zeros) and remainder of a polynomial by `d`,
whose last coefficient must not be zero -/
def polyDivModAux (d : List F) : List F → List F × List F
  | [] => ([], List.replicate (d.length - 1) 0)
  | c :: a =>
    let qr := polyDivModAux d a
    let r' := c :: qr.2
    let t := r'.getLastD 0 / d.getLastD 0
    (t :: qr.1, (List.zipWith (fun x y => x - t * y) r' d).take (d.length - 1))

/-- `operator/` (external) -/
def polyDiv (a d : List F) : List F := (polyDivModAux d a).1.take (a.length - (d.length - 1))

/-- `operator%` (external) -/
def polyMod (a d : List F) : List F := (polyDivModAux d a).2

/-- `is_zero` (external) -/
def polyIsZero [DecidableEq F] (a : List F) : Bool := a.all fun x => x == 0

/-- one basis polynomial of `math::lagrange_interpolation` (external): the product of
`(X - x) / (x_j - x)` over the other points (used in basic_fri.hpp:1083, 1092, 1123) -/
def lagrangeTerm (xj : F) (y : F) (others : List F) : List F :=
  others.foldl (fun t x => polyMul t (polyScale (xj - x)⁻¹ [-x, 1])) [y]

/-- `math::lagrange_interpolation` (external): `before` are the points already passed
(used in basic_fri.hpp:1083, 1092, 1123) -/
def lagrangeSum (before : List F) : List (F × F) → List F
  | [] => []
  | (x, y) :: rest =>
    polyAdd (lagrangeTerm x y (before ++ rest.map Prod.fst)) (lagrangeSum (before ++ [x]) rest)

/-- `math::lagrange_interpolation` (external) (used in basic_fri.hpp:1083, 1092, 1123) -/
def lagrangeInterpolation (pts : List (F × F)) : List F := lagrangeSum [] pts

/-- `get_V` (commitments/batched_commitment.hpp:76-84) -/
def getV (points : List F) : List F := points.foldl (fun v x => polyMul v [-x, 1]) [1]

end Crypto3Zk
