import Verif.Model.Groth16
import Verif.Model.Poly
import Mathlib.Algebra.BigOperators.Group.List.Basic

/-!
# The batched opening equation

Independent of the code: the points are lists, the polynomials are evaluated at the trapdoor.
-/

namespace Crypto3Zk

variable {F : Type} [Field F] [DecidableEq F]
variable {G1 G2 GT : Type} [AddCommGroup G1] [Module F G1] [AddCommGroup G2] [Module F G2]
  [AddCommGroup GT] [Module F GT]

/-- the value at `a` of the polynomial with the zeros `l` -/
def zerosAt (a : F) (l : List F) : F := (l.map fun x => a - x).prod

/-- `Σ_i c·gamma^i · Z_{T∖S_i}(alpha) · e(C_i − r_i(alpha)·1, 1)` over commitments, claimed
interpolation polynomials and point sets -/
def openingSum (P : Pairing F G1 G2 GT) (alpha gamma : F) (T : List F) :
    F → List (G1 × List F × List F) → GT
  | _, [] => 0
  | c, e :: es =>
    (c * zerosAt alpha (T.filter fun x => x ∉ e.2.2))
        • P.e (e.1 - evalPoly e.2.1 alpha • P.one1) P.one2
      + openingSum P alpha gamma T (c * gamma) es

end Crypto3Zk
