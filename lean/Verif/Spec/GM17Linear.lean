import Verif.Spec.Groth16Linear
import Verif.Model.GM17

/-!
# Provers for the Groth–Maller argument that compute with group elements

As in `Verif/Spec/Groth16Linear.lean`: a prover is given by one coefficient for each group element in the keys.
The generator `g` of the first group is not part of the keys; the prover gets it nevertheless.
-/

namespace Crypto3Zk

variable {F G1 G2 GT : Type} [Field F] [DecidableEq F] [AddCommGroup G1] [Module F G1]
  [AddCommGroup G2] [Module F G2] [AddCommGroup GT] [Module F GT]

/-- coefficients for every element of the first group -/
structure Gm17Coeffs1 (F : Type) where
  one : F
  a : List F
  c1 : List F
  c2 : List F
  gammaZ : F
  abGammaZ : F
  gamma2Z2 : F
  gamma2Zt : List F
  alpha : F
  gamma : F
  query : List F

/-- the linear combination; `none` if there is not one coefficient per element -/
def Gm17Coeffs1.combine (c : Gm17Coeffs1 F) (g : G1) (pk : Gm17PK F G1 G2) (vk : Gm17VK G1 G2) : Option G1 := do
  let a ← multiexp pk.aQuery c.a
  let c1 ← multiexp pk.cQuery1 c.c1
  let c2 ← multiexp pk.cQuery2 c.c2
  let h ← multiexp pk.gGamma2Zt c.gamma2Zt
  let q ← multiexp vk.query c.query
  pure (c.one • g + a + c1 + c2 + c.gammaZ • pk.gGammaZ + c.abGammaZ • pk.gAbGammaZ + c.gamma2Z2 • pk.gGamma2Z2 +
    h + c.alpha • vk.gAlpha + c.gamma • vk.gGamma + q)

/-- coefficients for every element of the second group -/
structure Gm17Coeffs2 (F : Type) where
  one : F
  b : List F
  gammaZ : F
  beta : F
  gamma : F

def Gm17Coeffs2.combine (c : Gm17Coeffs2 F) (pk : Gm17PK F G1 G2) (vk : Gm17VK G1 G2) : Option G2 := do
  let b ← multiexp pk.bQuery c.b
  pure (c.one • vk.h + b + c.gammaZ • pk.hGammaZ + c.beta • vk.hBeta + c.gamma • vk.hGamma)

end Crypto3Zk
