import Verif.Spec.Groth16Linear
import Verif.Model.USCSArg

/-!
# Provers for unitary-square constraint systems that compute with group elements

As in `Verif/Spec/Groth16Linear.lean`: a prover is given by one coefficient for each group element in the keys
and for the two generators.
-/

namespace Crypto3Zk

variable {F G1 G2 GT : Type} [Field F] [DecidableEq F] [AddCommGroup G1] [Module F G1]
  [AddCommGroup G2] [Module F G2] [AddCommGroup GT] [Module F GT]

/-- coefficients for every element of the first group -/
structure UscsCoeffs1 (F : Type) where
  one : F
  v : List F
  alphaV : List F
  h : List F
  input0 : F
  inputs : List F

/-- the linear combination; `none` if there is not one coefficient per element -/
def UscsCoeffs1.combine (c : UscsCoeffs1 F) (g : G1) (pk : UscsPK F G1 G2) (vk : UscsVK G1 G2) : Option G1 := do
  let v ← multiexp pk.vG1Query c.v
  let a ← multiexp pk.alphaVG1Query c.alphaV
  let h ← multiexp pk.hG1Query c.h
  let i ← multiexp vk.encodedIC.rest c.inputs
  pure (c.one • g + v + a + h + c.input0 • vk.encodedIC.first + i)

/-- coefficients for every element of the second group -/
structure UscsCoeffs2 (F : Type) where
  one : F
  v : List F
  tilde : F
  alphaTilde : F
  z : F

def UscsCoeffs2.combine (c : UscsCoeffs2 F) (g : G2) (pk : UscsPK F G1 G2) (vk : UscsVK G1 G2) : Option G2 := do
  let v ← multiexp pk.vG2Query c.v
  pure (c.one • g + v + c.tilde • vk.tildeG2 + c.alphaTilde • vk.alphaTildeG2 + c.z • vk.zG2)

end Crypto3Zk
