import Verif.Model.Groth16

/-!
# Provers that compute with group elements

A prover that treats the groups as black boxes can only form linear combinations of the group elements
in the two keys. Such a prover is given by the coefficients. It is not told the secrets, so the
coefficients do not depend on them.
-/

namespace Crypto3Zk

variable {F G1 G2 GT : Type} [Field F] [DecidableEq F] [AddCommGroup G1] [Module F G1]
  [AddCommGroup G2] [Module F G2] [AddCommGroup GT] [Module F GT]

/-- a linear combination of the entries of a sparse vector; `none` if there is not one coefficient per
entry -/
def kcCombine (v : KcVec (G2 × G1)) (xs : List F) : Option (G2 × G1) :=
  if xs.length = v.domainSize then kcMultiexp v 0 v.domainSize xs xs.length else none

/-- coefficients for every element of the first group: the generator, the three single elements, the
four queries of the proving key and the input elements of the verification key -/
structure Groth16Coeffs1 (F : Type) where
  one : F
  alpha : F
  beta : F
  delta : F
  a : List F
  b : List F
  h : List F
  l : List F
  input0 : F
  inputs : List F

/-- the linear combination; `none` if there is not one coefficient per element -/
def Groth16Coeffs1.combine (c : Groth16Coeffs1 F) (g1 : G1) (pk : Groth16PK F G1 G2)
    (vk : Groth16VK G1 G2 GT) : Option G1 := do
  let a ← multiexp pk.aQuery c.a
  let b ← kcCombine pk.bQuery c.b
  let h ← multiexp pk.hQuery c.h
  let l ← multiexp pk.lQuery c.l
  let i ← multiexp vk.gammaABC.rest c.inputs
  pure (c.one • g1 + c.alpha • pk.alphaG1 + c.beta • pk.betaG1 + c.delta • pk.deltaG1 + a + b.2 + h + l +
    c.input0 • vk.gammaABC.first + i)

/-- coefficients for every element of the second group -/
structure Groth16Coeffs2 (F : Type) where
  one : F
  beta : F
  gamma : F
  delta : F
  b : List F

def Groth16Coeffs2.combine (c : Groth16Coeffs2 F) (g2 : G2) (pk : Groth16PK F G1 G2)
    (vk : Groth16VK G1 G2 GT) : Option G2 := do
  let b ← kcCombine pk.bQuery c.b
  pure (c.one • g2 + c.beta • pk.betaG2 + c.gamma • vk.gammaG2 + c.delta • pk.deltaG2 + b.1)

end Crypto3Zk
