import Verif.Spec.Groth16Linear
import Verif.Model.PGHR13

/-!
# Provers for PGHR13 that compute with group elements

As in `Verif/Spec/Groth16Linear.lean`: a prover is given by one coefficient for each group element in the keys.
-/

namespace Crypto3Zk

variable {F G1 G2 GT : Type} [Field F] [DecidableEq F] [AddCommGroup G1] [Module F G1]
  [AddCommGroup G2] [Module F G2] [AddCommGroup GT] [Module F GT]

/-- coefficients for every element of the first group: both components of the A and C queries, the second
of the B query, the H and K queries, and the elements of the verification key -/
structure Pghr13Coeffs1 (F : Type) where
  aFst : List F
  aSnd : List F
  bSnd : List F
  cFst : List F
  cSnd : List F
  h : List F
  k : List F
  alphaB : F
  gammaBeta : F
  input0 : F
  inputs : List F

/-- the linear combination; `none` if there is not one coefficient per element -/
def Pghr13Coeffs1.combine (c : Pghr13Coeffs1 F) (pk : Pghr13PK F G1 G2) (vk : Pghr13VK G1 G2) : Option G1 := do
  let a1 ← kcCombine pk.aQuery c.aFst
  let a2 ← kcCombine pk.aQuery c.aSnd
  let b ← kcCombine pk.bQuery c.bSnd
  let c1 ← kcCombine pk.cQuery c.cFst
  let c2 ← kcCombine pk.cQuery c.cSnd
  let h ← multiexp pk.hQuery c.h
  let k ← multiexp pk.kQuery c.k
  let i ← multiexp vk.encodedIC.rest c.inputs
  pure (a1.1 + a2.2 + b.2 + c1.1 + c2.2 + h + k + c.alphaB • vk.alphaBG1 + c.gammaBeta • vk.gammaBetaG1 +
    c.input0 • vk.encodedIC.first + i)

/-- coefficients for every element of the second group -/
structure Pghr13Coeffs2 (F : Type) where
  one : F
  alphaA : F
  alphaC : F
  gamma : F
  gammaBeta : F
  rCZ : F
  b : List F

def Pghr13Coeffs2.combine (c : Pghr13Coeffs2 F) (one2 : G2) (pk : Pghr13PK F G1 G2) (vk : Pghr13VK G1 G2) :
    Option G2 := do
  let b ← kcCombine pk.bQuery c.b
  pure (c.one • one2 + c.alphaA • vk.alphaAG2 + c.alphaC • vk.alphaCG2 + c.gamma • vk.gammaG2 +
    c.gammaBeta • vk.gammaBetaG2 + c.rCZ • vk.rCZG2 + b.1)

/-- a prover: coefficients for the eight elements of a proof -/
structure Pghr13Strategy (F : Type) where
  A : Pghr13Coeffs1 F
  A' : Pghr13Coeffs1 F
  B : Pghr13Coeffs2 F
  B' : Pghr13Coeffs1 F
  C : Pghr13Coeffs1 F
  C' : Pghr13Coeffs1 F
  H : Pghr13Coeffs1 F
  K : Pghr13Coeffs1 F

/-- the proof of a prover -/
def Pghr13Strategy.prove (s : Pghr13Strategy F) (one2 : G2) (pk : Pghr13PK F G1 G2) (vk : Pghr13VK G1 G2) :
    Option (Pghr13Proof G1 G2) := do
  let A ← s.A.combine pk vk
  let A' ← s.A'.combine pk vk
  let B ← s.B.combine one2 pk vk
  let B' ← s.B'.combine pk vk
  let C ← s.C.combine pk vk
  let C' ← s.C'.combine pk vk
  let H ← s.H.combine pk vk
  let K ← s.K.combine pk vk
  pure ⟨(A, A'), (B, B'), (C, C'), H, K⟩

end Crypto3Zk
