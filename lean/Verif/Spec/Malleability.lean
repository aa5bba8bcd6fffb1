import Verif.Model.Groth16
import Verif.Model.PGHR13
import Verif.Model.USCSArg

/-!
# Changing the proofs of others

The functions below turn one proof into another. They are given public values only: the keys, the
public input, the proof, and values that their caller chooses. No argument depends on a witness or
on the secrets the keys were generated with.
-/

set_option linter.unusedSectionVars false

namespace Crypto3Zk

variable {F : Type} [Field F] [DecidableEq F]
variable {G1 G2 GT : Type} [AddCommGroup G1] [Module F G1] [AddCommGroup G2] [Module F G2]
  [AddCommGroup GT] [Module F GT]

/-- Groth16: from `(A, B, C)` the proof `(x A, x⁻¹ (B + t δ), C + t A)` -/
def groth16Change (vk : Groth16VK G1 G2 GT) (x t : F) (π : Groth16Proof G1 G2) : Groth16Proof G1 G2 :=
  ⟨x • π.gA, x⁻¹ • (π.gB + t • vk.deltaG2), π.gC + t • π.gA⟩

/-- PGHR13: a multiple of the vanishing polynomial is added to the third polynomial. The proving key
holds it with every coefficient the proof needs. -/
def pghr13Change (pk : Pghr13PK F G1 G2) (d : F) (π : Pghr13Proof G1 G2) :
    Option (Pghr13Proof G1 G2) := do
  let k ← pk.kQuery[pk.cs.numVariables + 3]?
  let h ← pk.hQuery[0]?
  pure ⟨π.gA, π.gB, π.gC + d • pk.cQuery.get (pk.cs.numVariables + 1), π.gH - d • h, π.gK + d • k⟩

/-- unitary-square systems: a multiple of the vanishing polynomial is added to the polynomial that is
squared -/
def uscsChange (pk : UscsPK F G1 G2) (vk : UscsVK G1 G2) (primary : List F) (d : F)
    (π : UscsProof G1 G2) : Option (UscsProof G1 G2) := do
  let acc ← vk.encodedIC.accumulate primary
  let z1 ← pk.vG1Query.getLast?
  let a1 ← pk.alphaVG1Query.getLast?
  let z2 ← pk.vG2Query.getLast?
  pure ⟨π.vG1 + d • z1, π.alphaVG1 + d • a1, π.hG1 + (2 * d) • (π.vG1 + acc) + d ^ 2 • z1,
    π.vG2 + d • z2⟩

end Crypto3Zk
