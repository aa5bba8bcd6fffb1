import Verif.Model.Groups
import Verif.Model.ArithmeticPrograms
import Mathlib.LinearAlgebra.BilinearMap

/-!
# The Groth16 argument (`r1cs_gg_ppzksnark`)

Randomness (toxic waste, generators, the prover's `r` and `s`) is a parameter. The pairing is in the
crypto3-algebra library; it is modelled as a bilinear map into an additively written target group:
`precompute_g1/g2` are the identity, `final_exponentiation (miller_loop a b)` is `e a b`,
`double_miller_loop` is the sum of two pairings and `unitary_inversed` is negation.
`is_well_formed` (the curve equation) is a parameter.
-/

namespace Crypto3Zk

/-- the pairing library (external): the bilinear map, the fixed generators and the curve checks
(used in r1cs_gg_ppzksnark/verifier.hpp:174-175) -/
structure Pairing (F G1 G2 GT : Type) [Field F] [AddCommGroup G1] [Module F G1] [AddCommGroup G2]
    [Module F G2] [AddCommGroup GT] [Module F GT] where
  e : G1 →ₗ[F] G2 →ₗ[F] GT
  one1 : G1
  one2 : G2
  wf1 : G1 → Bool
  wf2 : G2 → Bool

/-- the iterator range `[begin + a, begin + b)` of a vector; `none` if it is not inside the vector
(as in r1cs_gg_ppzksnark/prover.hpp:111-137) -/
def slice {α : Type} (l : List α) (a b : Nat) : Option (List α) :=
  if a ≤ b ∧ b ≤ l.length then some ((l.drop a).take (b - a)) else none

/-- `r1cs_gg_ppzksnark_proving_key` (r1cs_gg_ppzksnark/proving_key.hpp:43-57) -/
structure Groth16PK (F G1 G2 : Type) [Field F] where
  alphaG1 : G1
  betaG1 : G1
  betaG2 : G2
  deltaG1 : G1
  deltaG2 : G2
  aQuery : List G1
  bQuery : KcVec (G2 × G1)
  hQuery : List G1
  lQuery : List G1
  cs : R1CS F

/-- `r1cs_gg_ppzksnark_verification_key` (r1cs_gg_ppzksnark/verification_key.hpp:47-54) and its
processed form (verifier.hpp:88-100): the processed key holds the same values, the two `G2` elements
precomputed for the pairing. -/
structure Groth16VK (G1 G2 GT : Type) where
  alphaBeta : GT
  gammaG2 : G2
  deltaG2 : G2
  gammaABC : AccVec G1

/-- `r1cs_gg_ppzksnark_proof` (r1cs_gg_ppzksnark/proof.hpp:40-65) -/
structure Groth16Proof (G1 G2 : Type) where
  gA : G1
  gB : G2
  gC : G1

/-- the toxic waste and the random generators (r1cs_gg_ppzksnark/generator.hpp:93-102, 163, 172) -/
structure Groth16Trapdoor (F G1 G2 : Type) where
  t : F
  alpha : F
  beta : F
  gamma : F
  delta : F
  g1 : G1
  g2 : G2

section

variable {F G1 G2 GT : Type} [Field F] [DecidableEq F] [AddCommGroup G1] [Module F G1]
  [AddCommGroup G2] [Module F G2] [AddCommGroup GT] [Module F GT]

/-- `(beta * At[i] + alpha * Bt[i] + Ct[i]) * k` (generator.hpp:133, 135, 145) -/
def groth16Entry (q : QapEval F) (alpha beta k : F) (i : Nat) : Option F := do
  let a ← q.At[i]?
  let b ← q.Bt[i]?
  let c ← q.Ct[i]?
  pure ((beta * a + alpha * b + c) * k)

/-- `r1cs_gg_ppzksnark_generator::basic_process` followed by `process` (generator.hpp:86-236,
387-414; the deterministic variant at 240-385 computes the same values from given randomness). The
window tables and the counts that size them do not change results and are left out. `D` is the
evaluation domain of the constraint system. -/
def groth16Generate (P : Pairing F G1 G2 GT) (D : EvalDomain F) (cs : R1CS F)
    (T : Groth16Trapdoor F G1 G2) (chunks : Nat) :
    Option (Groth16PK F G1 G2 × Groth16VK G1 G2 GT) := do
  let r1cs ← cs.swapABIfBeneficial
  let gammaInv := T.gamma⁻¹
  let deltaInv := T.delta⁻¹
  let q ← r1cs.qapEval D T.t
  let gammaABC0 ← groth16Entry q T.alpha T.beta gammaInv 0
  let gammaABC ← (List.range' 1 q.numInputs).mapM (groth16Entry q T.alpha T.beta gammaInv)
  let Lt ← (List.range (q.numVariables - q.numInputs)).mapM fun i =>
    groth16Entry q T.alpha T.beta deltaInv (q.numInputs + 1 + i)
  let Ht := q.Ht.take (q.Ht.length - 2)
  let alphaG1 := T.alpha • T.g1
  let betaG2 := T.beta • T.g2
  let bQuery ← kcBatchExp T.g2 T.g1 1 1 q.Bt chunks
  pure (
    { alphaG1
      betaG1 := T.beta • T.g1
      betaG2
      deltaG1 := T.delta • T.g1
      deltaG2 := T.delta • T.g2
      aQuery := batchExp T.g1 q.At
      bQuery
      hQuery := batchExpWithCoeff T.g1 (q.Zt * deltaInv) Ht
      lQuery := batchExp T.g1 Lt
      cs := r1cs },
    { alphaBeta := P.e alphaG1 betaG2
      gammaG2 := T.gamma • T.g2
      deltaG2 := T.delta • T.g2
      gammaABC := ⟨gammaABC0 • T.g1, batchExp T.g1 gammaABC⟩ })

/-- `r1cs_gg_ppzksnark_prover::process` (r1cs_gg_ppzksnark/prover.hpp:73-158) with the random
`r`, `s` as arguments. `none` is a failed assertion (lines 77, 88, 89) or a read out of bounds. -/
def groth16Prove (D : EvalDomain F) (pk : Groth16PK F G1 G2) (primary aux : List F) (r s : F) :
    Option (Groth16Proof G1 G2) := do
  let sat ← pk.cs.isSatisfied primary aux
  guard (sat = true)
  let wit ← pk.cs.qapWitness D primary aux 0 0 0
  let h1 ← wit.coefficientsForH[wit.degree - 1]?
  guard (h1 = 0)
  let h0 ← wit.coefficientsForH[wit.degree]?
  guard (h0 = 0)
  let padded := 1 :: wit.coefficientsForABCs
  let aBases ← slice pk.aQuery 0 (wit.numVariables + 1)
  let aScalars ← slice padded 0 (wit.numVariables + 1)
  let evA ← multiexp aBases aScalars
  let evB ← kcMultiexp pk.bQuery 0 (wit.numVariables + 1) aScalars aScalars.length
  let hBases ← slice pk.hQuery 0 (wit.degree - 1)
  let hScalars ← slice wit.coefficientsForH 0 (wit.degree - 1)
  let evH ← multiexp hBases hScalars
  let lScalars ← slice padded (wit.numInputs + 1) (wit.numVariables + 1)
  let evL ← multiexp pk.lQuery lScalars
  let gA := pk.alphaG1 + evA + r • pk.deltaG1
  let g1B := pk.betaG1 + evB.2 + s • pk.deltaG1
  let g2B := pk.betaG2 + evB.1 + s • pk.deltaG2
  let gC := evH + evL + s • gA + r • g1B - (r * s) • pk.deltaG1
  pure ⟨gA, g2B, gC⟩

/-- `r1cs_gg_ppzksnark_proof::is_well_formed` (r1cs_gg_ppzksnark/proof.hpp:82-84) -/
def Groth16Proof.wellFormed (P : Pairing F G1 G2 GT) (π : Groth16Proof G1 G2) : Bool :=
  P.wf1 π.gA && P.wf2 π.gB && P.wf1 π.gC

/-- `r1cs_gg_ppzksnark_verifier_weak_input_consistency::process`
(r1cs_gg_ppzksnark/verifier.hpp:138-186). `none` is the failed assertion of line 154. -/
def groth16VerifyWeak [DecidableEq GT] (P : Pairing F G1 G2 GT) (vk : Groth16VK G1 G2 GT)
    (primary : List F) (π : Groth16Proof G1 G2) : Option Bool := do
  let acc ← vk.gammaABC.accumulate primary
  let result := π.wellFormed P
  let qap := P.e π.gA π.gB - (P.e acc vk.gammaG2 + P.e π.gC vk.deltaG2)
  pure (if qap ≠ vk.alphaBeta then false else result)

/-- `r1cs_gg_ppzksnark_verifier_strong_input_consistency::process`
(r1cs_gg_ppzksnark/verifier.hpp:204-230) -/
def groth16VerifyStrong [DecidableEq GT] (P : Pairing F G1 G2 GT) (vk : Groth16VK G1 G2 GT)
    (primary : List F) (π : Groth16Proof G1 G2) : Option Bool :=
  if vk.gammaABC.domainSize ≠ primary.length then some false
  else groth16VerifyWeak P vk primary π

end

end Crypto3Zk
