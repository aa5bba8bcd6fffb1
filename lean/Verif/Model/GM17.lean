import Verif.Model.Groth16

/-!
# The Groth–Maller argument (`r1cs_se_ppzksnark`)

Same conventions as for Groth16: randomness is a parameter, the pairing is a bilinear map. The
generator draws `t` until `Z(t) ≠ 0` (generator.hpp:78-80); here `t` is the value it ends with.
-/

namespace Crypto3Zk

/-- `r1cs_se_ppzksnark_proving_key` (r1cs_se_ppzksnark/proving_key.hpp:46-74) -/
structure Gm17PK (F G1 G2 : Type) [Field F] where
  aQuery : List G1
  bQuery : List G2
  cQuery1 : List G1
  cQuery2 : List G1
  gGammaZ : G1
  hGammaZ : G2
  gAbGammaZ : G1
  gGamma2Z2 : G1
  gGamma2Zt : List G1
  cs : R1CS F

/-- `r1cs_se_ppzksnark_verification_key` (r1cs_se_ppzksnark/verification_key.hpp:46-64) -/
structure Gm17VK (G1 G2 : Type) where
  h : G2
  gAlpha : G1
  hBeta : G2
  gGamma : G1
  hGamma : G2
  query : List G1

/-- the processed verification key (r1cs_se_ppzksnark/verifier.hpp:63-71); precomputed points are
the points. -/
structure Gm17PVK (G1 G2 GT : Type) where
  gAlpha : G1
  hBeta : G2
  gAlphaHBeta : GT
  gGamma : G1
  hGamma : G2
  h : G2
  query : List G1

/-- `r1cs_se_ppzksnark_proof` (r1cs_se_ppzksnark/proof.hpp:49-51) -/
structure Gm17Proof (G1 G2 : Type) where
  gA : G1
  gB : G2
  gC : G1

/-- the random values of the generator (r1cs_se_ppzksnark/generator.hpp:77-80, 102-107) -/
structure Gm17Trapdoor (F G1 G2 : Type) where
  t : F
  alpha : F
  beta : F
  gamma : F
  g : G1
  h : G2

section

variable {F G1 G2 GT : Type} [Field F] [DecidableEq F] [AddCommGroup G1] [Module F G1]
  [AddCommGroup G2] [Module F G2] [AddCommGroup GT] [Module F GT]

/-- `gamma * Ct[i] + (alpha + beta) * At[i]` (generator.hpp:133, 181) -/
def gm17Entry (q : SapEval F) (alpha beta gamma : F) (i : Nat) : Option F := do
  let c ← q.Ct[i]?
  let a ← q.At[i]?
  pure (gamma * c + (alpha + beta) * a)

/-- `r1cs_se_ppzksnark_generator::process` (generator.hpp:68-216), window tables left out -/
def gm17Generate (D : EvalDomain F) (cs : R1CS F) (T : Gm17Trapdoor F G1 G2) :
    Option (Gm17PK F G1 G2 × Gm17VK G1 G2) := do
  let q ← cs.sapEval D T.t
  let hGamma := T.gamma • T.h
  let gAlpha := T.alpha • T.g
  let hBeta := T.beta • T.h
  let verifierExp ← (List.range (q.numInputs + 1)).mapM (gm17Entry q T.alpha T.beta T.gamma)
  let gGamma := T.gamma • T.g
  let gGammaZ := q.Zt • gGamma
  let c1 ← (List.range' (q.numInputs + 1) (q.numVariables - q.numInputs)).mapM fun i =>
    (gm17Entry q T.alpha T.beta T.gamma i).map fun x => T.gamma * x
  let dbl := T.gamma * T.gamma * q.Zt + T.gamma * T.gamma * q.Zt
  let c2 ← (List.range (q.numVariables + 1)).mapM fun i => (q.At[i]?).map fun a => dbl * a
  pure (
    { aQuery := batchExp T.g (q.At.map fun a => T.gamma * a)
      bQuery := batchExp hGamma q.At
      cQuery1 := batchExp T.g c1
      cQuery2 := batchExp T.g c2
      gGammaZ
      hGammaZ := q.Zt • hGamma
      gAbGammaZ := (T.alpha + T.beta) • gGammaZ
      gGamma2Z2 := (q.Zt * T.gamma) • gGammaZ
      gGamma2Zt := batchExp T.g (powersFrom T.t (q.Zt * T.gamma ^ 2) (q.degree + 1))
      cs },
    { h := T.h, gAlpha, hBeta, gGamma, hGamma, query := batchExp T.g verifierExp })

/-- `r1cs_se_ppzksnark_prover::process` (prover.hpp:70-158) with its random `d1`, `d2`, `r` as
arguments. `none` is a read out of bounds or a multi-exponentiation with ranges of different
length. -/
def gm17Prove (D : EvalDomain F) (pk : Gm17PK F G1 G2) (primary aux : List F) (d1 d2 r : F) :
    Option (Gm17Proof G1 G2) := do
  let wit ← pk.cs.sapWitness D primary aux d1 d2
  let a0 ← pk.aQuery[0]?
  let aSum ← multiexp (pk.aQuery.drop 1) wit.coefficientsForACs
  let gA := r • pk.gGammaZ + a0 + wit.d1 • pk.gGammaZ + aSum
  let b0 ← pk.bQuery[0]?
  let bSum ← multiexp (pk.bQuery.drop 1) wit.coefficientsForACs
  let gB := r • pk.hGammaZ + b0 + wit.d1 • pk.hGammaZ + bSum
  let auxCoeffs ← slice wit.coefficientsForACs wit.numInputs wit.coefficientsForACs.length
  let c1 ← multiexp pk.cQuery1 auxCoeffs
  let c20 ← pk.cQuery2[0]?
  let c2 ← multiexp (pk.cQuery2.drop 1) wit.coefficientsForACs
  let z0 ← pk.gGamma2Zt[0]?
  let hz ← multiexp pk.gGamma2Zt wit.coefficientsForH
  let gC := c1 + (r * r) • pk.gGamma2Z2 + r • pk.gAbGammaZ + wit.d1 • pk.gAbGammaZ + r • c20
    + ((r + r) * wit.d1) • pk.gGamma2Z2 + r • c2 + wit.d2 • z0 + hz
  pure ⟨gA, gB, gC⟩

/-- `r1cs_se_ppzksnark_process_verification_key::process` (verifier.hpp:55-74) -/
def gm17Process (P : Pairing F G1 G2 GT) (vk : Gm17VK G1 G2) : Gm17PVK G1 G2 GT :=
  { gAlpha := vk.gAlpha, hBeta := vk.hBeta, gAlphaHBeta := P.e vk.gAlpha vk.hBeta,
    gGamma := vk.gGamma, hGamma := vk.hGamma, h := vk.h, query := vk.query }

/-- `r1cs_se_ppzksnark_proof::is_well_formed` (proof.hpp:73-75) -/
def Gm17Proof.wellFormed (P : Pairing F G1 G2 GT) (π : Gm17Proof G1 G2) : Bool :=
  P.wf1 π.gA && P.wf2 π.gB && P.wf1 π.gC

/-- `r1cs_se_ppzksnark_verifier_weak_input_consistency::process` (verifier.hpp:106-179). There is no
check that the input has as many entries as the query: with any other length the ranges of the
multi-exponentiation differ in length, which is `none`. -/
def gm17VerifyWeak [DecidableEq GT] (P : Pairing F G1 G2 GT) (vk : Gm17VK G1 G2)
    (primary : List F) (π : Gm17Proof G1 G2) : Option Bool := do
  let pvk := gm17Process P vk
  let result := π.wellFormed P
  let q0 ← pvk.query[0]?
  let sum ← multiexp (pvk.query.drop 1) primary
  let gPsi := q0 + sum
  let test1 := -(P.e (π.gA + pvk.gAlpha) (π.gB + pvk.hBeta)) + pvk.gAlphaHBeta
    + P.e gPsi pvk.hGamma + P.e π.gC pvk.h
  let result := if test1 ≠ 0 then false else result
  let test2 := P.e π.gA pvk.hGamma + -(P.e pvk.gGamma π.gB)
  let result := if test2 ≠ 0 then false else result
  pure result

/-- `r1cs_se_ppzksnark_verifier_strong_input_consistency::process` (verifier.hpp:197-223) -/
def gm17VerifyStrong [DecidableEq GT] (P : Pairing F G1 G2 GT) (vk : Gm17VK G1 G2)
    (primary : List F) (π : Gm17Proof G1 G2) : Option Bool :=
  if vk.query.length ≠ primary.length + 1 then some false
  else gm17VerifyWeak P vk primary π

end

end Crypto3Zk
