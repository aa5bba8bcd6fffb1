import Verif.Model.Groth16

/-!
# The PGHR13 argument (`r1cs_ppzksnark`)

Same conventions as for Groth16: randomness is a parameter, the pairing is a bilinear map.
-/

namespace Crypto3Zk

/-- `r1cs_ppzksnark_proving_key` (r1cs_ppzksnark/proving_key.hpp:57-63) -/
structure Pghr13PK (F G1 G2 : Type) [Field F] where
  aQuery : KcVec (G1 × G1)
  bQuery : KcVec (G2 × G1)
  cQuery : KcVec (G1 × G1)
  hQuery : List G1
  kQuery : List G1
  cs : R1CS F

/-- `r1cs_ppzksnark_verification_key` (r1cs_ppzksnark/verification_key.hpp:48-56) and its processed
form (verifier.hpp:53-77), which holds the same values precomputed for the pairing. -/
structure Pghr13VK (G1 G2 : Type) where
  alphaAG2 : G2
  alphaBG1 : G1
  alphaCG2 : G2
  gammaG2 : G2
  gammaBetaG1 : G1
  gammaBetaG2 : G2
  rCZG2 : G2
  encodedIC : AccVec G1

/-- `r1cs_ppzksnark_proof` (r1cs_ppzksnark/proof.hpp:51-55) -/
structure Pghr13Proof (G1 G2 : Type) where
  gA : G1 × G1
  gB : G2 × G1
  gC : G1 × G1
  gH : G1
  gK : G1

/-- the random values of the generator (r1cs_ppzksnark/generator.hpp:72, 109-120) -/
structure Pghr13Trapdoor (F : Type) where
  t : F
  alphaA : F
  alphaB : F
  alphaC : F
  rA : F
  rB : F
  beta : F
  gamma : F

section

variable {F G1 G2 GT : Type} [Field F] [DecidableEq F] [AddCommGroup G1] [Module F G1]
  [AddCommGroup G2] [Module F G2] [AddCommGroup GT] [Module F GT]

/-- one iteration of the loop that moves the prefix of `At` to the input coefficients
(r1cs_ppzksnark/generator.hpp:137-141); `none` is the failed assertion of line 139. -/
def pghr13Prefix : List F × List F → Nat → Option (List F × List F) :=
  fun (At, ic) i => do
    let a ← At[i]?
    guard (a ≠ 0)
    pure (At.set i 0, ic ++ [a])

/-- `beta * (rA * At[i] + rB * Bt[i] + rC * Ct[i])` (r1cs_ppzksnark/generator.hpp:128) -/
def pghr13K (T : Pghr13Trapdoor F) (rC : F) (At Bt Ct : List F) (i : Nat) : Option F := do
  let a ← At[i]?
  let b ← Bt[i]?
  let c ← Ct[i]?
  pure (T.beta * (T.rA * a + T.rB * b + rC * c))

/-- `r1cs_ppzksnark_generator::process` (r1cs_ppzksnark/generator.hpp:61-225). The window tables and
the counts of nonzero entries do not change results and are left out. -/
def pghr13Generate (P : Pairing F G1 G2 GT) (D : EvalDomain F) (cs : R1CS F)
    (T : Pghr13Trapdoor F) (chunks : Nat) : Option (Pghr13PK F G1 G2 × Pghr13VK G1 G2) := do
  let csCopy ← cs.swapABIfBeneficial
  let q ← csCopy.qapEval D T.t
  let At := q.At ++ [q.Zt]
  let Bt := q.Bt ++ [q.Zt]
  let Ct := q.Ct ++ [q.Zt]
  let rC := T.rA * T.rB
  let Kt0 ← (List.range (q.numVariables + 1)).mapM (pghr13K T rC At Bt Ct)
  let Kt := Kt0 ++ [T.beta * T.rA * q.Zt, T.beta * T.rB * q.Zt, T.beta * rC * q.Zt]
  let (At, ic) ← (List.range (q.numInputs + 1)).foldlM pghr13Prefix (At, [])
  let aQuery ← kcBatchExp P.one1 P.one1 T.rA (T.rA * T.alphaA) At chunks
  let bQuery ← kcBatchExp P.one2 P.one1 T.rB (T.rB * T.alphaB) Bt chunks
  let cQuery ← kcBatchExp P.one1 P.one1 rC (rC * T.alphaC) Ct chunks
  let ic0 ← ic[0]?
  let ics ← (List.range' 1 q.numInputs).mapM fun i => do
    let c ← ic[i]?
    pure (T.rA * c)
  pure (
    { aQuery, bQuery, cQuery
      hQuery := batchExp P.one1 q.Ht
      kQuery := batchExp P.one1 Kt
      cs := csCopy },
    { alphaAG2 := T.alphaA • P.one2
      alphaBG1 := T.alphaB • P.one1
      alphaCG2 := T.alphaC • P.one2
      gammaG2 := T.gamma • P.one2
      gammaBetaG1 := (T.gamma * T.beta) • P.one1
      gammaBetaG2 := (T.gamma * T.beta) • P.one2
      rCZG2 := (rC * q.Zt) • P.one2
      encodedIC := ⟨(T.rA * ic0) • P.one1, batchExp P.one1 ics⟩ })

/-- `r1cs_ppzksnark_prover::process` (r1cs_ppzksnark/prover.hpp:73-132) with the random `d1, d2, d3`
as arguments. The scalar range given to the three sparse multi-exponentiations is one longer than
the assignment (lines 106-107, 111-112, 116-117); its last position is never read. -/
def pghr13Prove (D : EvalDomain F) (pk : Pghr13PK F G1 G2) (primary aux : List F) (d1 d2 d3 : F) :
    Option (Pghr13Proof G1 G2) := do
  let wit ← pk.cs.qapWitness D primary aux d1 d2 d3
  let n := wit.numVariables
  let gA := pk.aQuery.get 0 + wit.d1 • pk.aQuery.get (n + 1)
  let gB := pk.bQuery.get 0 + wit.d2 • pk.bQuery.get (n + 1)
  let gC := pk.cQuery.get 0 + wit.d3 • pk.cQuery.get (n + 1)
  let k0 ← pk.kQuery[0]?
  let k1 ← pk.kQuery[n + 1]?
  let k2 ← pk.kQuery[n + 2]?
  let k3 ← pk.kQuery[n + 3]?
  let gK := k0 + wit.d1 • k1 + wit.d2 • k2 + wit.d3 • k3
  let mA ← kcMultiexp pk.aQuery 1 (1 + n) wit.coefficientsForABCs (n + 1)
  let mB ← kcMultiexp pk.bQuery 1 (1 + n) wit.coefficientsForABCs (n + 1)
  let mC ← kcMultiexp pk.cQuery 1 (1 + n) wit.coefficientsForABCs (n + 1)
  let hBases ← slice pk.hQuery 0 (wit.degree + 1)
  let hScalars ← slice wit.coefficientsForH 0 (wit.degree + 1)
  let mH ← multiexp hBases hScalars
  let kBases ← slice pk.kQuery 1 (1 + n)
  let kScalars ← slice wit.coefficientsForABCs 0 n
  let mK ← multiexp kBases kScalars
  pure ⟨gA + mA, gB + mB, gC + mC, 0 + mH, gK + mK⟩

/-- `r1cs_ppzksnark_proof::is_well_formed` (r1cs_ppzksnark/proof.hpp:88-92) -/
def Pghr13Proof.wellFormed (P : Pairing F G1 G2 GT) (π : Pghr13Proof G1 G2) : Bool :=
  P.wf1 π.gA.1 && P.wf1 π.gA.2 && P.wf2 π.gB.1 && P.wf1 π.gB.2 && P.wf1 π.gC.1 && P.wf1 π.gC.2 &&
    P.wf1 π.gH && P.wf1 π.gK

/-- `r1cs_ppzksnark_verifier_weak_input_consistency::process`
(r1cs_ppzksnark/verifier.hpp:105-194). `none` is the failed assertion of line 121. -/
def pghr13VerifyWeak [DecidableEq GT] (P : Pairing F G1 G2 GT) (vk : Pghr13VK G1 G2)
    (primary : List F) (π : Pghr13Proof G1 G2) : Option Bool := do
  let acc ← vk.encodedIC.accumulate primary
  let result := π.wellFormed P
  let kcA := P.e π.gA.1 vk.alphaAG2 - P.e π.gA.2 P.one2
  let result := if kcA ≠ 0 then false else result
  let kcB := P.e vk.alphaBG1 π.gB.1 - P.e π.gB.2 P.one2
  let result := if kcB ≠ 0 then false else result
  let kcC := P.e π.gC.1 vk.alphaCG2 - P.e π.gC.2 P.one2
  let result := if kcC ≠ 0 then false else result
  let qap := P.e (π.gA.1 + acc) π.gB.1 - (P.e π.gH vk.rCZG2 + P.e π.gC.1 P.one2)
  let result := if qap ≠ 0 then false else result
  let k := P.e π.gK vk.gammaG2
    - (P.e ((π.gA.1 + acc) + π.gC.1) vk.gammaBetaG2 + P.e vk.gammaBetaG1 π.gB.1)
  let result := if k ≠ 0 then false else result
  pure result

/-- `r1cs_ppzksnark_verifier_strong_input_consistency::process`
(r1cs_ppzksnark/verifier.hpp:212-237) -/
def pghr13VerifyStrong [DecidableEq GT] (P : Pairing F G1 G2 GT) (vk : Pghr13VK G1 G2)
    (primary : List F) (π : Pghr13Proof G1 G2) : Option Bool :=
  if vk.encodedIC.domainSize ≠ primary.length then some false
  else pghr13VerifyWeak P vk primary π

end

end Crypto3Zk
