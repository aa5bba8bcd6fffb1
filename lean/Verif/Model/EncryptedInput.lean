import Verif.Model.Groth16
import Verif.Model.SizeT

/-!
# Groth16 with encrypted inputs (`r1cs_gg_ppzksnark/encrypted_input`)

A part of the public input is given to the verifier as a ciphertext of the verifiable ElGamal scheme
of the crypto3-pubkey library. Key generation and encryption of that scheme are not in this
repository; the header fixes only which fields of the public key it reads (see
`Spec/EncryptedInput.lean` for the scheme). Pairing and groups as in `Model/Groth16.lean`.
-/

namespace Crypto3Zk

/-- `r1cs_gg_ppzksnark_extended_verification_key` (r1cs_gg_ppzksnark/verification_key.hpp:121-147) -/
structure Groth16ExtVK (G1 G2 GT : Type) extends Groth16VK G1 G2 GT where
  deltaG1 : G1
  gammaG1 : G1

/-- the fields of the public key of the encryption scheme: `delta_g1`, `delta_s_g1`, `t_g1`, `t_g2`,
`delta_sum_s_g1` and `gamma_inverse_sum_s_g1` (read at encrypted_input/verifier.hpp:92-104 and
encrypted_input/prover.hpp:73; the type is in crypto3-pubkey) -/
structure EncPublicKey (G1 G2 : Type) where
  deltaG1 : G1
  deltaSG1 : List G1
  tG1 : List G1
  tG2 : List G2
  deltaSumSG1 : G1
  gammaInverseSumSG1 : G1

section

variable {F G1 G2 GT : Type} [Field F] [DecidableEq F] [AddCommGroup G1] [Module F G1]
  [AddCommGroup G2] [Module F G2] [AddCommGroup GT] [Module F GT]

/-- `r1cs_gg_ppzksnark_generator<…, encrypted_input>::process` (encrypted_input/generator.hpp:59-69),
which is the generator for the extended key pair (r1cs_gg_ppzksnark/generator.hpp:416-443, with
`gamma_g1` from line 226) -/
def groth16GenerateExtended (P : Pairing F G1 G2 GT) (D : EvalDomain F) (cs : R1CS F)
    (T : Groth16Trapdoor F G1 G2) (chunks : Nat) :
    Option (Groth16PK F G1 G2 × Groth16ExtVK G1 G2 GT) := do
  let (pk, vk) ← groth16Generate P D cs T chunks
  pure (pk, { vk with deltaG1 := pk.deltaG1, gammaG1 := T.gamma • T.g1 })

/-- `r1cs_gg_ppzksnark_prover<…, encrypted_input>::process` (encrypted_input/prover.hpp:63-74); `r` is
the randomness the inputs were encrypted with, `r'` and `s'` the randomness of the basic prover. -/
def encProve (D : EvalDomain F) (pk : Groth16PK F G1 G2) (pub : EncPublicKey G1 G2)
    (primary aux : List F) (r r' s' : F) : Option (Groth16Proof G1 G2) := do
  let π ← groth16Prove D pk primary aux r' s'
  pure ⟨π.gA, π.gB, r • pub.gammaInverseSumSG1 + π.gC⟩

/-- the loop over the ciphertext and `t_g2` (encrypted_input/verifier.hpp:98-103); returns what is
left of the two ranges, the accumulated input and the accumulated pairings -/
def encLoop (P : Pairing F G1 G2 GT) : List G1 → List G2 → G1 → GT → List G1 × List G2 × G1 × GT
  | c :: cs, t :: ts, acc, sum => encLoop P cs ts (acc + c) (sum + P.e c t)
  | cs, ts, acc, sum => (cs, ts, acc, sum)

/-- `r1cs_gg_ppzksnark_verifier_strong_input_consistency<…, encrypted_input>::process`
(encrypted_input/verifier.hpp:84-149). `none` is a failed assertion (lines 90-94, 104), `last - 1` of
an empty range, or a read out of bounds (line 107). -/
def encVerify [DecidableEq GT] (P : Pairing F G1 G2 GT) (ct : List G1) (vk : Groth16ExtVK G1 G2 GT)
    (pub : EncPublicKey G1 G2) (unencrypted : List F) (π : Groth16Proof G1 G2) : Option Bool := do
  let inputSize := vk.gammaABC.rest.length
  let n := subSize ct.length 2
  guard (subSize inputSize 1 > n)
  guard ((unencrypted.length + n) % 2 ^ 64 = inputSize)
  guard (n = pub.deltaSG1.length)
  guard (n = pub.tG1.length)
  guard (n = subSize pub.tG2.length 1)
  let lastCt ← ct.getLast?
  let (it1, it2, acc, sumCipher) := encLoop P ct.dropLast pub.tG2 vk.gammaABC.first 0
  guard (it1.isEmpty ∧ it2.isEmpty)
  let acc ← (List.range' n (inputSize - n)).foldlM (fun acc i => do
    let x ← unencrypted[(subSize i ct.length + 2) % 2 ^ 64]?
    let g ← vk.gammaABC.rest[i]?
    pure (acc + x • g)) acc
  let ans1 : Bool := sumCipher = P.e lastCt P.one2
  let qapL := P.e π.gA π.gB
  let qapR := vk.alphaBeta + P.e acc vk.gammaG2 + P.e π.gC vk.deltaG2
  let ans2 : Bool := qapL = qapR
  pure (ans1 && ans2)

end

end Crypto3Zk
