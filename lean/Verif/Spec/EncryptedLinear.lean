import Verif.Spec.Groth16Linear
import Verif.Spec.EncryptedInput

/-!
# Provers with encrypted inputs that compute with group elements

As in `Spec/Groth16Linear.lean`, a prover is given by coefficients, now for the elements of three keys: the proving
key, the extended verification key and the public key of the encryption scheme.
-/

namespace Crypto3Zk

variable {F G1 G2 GT : Type} [Field F] [DecidableEq F] [AddCommGroup G1] [Module F G1]
  [AddCommGroup G2] [Module F G2] [AddCommGroup GT] [Module F GT]

/-- coefficients for every element of the first group: those of Groth16, `gamma_g1` of the extended verification key,
and `delta_s_g1`, `t_g1`, `delta_sum_s_g1`, `gamma_inverse_sum_s_g1` of the public key -/
structure EncCoeffs1 (F : Type) where
  base : Groth16Coeffs1 F
  gamma : F
  deltaS : List F
  tG1 : List F
  deltaSum : F
  gammaInverse : F

/-- the linear combination; `none` if there is not one coefficient per element -/
def EncCoeffs1.combine (c : EncCoeffs1 F) (g1 : G1) (pk : Groth16PK F G1 G2) (vk : Groth16ExtVK G1 G2 GT)
    (pub : EncPublicKey G1 G2) : Option G1 := do
  let b ← c.base.combine g1 pk vk.toGroth16VK
  let s ← multiexp pub.deltaSG1 c.deltaS
  let t ← multiexp pub.tG1 c.tG1
  pure (b + c.gamma • vk.gammaG1 + s + t + c.deltaSum • pub.deltaSumSG1 + c.gammaInverse • pub.gammaInverseSumSG1)

/-- coefficients for every element of the second group: those of Groth16 and `t_g2` of the public key -/
structure EncCoeffs2 (F : Type) where
  base : Groth16Coeffs2 F
  tG2 : List F

def EncCoeffs2.combine (c : EncCoeffs2 F) (g2 : G2) (pk : Groth16PK F G1 G2) (vk : Groth16ExtVK G1 G2 GT)
    (pub : EncPublicKey G1 G2) : Option G2 := do
  let b ← c.base.combine g2 pk vk.toGroth16VK
  let t ← multiexp pub.tG2 c.tG2
  pure (b + t)

/-- coefficients for a ciphertext `c_0, c_1, …, c_n, ψ` and a proof -/
structure EncStrategy (F : Type) where
  head : EncCoeffs1 F
  body : List (EncCoeffs1 F)
  tag : EncCoeffs1 F
  A : EncCoeffs1 F
  B : EncCoeffs2 F
  C : EncCoeffs1 F

/-- the ciphertext -/
def EncStrategy.ciphertext (S : EncStrategy F) (g1 : G1) (pk : Groth16PK F G1 G2) (vk : Groth16ExtVK G1 G2 GT)
    (pub : EncPublicKey G1 G2) : Option (List G1) :=
  (S.head :: (S.body ++ [S.tag])).mapM fun c => c.combine g1 pk vk pub

/-- the proof -/
def EncStrategy.prove (S : EncStrategy F) (g1 : G1) (g2 : G2) (pk : Groth16PK F G1 G2) (vk : Groth16ExtVK G1 G2 GT)
    (pub : EncPublicKey G1 G2) : Option (Groth16Proof G1 G2) := do
  let a ← S.A.combine g1 pk vk pub
  let b ← S.B.combine g2 pk vk pub
  let c ← S.C.combine g1 pk vk pub
  pure ⟨a, b, c⟩

/-- the secret key `s_1, …, s_n`, `t_0, …, t_n` -/
def saverSecretOf {n : Nat} (s : Fin n → F) (τ : Fin (n + 1) → F) : SaverSecret F :=
  ⟨List.ofFn s, τ 0, List.ofFn fun i => τ i.succ⟩

end Crypto3Zk
