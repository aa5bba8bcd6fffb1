import Verif.Model.EncryptedInput

/-!
# The verifiable encryption scheme behind the encrypted inputs

The scheme (SAVER) is in crypto3-pubkey, outside this repository. Its secret key is `s_1, …, s_n` and
`t_0, …, t_n`; `δ` and `γ` stand for the elements `delta_g1` and `gamma_g1` of the extended Groth16
verification key and `G_i` for its `gamma_ABC_g1` elements.
-/

namespace Crypto3Zk

variable {F G1 G2 GT : Type} [Field F] [DecidableEq F] [AddCommGroup G1] [Module F G1]
  [AddCommGroup G2] [Module F G2] [AddCommGroup GT] [Module F GT]

/-- the secret key -/
structure SaverSecret (F : Type) where
  s : List F
  t0 : F
  t : List F

/-- the public key of a secret key: `δ`, `s_i δ`, `t_i G_i`, `t_i H`, `(t_0 + Σ s_i t_i) δ` and
`-(1 + Σ s_i) γ` -/
def saverKey (P : Pairing F G1 G2 GT) (vk : Groth16ExtVK G1 G2 GT) (σ : SaverSecret F) :
    EncPublicKey G1 G2 where
  deltaG1 := vk.deltaG1
  deltaSG1 := σ.s.map (· • vk.deltaG1)
  tG1 := List.zipWith (· • ·) σ.t vk.gammaABC.rest
  tG2 := (σ.t0 :: σ.t).map (· • P.one2)
  deltaSumSG1 := (σ.t0 + (List.zipWith (· * ·) σ.s σ.t).sum) • vk.deltaG1
  gammaInverseSumSG1 := -((1 + σ.s.sum) • vk.gammaG1)

/-- the encryption of `m_1, …, m_n` with randomness `r`: `r δ`, then `r (s_i δ) + m_i G_i`, then
`r (delta_sum_s_g1) + Σ m_i (t_i G_i)` -/
def saverEncrypt (vk : Groth16ExtVK G1 G2 GT) (pub : EncPublicKey G1 G2) (m : List F) (r : F) :
    List G1 :=
  r • pub.deltaG1 ::
    (List.zipWith (· + ·) (pub.deltaSG1.map (r • ·)) (List.zipWith (· • ·) m vk.gammaABC.rest) ++
      [r • pub.deltaSumSG1 + (List.zipWith (· • ·) m pub.tG1).sum])

/-- the body `c_1, …, c_n` of a ciphertext with head `c_0` decrypts to `m_1, …, m_n`:
`c_i - s_i c_0 = m_i G_i` -/
def SaverDecrypts (vk : Groth16ExtVK G1 G2 GT) (σ : SaverSecret F) (c0 : G1) (cs : List G1)
    (m : List F) : Prop :=
  List.zipWith (fun c s => c - s • c0) cs σ.s = List.zipWith (· • ·) m vk.gammaABC.rest

/-- the Groth16 equation of a proof `(A, B, C)` for the public input `x` -/
def Groth16Equation (P : Pairing F G1 G2 GT) (vk : Groth16VK G1 G2 GT) (x : List F)
    (A : G1) (B : G2) (C : G1) : Prop :=
  P.e A B = vk.alphaBeta
    + P.e (vk.gammaABC.first + (List.zipWith (fun a g => a • g) x vk.gammaABC.rest).sum) vk.gammaG2
    + P.e C vk.deltaG2

end Crypto3Zk
