import Verif.Model.AdSnark

/-! # Specification of the argument on authenticated data -/

namespace Crypto3Zk

variable {F G1 G2 GT : Type} [Field F] [AddCommGroup G1] [Module F G1]
  [AddCommGroup G2] [Module F G2] [AddCommGroup GT] [Module F GT]
variable {Label Seed SK VK Sig : Type}

/-- what is assumed of the signature scheme for the key pair `(sk, vk)`: signatures verify, and a
batch verifies exactly when every signature in it does -/
structure AdPrimitives.Signs (A : AdPrimitives F G2 Label Seed SK VK Sig) (sk : SK) (vk : VK) :
    Prop where
  correct : ∀ label Lambda, A.verify vk label Lambda (A.sign sk label Lambda) = true
  batch : ∀ entries : List (Label × G2 × Sig),
    A.batchVerify vk (entries.map (·.1)) (entries.map (·.2.1)) (entries.map (·.2.2))
      = entries.all fun e => A.verify vk e.1 e.2.1 e.2.2

/-- the equations both verifiers check: the elements are on their curves, the four knowledge
commitments are consistent, the divisibility check and the same-coefficient check hold -/
structure AdEquations (P : Pairing F G1 G2 GT) (vk : AdVK G1 G2) (π : AdProof G1 G2) : Prop where
  wf1 : ∀ g ∈ [π.gA.1, π.gA.2, π.gB.2, π.gC.1, π.gC.2, π.gH, π.gK, π.gAau.1, π.gAau.2, π.muA],
    P.wf1 g = true
  wf2 : P.wf2 π.gB.1 = true
  kcAau : P.e π.gAau.1 vk.alphaAG2 = P.e π.gAau.2 P.one2
  kcA : P.e π.gA.1 vk.alphaAG2 = P.e π.gA.2 P.one2
  kcB : P.e vk.alphaBG1 π.gB.1 = P.e π.gB.2 P.one2
  kcC : P.e π.gC.1 vk.alphaCG2 = P.e π.gC.2 P.one2
  qap : P.e (vk.A0 + π.gAau.1 + π.gA.1) π.gB.1 = P.e π.gH vk.rCZG2 + P.e π.gC.1 P.one2
  same : P.e π.gK vk.gammaG2
    = P.e (vk.A0 + π.gAau.1 + π.gA.1 + π.gC.1) vk.gammaBetaG2 + P.e vk.gammaBetaG1 π.gB.1

/-- the authentication equation: `muA` is `i` times the authenticated part plus the pseudorandom
values of the labels at the input elements -/
def AdAuthentic (A : AdPrimitives F G2 Label Seed SK VK Sig) (vk : AdVK G1 G2) (π : AdProof G1 G2)
    (sak : AdSecKey F Seed SK) (labels : List Label) : Prop :=
  π.muA = sak.i • π.gAau.1
    + (List.zipWith (fun g l => A.prf sak.S l • g) vk.Ain labels).sum

end Crypto3Zk
