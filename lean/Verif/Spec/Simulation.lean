import Verif.Model.Groth16
import Verif.Model.GM17
import Verif.Model.PGHR13
import Verif.Model.USCSArg
import Verif.Model.EncryptedInput
import Verif.Model.AdSnark

/-!
# Simulators of the pairing-based arguments

A simulator makes proofs from the public input, the verification key and the secrets the keys were
generated with. It is given no witness: no argument of the functions below depends on one. `none`
only if the public input is too long for the key.
-/

set_option linter.unusedSectionVars false

namespace Crypto3Zk

variable {F : Type} [Field F] [DecidableEq F]
variable {G1 G2 GT : Type} [AddCommGroup G1] [Module F G1] [AddCommGroup G2] [Module F G2]
  [AddCommGroup GT] [Module F GT]

/-- a prover with uniformly random `r` and a simulator with uniformly random `s` return every proof
equally often: their randomness can be matched so that the outcomes are the same, and the prover
always returns one -/
def SameDistribution {R S Q : Type} (prover : R → Option Q) (simulator : S → Option Q) : Prop :=
  ∃ f : R → S, Function.Bijective f ∧ ∀ r, (prover r).isSome ∧ prover r = simulator (f r)

/-- Groth16: `A = a g`, `B = b h`, and the `C` that makes the equation hold -/
def groth16Simulate (T : Groth16Trapdoor F G1 G2) (vk : Groth16VK G1 G2 GT) (primary : List F)
    (a b : F) : Option (Groth16Proof G1 G2) := do
  let acc ← vk.gammaABC.accumulate primary
  pure ⟨a • T.g1, b • T.g2, T.delta⁻¹ • ((a * b - T.alpha * T.beta) • T.g1 - T.gamma • acc)⟩

/-- Groth–Maller: `A = x g`, `B = x h`, and the `C` that makes the equation hold -/
def gm17Simulate (T : Gm17Trapdoor F G1 G2) (vk : Gm17VK G1 G2) (primary : List F) (x : F) :
    Option (Gm17Proof G1 G2) := do
  let q0 ← vk.query[0]?
  let sum ← multiexp (vk.query.drop 1) primary
  pure ⟨x • T.g, x • T.h, (x ^ 2 + (T.alpha + T.beta) * x) • T.g - T.gamma • (q0 + sum)⟩

/-- PGHR13: values `a`, `b`, `c` of the three polynomials and the quotient `(a b - c) / z`; `z` is the
value of the vanishing polynomial at the secret point -/
def pghr13Simulate (P : Pairing F G1 G2 GT) (z : F) (T : Pghr13Trapdoor F) (vk : Pghr13VK G1 G2)
    (primary : List F) (a b c : F) : Option (Pghr13Proof G1 G2) := do
  let acc ← vk.encodedIC.accumulate primary
  let gA := (T.rA * a) • P.one1 - acc
  pure ⟨(gA, T.alphaA • gA),
    ((T.rB * b) • P.one2, (T.alphaB * (T.rB * b)) • P.one1),
    ((T.rA * T.rB * c) • P.one1, (T.alphaC * (T.rA * T.rB * c)) • P.one1),
    ((a * b - c) / z) • P.one1,
    (T.beta * (T.rA * a + T.rB * b + T.rA * T.rB * c)) • P.one1⟩

/-- the argument for unitary-square systems: a value `v` and the quotient `(v ^ 2 - 1) / z` -/
def uscsSimulate (P : Pairing F G1 G2 GT) (z alpha : F) (vk : UscsVK G1 G2) (primary : List F)
    (v : F) : Option (UscsProof G1 G2) := do
  let acc ← vk.encodedIC.accumulate primary
  let g := v • P.one1 - acc
  pure ⟨g, alpha • g, ((v ^ 2 - 1) / z) • P.one1, v • P.one2⟩

/-- encrypted inputs: the simulator sees the ciphertext `ct` (`c_0, …, c_n, ψ`) and the inputs in the
clear, but neither the encrypted inputs nor the randomness of the encryption -/
def encSimulate (T : Groth16Trapdoor F G1 G2) (vk : Groth16ExtVK G1 G2 GT) (ct : List G1)
    (clear : List F) (a b : F) : Groth16Proof G1 G2 :=
  let acc := vk.gammaABC.first + ct.dropLast.sum
    + (List.zipWith (fun x g => x • g) clear (vk.gammaABC.rest.drop (ct.length - 2))).sum
  ⟨a • T.g1, b • T.g2, T.delta⁻¹ • ((a * b - T.alpha * T.beta) • T.g1 - T.gamma • acc)⟩

variable {Label Seed SK VK Sig : Type}

/-- authenticated data: the simulator sees the labels, but neither the signed data nor their tags;
`a`, `b`, `c` are values of the three polynomials and `u` that of the part for the signed data -/
def adSimulate (A : AdPrimitives F G2 Label Seed SK VK Sig) (P : Pairing F G1 G2 GT) (z : F)
    (T : Pghr13Trapdoor F) (sak : AdSecKey F Seed SK) (vk : AdVK G1 G2) (labels : List Label)
    (a b c u : F) : AdProof G1 G2 :=
  let gAau := (T.rA * u) • P.one1
  let gA := (T.rA * a) • P.one1 - vk.A0 - gAau
  ⟨(gA, T.alphaA • gA),
    ((T.rB * b) • P.one2, (T.alphaB * (T.rB * b)) • P.one1),
    ((T.rA * T.rB * c) • P.one1, (T.alphaC * (T.rA * T.rB * c)) • P.one1),
    ((a * b - c) / z) • P.one1,
    (T.beta * (T.rA * a + T.rB * b + T.rA * T.rB * c)) • P.one1,
    (gAau, T.alphaA • gAau),
    sak.i • gAau + (List.zipWith (fun g l => A.prf sak.S l • g) vk.Ain labels).sum⟩

end Crypto3Zk
