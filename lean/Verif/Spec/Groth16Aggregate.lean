import Verif.Model.Groth16Aggregate
import Mathlib.Algebra.BigOperators.Fin

/-!
# Specification: aggregated Groth16 proofs

What an aggregate claims, in terms of group elements and sums; nothing here refers to the algorithms of
the prover or the verifier.
-/

namespace Crypto3Zk

variable {F : Type} [Field F] {G1 G2 GT : Type} [AddCommGroup G1] [Module F G1] [AddCommGroup G2]
  [Module F G2] [AddCommGroup GT] [Module F GT]

/-- The Groth16 equation for one proof and its public input:
`e(A, B) = e(α, β) + e(S_0 + Σ x_j S_{j+1}, γ) + e(C, δ)`. -/
def Groth16Holds (P : Pairing F G1 G2 GT) (vk : AggVK G1 G2) (x : List F) (π : Groth16Proof G1 G2) :
    Prop :=
  P.e π.gA π.gB = P.e vk.alphaG1 vk.betaG2 +
    P.e (vk.gammaABC.first + (List.zipWith (fun g a => a • g) vk.gammaABC.rest x).sum) vk.gammaG2 +
    P.e π.gC vk.deltaG2

/-- `∏_j (1 + x_j y^(2^(k-j)))` for the challenges `x_1, ..., x_k`: what folding the vector
`1, y, ..., y^(2^k - 1)` in half with `x_1`, then with `x_2`, and so on leaves. -/
def foldFactor : List F → F → F
  | [], _ => 1
  | x :: xs, y => (1 + x * y ^ 2 ^ xs.length) * foldFactor xs y

/-- `T + Σ_j (x_j L_j + x_j⁻¹ R_j)` -/
def combinedValue {G : Type} [AddCommGroup G] [Module F G] (T : G) (LR : List (G × G)) (xs : List F) : G :=
  T + (List.zipWith (fun lr x => x • lr.1 + x⁻¹ • lr.2) LR xs).sum

/-- The statements that the verifier of an aggregate combines, for the challenges `r`, `xs` (the folding
challenges in the order of drawing) and `z`. -/
structure AggEquations (P : Pairing F G1 G2 GT) (s : AggVerificationSrs G1 G2) (vk : AggVK G1 G2)
    (inputs : List (List F)) (p : AggProof G1 G2 GT) (r : F) (xs : List F) (z : F) : Prop where
  /-- the openings of the final keys `v` at `z` -/
  v1 : P.e s.g (p.gipa.finalVkey.1 - foldFactor (xs.map (·⁻¹)) z • s.h) =
    P.e (s.gAlpha - z • s.g) p.vkeyOpening.1
  v2 : P.e s.g (p.gipa.finalVkey.2 - foldFactor (xs.map (·⁻¹)) z • s.h) =
    P.e (s.gBeta - z • s.g) p.vkeyOpening.2
  /-- the openings of the final keys `w` at `z` -/
  w1 : P.e (p.gipa.finalWkey.1 - (foldFactor xs (z * r⁻¹) * z ^ s.n) • s.g) s.h =
    P.e p.wkeyOpening.1 (s.hAlpha - z • s.h)
  w2 : P.e (p.gipa.finalWkey.2 - (foldFactor xs (z * r⁻¹) * z ^ s.n) • s.g) s.h =
    P.e p.wkeyOpening.2 (s.hBeta - z • s.h)
  /-- the inner product of `A` and `B` -/
  zab : P.e p.gipa.finalA p.gipa.finalB = combinedValue p.ipAB p.gipa.zAB xs
  /-- the commitments to `A` and `B` -/
  tab : P.e p.gipa.finalA p.gipa.finalVkey.1 + P.e p.gipa.finalWkey.1 p.gipa.finalB =
    combinedValue p.comAB.1 (p.gipa.commsAB.map fun c => (c.1.1, c.2.1)) xs
  uab : P.e p.gipa.finalA p.gipa.finalVkey.2 + P.e p.gipa.finalWkey.2 p.gipa.finalB =
    combinedValue p.comAB.2 (p.gipa.commsAB.map fun c => (c.1.2, c.2.2)) xs
  /-- the commitments to `C` -/
  tc : P.e p.gipa.finalC p.gipa.finalVkey.1 =
    combinedValue p.comC.1 (p.gipa.commsC.map fun c => (c.1.1, c.2.1)) xs
  uc : P.e p.gipa.finalC p.gipa.finalVkey.2 =
    combinedValue p.comC.2 (p.gipa.commsC.map fun c => (c.1.2, c.2.2)) xs
  /-- the linear combination of `C` -/
  zc : foldFactor (xs.map (·⁻¹)) r • p.gipa.finalC = combinedValue p.aggC p.gipa.zC xs
  /-- the linear combination of the Groth16 equations with the powers of `r` -/
  groth : p.ipAB = P.e ((∑ i : Fin inputs.length, r ^ (i : Nat)) • vk.alphaG1) vk.betaG2 +
    P.e (∑ i : Fin inputs.length, r ^ (i : Nat) • (vk.gammaABC.first +
      (List.zipWith (fun g a => a • g) vk.gammaABC.rest inputs[i]).sum)) vk.gammaG2 +
    P.e p.aggC vk.deltaG2

/-- The challenges that the transcript gives for a proof: `r` after the commitments and the caller's
bytes, one challenge after the messages of each round, `z` after the final keys. -/
structure AggChallenges [DecidableEq F] (H : AggHash F G1 G2 GT) (p : AggProof G1 G2 GT)
    (incl : List UInt8) (r : F) (xs : List F) (z : F) : Prop where
  start : H.read (H.writeStart p.comAB p.comC incl) = some r
  rounds : ∃ ms tr c, p.gipa.rounds = some ms ∧
    gipaChallenges H (H.writeStart p.comAB p.comC incl ++ H.bytesGT p.ipAB ++ H.bytesG1 p.aggC ++
      tagGipa) ms = some (xs.map (·⁻¹), tr) ∧ xs.getLast? = some c ∧
    H.read (H.writeFinal tr c p.gipa.finalVkey p.gipa.finalWkey) = some z

/-- What is assumed of the encodings: each has a fixed length and different values have different bytes
(for lengths: below `2^64`). -/
structure AggHash.Encodes (H : AggHash F G1 G2 GT) : Prop where
  injF : Function.Injective H.bytesF
  injG1 : Function.Injective H.bytesG1
  injG2 : Function.Injective H.bytesG2
  injGT : Function.Injective H.bytesGT
  injLen : ∀ m n, m < 2 ^ 64 → n < 2 ^ 64 → H.bytesLen m = H.bytesLen n → m = n
  lenF : ∃ n, ∀ x, (H.bytesF x).length = n
  lenG1 : ∃ n, ∀ x, (H.bytesG1 x).length = n
  lenG2 : ∃ n, ∀ x, (H.bytesG2 x).length = n
  lenGT : ∃ n, (∀ x, (H.bytesGT x).length = n) ∧ 0 < n
  lenLen : ∃ n, ∀ x, x < 2 ^ 64 → (H.bytesLen x).length = n

/-- `t` is what the verifier hashes when it draws the challenge number `j` of the rounds (for `j` at least
one): everything up to the messages of that round. -/
def AggHash.RoundBytes [DecidableEq F] (H : AggHash F G1 G2 GT) (p : AggProof G1 G2 GT) (incl : List UInt8)
    (j : Nat) (t : List UInt8) : Prop :=
  ∃ ms xs, p.gipa.rounds = some ms ∧ j ≤ ms.length ∧
    gipaChallenges H (H.writeStart p.comAB p.comC incl ++ H.bytesGT p.ipAB ++ H.bytesG1 p.aggC ++
      tagGipa) (ms.take j) = some (xs, t)

/-- `t` is what the verifier hashes when it draws its last challenge. -/
def AggHash.LastBytes [DecidableEq F] (H : AggHash F G1 G2 GT) (p : AggProof G1 G2 GT) (incl : List UInt8)
    (t : List UInt8) : Prop :=
  ∃ ms xs tr c, p.gipa.rounds = some ms ∧
    gipaChallenges H (H.writeStart p.comAB p.comC incl ++ H.bytesGT p.ipAB ++ H.bytesG1 p.aggC ++
      tagGipa) ms = some (xs, tr) ∧ t = H.writeFinal tr c p.gipa.finalVkey p.gipa.finalWkey

/-- An aggregate without its final elements and the openings, which are not part of the transcript:
commitments, combined values, messages of the rounds and final keys. -/
structure AggProof.SameAbsorbed (p q : AggProof G1 G2 GT) : Prop where
  comAB : p.comAB = q.comAB
  comC : p.comC = q.comC
  ipAB : p.ipAB = q.ipAB
  aggC : p.aggC = q.aggC
  rounds : p.gipa.rounds = q.gipa.rounds
  finalVkey : p.gipa.finalVkey = q.gipa.finalVkey
  finalWkey : p.gipa.finalWkey = q.gipa.finalWkey

end Crypto3Zk
