import Verif.Spec.GM17Linear
import Verif.Spec.Groth16Linear
import Verif.Spec.Malleability
import Verif.Spec.Simulation

/-!
# Provers that have seen proofs of others

As in `Verif/Spec/GM17Linear.lean` and `Verif/Spec/Groth16Linear.lean`, a prover is given by coefficients. Here it
has seen `n` proofs, and it has one more coefficient for each of their group elements.
-/

set_option linter.unusedSectionVars false

namespace Crypto3Zk

variable {F : Type} [Field F] [DecidableEq F]
variable {G1 G2 GT : Type} [AddCommGroup G1] [Module F G1] [AddCommGroup G2] [Module F G2]
  [AddCommGroup GT] [Module F GT] [DecidableEq GT]

/-- the coefficients: those for the keys, and for the first and third (second) elements of the seen
proofs -/
structure Gm17Seen (F : Type) (n : Nat) where
  A : Gm17Coeffs1 F
  B : Gm17Coeffs2 F
  C : Gm17Coeffs1 F
  aA : Fin n → F
  aC : Fin n → F
  bB : Fin n → F
  cA : Fin n → F
  cC : Fin n → F

/-- the proof this prover makes; `none` if there is not one coefficient per element of the keys -/
def Gm17Seen.prove {n : Nat} (s : Gm17Seen F n) (g : G1) (pk : Gm17PK F G1 G2) (vk : Gm17VK G1 G2)
    (seen : Fin n → Gm17Proof G1 G2) : Option (Gm17Proof G1 G2) := do
  let a ← s.A.combine g pk vk
  let b ← s.B.combine pk vk
  let c ← s.C.combine g pk vk
  pure ⟨a + ∑ k, (s.aA k • (seen k).gA + s.aC k • (seen k).gC), b + ∑ k, s.bB k • (seen k).gB,
    c + ∑ k, (s.cA k • (seen k).gA + s.cC k • (seen k).gC)⟩

/-- The keys are generated with the secrets `T`. The prover gets them and, for the inputs `xs k`, proofs that the
simulator made with the random values `u k` and without a witness. Its own proof is accepted for the input `p`, and
it is new: no seen proof for the input `p` is equal to it. -/
def Gm17NewProof {n : Nat} (P : Pairing F G1 G2 GT) (D : EvalDomain F) (cs : R1CS F) (T : Gm17Trapdoor F G1 G2)
    (xs : Fin n → List F) (u : Fin n → F) (s : Gm17Seen F n) (p : List F) : Prop :=
  ∃ pk vk seen π, gm17Generate D cs T = some (pk, vk) ∧
    (∀ k, gm17Simulate T vk (xs k) (u k) = some (seen k)) ∧
    s.prove T.g pk vk seen = some π ∧ gm17VerifyWeak P vk p π = some true ∧
    ∀ k, ¬ (p = xs k ∧ π = seen k)

/-- Groth16: the coefficients for the keys, and for the first and third (second) elements of the seen
proofs -/
structure Groth16Seen (F : Type) (n : Nat) where
  A : Groth16Coeffs1 F
  B : Groth16Coeffs2 F
  C : Groth16Coeffs1 F
  aA : Fin n → F
  aC : Fin n → F
  bB : Fin n → F
  cA : Fin n → F
  cC : Fin n → F

/-- the proof this prover makes; `none` if there is not one coefficient per element of the keys -/
def Groth16Seen.prove {n : Nat} (s : Groth16Seen F n) (g1 : G1) (g2 : G2) (pk : Groth16PK F G1 G2)
    (vk : Groth16VK G1 G2 GT) (seen : Fin n → Groth16Proof G1 G2) : Option (Groth16Proof G1 G2) := do
  let a ← s.A.combine g1 pk vk
  let b ← s.B.combine g2 pk vk
  let c ← s.C.combine g1 pk vk
  pure ⟨a + ∑ k, (s.aA k • (seen k).gA + s.aC k • (seen k).gC), b + ∑ k, s.bB k • (seen k).gB,
    c + ∑ k, (s.cA k • (seen k).gA + s.cC k • (seen k).gC)⟩

/-- The keys are generated with the secrets `T`. The prover gets them and, for the inputs `xs k`, proofs that the
simulator made with the random values `u.1 k` and `u.2 k` and without a witness. Its own proof is accepted for the
input `p`, and it is not a changed copy: no seen proof for the input `p` is turned into it by `groth16Change`. -/
def Groth16NewProof {n : Nat} (P : Pairing F G1 G2 GT) (D : EvalDomain F) (cs : R1CS F) (T : Groth16Trapdoor F G1 G2)
    (chunks : Nat) (xs : Fin n → List F) (u : (Fin n → F) × (Fin n → F)) (s : Groth16Seen F n) (p : List F) : Prop :=
  ∃ pk vk seen π, groth16Generate P D cs T chunks = some (pk, vk) ∧
    (∀ k, groth16Simulate T vk (xs k) (u.1 k) (u.2 k) = some (seen k)) ∧
    s.prove T.g1 T.g2 pk vk seen = some π ∧ groth16VerifyWeak P vk p π = some true ∧
    ∀ (k : Fin n) (y z : F), y ≠ 0 → ¬ (p = xs k ∧ π = groth16Change vk y z (seen k))

end Crypto3Zk
