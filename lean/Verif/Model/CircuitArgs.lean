import Verif.Model.Circuits
import Verif.Model.PGHR13
import Verif.Model.USCSArg

/-!
# Model: the arguments for circuits

The ppzkSNARKs for bilinear arithmetic circuits (BACS) and for two-input boolean circuits (TBCS):
`snark/systems/ppzksnark/bacs_ppzksnark/` and `snark/systems/ppzksnark/tbcs_ppzksnark/`. They reduce the
circuit to a constraint system and call the arguments for R1CS and USCS.
-/

namespace Crypto3Zk

variable {F : Type} [Field F] [DecidableEq F] {G1 G2 GT : Type} [AddCommGroup G1] [Module F G1]
  [AddCommGroup G2] [Module F G2] [AddCommGroup GT] [Module F GT]

/-- `bacs_ppzksnark_generator::process` (bacs_ppzksnark/generator.hpp:63-72): the proving key holds the
circuit and the key for the R1CS. -/
def bacsGenerate (P : Pairing F G1 G2 GT) (D : EvalDomain F) (c : Bacs F) (T : Pghr13Trapdoor F)
    (chunks : Nat) : Option ((Bacs F × Pghr13PK F G1 G2) × Pghr13VK G1 G2) := do
  let (pk, vk) ← pghr13Generate P D c.toR1CS T chunks
  some ((c, pk), vk)

/-- `bacs_ppzksnark_prover::process` (bacs_ppzksnark/prover.hpp:66-81): the auxiliary input of the R1CS
is what the witness map adds after the primary input. (The type of the witness is written there as an
assignment over `plonk_constraint_system<field_type>` instead of over the field; we take the field.) -/
def bacsProve (D : EvalDomain F) (pk : Bacs F × Pghr13PK F G1 G2) (primary aux : List F)
    (d1 d2 d3 : F) : Option (Pghr13Proof G1 G2) := do
  let va ← pk.1.witnessMap primary aux
  pghr13Prove D pk.2 primary (va.drop primary.length) d1 d2 d3

/-- `bacs_ppzksnark_verifier_weak_input_consistency::process` (bacs_ppzksnark/verifier.hpp:107-126) -/
def bacsVerifyWeak [DecidableEq GT] (P : Pairing F G1 G2 GT) (vk : Pghr13VK G1 G2) (primary : List F)
    (π : Pghr13Proof G1 G2) : Option Bool := pghr13VerifyWeak P vk primary π

/-- `bacs_ppzksnark_verifier_strong_input_consistency::process` (bacs_ppzksnark/verifier.hpp:152-170) -/
def bacsVerifyStrong [DecidableEq GT] (P : Pairing F G1 G2 GT) (vk : Pghr13VK G1 G2)
    (primary : List F) (π : Pghr13Proof G1 G2) : Option Bool := pghr13VerifyStrong P vk primary π

/-- `tbcs_ppzksnark_generator::process` (tbcs_ppzksnark/generator.hpp:58-70) -/
def tbcsGenerate (P : Pairing F G1 G2 GT) (D : EvalDomain F) (c : Tbcs) (t alpha tilde : F) :
    Option ((Tbcs × UscsPK F G1 G2) × UscsVK G1 G2) := do
  let (pk, vk) ← uscsGenerate P D (c.toUSCS F) t alpha tilde
  some ((c, pk), vk)

/-- `tbcs_ppzksnark_prover::process` (tbcs_ppzksnark/prover.hpp:64-80) -/
def tbcsProve (D : EvalDomain F) (pk : Tbcs × UscsPK F G1 G2) (primary aux : List Bool) (d : F) :
    Option (UscsProof G1 G2) := do
  let va ← pk.1.witnessMap F primary aux
  uscsProve D pk.2 (Tbcs.toField F primary) (va.drop primary.length) d

/-- `tbcs_ppzksnark_verifier_weak_input_consistency::process` (tbcs_ppzksnark/verifier.hpp:91-115) -/
def tbcsVerifyWeak [DecidableEq GT] (P : Pairing F G1 G2 GT) (vk : UscsVK G1 G2)
    (primary : List Bool) (π : UscsProof G1 G2) : Option Bool :=
  uscsVerifyWeak P vk (Tbcs.toField F primary) π

/-- `tbcs_ppzksnark_verifier_strong_input_consistency::process` (tbcs_ppzksnark/verifier.hpp:135-160) -/
def tbcsVerifyStrong [DecidableEq GT] (P : Pairing F G1 G2 GT) (vk : UscsVK G1 G2)
    (primary : List Bool) (π : UscsProof G1 G2) : Option Bool :=
  uscsVerifyStrong P vk (Tbcs.toField F primary) π

end Crypto3Zk
