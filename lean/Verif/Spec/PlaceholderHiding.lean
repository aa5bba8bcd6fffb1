import Verif.Spec.PlonkTable
import Verif.Spec.GateArg
import Verif.Model.Placeholder

/-!
# Specification for C104: tables for the same statement
-/

namespace Crypto3Zk

/-- Two tables that differ only in the values of the witness. -/
structure SamePublic {F : Type} (t1 t2 : PlonkTable F) : Prop where
  rows : t1.rowsAmount = t2.rowsAmount
  count : t1.witnesses.length = t2.witnesses.length
  publicInputs : t1.publicInputs = t2.publicInputs
  constants : t1.constants = t2.constants
  selectors : t1.selectors = t2.selectors

/-- What preprocessor and prover make of a table. -/
def HonestProof {F S H Com Pr Data Obj : Type} [Field F] [LinearOrder F] (C : CommScheme F S Com Pr Data Obj)
    (T : PlonkTranscript S F H Com) (L : FftLib F) (n fuel : Nat) (d : TableDesc) (c : Circuit F)
    (order : List PlonkVar) (delta : F) (mqc : Nat) (hash : H) (t : PlonkTable F)
    (proof : PlaceholderProof F Com Pr) : Prop :=
  ∃ pd o0, placeholderPreprocess C T L n fuel d c order delta mqc hash t C.new = some (pd, o0) ∧
    placeholderProve C T L n d c order pd t o0 = some proof

end Crypto3Zk
