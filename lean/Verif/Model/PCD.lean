import Verif.Model.R1CS

/-!
# Compliance predicates for proof-carrying data

`snark/systems/pcd/r1cs_pcd/compliance_predicate.hpp` and
`snark/systems/pcd/r1cs_pcd/r1cs_pcd_params.hpp`. The `assert`s of `is_satisfied`
(compliance_predicate.hpp:262-269) apply `.` to shared pointers, so they compile only when assertions
are switched off; they are not part of the model, and neither are those of r1cs_pcd_params.hpp:77,82.
The `std::size_t` sums are natural numbers.
-/

namespace Crypto3Zk

variable {F : Type} [Field F] [DecidableEq F]

/-- `r1cs_pcd_message` (compliance_predicate.hpp:55-69): a type and the payload as an assignment -/
structure PcdMessage (F : Type) where
  type : Nat
  payload : List F

/-- `as_r1cs_variable_assignment` (compliance_predicate.hpp:62-66) -/
def PcdMessage.assignment (m : PcdMessage F) : List F := (m.type : F) :: m.payload

/-- `r1cs_pcd_compliance_predicate` (compliance_predicate.hpp:122-137) -/
structure CompliancePredicate (F : Type) where
  name : Nat
  type : Nat
  constraintSystem : R1CS F
  outgoingPayloadLength : Nat
  maxArity : Nat
  incomingPayloadLengths : List Nat
  localDataLength : Nat
  witnessLength : Nat
  reliesOnSameTypeInputs : Bool
  acceptedInputTypes : List Nat

/-- `is_well_formed` (compliance_predicate.hpp:197-218) -/
def CompliancePredicate.isWellFormed (cp : CompliancePredicate F) : Bool :=
  let typeNotZero := decide (cp.type ≠ 0)
  let lengthsOk := decide (cp.incomingPayloadLengths.length = cp.maxArity)
  let allPayloads := cp.incomingPayloadLengths.foldl (· + ·) cp.outgoingPayloadLength
  let typeVecLength := cp.maxArity + 1
  let arityLength := 1
  let inputsOk := decide (cp.outgoingPayloadLength + 1 = cp.constraintSystem.numInputs)
  let variablesOk := decide (allPayloads + cp.localDataLength + typeVecLength + arityLength +
    cp.witnessLength = cp.constraintSystem.numVariables)
  typeNotZero && lengthsOk && inputsOk && variablesOk

/-- `has_equal_input_and_output_lengths` (compliance_predicate.hpp:220-229) -/
def CompliancePredicate.hasEqualInputAndOutputLengths (cp : CompliancePredicate F) : Bool :=
  cp.incomingPayloadLengths.all fun l => decide (l = cp.outgoingPayloadLength)

/-- `has_equal_input_lengths` (compliance_predicate.hpp:231-240) -/
def CompliancePredicate.hasEqualInputLengths (cp : CompliancePredicate F) : Bool :=
  match cp.incomingPayloadLengths with
  | [] => true
  | l :: ls => ls.all fun x => decide (x = l)

/-- `as_r1cs_primary_input` (r1cs_pcd_params.hpp:48-50) -/
def pcdPrimaryInput (outgoing : PcdMessage F) : List F := outgoing.assignment

/-- `as_r1cs_auxiliary_input` (r1cs_pcd_params.hpp:68-98) -/
def pcdAuxiliaryInput (lengths : List Nat) (incoming : List (PcdMessage F))
    (localData witness : List F) : List F :=
  let arity := incoming.length
  let result : List F := [(arity : F)]
  let result := incoming.foldl (fun r m => r ++ m.assignment) result
  let result := (lengths.drop arity).foldl (fun r l => r ++ List.replicate (1 + l) 0) result
  let result := result ++ localData
  result ++ witness

/-- `is_satisfied` (compliance_predicate.hpp:256-278); `none` is an out-of-bounds read -/
def CompliancePredicate.isSatisfied (cp : CompliancePredicate F) (outgoing : PcdMessage F)
    (incoming : List (PcdMessage F)) (localData witness : List F) : Option Bool :=
  cp.constraintSystem.isSatisfied (pcdPrimaryInput outgoing)
    (pcdAuxiliaryInput cp.incomingPayloadLengths incoming localData witness)

end Crypto3Zk
