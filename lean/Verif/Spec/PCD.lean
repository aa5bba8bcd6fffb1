import Verif.Model.PCD

/-!
# Specification: the variables of a compliance predicate

In this order: the outgoing message (type and payload), the arity, for each of the `max_arity`
incoming places the message there (type and payload; zeros if there is none), the local data, the
witness.
-/

namespace Crypto3Zk

variable {F : Type} [Field F]

/-- the assignment of the `i`-th incoming place -/
def incomingPlace (lengths : List Nat) (incoming : List (PcdMessage F)) (i : Nat) : List F :=
  match incoming[i]? with
  | some m => (m.type : F) :: m.payload
  | none => List.replicate (1 + lengths.getD i 0) 0

/-- all variables of the predicate, in order -/
def pcdVariables (lengths : List Nat) (outgoing : PcdMessage F) (incoming : List (PcdMessage F))
    (localData witness : List F) : List F :=
  ((outgoing.type : F) :: outgoing.payload) ++ [(incoming.length : F)] ++
    ((List.range lengths.length).map (incomingPlace lengths incoming)).flatten ++ localData ++ witness

/-- the data fits the lengths announced by the predicate -/
structure FitsPredicate (cp : CompliancePredicate F) (outgoing : PcdMessage F)
    (incoming : List (PcdMessage F)) (localData : List F) : Prop where
  outgoing_length : outgoing.payload.length = cp.outgoingPayloadLength
  arity : incoming.length ≤ cp.incomingPayloadLengths.length
  incoming_length : ∀ (i : Nat) (m : PcdMessage F), incoming[i]? = some m →
    cp.incomingPayloadLengths[i]? = some m.payload.length
  local_length : localData.length = cp.localDataLength

end Crypto3Zk
