import Verif.Model.Equality
import Verif.Spec.Expression
import Verif.Spec.FRI

/-!
# Specification for comparisons: what it means that two objects are the same
-/

namespace Crypto3Zk

variable {F : Type} [Field F] [DecidableEq F]

/-- The domains of the parameters come from the library, and are no larger than it can make. -/
def FriParams.LibDomains (L : FftLib F) (A : Nat) (p : FriParams F) : Prop :=
  ∀ D ∈ p.D, ∃ n ≤ A, D = L.domain n

/-- Parameters that differ at most in the grinding parameter, and not even in that if there is
grinding. -/
def FriParams.SameSettings (p q : FriParams F) : Prop :=
  p.lambda = q.lambda ∧ p.useGrinding = q.useGrinding ∧ p.maxDegree = q.maxDegree ∧ p.D = q.D ∧
    p.r = q.r ∧ p.stepList = q.stepList ∧ (p.useGrinding = true → p.grindingParameter = q.grindingParameter)

/-- Proofs that differ at most in the proof of work. -/
def FriProof.SameButNonce {Root Path : Type} (a b : FriProof F Root Path) : Prop :=
  a.friRoots = b.friRoots ∧ a.finalPolynomial = b.finalPolynomial ∧ a.queryProofs = b.queryProofs

/-- Constraints that differ at most in the order of the variables inside terms, place by place. -/
def SameExprs (es fs : List (Expr PlonkVar F)) : Prop := List.Forall₂ Expr.SameUpToOrder es fs

/-- The same gates, copy constraints, lookup gates, lookup tables and public input sizes in the same order,
up to the order of the variables inside terms. -/
structure SameCircuit (a b : Circuit F) : Prop where
  gates : List.Forall₂
    (fun g h : Gate F => g.selectorIndex = h.selectorIndex ∧ SameExprs g.constraints h.constraints)
    a.gates b.gates
  copies : a.copies = b.copies
  lookupGates : List.Forall₂
    (fun g h : LookupGate F => g.tagIndex = h.tagIndex ∧
      List.Forall₂ (fun c d : LookupConstraint F => c.tableId = d.tableId ∧ SameExprs c.input d.input)
        g.constraints h.constraints) a.lookups.gates b.lookups.gates
  tables : a.lookups.tables = b.lookups.tables
  sizes : a.publicInputSizes = b.publicInputSizes

end Crypto3Zk
