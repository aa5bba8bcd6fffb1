import Verif.Model.EvalStorage

/-!
# What a history of calls means, independently of the containers

A history is read from its end. `StorageOp`/`ContainerOp` are only the names of the calls.
-/

namespace Crypto3Zk

variable {F : Type} [Zero F]

/-- what position `(b, p, j)` holds after a history (given latest call first): the last value
written there, unless the polynomial or the batch was resized since -/
def lastWritten (b p j : Nat) : List (StorageOp F) → Option F
  | [] => none
  | .set b' p' j' v :: h => if b' = b ∧ p' = p ∧ j' = j then some v else lastWritten b p j h
  | .setPointsNumber b' p' n :: h =>
    if b' = b ∧ p' = p then (if j < n then some 0 else none) else lastWritten b p j h
  | .setBatchSize b' _ :: h => if b' = b then none else lastWritten b p j h

/-- the number of points polynomial `p` of batch `b` has after a history (latest call first) -/
def lastPoints (b p : Nat) : List (StorageOp F) → Option Nat
  | [] => none
  | .set _ _ _ _ :: h => lastPoints b p h
  | .setPointsNumber b' p' n :: h => if b' = b ∧ p' = p then some n else lastPoints b p h
  | .setBatchSize b' n :: h =>
    if b' = b then (if p < n then some 0 else none) else lastPoints b p h

/-- the number of polynomials batch `b` has after a history (latest call first) -/
def lastSize (b : Nat) : List (StorageOp F) → Option Nat
  | [] => none
  | .setBatchSize b' n :: h => if b' = b then some n else lastSize b h
  | _ :: h => lastSize b h

/-- the polynomials appended to batch `k`, in order -/
def appended (k : Nat) (h : List (ContainerOp F)) : List (List F) :=
  h.flatMap fun
    | .append k' fs => if k' = k then fs else []
    | _ => []

/-- the points requested for polynomial `i` of batch `k`, in order -/
def requested (k i : Nat) (h : List (ContainerOp F)) : List F :=
  h.flatMap fun
    | .points k' xs => if k' = k then xs else []
    | .pointsTo k' i' xs => if k' = k ∧ i' = i then xs else []
    | _ => []

/-- batch `k` was committed -/
def committed (k : Nat) (h : List (ContainerOp F)) : Prop := ContainerOp.commit k ∈ h

/-- the verifier's call `set_batch_size` was not used on batch `k` -/
def noResize (k : Nat) (h : List (ContainerOp F)) : Prop := ∀ n, ContainerOp.batchSize k n ∉ h

end Crypto3Zk
