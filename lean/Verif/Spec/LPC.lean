import Verif.Model.LPC
import Verif.Spec.EvalStorage
import Verif.Spec.FRI

/-!
# Specification for the LPC scheme: what histories mean, and what an opening claims
-/

namespace Crypto3Zk

variable {F : Type} [Field F]

/-- The calls on the inherited container; a polynomial stands there as its coefficients. -/
def LpcOp.container (L : FftLib F) : LpcOp F → List (ContainerOp F)
  | .append k fs => [.append k (fs.map fun f => f.final L)]
  | .commit k => [.commit k]
  | .points k xs => [.points k xs]
  | .pointsTo k i xs => [.pointsTo k i xs]
  | .batchSize k n => [.batchSize k n]
  | .markFixed _ => []

/-- The polynomials appended to batch `k`, in order. -/
def lpcAppended (k : Nat) (h : List (LpcOp F)) : List (FriPoly F) :=
  h.flatMap fun
    | .append k' fs => if k' = k then fs else []
    | _ => []

/-- The points requested for polynomial `i` of batch `k`, in order. -/
def lpcRequested (k i : Nat) (h : List (LpcOp F)) : List F :=
  h.flatMap fun
    | .points k' xs => if k' = k then xs else []
    | .pointsTo k' i' xs => if k' = k ∧ i' = i then xs else []
    | _ => []

/-- The prover's history `hp` and the verifier's history `hv` belong together: the parameters have the
domains of FRI, from `2 ^ n` points down, and the degree bound `2 ^ d`; the prover commits every batch
it fills; the polynomials of batch `k` are those with the coefficients `P k`, within the degree bound;
the verifier sets the size of exactly the committed batches, except for those that it has itself
filled with as many polynomials and committed (a scheme object that was used for preprocessing has done
that); both request the same points and mark the same batches, committed ones, as fixed; and no opening point, nor the point `etha` if a batch is fixed,
lies in the first domain. -/
structure LpcSession (L : FftLib F) (prm : FriParams F) (A n d : Nat) (hp hv : List (LpcOp F))
    (P : Nat → List (List F)) (etha : F) : Prop where
  adicity : n ≤ A
  rounds : 1 ≤ prm.r ∧ prm.r ≤ n ∧ prm.r ≤ d + 1
  domains : ∀ t < prm.r, prm.D[t]? = some (L.domain (n - t))
  degree : prm.maxDegree + 1 = 2 ^ d ∧ d ≤ n
  proverSizes : ∀ k m, LpcOp.batchSize k m ∉ hp
  allCommitted : ∀ k fs, LpcOp.append k fs ∈ hp → LpcOp.commit k ∈ hp
  polys : ∀ k, List.Forall₂ (fun f c => f.Has L n c) (lpcAppended k hp) (P k)
  degrees : ∀ k, ∀ c ∈ P k, c.length ≤ prm.maxDegree + 1
  verifierCommits : ∀ k, LpcOp.commit k ∈ hv → LpcOp.commit k ∈ hp ∧
    (lpcAppended k hv).length = (P k).length ∧ ∀ m, LpcOp.batchSize k m ∉ hv
  sizes : ∀ k m, LpcOp.batchSize k m ∈ hv → LpcOp.commit k ∈ hp ∧ m = (P k).length
  sized : ∀ k, LpcOp.commit k ∈ hp → LpcOp.commit k ∈ hv ∨ ∃ m, LpcOp.batchSize k m ∈ hv
  samePoints : ∀ k i, lpcRequested k i hv = lpcRequested k i hp
  sameFixed : ∀ k, LpcOp.markFixed k ∈ hp ↔ LpcOp.markFixed k ∈ hv
  outside : ∀ k i, LpcOp.commit k ∈ hp → i < (P k).length → ∀ x ∈ lpcRequested k i hp,
    ∀ m, (L.domain n).elem m ≠ x
  ethaOutside : ∀ k, LpcOp.markFixed k ∈ hp → ∀ m, (L.domain n).elem m ≠ etha

/-- The combination of the differences between polynomials and claimed values, with the powers of
`theta` from `acc` on, at `y`. -/
def claimDiff (theta y : F) : F → List (List F × F) → F
  | _, [] => 0
  | acc, (g, v) :: ts => acc * (evalPoly g y - v) + claimDiff theta y (acc * theta) ts

/-- The combined quotient at `y`, for opening points with their polynomials and claimed values. -/
def claimQuotient (theta y : F) : F → List (F × List (List F × F)) → F
  | _, [] => 0
  | acc, (x, ts) :: rest =>
    claimDiff theta y acc ts / (y - x) + claimQuotient theta y (acc * theta ^ ts.length) rest

end Crypto3Zk
