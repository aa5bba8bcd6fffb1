import Verif.Model.Poly

/-!
# Splitting the quotient polynomial (placeholder prover and verifier)

Polynomials are coefficient lists, lowest first. `math::polynomial` and `math::polynomial_dfs`
are external; converting a chunk to its values on a domain and back (`from_coefficients`) is not
modelled, a chunk is its coefficient list and the zero `polynomial_dfs` is the empty list.
-/

namespace Crypto3Zk

variable {F : Type} [Field F]

/-- The loop of `split_polynomial` (placeholder/prover.hpp:64-67) from index `i` on; the chunk size
is `chunkPred + 1`. -/
def splitLoop (f : List F) (chunkPred i : Nat) : List (List F) :=
  if i < f.length then
    let last := min f.length (i + (chunkPred + 1))
    (f.drop i).take (last - i) :: splitLoop f chunkPred (i + (chunkPred + 1))
  else []
termination_by f.length - i

/-- `detail::split_polynomial` (placeholder/prover.hpp:55-69). -/
def splitPolynomial (f : List F) (maxDegree : Nat) : List (List F) := splitLoop f maxDegree 0

/-- The number of chunks the prover commits to (placeholder/prover.hpp:228-242). `permSize` is the
number of identity polynomials, `lookupDegree` is `lookup_poly_degree_bound()`, `gatesDegree` is
`max_gates_degree`, `maxChunks` is `max_quotient_chunks`. Simplified: unbounded integers; the rows
amount is positive (the callers below check it). -/
def splitPolynomialSize (permSize lookupDegree gatesDegree rows maxChunks : Nat) : Nat :=
  let size := max ((permSize + 2) * (rows - 1)) ((lookupDegree + 1) * (rows - 1))
  let size := max size ((gatesDegree + 1) * (rows - 1))
  let size := if size % rows ≠ 0 then size / rows + 1 else size / rows
  if maxChunks ≠ 0 ∧ size > maxChunks then maxChunks else size

/-- The assignments `T_splitted_dfs[k] = T_splitted[k]` (placeholder/prover.hpp:254-256); `none` is
an access past the end of the vector. -/
def storeChunks : List (List F) → Nat → List (List F) → Option (List (List F))
  | [], _, acc => some acc
  | c :: cs, k, acc => if k < acc.length then storeChunks cs (k + 1) (acc.set k c) else none

/-- `quotient_polynomial_split_dfs` (placeholder/prover.hpp:220-258) on the quotient `f`. With zero
rows the code divides by zero (`none`). -/
def quotientSplit (f : List F) (permSize lookupDegree gatesDegree rows maxChunks : Nat) :
    Option (List (List F)) :=
  if rows = 0 then none
  else
    storeChunks (splitPolynomial f (rows - 1)) 0
      (List.replicate (splitPolynomialSize permSize lookupDegree gatesDegree rows maxChunks) [])

/-- `T_consolidated` (placeholder/verifier.hpp:388-392): `zs` are the claimed values of the chunks
at the challenge `y`. -/
def consolidateQuotient (zs : List F) (rows : Nat) (y : F) : F :=
  (List.range zs.length).foldl (fun acc i => acc + zs.getD i 0 * y ^ (rows * i)) 0

end Crypto3Zk
