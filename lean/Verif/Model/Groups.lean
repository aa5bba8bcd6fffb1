import Verif.Model.Poly
import Mathlib.Algebra.Module.Basic
import Mathlib.Algebra.Module.Prod
import Mathlib.Algebra.Module.BigOperators

/-!
# Groups, multi-exponentiation and knowledge-commitment vectors

The elliptic-curve groups `g1_type`, `g2_type` and the target group are in the crypto3-algebra
library, which is not part of `/repo`. They are modelled as modules over the scalar field (written
additively); `algebra::multiexp`, `algebra::batch_exp` and `container::accumulation_vector` are
modelled by what their documentation promises. A knowledge commitment `element_kc<T1, T2>`
(commitments/detail/polynomial/element_knowledge_commitment.hpp:53-205) is a pair with
componentwise operations, that is, the product module.

The entries of a `sparse_vector` are kept as one list of `(index, value)` pairs instead of the two
parallel vectors `indices` and `values`: the code only ever appends to both together.
-/

namespace Crypto3Zk

variable {F : Type} [Field F] {G : Type} [AddCommGroup G] [Module F G]

/-- `algebra::multiexp` and `algebra::multiexp_with_mixed_addition` (external): the sum of
`scalar * base`. The two ranges must have the same length (used in r1cs_gg_ppzksnark/prover.hpp:109, 126). -/
def multiexp (gs : List G) (xs : List F) : Option G :=
  if gs.length = xs.length then some (List.zipWith (fun g x => x • g) gs xs).sum else none

/-- `algebra::batch_exp` (external): every scalar times the base of the window table
(used in r1cs_gg_ppzksnark/generator.hpp:188, 210). -/
def batchExp (g : G) (v : List F) : List G := v.map fun x => x • g

/-- `algebra::batch_exp_with_coeff` (external) (used in r1cs_gg_ppzksnark/generator.hpp:203). -/
def batchExpWithCoeff (g : G) (c : F) (v : List F) : List G := v.map fun x => (c * x) • g

/-- `container::accumulation_vector` (external) (used in r1cs_gg_ppzksnark/generator.hpp:228). -/
structure AccVec (G : Type) where
  first : G
  rest : List G

/-- `accumulation_vector::domain_size` (external, used in r1cs_gg_ppzksnark/verifier.hpp:154, 222) -/
def AccVec.domainSize (v : AccVec G) : Nat := v.rest.length

/-- `accumulate_chunk(begin, end, 0).first` (external): the first element plus the inputs times the
corresponding elements. `none` when there are more inputs than elements, which the callers exclude
by an assertion (r1cs_gg_ppzksnark/verifier.hpp:154). -/
def AccVec.accumulate (v : AccVec G) (xs : List F) : Option G :=
  if xs.length ≤ v.domainSize then
    some (v.first + (List.zipWith (fun g x => x • g) v.rest xs).sum) else none

/-- `knowledge_commitment_vector` = `container::sparse_vector` of knowledge commitments
(commitments/polynomial/knowledge_commitment.hpp:63-64). -/
structure KcVec (G : Type) where
  domainSize : Nat
  entries : List (Nat × G)

/-- `sparse_vector::operator[]` (external): the stored value, or zero. -/
def KcVec.get (v : KcVec G) (i : Nat) : G := (v.entries.lookup i).getD 0

/-- the loop body of `kc_multiexp_with_mixed_addition`
(commitments/polynomial/knowledge_commitment_multiexp.hpp:82-105). State: the accumulator and the
vectors `p`, `g` of postponed scalars and values. -/
def kcStep [DecidableEq F] (minIdx scalarLength : Nat) (scalars : List F) :
    G × List F × List G → Nat × G → Option (G × List F × List G) :=
  fun (acc, p, g) (idx, value) => do
    guard (idx - minIdx < scalarLength)
    let scalar ← scalars[idx - minIdx]?
    if scalar = 0 then pure (acc, p, g)
    else if scalar = 1 then pure (acc + value, p, g)
    else pure (acc, p ++ [scalar], g ++ [value])

/-- `kc_multiexp_with_mixed_addition`
(commitments/polynomial/knowledge_commitment_multiexp.hpp:57-108). `std::lower_bound` on the sorted
indices is the first position whose index is not below `min_idx`. `none` is a failed assertion
(lines 66 and 84) or a read beyond the scalars. `scalarLength` is the distance of the two scalar
iterators; it is separate from `scalars` because some callers pass an end iterator beyond the end of
the vector (r1cs_ppzksnark/prover.hpp:107). -/
def kcMultiexp [DecidableEq F] (vec : KcVec G) (minIdx maxIdx : Nat) (scalars : List F)
    (scalarLength : Nat) : Option G :=
  if scalarLength ≤ vec.domainSize then do
    let es := (vec.entries.dropWhile fun e => e.1 < minIdx).takeWhile fun e => e.1 < maxIdx
    let (acc, p, g) ← es.foldlM (kcStep minIdx scalarLength scalars) (0, [], [])
    let m ← multiexp g p
    pure (acc + m)
  else none

section BatchExp

variable {G1 G2 : Type} [AddCommGroup G1] [Module F G1] [AddCommGroup G2] [Module F G2]

/-- `kc_batch_exp_internal` (commitments/polynomial/knowledge_commitment_multiexp.hpp:110-140).
The loop runs until `pos == end_pos`; if it starts beyond the end it leaves the vector
(`none`). -/
def kcBatchExpInternal [DecidableEq F] (g1 : G1) (g2 : G2) (c1 c2 : F) (v : List F)
    (startPos endPos : Nat) : Option (List (Nat × (G1 × G2))) :=
  if startPos ≤ endPos then do
    let parts ← (List.range' startPos (endPos - startPos)).mapM fun pos => do
      let x ← v[pos]?
      pure (if x = 0 then [] else [(pos, ((c1 * x) • g1, (c2 * x) • g2))])
    pure parts.flatten
  else none

/-- `nonzero` (knowledge_commitment_multiexp.hpp:155-158) -/
def countNonzero [DecidableEq F] (v : List F) : Nat :=
  v.foldl (fun n x => n + (if x = 0 then 0 else 1)) 0

/-- the loop that places the chunk boundaries (knowledge_commitment_multiexp.hpp:168-180); state:
`chunk_pos`, `cnt`, `chunkno` -/
def chunkStep [DecidableEq F] (chunkSize numChunks : Nat) :
    List Nat × Nat × Nat → F × Nat → List Nat × Nat × Nat :=
  fun (chunkPos, cnt, chunkno) (x, i) =>
    let cnt := cnt + (if x = 0 then 0 else 1)
    if cnt = chunkSize ∧ chunkno < numChunks then (chunkPos.set chunkno i, 0, chunkno + 1)
    else (chunkPos, cnt, chunkno)

/-- `chunk_pos` after the loop and line 182 -/
def chunkPositions [DecidableEq F] (v : List F) (chunkSize numChunks : Nat) : List Nat :=
  let s := v.zipIdx.foldl (chunkStep chunkSize numChunks)
    (List.replicate (numChunks + 1) 0, 0, 1)
  s.1.set numChunks v.length

/-- `kc_batch_exp` (knowledge_commitment_multiexp.hpp:142-206). Both branches of lines 196-205
return the concatenation of the chunks with `domain_size_ = v.size()`. -/
def kcBatchExp [DecidableEq F] (g1 : G1) (g2 : G2) (c1 c2 : F) (v : List F)
    (suggestedNumChunks : Nat) : Option (KcVec (G1 × G2)) := do
  let nonzero := countNonzero v
  let numChunks := max 1 (min nonzero suggestedNumChunks)
  let chunkSize := nonzero / numChunks
  let chunkPos := chunkPositions v chunkSize numChunks
  let tmp ← (List.range numChunks).mapM fun i => do
    let a ← chunkPos[i]?
    let b ← chunkPos[i + 1]?
    kcBatchExpInternal g1 g2 c1 c2 v a b
  pure ⟨v.length, tmp.flatten⟩

end BatchExp

end Crypto3Zk
