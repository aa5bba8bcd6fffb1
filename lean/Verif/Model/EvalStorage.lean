import Verif.Model.OrderedMap
import Verif.Model.Poly

/-!
# Evaluation storage and the batched-commitment container

Models `eval_storage` (commitments/detail/polynomial/eval_storage.hpp) and `polys_evaluator`
(commitments/batched_commitment.hpp). Polynomials are coefficient lists, lowest coefficient first;
`evaluate` is `evalPoly`. A failed `BOOST_ASSERT`, an exception and an out-of-bounds access are all
`none`. A default-constructed field element is `0`.
-/

namespace Crypto3Zk

variable {F : Type} [Field F]

/-- `eval_storage` (eval_storage.hpp:36-38): batch, polynomial, point -/
abbrev EvalStorage (F : Type) := OMap (List (List F))

namespace EvalStorage

/-- `get_batch_size` (eval_storage.hpp:68-70) -/
def batchSize (z : EvalStorage F) (b : Nat) : Option Nat := (z.find b).map List.length

/-- `get(batch_id, poly_id)` (eval_storage.hpp:77-79) -/
def getPoly (z : EvalStorage F) (b p : Nat) : Option (List F) := do
  let batch ← z.find b
  batch[p]?

/-- `get_poly_points_number` (eval_storage.hpp:71-73) -/
def pointsNumber (z : EvalStorage F) (b p : Nat) : Option Nat := (z.getPoly b p).map List.length

/-- `get(batch_id, poly_id, point_id)` (eval_storage.hpp:80-82) -/
def get (z : EvalStorage F) (b p j : Nat) : Option F := do
  let poly ← z.getPoly b p
  poly[j]?

/-- `get_batches` (eval_storage.hpp:49-56) -/
def batches (z : EvalStorage F) : List Nat := z.keys

/-- `get_batch_info` (eval_storage.hpp:57-64) -/
def batchInfo (z : EvalStorage F) : OMap Nat :=
  z.foldl (fun m e => m.insert e.1 e.2.length) []

/-- `set_batch_size` (eval_storage.hpp:84-87) -/
def setBatchSize (z : EvalStorage F) (b n : Nat) : EvalStorage F :=
  z.insert b (List.replicate n [])

/-- `set_poly_points_number` (eval_storage.hpp:88-91). `z[batch_id]` creates a missing batch, which
is empty, so the access `[poly_id]` is then out of bounds. -/
def setPointsNumber (z : EvalStorage F) (b p n : Nat) : Option (EvalStorage F) :=
  let batch := z.getD b []
  if p < batch.length then some (z.insert b (batch.set p (List.replicate n 0))) else none

/-- `set` (eval_storage.hpp:92-94) -/
def set (z : EvalStorage F) (b p j : Nat) (v : F) : Option (EvalStorage F) := do
  let batch := z.getD b []
  let poly ← batch[p]?
  if j < poly.length then some (z.insert b (batch.set p (poly.set j v))) else none

end EvalStorage

/-- one call of a modifying method of `eval_storage` (eval_storage.hpp:84-94) -/
inductive StorageOp (F : Type)
  | setBatchSize (b n : Nat)
  | setPointsNumber (b p n : Nat)
  | set (b p j : Nat) (v : F)

/-- the effect of one call (eval_storage.hpp:84-94) -/
def StorageOp.apply (z : EvalStorage F) : StorageOp F → Option (EvalStorage F)
  | .setBatchSize b n => some (z.setBatchSize b n)
  | .setPointsNumber b p n => z.setPointsNumber b p n
  | .set b p j v => z.set b p j v

/-- a history of calls (eval_storage.hpp:84-94) -/
def runStorage (ops : List (StorageOp F)) (z : EvalStorage F) : Option (EvalStorage F) :=
  ops.foldlM StorageOp.apply z

/-- `polys_evaluator` (batched_commitment.hpp:58-73) -/
structure PolysEvaluator (F : Type) where
  z : EvalStorage F
  polys : OMap (List (List F))
  locked : OMap Bool
  points : OMap (List (List F))

namespace PolysEvaluator

/-- `vector::resize` (batched_commitment.hpp:173, 241) -/
def resizePoints (l : List (List F)) (n : Nat) : List (List F) :=
  l.take n ++ List.replicate (n - l.length) []

/-- the default constructor (batched_commitment.hpp:68) -/
def empty : PolysEvaluator F := ⟨[], [], [], []⟩

/-- `append_to_batch` of a container (batched_commitment.hpp:204-209); appending one polynomial
(198-202) is the case of a single-element list -/
def appendToBatch (s : PolysEvaluator F) (k : Nat) (fs : List (List F)) :
    Option (PolysEvaluator F) :=
  let locked := match s.locked.find k with
    | none => s.locked.insert k false
    | some _ => s.locked
  if locked.getD k false then none
  else some ⟨s.z, s.polys.insert k (s.polys.getD k [] ++ fs), locked, s.points⟩

/-- `state_commited` (batched_commitment.hpp:171-174). `_polys[index]` creates a missing batch. -/
def stateCommitted (s : PolysEvaluator F) (k : Nat) : PolysEvaluator F :=
  let polys := s.polys.insert k (s.polys.getD k [])
  ⟨s.z, polys, s.locked.insert k true,
    s.points.insert k (resizePoints (s.points.getD k []) (polys.getD k []).length)⟩

/-- `append_eval_points(batch_id, points)` (batched_commitment.hpp:224-229) with the set as the list
of its elements in iteration order; `append_eval_point(batch_id, point)` (211-216) is the case of a
single-element list -/
def appendEvalPoints (s : PolysEvaluator F) (k : Nat) (xs : List F) : Option (PolysEvaluator F) :=
  if s.locked.getD k false then
    some ⟨s.z, s.polys, s.locked, s.points.insert k ((s.points.getD k []).map (· ++ xs))⟩
  else none

/-- `append_eval_points(batch_id, poly_id, points)` (batched_commitment.hpp:232-235);
`append_eval_point(batch_id, poly_id, point)` (218-221) is the case of a single-element list -/
def appendEvalPointsTo (s : PolysEvaluator F) (k i : Nat) (xs : List F) :
    Option (PolysEvaluator F) :=
  if s.locked.getD k false then
    match (s.points.getD k [])[i]? with
    | none => none
    | some l => some ⟨s.z, s.polys, s.locked,
        s.points.insert k ((s.points.getD k []).set i (l ++ xs))⟩
  else none

/-- `set_batch_size` (batched_commitment.hpp:237-243) -/
def setBatchSize (s : PolysEvaluator F) (k n : Nat) : PolysEvaluator F :=
  ⟨s.z, s.polys, s.locked.insert k true,
    s.points.insert k (resizePoints (s.points.getD k []) n)⟩

/-- the inner loop of `eval_polys` (batched_commitment.hpp:183-188): polynomial `i` of batch `k` at
the points from `j` on -/
def evalAt (k i : Nat) (f : List F) : Nat → List F → EvalStorage F → Option (EvalStorage F)
  | _, [], z => some z
  | j, x :: xs, z => do
    let z ← z.set k i j (evalPoly f x)
    evalAt k i f (j + 1) xs z

/-- the loop over the polynomials of a batch (batched_commitment.hpp:183-188) -/
def evalBatch (k : Nat) (pts : List (List F)) :
    Nat → List (List F) → EvalStorage F → Option (EvalStorage F)
  | _, [], z => some z
  | i, f :: fs, z => do
    let xs ← pts[i]?
    let z ← z.setPointsNumber k i xs.length
    let z ← evalAt k i f 0 xs z
    evalBatch k pts (i + 1) fs z

/-- the loop over the batches of `eval_polys` (batched_commitment.hpp:176-190) -/
def evalBatches (points : OMap (List (List F))) :
    OMap (List (List F)) → EvalStorage F → Option (EvalStorage F)
  | [], z => some z
  | (k, fs) :: rest, z => do
    let z := z.setBatchSize k fs.length
    let pts ← points.find k
    if fs.length = pts.length ∨ pts.length = 1 then
      let z ← evalBatch k pts 0 fs z
      evalBatches points rest z
    else none

/-- `eval_polys` (batched_commitment.hpp:176-190) -/
def evalPolys (s : PolysEvaluator F) : Option (PolysEvaluator F) := do
  let z ← evalBatches s.points s.polys s.z
  some ⟨z, s.polys, s.locked, s.points⟩

/-- the `std::find` / `push_back` loop of `get_unique_points` and `get_unique_point_sets_list`
(batched_commitment.hpp:118-121 and 134-143) -/
def pushUnique {α : Type} [DecidableEq α] (acc : List α) (x : α) : List α :=
  if x ∈ acc then acc else acc ++ [x]

/-- `get_unique_points` (batched_commitment.hpp:111-127) -/
def uniquePoints [DecidableEq F] (s : PolysEvaluator F) : List F :=
  s.points.foldl (fun acc e => e.2.foldl (fun acc set => set.foldl pushUnique acc) acc) []

/-- `get_unique_point_sets_list` (batched_commitment.hpp:129-147) -/
def uniquePointSets [DecidableEq F] (s : PolysEvaluator F) : List (List F) :=
  s.points.foldl (fun acc e => e.2.foldl pushUnique acc) []

/-- the first index of `x`; `none` is the failing `BOOST_ASSERT(found)`
(batched_commitment.hpp:156-164) -/
def firstIndex {α : Type} [DecidableEq α] (x : α) : List α → Option Nat
  | [] => none
  | y :: l => if y = x then some 0 else (firstIndex x l).map (· + 1)

/-- `get_eval_map` (batched_commitment.hpp:149-168) -/
def evalMap [DecidableEq F] (s : PolysEvaluator F) (unique : List (List F)) :
    Option (OMap (List Nat)) :=
  s.points.foldlM (fun m e => do
    let js ← e.2.mapM fun set => firstIndex set unique
    some (m.insert e.1 js)) []

end PolysEvaluator

/-- one call of a modifying method of `polys_evaluator` (batched_commitment.hpp:171-174, 198-243) -/
inductive ContainerOp (F : Type)
  | append (k : Nat) (fs : List (List F))
  | commit (k : Nat)
  | points (k : Nat) (xs : List F)
  | pointsTo (k i : Nat) (xs : List F)
  | batchSize (k n : Nat)

/-- the effect of one call (batched_commitment.hpp:171-174, 198-243) -/
def ContainerOp.apply (s : PolysEvaluator F) : ContainerOp F → Option (PolysEvaluator F)
  | .append k fs => s.appendToBatch k fs
  | .commit k => some (s.stateCommitted k)
  | .points k xs => s.appendEvalPoints k xs
  | .pointsTo k i xs => s.appendEvalPointsTo k i xs
  | .batchSize k n => some (s.setBatchSize k n)

/-- a history of calls on a fresh object (batched_commitment.hpp:171-174, 198-243) -/
def runContainer (ops : List (ContainerOp F)) : Option (PolysEvaluator F) :=
  ops.foldlM ContainerOp.apply PolysEvaluator.empty

end Crypto3Zk
