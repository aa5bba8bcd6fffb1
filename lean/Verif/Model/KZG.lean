import Verif.Model.PolyOps
import Verif.Model.Groth16
import Verif.Model.EvalStorage
import Mathlib.Order.Defs.LinearOrder

/-!
# The KZG commitments

Models `commitments::kzg`, `commitments::batched_kzg` and their algorithms, `kzg_commitment_scheme`
(commitments/polynomial/kzg.hpp) and `kzg_commitment_scheme_v2` (commitments/polynomial/kzg_v2.hpp).

The groups are modules over the scalar field and the pairing is a bilinear map (`Pairing`). The
polynomials are coefficient lists; the conversion `coefficients()` from evaluation form is the
identity. The Fiat-Shamir challenge is a function of the list of absorbed messages. The serialisation
of a group element is a parameter (`PointCodec`). The order of field elements used by `std::set`,
`std::sort` and `std::set_difference` is a linear order. A failed assertion, an exception and an
out-of-bounds access are `none`.
-/

namespace Crypto3Zk

variable {F : Type} [Field F]
variable {G1 G2 GT : Type} [AddCommGroup G1] [Module F G1] [AddCommGroup G2] [Module F G2]
  [AddCommGroup GT] [Module F GT]

/-- the loop that fills a key: `key[i] = g; g = alpha * g` (kzg.hpp:113-117, 280-289) -/
def powerKey {G : Type} [AddCommGroup G] [Module F G] (alpha : F) : G → Nat → List G
  | _, 0 => []
  | g, n + 1 => g :: powerKey alpha (alpha • g) n

/-! ## single openings -/

/-- `kzg::params_type` (kzg.hpp:95-97) -/
structure KzgParams (G1 G2 : Type) where
  ck : List G1
  vk : G2

/-- `params_type(d, alpha)` (kzg.hpp:110-118) -/
def kzgSetup (P : Pairing F G1 G2 GT) (d : Nat) (alpha : F) : KzgParams G1 G2 :=
  ⟨powerKey alpha P.one1 d, alpha • P.one2⟩

/-- `commit` and `commit_one` (kzg.hpp:143-148, 409-419): the multi-exponentiation of the first
`size` key elements with the coefficients -/
def kzgCommit {G : Type} [AddCommGroup G] [Module F G] (ck : List G) (f : List F) : Option G :=
  if f.length ≤ ck.length then multiexp (ck.take f.length) f else none

/-- `proof_eval` (kzg.hpp:155-172). `none` for an empty coefficient vector is the out-of-bounds
access `q[0]`; `none` for a non-zero remainder is the exception. -/
def kzgProve [DecidableEq F] (pp : KzgParams G1 G2) (f : List F) (z : F) : Option G1 :=
  match f with
  | [] => none
  | c :: cs =>
    let q := (c - evalPoly f z) :: cs
    let denom := [-z, 1]
    if polyIsZero (polyMod q denom) then kzgCommit pp.ck (polyDiv q denom) else none

/-- `verify_eval` (kzg.hpp:191-206): the product of the two pairings is one -/
def kzgVerify [DecidableEq GT] (P : Pairing F G1 G2 GT) (pp : KzgParams G1 G2) (proof : G1)
    (commit : G1) (z eval : F) : Bool :=
  P.e proof (pp.vk - z • P.one2) + P.e (eval • P.one1 - commit) P.one2 = 0

/-! ## batched openings -/

/-- `batched_kzg::params_type` (kzg.hpp:252-257) -/
structure BatchedKzgParams (G1 G2 : Type) where
  ck : List G1
  vk : List G2

/-- `params_type(d, t, alpha)` (kzg.hpp:277-290) -/
def batchedKzgSetup (P : Pairing F G1 G2 GT) (d t : Nat) (alpha : F) : BatchedKzgParams G1 G2 :=
  ⟨powerKey alpha P.one1 d, powerKey alpha P.one2 (t + 1)⟩

/-- `create_evals_polys` (kzg.hpp:383-397) -/
def createEvalsPolys (polys : List (List F)) (S : List (List F)) : Option (List (List F)) :=
  if polys.length = S.length then
    some (List.zipWith (fun f s => lagrangeInterpolation (s.map fun x => (x, evalPoly f x))) polys S)
  else none

/-- `std::set` filled from a range and copied to a vector: sorted and without repetitions
(kzg.hpp:484-488, 668-675) -/
def sortedSet [LinearOrder F] (l : List F) : List F := (l.mergeSort (· ≤ ·)).dedup

/-- `merge_eval_points` (kzg.hpp:482-489) -/
def mergeEvalPoints [LinearOrder F] (S : List (List F)) : List F := sortedSet S.flatten

/-- `std::set_difference` on two sorted ranges (kzg.hpp:541, 686, kzg_v2.hpp:140) -/
def setDifference [LinearOrder F] : List F → List F → List F
  | [], _ => []
  | T, [] => T
  | a :: T, b :: S =>
    if a < b then a :: setDifference T (b :: S)
    else if b < a then setDifference (a :: T) S
    else setDifference T S
termination_by T S => T.length + S.length

/-- `create_polynom_by_zeros` (kzg.hpp:518-526) -/
def polynomByZeros : List F → Option (List F)
  | [] => none
  | s :: S => some (S.foldl (fun v x => polyMul v [-x, 1]) [-s, 1])

/-- `set_difference_polynom` (kzg.hpp:535-547) -/
def setDifferencePolynom [LinearOrder F] (T S : List F) : Option (List F) :=
  match setDifference (T.mergeSort (· ≤ ·)) (S.mergeSort (· ≤ ·)) with
  | [] => some [1]
  | r => polynomByZeros r

/-- one step of the loop of `proof_eval` (kzg.hpp:568-580): state `(factor, accum)`. The assertions
on the values at the points follow from the assertion on the remainder and are not modelled. -/
def batchedProveStep [DecidableEq F] (gamma : F) (st : F × List F)
    (e : List F × List F × List F) : Option (F × List F) := do
  let spare := polySub e.1 e.2.1
  let denom ← polynomByZeros e.2.2
  if polyIsZero (polyMod spare denom) then
    some (st.1 * gamma, polyAdd st.2 (polyScale st.1 (polyDiv spare denom)))
  else none

/-- `public_key_type` (kzg.hpp:300-305): commitments, merged points, points and interpolated
polynomials -/
structure BatchedKzgKey (F G1 : Type) where
  commits : List G1
  T : List F
  S : List (List F)
  r : List (List F)

/-- `proof_eval` (kzg.hpp:556-595) with the challenge `gamma`. `none` also when the vectors of the
public key are shorter than the list of polynomials. -/
def batchedProve [DecidableEq F] (pp : BatchedKzgParams G1 G2) (polys : List (List F))
    (pk : BatchedKzgKey F G1) (gamma : F) : Option G1 :=
  if polys.length ≤ pk.r.length ∧ polys.length ≤ pk.S.length then do
    let st ← (polys.zip (pk.r.zip pk.S)).foldlM (batchedProveStep gamma) (1, [])
    kzgCommit pp.ck st.2
  else none

/-- one step of the loop of `verify_eval` (kzg.hpp:614-623): state `(factor, product of pairings)` -/
def batchedVerifyStep [LinearOrder F] [DecidableEq G2] (P : Pairing F G1 G2 GT)
    (pp : BatchedKzgParams G1 G2) (pk : BatchedKzgKey F G1) (gamma : F) (st : F × GT)
    (e : G1 × List F × List F) : Option (F × GT) := do
  let rCommit ← kzgCommit pp.ck e.2.1
  let left := st.1 • (e.1 - rCommit)
  let diff ← setDifferencePolynom pk.T e.2.2
  let right ← kzgCommit pp.vk diff
  if pk.commits.length = 1 ∧ right ≠ P.one2 then none
  else some (st.1 * gamma, st.2 + P.e left right)

/-- `verify_eval` (kzg.hpp:604-629) with the challenge `gamma` -/
def batchedVerify [LinearOrder F] [DecidableEq G2] [DecidableEq GT] (P : Pairing F G1 G2 GT)
    (pp : BatchedKzgParams G1 G2) (proof : G1) (pk : BatchedKzgKey F G1) (gamma : F) :
    Option Bool :=
  if pk.commits.length ≤ pk.r.length ∧ pk.commits.length ≤ pk.S.length then do
    let st ← (pk.commits.zip (pk.r.zip pk.S)).foldlM (batchedVerifyStep P pp pk gamma) (1, 0)
    let zT ← polynomByZeros pk.T
    let right ← kzgCommit pp.vk zT
    some (st.2 = P.e proof right)
  else none

/-! ## the commitment scheme classes -/

/-- the serialisation of a point of the first group (external) (used in kzg.hpp:341, 353, 366, 700) -/
structure PointCodec (G1 : Type) where
  enc : G1 → List UInt8
  dec : List UInt8 → Option G1

/-- an absorbed message (kzg.hpp:695-731) -/
inductive KzgMsg (F : Type)
  | bytes (l : List UInt8)
  | elem (x : F)

/-- `kzg_commitment_scheme` (kzg.hpp:653-657), without the unused vector of single commitments -/
structure KzgScheme (F : Type) where
  ev : PolysEvaluator F
  commitments : OMap (List UInt8)
  merged : List F

/-- `get_U` (batched_commitment.hpp:97-108) -/
def getU (ev : PolysEvaluator F) (k i : Nat) : Option (List F) := do
  let batch ← ev.points.find k
  let pts ← batch[i]?
  let n ← ev.z.pointsNumber k i
  if pts.length = n then
    let zs ← ev.z.getPoly k i
    some (lagrangeInterpolation (pts.zip zs))
  else none

/-- `commit` (kzg.hpp:748-765; kzg_v2.hpp:208-225). The assertion on the degree is weaker than the
one inside `commit_one` and is not modelled. -/
def KzgScheme.commit (ck : List G1) (codec : PointCodec G1) (s : KzgScheme F)
    (k : Nat) : Option (KzgScheme F × List UInt8) := do
  let ev := s.ev.stateCommitted k
  let cs ← (ev.polys.getD k []).mapM fun f => kzgCommit ck f
  let blob := cs.flatMap codec.enc
  some (⟨ev, s.commitments.insert k blob, s.merged⟩, blob)

/-- one call of a modifying method of the scheme: `commit` (kzg.hpp:748-765; kzg_v2.hpp:208-225) or
an inherited method of `polys_evaluator` -/
def KzgScheme.apply (ck : List G1) (codec : PointCodec G1) (s : KzgScheme F) :
    ContainerOp F → Option (KzgScheme F)
  | .commit k => (s.commit ck codec k).map Prod.fst
  | op => do
    let ev ← op.apply s.ev
    some ⟨ev, s.commitments, s.merged⟩

/-- a history of calls on a fresh object (batched_commitment.hpp:171-174, 198-243) -/
def runScheme (ck : List G1) (codec : PointCodec G1) (ops : List (ContainerOp F)) :
    Option (KzgScheme F) :=
  ops.foldlM (KzgScheme.apply ck codec) ⟨PolysEvaluator.empty, [], []⟩

/-- `merge_eval_points` (kzg.hpp:667-676; kzg_v2.hpp:121-130) -/
def mergedPoints [LinearOrder F] (ev : PolysEvaluator F) : List F :=
  sortedSet (ev.points.flatMap fun e => e.2.flatten)

/-- `set_difference_polynom` of the classes (kzg.hpp:678-693; kzg_v2.hpp:132-147). The equality
of polynomials in the assertion compares coefficients (up to trailing zeros). -/
def schemeSetDifference [LinearOrder F] (merged points : List F) : Option (List F) :=
  let result := setDifference (merged.mergeSort (· ≤ ·)) (points.mergeSort (· ≤ ·))
  if result.length = 0 then some [1]
  else if polyIsZero (polySub (polyMul (getV result) (getV (points.mergeSort (· ≤ ·))))
      (getV (merged.mergeSort (· ≤ ·)))) then
    some (getV result)
  else none

/-- `update_transcript` (kzg.hpp:695-739; kzg_v2.hpp:149-193): the messages absorbed for one batch -/
def kzgTranscript (ev : PolysEvaluator F) (commitments : OMap (List UInt8)) (k : Nat) :
    Option (List (KzgMsg F)) := do
  let zs ← ev.z.find k
  let us ← (List.range (ev.points.getD k []).length).mapM fun i => getU ev k i
  some (.bytes (commitments.getD k []) :: zs.flatten.map KzgMsg.elem
    ++ us.flatten.map KzgMsg.elem)

/-- the transcript over all batches of `_commitments` (kzg.hpp:780-783, 826-829) -/
def kzgTranscriptAll (ev : PolysEvaluator F) (commitments : OMap (List UInt8)) :
    Option (List (KzgMsg F)) := do
  let ms ← commitments.keys.mapM fun k => kzgTranscript ev commitments k
  some ms.flatten

/-- the pairs `(k, i)` visited by the prover's loops, with the polynomial and its points
(kzg.hpp:790-796; kzg_v2.hpp:249-257) -/
def proverItems (ev : PolysEvaluator F) : Option (List (List F × List F × List F)) := do
  let per ← ev.polys.mapM fun (e : Nat × List (List F)) => do
    let n ← ev.z.batchSize e.1
    (List.range n).mapM fun i => do
      let f ← e.2[i]?
      let u ← getU ev e.1 i
      let batch ← ev.points.find e.1
      let pts ← batch[i]?
      some (f, u, pts)
  some per.flatten

/-- the accumulation of the prover (kzg.hpp:786-796): state `(factor, accum)` -/
def kzgProverStep (gamma : F) (st : F × List F) (e : List F × List F × List F) : F × List F :=
  (st.1 * gamma,
    polyAdd st.2 (polyDiv (polyScale st.1 (polySub e.1 e.2.1)) (getV e.2.2)))

/-- `proof_eval` (kzg.hpp:776-815): the evaluations and the proof -/
def KzgScheme.proofEval [LinearOrder F] (ck : List G1)
    (chal : List (KzgMsg F) → F) (s : KzgScheme F) : Option (EvalStorage F × G1) := do
  let ev ← s.ev.evalPolys
  let ms ← kzgTranscriptAll ev s.commitments
  let gamma := chal ms
  let items ← proverItems ev
  let st := items.foldl (kzgProverStep gamma) (1, [0])
  let proof ← kzgCommit ck st.2
  some (ev.z, proof)

/-- the point at position `i` of a blob of `n` points (kzg.hpp:838-847; kzg_v2.hpp:344-354) -/
def decodeAt (codec : PointCodec G1) (blob : List UInt8) (n i : Nat) : Option G1 :=
  if n = 0 then none
  else codec.dec ((blob.drop (i * (blob.length / n))).take (blob.length / n))

/-- the pairs `(k, i)` visited by the verifier's loops, with the decoded commitment, the interpolated
polynomial and the points (kzg.hpp:835-850; kzg_v2.hpp:342-357) -/
def verifierItems (codec : PointCodec G1) (ev : PolysEvaluator F)
    (commitments : OMap (List UInt8)) : Option (List (G1 × List F × List F)) := do
  let per ← commitments.mapM fun (e : Nat × List UInt8) => do
    let batch ← ev.points.find e.1
    (List.range batch.length).mapM fun i => do
      let cm ← decodeAt codec e.2 batch.length i
      let u ← getU ev e.1 i
      let pts ← batch[i]?
      some (cm, u, pts)
  some per.flatten

/-- one step of the verifier's loop (kzg.hpp:848-857): state `(factor, product of pairings)` -/
def kzgVerifierStep [LinearOrder F] (P : Pairing F G1 G2 GT) (pp : BatchedKzgParams G1 G2)
    (merged : List F) (gamma : F) (st : F × GT) (e : G1 × List F × List F) : Option (F × GT) := do
  let uCommit ← kzgCommit pp.ck e.2.1
  let diff ← schemeSetDifference merged e.2.2
  let diffCommit ← kzgCommit pp.vk diff
  some (st.1 * gamma, st.2 + P.e (st.1 • (e.1 - uCommit)) diffCommit)

/-- `verify_eval` (kzg.hpp:817-867) -/
def KzgScheme.verifyEval [LinearOrder F] [DecidableEq GT] (P : Pairing F G1 G2 GT)
    (pp : BatchedKzgParams G1 G2) (codec : PointCodec G1) (chal : List (KzgMsg F) → F)
    (s : KzgScheme F) (proof : EvalStorage F × G1) (commitments : OMap (List UInt8)) :
    Option Bool := do
  let merged := mergedPoints s.ev
  let ev : PolysEvaluator F := ⟨proof.1, s.ev.polys, s.ev.locked, s.ev.points⟩
  let ms ← kzgTranscriptAll ev commitments
  let gamma := chal ms
  let items ← verifierItems codec ev commitments
  let st ← items.foldlM (kzgVerifierStep P pp merged gamma) (1, 0)
  let right ← kzgCommit pp.vk (getV merged)
  some (st.2 = P.e proof.2 right)

/-! ## the second version of the scheme -/

/-- the first accumulation (kzg_v2.hpp:246-257): state `(theta_i, f)` -/
def kzg2FStep [LinearOrder F] (merged : List F) (theta : F) (st : F × List F)
    (e : List F × List F × List F) : Option (F × List F) := do
  let diff ← schemeSetDifference merged e.2.2
  some (st.1 * theta, polyAdd st.2 (polyMul (polyScale st.1 (polySub e.1 e.2.1)) diff))

/-- the second accumulation (kzg_v2.hpp:278-291): state `(theta_i, L)` -/
def kzg2LStep [LinearOrder F] (merged : List F) (theta theta2 : F) (st : F × List F)
    (e : List F × List F × List F) : Option (F × List F) := do
  let diff ← schemeSetDifference merged e.2.2
  some (st.1 * theta, polyAdd st.2 (polyScale (st.1 * evalPoly diff theta2)
    (polySub e.1 [evalPoly e.2.1 theta2])))

/-- `proof_eval` (kzg_v2.hpp:236-310) -/
def KzgScheme.proofEval2 [LinearOrder F] (ck : List G1) (codec : PointCodec G1)
    (chal : List (KzgMsg F) → F) (s : KzgScheme F) : Option (EvalStorage F × G1 × G1) := do
  let ev ← s.ev.evalPolys
  let merged := mergedPoints ev
  let ms ← kzgTranscriptAll ev s.commitments
  let theta := chal ms
  let items ← proverItems ev
  let st ← items.foldlM (kzg2FStep merged theta) (1, [0])
  if polyIsZero (polyMod st.2 (getV merged)) then
    let f := polyDiv st.2 (getV merged)
    let pi1 ← kzgCommit ck f
    let theta2 := chal (ms ++ [.bytes (codec.enc pi1)])
    let st2 ← items.foldlM (kzg2LStep merged theta theta2) (1, [0])
    let L := polySub st2.2 (polyScale (evalPoly (getV merged) theta2) f)
    if evalPoly L theta2 = 0 then
      let pi2 ← kzgCommit ck (polyDiv L [-theta2, 1])
      some (ev.z, pi1, pi2)
    else none
  else none

/-- one step of the verifier's loop (kzg_v2.hpp:347-360): state `(theta_i, F, rsum)` -/
def kzg2VerifierStep [LinearOrder F] (merged : List F) (theta theta2 : F)
    (st : F × G1 × F) (e : G1 × List F × List F) : Option (F × G1 × F) := do
  let diff ← schemeSetDifference merged e.2.2
  let c := st.1 * evalPoly diff theta2
  some (st.1 * theta, st.2.1 + c • e.1, st.2.2 + c * evalPoly e.2.1 theta2)

/-- the division `_commitments.at(k).size() / _points.at(k).size()` that `kzg_v2` does for every
batch, before the loop over its polynomials (kzg_v2.hpp:344): `none` is a division by zero -/
def batchesNonempty (ev : PolysEvaluator F) (commitments : OMap (List UInt8)) : Option Unit :=
  if commitments.all fun e => (ev.points.getD e.1 []).length != 0 then some () else none

/-- `verify_eval` (kzg_v2.hpp:312-373) -/
def KzgScheme.verifyEval2 [LinearOrder F] [DecidableEq GT] (P : Pairing F G1 G2 GT)
    (pp : BatchedKzgParams G1 G2) (codec : PointCodec G1) (chal : List (KzgMsg F) → F)
    (s : KzgScheme F) (proof : EvalStorage F × G1 × G1) (commitments : OMap (List UInt8)) :
    Option Bool := do
  let merged := mergedPoints s.ev
  let ev : PolysEvaluator F := ⟨proof.1, s.ev.polys, s.ev.locked, s.ev.points⟩
  let ms ← kzgTranscriptAll ev commitments
  let theta := chal ms
  let theta2 := chal (ms ++ [.bytes (codec.enc proof.2.1)])
  batchesNonempty ev commitments
  let items ← verifierItems codec ev commitments
  let st ← items.foldlM (kzg2VerifierStep merged theta theta2) (1, 0, 0)
  let acc := st.2.1 - st.2.2 • P.one1 - evalPoly (getV merged) theta2 • proof.2.1
  let vk1 ← pp.vk[1]?
  some (P.e (acc + theta2 • proof.2.2) P.one2 = P.e proof.2.2 vk1)

end Crypto3Zk
