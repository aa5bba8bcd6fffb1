import Verif.Model.EvalStorage
import Verif.Model.FRI
import Mathlib.Data.Nat.Log

/-!
# The LPC commitment scheme

Models `lpc_commitment_scheme` (commitments/polynomial/lpc.hpp). The inherited `polys_evaluator` is
`ev`, whose polynomials are coefficient vectors; `forms` are the same polynomials in the form in which
they were appended (a `polynomial` or a `polynomial_dfs`), which is what FRI works on. Evaluating a
`polynomial_dfs` is modelled as evaluating its coefficients. A failed assertion, an exception and an
out-of-bounds access are `none`. A default-constructed `math::polynomial` is the constant zero.
-/

namespace Crypto3Zk

variable {F : Type} [Field F] {Tree Root Path S : Type}

/-- `lpc_commitment_scheme` (lpc.hpp:70-75). `_fri_params` is a parameter of the functions below. -/
structure LpcScheme (F Tree : Type) where
  ev : PolysEvaluator F
  forms : OMap (List (FriPoly F))
  trees : OMap Tree
  etha : F
  batchFixed : OMap Bool
  fixedValues : OMap (List F)

namespace LpcScheme

/-- the constructor (lpc.hpp:78-80) -/
def new : LpcScheme F Tree := ⟨PolysEvaluator.empty, [], [], 0, [], []⟩

/-- `append_to_batch` (inherited, batched_commitment.hpp:198-209) -/
def append (L : FftLib F) (s : LpcScheme F Tree) (k : Nat) (fs : List (FriPoly F)) :
    Option (LpcScheme F Tree) := do
  let ev ← s.ev.appendToBatch k (fs.map fun f => f.final L)
  some { s with ev := ev, forms := s.forms.insert k (s.forms.getD k [] ++ fs) }

/-- `preprocess` (lpc.hpp:82-94): the transcript afterwards and the values of the fixed batches -/
def preprocess (T : FriTranscript S F Root) (s : LpcScheme F Tree) (st : S) :
    Option (S × OMap (List F)) := do
  let (st, etha) := T.challenge st
  let result ← s.batchFixed.foldlM (fun (m : OMap (List F)) (e : Nat × Bool) =>
    if e.2 then do
      let polys ← s.ev.polys.find e.1
      some (m.insert e.1 (polys.map fun f => evalPoly f etha))
    else some m) []
  some (st, result)

/-- `setup` (lpc.hpp:96-99) -/
def setup (T : FriTranscript S F Root) (s : LpcScheme F Tree) (st : S) (data : OMap (List F)) :
    S × LpcScheme F Tree :=
  let (st, etha) := T.challenge st
  (st, { s with etha := etha, fixedValues := data })

/-- `commit` (lpc.hpp:101-106): the root and the object afterwards. `_polys[index]` creates a missing
batch (in `state_commited`). -/
def commit (L : FftLib F) (M : MerkleLib F Tree Root Path) (prm : FriParams F)
    (s : LpcScheme F Tree) (k : Nat) : Option (LpcScheme F Tree × Root) := do
  let ev := s.ev.stateCommitted k
  let forms := s.forms.insert k (s.forms.getD k [])
  let D ← prm.D[0]?
  let step ← prm.stepList[0]?
  let tree ← friPrecommitBatch L M (forms.getD k []) D step
  some ({ s with ev := ev, forms := forms, trees := s.trees.insert k tree }, M.root tree)

/-- `mark_batch_as_fixed` (lpc.hpp:109-111) -/
def markFixed (s : LpcScheme F Tree) (k : Nat) : LpcScheme F Tree :=
  { s with batchFixed := s.batchFixed.insert k true }

end LpcScheme

/-- one call of a modifying method of the scheme, other than `setup`
(lpc.hpp:50-112, batched_commitment.hpp:171-174, 198-243) -/
inductive LpcOp (F : Type)
  | append (k : Nat) (fs : List (FriPoly F))
  | commit (k : Nat)
  | points (k : Nat) (xs : List F)
  | pointsTo (k i : Nat) (xs : List F)
  | batchSize (k n : Nat)
  | markFixed (k : Nat)

/-- the effect of one call (lpc.hpp:101-111; batched_commitment.hpp:198-243) -/
def LpcOp.apply (L : FftLib F) (M : MerkleLib F Tree Root Path) (prm : FriParams F)
    (s : LpcScheme F Tree) : LpcOp F → Option (LpcScheme F Tree)
  | .append k fs => s.append L k fs
  | .commit k => (s.commit L M prm k).map Prod.fst
  | .points k xs => (s.ev.appendEvalPoints k xs).map fun ev => { s with ev := ev }
  | .pointsTo k i xs => (s.ev.appendEvalPointsTo k i xs).map fun ev => { s with ev := ev }
  | .batchSize k n => some { s with ev := s.ev.setBatchSize k n }
  | .markFixed k => some (s.markFixed k)

/-- a history of calls on a fresh object (lpc.hpp:50-112, batched_commitment.hpp:171-174, 198-243) -/
def runLpc (L : FftLib F) (M : MerkleLib F Tree Root Path) (prm : FriParams F)
    (ops : List (LpcOp F)) : Option (LpcScheme F Tree) :=
  ops.foldlM (LpcOp.apply L M prm) LpcScheme.new

/-! ## the prover -/

/-- the polynomials opened at `x` with the evaluations, in the order of the prover's loops
(lpc.hpp:136-151) -/
def lpcProverTerms [DecidableEq F] (ev : PolysEvaluator F) (x : F) : Option (List (List F × F)) := do
  let per ← ev.z.batches.mapM fun i => do
    let n ← ev.z.batchSize i
    let js ← (List.range n).mapM fun j => do
      let pts ← (ev.points.getD i [])[j]?
      match PolysEvaluator.firstIndex x pts with
      | none => some []
      | some k => do
        let g ← (ev.polys.getD i [])[j]?
        let v ← ev.z.get i j k
        some [(g, v)]
    some js.flatten
  some per.flatten

/-- the polynomials of the fixed batch `i` with the values of the preprocessing (lpc.hpp:161-172) -/
def lpcProverFixed (s : LpcScheme F Tree) (ev : PolysEvaluator F) (i : Nat) :
    Option (List (List F × F)) := do
  let n ← ev.z.batchSize i
  (List.range n).mapM fun j => do
    let g ← (ev.polys.getD i [])[j]?
    let v ← (s.fixedValues.getD i [])[j]?
    some (g, v)

/-- one term of a quotient (lpc.hpp:146-149, 168-171): state `(theta_acc, Q_normal)` -/
def lpcQStep (theta : F) (st : F × List F) (t : List F × F) : F × List F :=
  (st.1 * theta, polySub (polyAdd st.2 (polyScale st.1 t.1)) [t.2 * st.1])

/-- one quotient (lpc.hpp:134-153, 158-174): state `(theta_acc, combined_Q_normal)` -/
def lpcQuotientStep (theta : F) (st : F × List F) (e : F × List (List F × F)) : F × List F :=
  let r := e.2.foldl (lpcQStep theta) (st.1, [0])
  (r.1, polyAdd st.2 (polyDiv r.2 [-e.1, 1]))

/-- the opening points with their terms, in the order of the two loops (lpc.hpp:133-175) -/
def lpcProverItems [DecidableEq F] (s : LpcScheme F Tree) (ev : PolysEvaluator F) :
    Option (List (F × List (List F × F))) := do
  let pts ← ev.uniquePoints.mapM fun x => do
    let ts ← lpcProverTerms ev x
    some (x, ts)
  let fixed ← (ev.z.batches.filter fun i => s.batchFixed.getD i false).mapM fun i => do
    let ts ← lpcProverFixed s ev i
    some (s.etha, ts)
  some (pts ++ fixed)

/-- `combined_Q_normal` (lpc.hpp:130-175) -/
def lpcCombined (theta : F) (items : List (F × List (List F × F))) : List F :=
  (items.foldl (lpcQuotientStep theta) (1, [0])).2

/-- `combined_Q` (lpc.hpp:177-181): `from_coefficients` evaluates on the smallest domain that is large
enough -/
def lpcForm (L : FftLib F) (dfs : Bool) (c : List F) : FriPoly F :=
  if dfs then .dfs ((L.domain (Nat.clog 2 c.length)).evals c) else .coeff c

/-- `proof_eval` (lpc.hpp:113-200): the evaluations, the FRI proof and the transcript afterwards -/
def LpcScheme.proofEval [DecidableEq F] (L : FftLib F) (M : MerkleLib F Tree Root Path)
    (T : FriTranscript S F Root) (prm : FriParams F) (dfs : Bool) (fuel nonce : Nat)
    (s : LpcScheme F Tree) (st : S) : Option ((EvalStorage F × FriProof F Root Path) × S) := do
  let ev ← s.ev.evalPolys
  if ev.points.length = ev.polys.length ∧ ev.points.length = ev.z.length then
    let st := s.trees.foldl (fun st e => T.absorbRoot st (M.root e.2)) st
    let (st, theta) := T.challenge st
    let items ← lpcProverItems s ev
    let D ← prm.D[0]?
    let step ← prm.stepList[0]?
    let (qTree, q) ← friPrecommit L M (lpcForm L dfs (lpcCombined theta items)) D step
    let (proof, st) ← friProve L M T prm s.forms q s.trees qTree fuel nonce st
    some ((ev.z, proof), st)
  else none

/-! ## the verifier -/

/-- the openings at `x`: the polynomials and the claimed evaluations (lpc.hpp:230-238) -/
def lpcVerifierTerms [DecidableEq F] (ev : PolysEvaluator F) (x : F) :
    Option (List ((Nat × Nat) × F)) := do
  let per ← ev.z.batches.mapM fun i => do
    let n ← ev.z.batchSize i
    let js ← (List.range n).mapM fun j => do
      let pts ← (ev.points.getD i [])[j]?
      match PolysEvaluator.firstIndex x pts with
      | none => some []
      | some k => do
        let v ← ev.z.get i j k
        some [((i, j), v)]
    some js.flatten
  some per.flatten

/-- the openings of the fixed batches at `_etha` (lpc.hpp:244-251) -/
def lpcVerifierFixed (v : LpcScheme F Tree) (z : EvalStorage F) :
    Option (List ((Nat × Nat) × F)) := do
  let per ← (z.batches.filter fun i => v.batchFixed.getD i false).mapM fun i => do
    let n ← z.batchSize i
    (List.range n).mapM fun j => do
      let u ← (v.fixedValues.getD i [])[j]?
      some ((i, j), u)
  some per.flatten

/-- one opening (lpc.hpp:234-236, 247-249): state `(theta_acc, U[p])` -/
def lpcUStep (theta : F) (st : F × F) (t : (Nat × Nat) × F) : F × F :=
  (st.1 * theta, st.2 + t.2 * st.1)

/-- `poly_map`, `U` and `V` from the openings point by point (lpc.hpp:225-252) -/
def lpcItems (theta : F) : F → List (F × List ((Nat × Nat) × F)) →
    List (List (Nat × Nat) × F × List F)
  | _, [] => []
  | acc, (x, ts) :: rest =>
    let r := ts.foldl (lpcUStep theta) (acc, 0)
    (ts.map Prod.fst, r.2, [-x, 1]) :: lpcItems theta r.1 rest

/-- the opening points with their terms (lpc.hpp:212-252); `total_points` is one more than the number
of points if any batch is marked as fixed -/
def lpcVerifierItems [DecidableEq F] (v : LpcScheme F Tree) (z : EvalStorage F) :
    Option (List (F × List ((Nat × Nat) × F))) := do
  let ev : PolysEvaluator F := { v.ev with z := z }
  let pts ← ev.uniquePoints.mapM fun x => do
    let ts ← lpcVerifierTerms ev x
    some (x, ts)
  if v.batchFixed.any fun e => e.2 then do
    let ts ← lpcVerifierFixed v z
    some (pts ++ [(v.etha, ts)])
  else some pts

/-- `verify_eval` (lpc.hpp:202-267): the verdict and the transcript afterwards -/
def LpcScheme.verifyEval [DecidableEq F] [DecidableEq Root] (M : MerkleLib F Tree Root Path)
    (T : FriTranscript S F Root) (prm : FriParams F) (v : LpcScheme F Tree)
    (proof : EvalStorage F × FriProof F Root Path) (commitments : OMap Root) (st : S) :
    Option (Bool × S) := do
  let st := commitments.foldl (fun st e => T.absorbRoot st e.2) st
  let (st, theta) := T.challenge st
  let items ← lpcVerifierItems v proof.1
  friVerify M T prm proof.2 commitments theta (lpcItems theta 1 items) st

end Crypto3Zk
