import Verif.Model.LookupArg
import Verif.Model.LPC
import Verif.Model.Quotient

/-!
# The placeholder proof system

Models placeholder/preprocessor.hpp (`process`), placeholder/prover.hpp and placeholder/verifier.hpp:
how the arguments, the commitment scheme and the transcript are put together.

The commitment scheme is any object with the methods below (`LpcScheme` is an instance). The transcript
is any state machine. The hash of the constraint system is an arbitrary value.

As in the models of the arguments, a `polynomial_dfs` is either its coefficients, its values, or a Mathlib
polynomial. `none` is a failed assertion, an exception or an out-of-bounds access.
-/

namespace Crypto3Zk

open Polynomial

/-! ## interfaces -/

/-- The methods of `commitment_scheme_type` that the proof system calls. `LpcOp` is a call of one of the
methods inherited from `polys_evaluator`, of `commit` or of `mark_batch_as_fixed`; `root` is what `commit`
returned for a batch (prover.hpp:130-141, 202). -/
structure CommScheme (F S Com Pr Data Obj : Type) where
  new : Obj
  apply : Obj → LpcOp F → Option Obj
  root : Obj → Nat → Option Com
  preprocess : Obj → S → Option Data
  setup : Obj → S → Data → S × Obj
  proofEval : Obj → S → Option ((EvalStorage F × Pr) × S)
  verifyEval : Obj → EvalStorage F × Pr → OMap Com → S → Option (Bool × S)

/-- a sequence of calls (as in prover.hpp:137-138) -/
def CommScheme.run {F S Com Pr Data Obj : Type} (C : CommScheme F S Com Pr Data Obj) (o : Obj)
    (ops : List (LpcOp F)) : Option Obj :=
  ops.foldlM C.apply o

/-- The transcript (a fresh one, a digest or a commitment appended to it, and a challenge drawn)
(prover.hpp:121-127, 143). -/
structure PlonkTranscript (S F H Com : Type) where
  start : S
  hash : H → S → S
  absorb : Com → S → S
  challenge : S → F × S

/-- `lpc_commitment_scheme` as a commitment scheme (commitments/polynomial/lpc.hpp) (its methods at lines 50-112). -/
def lpcComm {F : Type} [Field F] [DecidableEq F] {S Tree Root Path : Type} [DecidableEq Root]
    (L : FftLib F) (M : MerkleLib F Tree Root Path) (T : FriTranscript S F Root) (prm : FriParams F)
    (dfs : Bool) (fuel nonce : Nat) :
    CommScheme F S Root (FriProof F Root Path) (OMap (List F)) (LpcScheme F Tree) where
  new := LpcScheme.new
  apply := LpcOp.apply L M prm
  root s k := (s.trees.find k).map M.root
  preprocess s st := (s.preprocess T st).map Prod.snd
  setup s st data := s.setup T st data
  proofEval s st := s.proofEval L M T prm dfs fuel nonce st
  verifyEval v proof commitments st := v.verifyEval M T prm proof commitments st

/-! ## constraint systems -/

/-- `plonk_constraint_system` (plonk/constraint_system.hpp:65-80). -/
structure Circuit (F : Type) where
  gates : List (Gate F)
  copies : List (PlonkVar × PlonkVar)
  lookups : LookupSystem F
  publicInputSizes : List Nat

variable {F : Type} [Field F] [DecidableEq F]

/-- `max_gates_degree` (plonk/constraint_system.hpp:206-216). -/
def Circuit.gatesDegree (c : Circuit F) : Nat :=
  c.gates.foldl (fun d g => g.constraints.foldl (fun d e => max d e.maxDegree32) d) 0

/-- `max_lookup_gates_degree` (plonk/constraint_system.hpp:218-233). -/
def Circuit.lookupGatesDegree (c : Circuit F) : Nat :=
  c.lookups.gates.foldl (fun d g => g.constraints.foldl
    (fun d c => c.input.foldl (fun d e => max d e.maxDegree32) d) d) 0

/-- `max_gates_degree` of the preprocessed data (preprocessor.hpp:512-515), a `uint32`. -/
def Circuit.maxDegree (c : Circuit F) : Nat := max c.gatesDegree c.lookupGatesDegree % 2 ^ 32

/-- `lookup_poly_degree_bound` (plonk/constraint_system.hpp:235-253); the sum is a `uint32`. -/
def Circuit.lookupDegreeBound (c : Circuit F) : Nat :=
  if c.lookups.gates.length > 0 then
    let d := c.lookups.gates.foldl (fun d g => g.constraints.foldl
      (fun d c => (d + (c.degree + 1)) % 2 ^ 32) d) 0
    c.lookups.tables.foldl (fun d t => (d + 3 * t.options.length) % 2 ^ 32) d
  else 0

/-! ## batches (placeholder/proof.hpp:37-41) -/

/-- placeholder/proof.hpp:37 -/
abbrev FIXED_BATCH : Nat := 0
/-- placeholder/proof.hpp:38 -/
abbrev VARIABLE_BATCH : Nat := 1
/-- placeholder/proof.hpp:39 -/
abbrev PERMUTATION_BATCH : Nat := 2
/-- placeholder/proof.hpp:40 -/
abbrev QUOTIENT_BATCH : Nat := 3
/-- placeholder/proof.hpp:41 -/
abbrev LOOKUP_BATCH : Nat := 4

/-! ## preprocessing -/

/-- `std::set<int>::insert` on the increasing list of the elements (preprocessor.hpp:372, 377, 402, 409). -/
def insertSorted (r : Int) : List Int → List Int
  | [] => [r]
  | x :: xs => if r < x then r :: x :: xs else if r = x then x :: xs else x :: insertSorted r xs

/-- `result[column].insert(rotation)` (preprocessor.hpp:377, 397-409). -/
def insertRotation (m : List (List Int)) (col : Nat) (r : Int) : Option (List (List Int)) := do
  let s ← m[col]?
  some (m.set col (insertSorted r s))

/-- The insertions of `columns_rotations` in order (preprocessor.hpp:375-413). -/
def rotationRequests (d : TableDesc) (c : Circuit F) : Option (List (Nat × Int)) := do
  let vars := c.gates.flatMap (fun g => g.constraints.flatMap Expr.visitVars) ++
    c.lookups.gates.flatMap fun g => g.constraints.flatMap fun k => k.input.flatMap Expr.visitVars
  let rs ← vars.mapM fun v => do
    let i ← d.globalIndex v
    some (i, v.rotation)
  if c.lookups.gates.length ≠ 0 then
    some (rs ++ c.lookups.tables.flatMap fun t =>
      (d.witness + d.publicInput + d.constant + t.tagIndex, 1) ::
        t.options.flatMap fun o => o.map fun v => (d.witness + d.publicInput + v.index, 1))
  else some rs

/-- `columns_rotations` (preprocessor.hpp:364-416). -/
def columnsRotations (d : TableDesc) (c : Circuit F) : Option (List (List Int)) := do
  let rs ← rotationRequests d c
  rs.foldlM (fun m r => insertRotation m r.1 r.2) (List.replicate d.width [0])

/-- `common_data_type` (preprocessor.hpp:127-192), with the verification key's hash; the rows are
`2 ^ n`. -/
structure CommonData (F H Com Data : Type) where
  fixedCommitment : Com
  rotations : List (List Int)
  desc : TableDesc
  maxGatesDegree : Nat
  permutationParts : Nat
  lookupParts : Nat
  hash : H
  permutedColumns : List Nat
  schemeData : Data
  mqc : Nat
  lagrange0 : List F
  Z : List F

/-- `preprocessed_data_type` (preprocessor.hpp:254-266), without the table of the public columns, which is
part of the assignment table in this model. -/
structure PublicData (F H Com Data : Type) where
  perm : PermData F
  common : CommonData F H Com Data

/-- `Z` (preprocessor.hpp:158-192): `-1, 0, ..., 0, 1`. -/
def vanishingCoeffs (rows : Nat) : List F :=
  ((List.replicate (rows + 1) (0 : F)).set 0 (-1)).set rows 1

/-- A polynomial with these coefficients as a `polynomial_dfs` with `2 ^ n` values. -/
def dfsOf (L : FftLib F) (n : Nat) (c : List F) : FriPoly F := .dfs ((L.domain n).evals c)

/-- The calls of `commitments` (preprocessor.hpp:474-491). -/
def fixedOps (L : FftLib F) (n : Nat) (pre : PermData F) (t : PlonkTable F) : List (LpcOp F) :=
  [.append FIXED_BATCH (pre.sId.map (dfsOf L n)),
   .append FIXED_BATCH (pre.sSigma.map (dfsOf L n)),
   .append FIXED_BATCH [dfsOf L n pre.qLast],
   .append FIXED_BATCH [dfsOf L n pre.qBlind],
   .append FIXED_BATCH (t.constants.map .dfs),
   .append FIXED_BATCH (t.selectors.map .dfs),
   .commit FIXED_BATCH,
   .markFixed FIXED_BATCH]

variable {S H Com Pr Data Obj : Type}

/-- The transcript after the verification key (preprocessor.hpp:583-585, prover.hpp:121-127,
verifier.hpp:192-195). -/
def PlonkTranscript.key (T : PlonkTranscript S F H Com) (hash : H) (com : Com) : S :=
  T.absorb com (T.hash hash T.start)

/-- `placeholder_public_preprocessor::process` (preprocessor.hpp:494-611) on a table with `2 ^ n` rows:
the preprocessed data and the scheme object, which is passed by reference. `order` is the iteration order
of the `unordered_set` of permuted columns, `hash` the result of
`compute_constraint_system_with_params_hash`. -/
def placeholderPreprocess (C : CommScheme F S Com Pr Data Obj) (T : PlonkTranscript S F H Com)
    (L : FftLib F) (n fuel : Nat) (d : TableDesc) (c : Circuit F) (order : List PlonkVar) (delta : F)
    (mqc : Nat) (hash : H) (t : PlonkTable F) (obj : Obj) : Option (PublicData F H Com Data × Obj) := do
  if c.maxDegree = 0 then none
  else do
    let pre ← permPreprocess L n fuel d c.copies order delta mqc
    let gi ← permutedIndices d order
    if mqc = 0 ∨ mqc > c.maxDegree then
      let obj ← C.run obj (fixedOps L n pre t)
      let com ← C.root obj FIXED_BATCH
      let rotations ← columnsRotations d c
      let data ← C.preprocess obj (T.key hash com)
      some (⟨pre,
        { fixedCommitment := com
          rotations := rotations
          desc := d
          maxGatesDegree := c.maxDegree
          permutationParts := pre.parts
          lookupParts := (c.lookups.parts mqc).length
          hash := hash
          permutedColumns := gi
          schemeData := data
          mqc := mqc
          lagrange0 := pre.lagrange0
          Z := vanishingCoeffs (2 ^ n) }⟩, obj)
    else none

/-! ## the prover -/

/-- `placeholder_proof` (placeholder/proof.hpp:50-93). -/
structure PlaceholderProof (F Com Pr : Type) where
  commitments : OMap Com
  challenge : F
  eval : EvalStorage F × Pr

/-- The calls of `append_eval_point` for `count` columns, from column `base` of the table and polynomial
`first` of the batch on (prover.hpp:355-369, 402-416, verifier.hpp:80-94, 125-139). -/
def columnPoints (rotations : List (List Int)) (batch first base count : Nat) (omega y : F) :
    Option (List (LpcOp F)) := do
  let ops ← (List.range count).mapM fun i => do
    let rs ← rotations[base + i]?
    some (rs.map fun r => LpcOp.pointsTo batch (first + i) [y * omega ^ r])
  some ops.flatten

/-- `generate_evaluation_points` of the prover (prover.hpp:346-417). `d` is the table description passed to
the prover, `selectors` the number of selector columns of the polynomial table. -/
def proverPoints (L : FftLib F) (n : Nat) (d : TableDesc) (c : Circuit F) (pre : PermData F)
    (common : CommonData F H Com Data) (selectors : Nat) (y : F) : Option (List (LpcOp F)) := do
  let omega := (L.domain n).elem 1
  let variable_ ← columnPoints common.rotations VARIABLE_BATCH 0 0 (d.witness + d.publicInput) omega y
  let lookup : Bool := c.lookups.gates.length > 0
  let copies : Bool := c.copies.length > 0
  let ops := variable_ ++
    (if lookup || copies then [LpcOp.points PERMUTATION_BATCH [y]] else []) ++
    (if copies then [LpcOp.pointsTo PERMUTATION_BATCH 0 [y * omega]] else []) ++
    (if lookup then
      [LpcOp.pointsTo PERMUTATION_BATCH common.permutationParts [y * omega],
       LpcOp.points LOOKUP_BATCH [y], LpcOp.points LOOKUP_BATCH [y * omega],
       LpcOp.points LOOKUP_BATCH [y * omega ^ common.desc.usableRows]]
      else []) ++
    [LpcOp.points QUOTIENT_BATCH [y]]
  let start := pre.sId.length + pre.sSigma.length + 2
  let special := (List.range start).map fun i => LpcOp.pointsTo FIXED_BATCH i [y]
  let shifted := [LpcOp.pointsTo FIXED_BATCH (start - 2) [y * omega],
    LpcOp.pointsTo FIXED_BATCH (start - 1) [y * omega]]
  let fixed ← columnPoints common.rotations FIXED_BATCH start (d.witness + d.publicInput)
    (d.constant + selectors) omega y
  some (ops ++ special ++ shifted ++ fixed)

/-- The permutation argument in `process` (prover.hpp:145-158, permutation_argument.hpp:137, 203): the first
three `F_dfs`, the scheme object and the transcript. Without copy constraints the `F_dfs` are zero. -/
noncomputable def permStage (C : CommScheme F S Com Pr Data Obj) (T : PlonkTranscript S F H Com)
    (L : FftLib F) (n : Nat) (d : TableDesc) (c : Circuit F) (order : List PlonkVar) (pre : PermData F)
    (t : PlonkTable F) (obj : Obj) (st : S) : Option ((F[X] × F[X] × F[X]) × Obj × S) :=
  if c.copies.length > 0 then do
    let gi ← permutedIndices d order
    let r ← permProve T.challenge L n pre (fun i => (t.column i).map L.coefficients) gi st
    let obj ← C.run obj (.append PERMUTATION_BATCH [dfsOf L n r.1.V] ::
      r.1.partitions.map fun p => .append PERMUTATION_BATCH [dfsOf L n p])
    some ((toPoly r.1.F0, toPoly r.1.F1, toPoly r.1.F2), obj, r.2)
  else some ((0, 0, 0), obj, st)

/-- The preprocessed data of the lookup argument (lookup_argument.hpp:133, 162). -/
noncomputable def lookupData (pre : PermData F) : LookupData F :=
  ⟨toPoly pre.qLast, toPoly pre.qBlind, toPoly pre.lagrange0, pre.usableRows, pre.mqc⟩

/-- The calls for the sorted columns (lookup_argument.hpp:192-195). -/
def sortedOps (sorted : List (List F)) : List (LpcOp F) :=
  (sorted.map fun s => .append LOOKUP_BATCH [.dfs s]) ++ [.commit LOOKUP_BATCH]

/-- The lookup argument in `process` (prover.hpp:160-167, 285-312, lookup_argument.hpp:192-196, 215, 267):
the next four `F_dfs`, the commitment, the scheme object and the transcript. (The commitment goes into the
transcript in the middle of `lookupProve`; there `none` stands for a failed commitment, after which this
function fails as well.) -/
noncomputable def lookupStage (C : CommScheme F S Com Pr Data Obj) (T : PlonkTranscript S F H Com)
    (L : FftLib F) (n : Nat) (c : Circuit F) (pre : PermData F) (t : PlonkTable F) (obj : Obj) (st : S) :
    Option ((F[X] × F[X] × F[X] × F[X]) × Option Com × Obj × S) :=
  if c.lookups.gates.length > 0 then do
    let commit := fun sorted => (C.run obj (sortedOps sorted)).bind (C.root · LOOKUP_BATCH)
    let r ← lookupProve T.challenge (fun (com : Option Com) st => com.elim st (T.absorb · st)) commit L n t
      c.lookups (lookupData pre) st
    let obj ← C.run obj (sortedOps r.1.sorted)
    let com ← C.root obj LOOKUP_BATCH
    let obj ← C.run obj (.append PERMUTATION_BATCH [.dfs r.1.V] ::
      r.1.partitions.map fun p => .append PERMUTATION_BATCH [.dfs p])
    some ((r.1.F0, r.1.F1, r.1.F2, r.1.F3), some com, obj, r.2)
  else some ((0, 0, 0, 0), none, obj, st)

/-- The commitment to the permutation batch (prover.hpp:169-172). -/
def permCommitStage (C : CommScheme F S Com Pr Data Obj) (T : PlonkTranscript S F H Com) (c : Circuit F)
    (obj : Obj) (st : S) : Option (Option Com × Obj × S) :=
  if c.copies.length > 0 ∨ c.lookups.gates.length > 0 then do
    let obj ← C.apply obj (.commit PERMUTATION_BATCH)
    let com ← C.root obj PERMUTATION_BATCH
    some (some com, obj, T.absorb com st)
  else some (none, obj, st)

/-- `F_consolidated` (prover.hpp:267-275): parts that are zero are not multiplied. -/
noncomputable def consolidate (fs : List F[X]) (alphas : List F) : F[X] :=
  (List.zipWith (fun f a => if f = 0 then f else C a * f) fs alphas).sum

/-- `polynomial_dfs::coefficients()` (external), of a Mathlib polynomial (used in prover.hpp:277). -/
noncomputable def coeffsOf (p : F[X]) : List F := (List.range (p.natDegree + 1)).map p.coeff

/-- A chunk of the quotient (prover.hpp:251-256): `from_coefficients`, and a chunk that was not stored is
the zero polynomial (whose number of values does not matter). -/
def chunkForm (L : FftLib F) (c : List F) : FriPoly F := lpcForm L true c

/-- the entry that `_proof.commitments[k] = ...` adds, if the assignment is made (prover.hpp:141, 170, 202) -/
def putCommitment (m : OMap Com) (k : Nat) : Option Com → OMap Com
  | some com => m.insert k com
  | none => m

/-- `placeholder_prover`: the constructor and `process` (prover.hpp:107-217), with
`quotient_polynomial_split_dfs`, `quotient_polynomial` and `T_commit` (prover.hpp:220-283, 314-318). -/
noncomputable def placeholderProve (C : CommScheme F S Com Pr Data Obj) (T : PlonkTranscript S F H Com)
    (L : FftLib F) (n : Nat) (d : TableDesc) (c : Circuit F) (order : List PlonkVar)
    (pd : PublicData F H Com Data) (t : PlonkTable F) (obj : Obj) :
    Option (PlaceholderProof F Com Pr) := do
  let s0 := C.setup obj (T.key pd.common.hash pd.common.fixedCommitment) pd.common.schemeData
  let obj ← C.run s0.2 [.append VARIABLE_BATCH (t.witnesses.map .dfs),
    .append VARIABLE_BATCH (t.publicInputs.map .dfs), .commit VARIABLE_BATCH]
  let vcom ← C.root obj VARIABLE_BATCH
  let (fp, obj, st) ← permStage C T L n d c order pd.perm t obj (T.absorb vcom s0.1)
  let (fl, lcom, obj, st) ← lookupStage C T L n c pd.perm t obj st
  let (pcom, obj, st) ← permCommitStage C T c obj st
  let (fg, st) ← gateProve T.challenge L n t c.gates pd.common.maxGatesDegree
    (gateMask (toPoly pd.perm.qLast) (toPoly pd.perm.qBlind)) st
  let alphas := drawN T.challenge 8 st
  let f := consolidate [fp.1, fp.2.1, fp.2.2, fl.1, fl.2.1, fl.2.2.1, fl.2.2.2, fg] alphas.1
  let chunks ← quotientSplit (polyDiv (coeffsOf f) pd.common.Z) pd.perm.sId.length c.lookupDegreeBound
    pd.common.maxGatesDegree d.rows pd.common.mqc
  let obj ← C.run obj [.append QUOTIENT_BATCH (chunks.map (chunkForm L)), .commit QUOTIENT_BATCH]
  let qcom ← C.root obj QUOTIENT_BATCH
  let y := T.challenge (T.absorb qcom alphas.2)
  let points ← proverPoints L n d c pd.perm pd.common t.selectors.length y.1
  let obj ← C.run obj points
  let (eval, _) ← C.proofEval obj y.2
  some
    { commitments := (putCommitment (putCommitment (OMap.insert [] VARIABLE_BATCH vcom) LOOKUP_BATCH lcom)
        PERMUTATION_BATCH pcom).insert QUOTIENT_BATCH qcom
      challenge := y.1
      eval := eval }

/-! ## the verifier -/

/-- `generate_evaluation_points` of the verifier (verifier.hpp:62-140). -/
def verifierPoints (L : FftLib F) (n : Nat) (d : TableDesc) (c : Circuit F)
    (common : CommonData F H Com Data) (y : F) : Option (List (LpcOp F)) := do
  let omega := (L.domain n).elem 1
  let variable_ ← columnPoints common.rotations VARIABLE_BATCH 0 0 (d.witness + d.publicInput) omega y
  let lookup : Bool := c.lookups.gates.length > 0
  let copies : Bool := c.copies.length > 0
  let ops := variable_ ++
    (if lookup || copies then [LpcOp.points PERMUTATION_BATCH [y]] else []) ++
    (if copies then [LpcOp.pointsTo PERMUTATION_BATCH 0 [y * omega]] else []) ++
    (if lookup then
      [LpcOp.pointsTo PERMUTATION_BATCH common.permutationParts [y * omega],
       LpcOp.points LOOKUP_BATCH [y], LpcOp.points LOOKUP_BATCH [y * omega],
       LpcOp.points LOOKUP_BATCH [y * omega ^ common.desc.usableRows]]
      else []) ++
    [LpcOp.points QUOTIENT_BATCH [y]]
  let start := common.permutedColumns.length * 2 + 2
  let special := (List.range start).map fun i => LpcOp.pointsTo FIXED_BATCH i [y]
  let shifted := [LpcOp.pointsTo FIXED_BATCH (start - 2) [y * omega],
    LpcOp.pointsTo FIXED_BATCH (start - 1) [y * omega]]
  let fixed ← columnPoints common.rotations FIXED_BATCH start (d.witness + d.publicInput)
    (d.constant + d.selector) omega y
  some (ops ++ special ++ shifted ++ fixed)

/-- `permutation_size` (verifier.hpp:210) in `std::size_t`, whose subtraction wraps around. -/
def permutationSize (fixedSize constants selectors : Nat) : Nat :=
  (fixedSize + 2 ^ 64 - (2 + constants + selectors)) % 2 ^ 64 / 2

/-- The position in the fixed batch of fixed column `i` of the table (verifier.hpp:233, 294, 307), in
`std::size_t`. -/
def fixedIndex (permSize i : Nat) : Nat := (i + permSize * 2 + 2) % 2 ^ 64

/-- The value of the permuted column number `i` of the table (verifier.hpp:222-235). -/
def readPermuted (z : EvalStorage F) (d : TableDesc) (rotations : List (List Int)) (permSize i : Nat) :
    Option F := do
  let rs ← rotations[i]?
  let zero := rs.idxOf 0
  if i < d.witness + d.publicInput then z.get VARIABLE_BATCH i zero
  else z.get FIXED_BATCH (fixedIndex permSize (i - d.witness - d.publicInput)) zero

/-- The arguments of the permutation argument (verifier.hpp:211-252). -/
def readPermClaims (z : EvalStorage F) (d : TableDesc) (common : CommonData F H Com Data)
    (permSize : Nat) (qLast qBlind : F) : Option (PermClaims F) := do
  let sId ← (List.range permSize).mapM fun i => z.get FIXED_BATCH i 0
  let sSigma ← (List.range permSize).mapM fun i => z.get FIXED_BATCH (permSize + i) 0
  let cols ← (List.range permSize).mapM fun i => do
    let col ← common.permutedColumns[i]?
    readPermuted z d common.rotations permSize col
  let parts ← (List.range (common.permutationParts - 1)).mapM fun i => z.get PERMUTATION_BATCH (i + 1) 0
  let v ← z.get PERMUTATION_BATCH 0 0
  let shifted ← z.get PERMUTATION_BATCH 0 1
  some ⟨sId, sSigma, cols, v, shifted, parts, qLast, qBlind⟩

/-- One of the four loops that fill `columns_at_y` (verifier.hpp:259-310): `count` columns of a type, from
column `base` of the table on; `index i` is the polynomial of the batch. -/
def readColumns (z : EvalStorage F) (rotations : List (List Int)) (batch base count : Nat)
    (index : Nat → Nat) (type : ColumnType) : Option (List ((Nat × Int × ColumnType) × F)) := do
  let cols ← (List.range count).mapM fun i => do
    let rs ← rotations[base + i]?
    rs.zipIdx.mapM fun e => do
      let v ← z.get batch (index i) e.2
      some ((i, e.1, type), v)
  some cols.flatten

/-- `columns_at_y` (verifier.hpp:258-310). -/
def columnsAtY (z : EvalStorage F) (d : TableDesc) (rotations : List (List Int)) (permSize : Nat) :
    Option (Nat → Int → ColumnType → Option F) := do
  let w ← readColumns z rotations VARIABLE_BATCH 0 d.witness (fun i => i) .witness
  let p ← readColumns z rotations VARIABLE_BATCH d.witness d.publicInput (fun i => d.witness + i)
    .publicInput
  let k ← readColumns z rotations FIXED_BATCH (d.witness + d.publicInput) d.constant
    (fun i => fixedIndex permSize i) .constant
  let s ← readColumns z rotations FIXED_BATCH (d.witness + d.constant + d.publicInput) d.selector
    (fun i => fixedIndex permSize (i + d.constant)) .selector
  let m := w ++ p ++ k ++ s
  some fun i r type => (m.find? fun e => decide (e.1 = (i, r, type))).map Prod.snd

/-- The arguments of the lookup argument (verifier.hpp:316-335, lookup_argument.hpp:666-677). -/
def readLookupClaims (z : EvalStorage F) (common : CommonData F H Com Data) (lagrange0 qLast qBlind : F) :
    Option (LookupClaims F) := do
  let p := common.permutedColumns.length
  let qLastShifted ← z.get FIXED_BATCH (2 * p) 1
  let qBlindShifted ← z.get FIXED_BATCH (2 * p + 1) 1
  let parts ← (List.range (common.lookupParts - 1)).mapM fun i =>
    z.get PERMUTATION_BATCH (common.permutationParts + 1 + i) 0
  let sorted ← (← z.find LOOKUP_BATCH).mapM fun vs => do
    some ((← vs[0]?), (← vs[1]?), (← vs[2]?))
  let v ← z.get PERMUTATION_BATCH common.permutationParts 0
  let shifted ← z.get PERMUTATION_BATCH common.permutationParts 1
  some ⟨lagrange0, qLast, qBlind, qLastShifted, qBlindShifted, sorted, v, shifted, parts⟩

/-- The sizes the verifier gives the scheme (verifier.hpp:361-366). -/
def sizeOps (z : EvalStorage F) (c : Circuit F) : Option (List (LpcOp F)) := do
  let v ← z.batchSize VARIABLE_BATCH
  let p ← if c.lookups.gates.length > 0 ∨ c.copies.length > 0 then do
      let p ← z.batchSize PERMUTATION_BATCH
      some [LpcOp.batchSize PERMUTATION_BATCH p]
    else some []
  let q ← z.batchSize QUOTIENT_BATCH
  let l ← if c.lookups.gates.length > 0 then do
      let l ← z.batchSize LOOKUP_BATCH
      some [LpcOp.batchSize LOOKUP_BATCH l]
    else some []
  some ([LpcOp.batchSize VARIABLE_BATCH v] ++ p ++ [LpcOp.batchSize QUOTIENT_BATCH q] ++ l)

/-- `process` without public inputs (verifier.hpp:180-400). `asserts` tells whether `BOOST_ASSERT` is
active (line 359). The elements of `F` and `lookup_argument` are zero after default construction. -/
def placeholderVerify (C : CommScheme F S Com Pr Data Obj) (T : PlonkTranscript S F H Com)
    (L : FftLib F) (n : Nat) (asserts : Bool) (d : TableDesc) (c : Circuit F)
    (common : CommonData F H Com Data) (proof : PlaceholderProof F Com Pr) (obj : Obj) :
    Option Bool := do
  let z := proof.eval.1
  let s0 := C.setup obj (T.key common.hash common.fixedCommitment) common.schemeData
  let vcom ← proof.commitments.find VARIABLE_BATCH
  let st := T.absorb vcom s0.1
  let lagrange0 := evalPoly common.lagrange0 proof.challenge
  let qLast ← z.get FIXED_BATCH (2 * common.permutedColumns.length) 0
  let qBlind ← z.get FIXED_BATCH (2 * common.permutedColumns.length + 1) 0
  let fixedSize ← z.batchSize FIXED_BATCH
  let permSize := permutationSize fixedSize d.constant d.selector
  let (fp, st) ← if c.copies.length > 0 then do
      let claims ← readPermClaims z d common permSize qLast qBlind
      permVerify T.challenge common.lagrange0 common.mqc common.permutationParts claims proof.challenge st
    else some ((0, 0, 0), st)
  let ev ← columnsAtY z d common.rotations permSize
  let (fl, st) ← if c.lookups.gates.length > 0 then do
      let claims ← readLookupClaims z common lagrange0 qLast qBlind
      let lcom ← proof.commitments.find LOOKUP_BATCH
      lookupVerify T.challenge T.absorb lcom c.lookups common.mqc ev claims st
    else some ((0, 0, 0, 0), st)
  let st ← if c.copies.length > 0 ∨ c.lookups.gates.length > 0 then do
      let pcom ← proof.commitments.find PERMUTATION_BATCH
      some (T.absorb pcom st)
    else some st
  let (fg, st) ← gateVerify T.challenge c.gates ev (1 - qLast - qBlind) st
  let alphas := drawN T.challenge 8 st
  let qcom ← proof.commitments.find QUOTIENT_BATCH
  let y := T.challenge (T.absorb qcom alphas.2)
  if asserts ∧ y.1 ≠ proof.challenge then none
  else do
    let sizes ← sizeOps z c
    let points ← verifierPoints L n d c common y.1
    let obj ← C.run s0.2 (sizes ++ points)
    let (ok, _) ← C.verifyEval obj proof.eval (proof.commitments.insert FIXED_BATCH common.fixedCommitment)
      y.2
    if ok then do
      let F := [fp.1, fp.2.1, fp.2.2, fl.1, fl.2.1, fl.2.2.1, fl.2.2.2, fg]
      let fCons := (List.zipWith (fun a f => a * f) alphas.1 F).foldl (· + ·) 0
      let q ← z.batchSize QUOTIENT_BATCH
      let ts ← (List.range q).mapM fun i => z.get QUOTIENT_BATCH i 0
      let tCons := consolidateQuotient ts common.desc.rows y.1
      some (decide (fCons = evalPoly common.Z y.1 * tCons))
    else some false

/-- The loop over the values of a public input column (verifier.hpp:166-170): `none` is the inverse of
zero. -/
def publicInputSum (omega y : F) : List F → F → F → Option F
  | [], _, value => some value
  | x :: xs, power, value =>
    if y - power = 0 then none
    else publicInputSum omega y xs (power * omega) (value + x * power * (y - power)⁻¹)

/-- `max_size` (verifier.hpp:163-165): how many values of the `len` given ones for column `i` are read. -/
def publicInputCount (sizes : List Nat) (i len : Nat) : Option Nat :=
  if sizes.length ≠ 0 then do
    let s ← sizes[i]?
    some (min len s)
  else some len

/-- The loop over the given public input columns (verifier.hpp:161-176), from column `i` on: whether all
of them match. `none` is a failed assertion of `public_input_size` or an out-of-bounds access. -/
def checkPublicInputs (z : EvalStorage F) (d : TableDesc) (sizes : List Nat) (omega numerator y : F) :
    List (List F) → Nat → Option Bool
  | [], _ => some true
  | xs :: rest, i => do
    let size ← publicInputCount sizes i xs.length
    let value ← publicInputSum omega y (xs.take size) 1 0
    let opened ← z.get VARIABLE_BATCH (d.witness + i) 0
    if value * numerator ≠ opened then some false
    else checkPublicInputs z d sizes omega numerator y rest (i + 1)

/-- `process` with public inputs (verifier.hpp:142-178). -/
def placeholderVerifyPublic (C : CommScheme F S Com Pr Data Obj) (T : PlonkTranscript S F H Com)
    (L : FftLib F) (n : Nat) (asserts : Bool) (d : TableDesc) (c : Circuit F)
    (common : CommonData F H Com Data) (proof : PlaceholderProof F Com Pr) (obj : Obj)
    (publicInput : List (List F)) : Option Bool := do
  let omega := (L.domain n).elem 1
  let y := proof.challenge
  let numerator := (y ^ d.rows - 1) * ((d.rows : F))⁻¹
  if c.publicInputSizes.length ≠ 0 ∧ c.publicInputSizes.length ≠ d.publicInput then some false
  else do
    let ok ← checkPublicInputs proof.eval.1 d c.publicInputSizes omega numerator y publicInput 0
    if ok then placeholderVerify C T L n asserts d c common proof obj else some false

end Crypto3Zk
