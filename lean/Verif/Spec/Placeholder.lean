import Verif.Model.Placeholder
import Verif.Spec.LPC
import Verif.Spec.PermutationArg
import Verif.Spec.GateArg
import Verif.Spec.LookupArg

/-!
# Specification for the placeholder proof system
-/

namespace Crypto3Zk

open Polynomial

/-! ## what is asked of a commitment scheme -/

section scheme

variable {F : Type} [Field F] {S Com Pr Data Obj : Type}

/-- The calls of a preprocessor (`pre`), then of a prover (`hp`, `pts`) and of a verifier (`szs`, `pts`) who
both start with the preprocessed object. The polynomials of batch `k` are those with the coefficients `P k`
(as far as `Has` says); every batch that is filled is committed, once and for all either by the preprocessor
or by the prover; the verifier gives the sizes of the prover's batches; both ask for the same points
`pts`, and those of one polynomial are `okPoints`. -/
structure SchemeSession (Has : FriPoly F → List F → Prop) (maxLen : Nat) (okPoints : List F → Prop)
    (pre hp szs pts : List (LpcOp F)) (P : Nat → List (List F)) : Prop where
  preOps : ∀ op ∈ pre, (∃ k fs, op = .append k fs) ∨ (∃ k, op = .commit k) ∨ ∃ k, op = .markFixed k
  proverOps : ∀ op ∈ hp, (∃ k fs, op = .append k fs) ∨ ∃ k, op = .commit k
  sizeOps : ∀ op ∈ szs, ∃ k m, op = .batchSize k m
  pointOps : ∀ op ∈ pts, (∃ k xs, op = .points k xs) ∨ ∃ k i xs, op = .pointsTo k i xs
  allCommitted : ∀ k fs, LpcOp.append k fs ∈ pre ++ hp → LpcOp.commit k ∈ pre ++ hp
  polys : ∀ k, List.Forall₂ Has (lpcAppended k (pre ++ hp)) (P k)
  degrees : ∀ k, ∀ c ∈ P k, c.length ≤ maxLen
  fixedCommitted : ∀ k, LpcOp.markFixed k ∈ pre → LpcOp.commit k ∈ pre
  once : ∀ k, LpcOp.commit k ∈ pre →
    LpcOp.commit k ∉ hp ∧ (∀ fs, LpcOp.append k fs ∉ hp) ∧ ∀ m, LpcOp.batchSize k m ∉ szs
  sizes : ∀ k m, LpcOp.batchSize k m ∈ szs → LpcOp.commit k ∈ hp ∧ m = (P k).length
  sized : ∀ k, LpcOp.commit k ∈ hp → ∃ m, LpcOp.batchSize k m ∈ szs
  points : ∀ k i, LpcOp.commit k ∈ pre ++ hp → i < (P k).length → okPoints (lpcRequested k i pts)

/-- The scheme is complete: in a session, if the prover gets a proof then it holds the values of the
polynomials at the points, and the verifier gets through, accepts it for the commitments of the prover's
batches, and leaves the transcript in the same state. -/
def CommScheme.Complete (C : CommScheme F S Com Pr Data Obj) (Has : FriPoly F → List F → Prop)
    (maxLen : Nat) (okPoints : List F → Prop) (okSetup : S → Prop) : Prop :=
  ∀ (pre hp szs pts : List (LpcOp F)) (P : Nat → List (List F)),
    SchemeSession Has maxLen okPoints pre hp szs pts P →
    ∀ (o0 o : Obj) (st0 st st' : S) (data : Data) (proof : EvalStorage F × Pr),
      C.run C.new pre = some o0 → C.preprocess o0 st0 = some data → okSetup st0 →
      C.run (C.setup o0 st0 data).2 (hp ++ pts) = some o → C.proofEval o st = some (proof, st') →
      (∀ k, LpcOp.commit k ∈ pre ++ hp → proof.1.find k =
        some ((P k).mapIdx fun i c => (lpcRequested k i pts).map (evalPoly c))) ∧
      ∃ v, C.run (C.setup o0 st0 data).2 (szs ++ pts) = some v ∧
        ∀ coms : OMap Com, (OMap.keys coms).Pairwise (· < ·) →
          (∀ k com, coms.find k = some com ↔ LpcOp.commit k ∈ pre ++ hp ∧ C.root o k = some com) →
          C.verifyEval v proof coms st = some (true, st')

/-- What `commit` returned for a batch is only changed by `commit` for the batch. -/
structure CommScheme.RootLaws (C : CommScheme F S Com Pr Data Obj) : Prop where
  apply : ∀ o o' op k, C.apply o op = some o' → op ≠ .commit k → C.root o' k = C.root o k
  setup : ∀ o st data k, C.root (C.setup o st data).2 k = C.root o k

end scheme

/-! ## the setting -/

variable {F : Type} [Field F] [DecidableEq F]

/-- The relation `Has` between the forms of a polynomial and its coefficients covers the forms the proof
system uses: the values on the rows of the table, and a chunk of the quotient. -/
structure HasLaws (L : FftLib F) (n : Nat) (Has : FriPoly F → List F → Prop) : Prop where
  dfs : ∀ c : List F, c.length ≤ 2 ^ n → Has (.dfs ((L.domain n).evals c)) c
  chunk : ∀ c : List F, c.length ≤ 2 ^ n → Has (chunkForm L c) c

/-- The parameters of FRI fit domains from `2 ^ N` points down and the degree bound `2 ^ D`. -/
structure LpcParams (L : FftLib F) (prm : FriParams F) (A N D : Nat) : Prop where
  adicity : N ≤ A
  rounds : 1 ≤ prm.r ∧ prm.r ≤ N ∧ prm.r ≤ D + 1
  domains : ∀ t < prm.r, prm.D[t]? = some (L.domain (N - t))
  degree : prm.maxDegree + 1 = 2 ^ D ∧ D ≤ N

/-- The points are outside of the first domain of FRI. -/
def OutsideDomain (L : FftLib F) (N : Nat) (xs : List F) : Prop := ∀ x ∈ xs, ∀ m, (L.domain N).elem m ≠ x

/-- The entry in column `c` (by its number) and row `r` of the table. -/
def PlonkTable.cellAt (t : PlonkTable F) (c : Nat) (r : Int) : F := ((t.column c).getD []).getD r.toNat 0

/-- The table has the columns of the description, and `2 ^ n` rows. -/
structure TableFits (d : TableDesc) (n : Nat) (t : PlonkTable F) : Prop where
  witness : t.witnesses.length = d.witness
  publicInput : t.publicInputs.length = d.publicInput
  constant : t.constants.length = d.constant
  selector : t.selectors.length = d.selector
  rect : t.Rectangular (2 ^ n)
  rows : t.rowsAmount = 2 ^ n

/-- A setting in which the proof system is used: sizes that fit in 32 bits, at least one row that is not
usable (and one that is, if there are lookups), constraints on columns of the table, `order` some order of
the permuted columns. -/
structure PlaceholderSetup (L : FftLib F) (A n fuel : Nat) (d : TableDesc) (c : Circuit F)
    (order : List PlonkVar) (t : PlonkTable F) : Prop where
  lib : L.Lawful A
  small : n ≤ A
  rows : d.rows = 2 ^ n
  usable : d.usableRows < d.rows
  used : c.lookups.gates ≠ [] → 0 < d.usableRows
  width : d.width ≤ 2 ^ 32
  rows32 : n ≤ 32
  fits : TableFits d n t
  copies : CopiesInTable d c.copies
  nodup : order.Nodup
  members : ∀ v, v ∈ order ↔ v ∈ permutedVars c.copies
  gates : GatesInTable t c.gates
  lookups : LookupsInTable t c.lookups
  degree : c.maxDegree < 2 ^ 31
  fuel : 2 ^ 64 ≤ fuel

/-- The variables of the constraints of the gates and of the inputs of the lookup gates. -/
def Circuit.usedVars (c : Circuit F) : List PlonkVar :=
  c.gates.flatMap (fun g => g.constraints.flatMap Expr.visitVars) ++
    c.lookups.gates.flatMap fun g => g.constraints.flatMap fun k => k.input.flatMap Expr.visitVars

/-- Some constraint refers to column `i` of the table with rotation `r`. -/
def VarUsed (d : TableDesc) (c : Circuit F) (i : Nat) (r : Int) : Prop :=
  ∃ v ∈ c.usedVars, d.globalIndex v = some i ∧ v.rotation = r

/-- The lookup argument reads column `i` of the table, the selector or a value column of a lookup table, in
the row after (`r` is one). -/
def LookupTableUsed (d : TableDesc) (c : Circuit F) (i : Nat) (r : Int) : Prop :=
  c.lookups.gates ≠ [] ∧ r = 1 ∧ ∃ tab ∈ c.lookups.tables,
    i = d.witness + d.publicInput + d.constant + tab.tagIndex ∨
    ∃ o ∈ tab.options, ∃ v ∈ o, i = d.witness + d.publicInput + v.index

/-- The first challenge of the lookup argument, from the transcript before the first commitment and that
commitment: two challenges for the permutation argument and one for each part but the first come before
it, if there are copy constraints. -/
def lookupTheta {S H Com : Type} (T : PlonkTranscript S F H Com) (c : Circuit F) (parts : Nat) (com : Com)
    (st : S) : F :=
  (T.challenge (if c.copies = [] then T.absorb com st
    else (drawN T.challenge (2 + (parts - 1)) (T.absorb com st)).2)).1

/-! ## the final equation -/

/-- The constraint polynomials, combined with the challenges. -/
noncomputable def combination (alphas : List F) (fs : List F[X]) : F[X] :=
  (List.zipWith (fun a f => Polynomial.C a * f) alphas fs).sum

/-- The polynomial whose chunks of `rows` coefficients are given. -/
noncomputable def recombine (rows : Nat) (chunks : List F[X]) : F[X] :=
  (chunks.mapIdx fun i p => p * X ^ (rows * i)).sum

/-- The test at the end of `process` (verifier.hpp:372-397): `fs` are the values computed by the arguments,
`ts` the claimed values of the chunks of the quotient. -/
def FinalEquation (rows : Nat) (alphas fs ts : List F) (y : F) : Prop :=
  (List.zipWith (fun a f => a * f) alphas fs).foldl (· + ·) 0 =
    evalPoly (vanishingCoeffs rows) y * consolidateQuotient ts rows y

/-! ## public inputs -/

/-- The number of values of a given public input column that count: all, unless the circuit declares
sizes. -/
def publicSize (sizes : List Nat) (i : Nat) (xs : List F) : Nat :=
  if sizes = [] then xs.length else min xs.length (sizes.getD i 0)

/-- The public input column that is meant by the given values: these in the first rows, and zero in the
others. -/
def publicColumn (sizes : List Nat) (n i : Nat) (xs : List F) : List F :=
  xs.take (publicSize sizes i xs) ++ List.replicate (2 ^ n - publicSize sizes i xs) 0

/-- The given public inputs fit: no column beyond those with a declared size (if there are such), and no more
values than rows. -/
def PublicInputFits (sizes : List Nat) (n : Nat) (publicInput : List (List F)) : Prop :=
  ∀ i xs, publicInput[i]? = some xs → (sizes ≠ [] → i < sizes.length) ∧ publicSize sizes i xs ≤ 2 ^ n

/-- The columns of the table are what was opened for the variable batch: the claimed values are those of the
column polynomials at the points the verifier asks for. -/
def VariableOpened {H Com Data Pr : Type} (L : FftLib F) (n : Nat) (d : TableDesc) (c : Circuit F)
    (common : CommonData F H Com Data) (t : PlonkTable F) (proof : PlaceholderProof F Com Pr) : Prop :=
  ∀ pts, verifierPoints L n d c common proof.challenge = some pts →
    proof.eval.1.find VARIABLE_BATCH = some ((t.witnesses ++ t.publicInputs).mapIdx fun i col =>
      (lpcRequested VARIABLE_BATCH i pts).map fun x => (dfsPoly L col).eval x)

/-- The least rotation with which public input column `i` is used (zero is always among them). -/
def LeastRotation (d : TableDesc) (c : Circuit F) (i : Nat) (r : Int) : Prop :=
  (r = 0 ∨ VarUsed d c (d.witness + i) r) ∧ r ≤ 0 ∧ ∀ r', VarUsed d c (d.witness + i) r' → r ≤ r'

/-- The column moved cyclically by `r` rows. -/
def rotateColumn (n : Nat) (r : Int) (col : List F) : List F :=
  (List.range (2 ^ n)).map fun (j : Nat) => col.getD (((j : Int) + r) % (2 ^ n : Nat)).toNat 0

end Crypto3Zk
