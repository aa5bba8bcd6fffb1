import Verif.Spec.Placeholder
import Verif.Spec.Expression

/-!
# Specification for C65: when the placeholder prover gets through
-/

namespace Crypto3Zk

variable {F : Type} [Field F] [DecidableEq F]

/-- The degrees of the factors of the lookup argument, in units of a column: one more than the largest
degree of the inputs for a lookup constraint (its selector is a factor), and three for an option of a
lookup table. -/
def Circuit.lookupCosts (c : Circuit F) : List Nat :=
  (c.lookups.gates.flatMap fun g => g.constraints.map fun k => k.degree + 1) ++
    List.replicate c.lookups.optionCount 3

/-- The degrees do not overflow the 32-bit integers in which they are computed. -/
structure DegreesFit (c : Circuit F) : Prop where
  gates : ∀ g ∈ c.gates, ∀ e ∈ g.constraints, e.degree < 2 ^ 32
  inputs : ∀ g ∈ c.lookups.gates, ∀ k ∈ g.constraints, ∀ e ∈ k.input, e.degree < 2 ^ 32
  total : c.lookupCosts.sum < 2 ^ 32

/-- There is no limit on the number of chunks of the quotient, or no lookup, or every factor of the lookup
argument is below the limit. -/
def LookupsWithinLimit (c : Circuit F) (limit : Nat) : Prop :=
  limit = 0 ∨ c.lookups.gates = [] ∨ ∀ k ∈ c.lookupCosts, k < limit

/-! ## what is asked of a commitment scheme -/

/-- Appending and committing in a sensible order, where the batches of `done` are committed already: a
committed batch is not touched again. -/
def InOrder : List Nat → List (LpcOp F) → Prop
  | _, [] => True
  | done, .append k _ :: ops => k ∉ done ∧ InOrder done ops
  | done, .commit k :: ops => k ∉ done ∧ InOrder (k :: done) ops
  | done, _ :: ops => InOrder done ops

/-- Calls of a prover (`hp`, then `pts`) that a scheme should accept, on an object with the history `pre`:
first batches are filled with polynomials within the degree bound and committed, then points are asked for
of polynomials that are there. -/
structure ProverCalls (Has : FriPoly F → List F → Prop) (maxLen : Nat) (pre hp pts : List (LpcOp F)) :
    Prop where
  preOps : ∀ op ∈ pre, (∃ k fs, op = .append k fs) ∨ (∃ k, op = .commit k) ∨ ∃ k, op = .markFixed k
  proverOps : ∀ op ∈ hp, (∃ k fs, op = .append k fs) ∨ ∃ k, op = .commit k
  polys : ∀ k, .commit k ∈ hp → ∀ f ∈ lpcAppended k (pre ++ hp), ∃ c, Has f c ∧ c.length ≤ maxLen
  order : InOrder [] (pre ++ hp)
  pointOps : ∀ op ∈ pts, (∃ k xs, op = .points k xs) ∨ ∃ k i xs, op = .pointsTo k i xs
  points : ∀ k xs, .points k xs ∈ pts → .commit k ∈ pre ++ hp
  pointsTo : ∀ k i xs, .pointsTo k i xs ∈ pts →
    .commit k ∈ pre ++ hp ∧ i < (lpcAppended k (pre ++ hp)).length

/-- The scheme accepts such calls, and has a commitment for every batch that was committed. -/
def CommScheme.Total {S Com Pr Data Obj : Type} (C : CommScheme F S Com Pr Data Obj)
    (Has : FriPoly F → List F → Prop) (maxLen : Nat) : Prop :=
  ∀ (pre hp pts : List (LpcOp F)) (o0 : Obj) (st : S) (data : Data), ProverCalls Has maxLen pre hp pts →
    C.run C.new pre = some o0 → C.preprocess o0 st = some data →
    ∃ o, C.run (C.setup o0 st data).2 (hp ++ pts) = some o ∧
      ∀ k, LpcOp.commit k ∈ hp → ∃ com, C.root o k = some com

/-- The scheme accepts the calls of a preprocessor: batches are filled with polynomials within the degree bound
and committed, and marked as fixed only if they are committed. -/
def CommScheme.TotalSetup {S Com Pr Data Obj : Type} (C : CommScheme F S Com Pr Data Obj)
    (Has : FriPoly F → List F → Prop) (maxLen : Nat) : Prop :=
  ∀ (pre : List (LpcOp F)),
    (∀ op ∈ pre, (∃ k fs, op = .append k fs) ∨ (∃ k, op = .commit k) ∨ ∃ k, op = .markFixed k) →
    InOrder [] pre →
    (∀ k, .commit k ∈ pre → ∀ f ∈ lpcAppended k pre, ∃ c, Has f c ∧ c.length ≤ maxLen) →
    (∀ k, .markFixed k ∈ pre → .commit k ∈ pre) →
    ∃ o, C.run C.new pre = some o ∧ (∀ k, LpcOp.commit k ∈ pre → ∃ com, C.root o k = some com) ∧
      ∀ st, ∃ data, C.preprocess o st = some data

/-- The scheme opens: after the calls of such a prover in a session with points that are fine, `proof_eval`
returns a proof. -/
def CommScheme.Opens {S Com Pr Data Obj : Type} (C : CommScheme F S Com Pr Data Obj)
    (Has : FriPoly F → List F → Prop) (maxLen : Nat) (okPoints : List F → Prop) (okSetup : S → Prop) : Prop :=
  ∀ (pre hp szs pts : List (LpcOp F)) (P : Nat → List (List F)),
    SchemeSession Has maxLen okPoints pre hp szs pts P → ∀ (o0 o : Obj) (st0 st : S) (data : Data),
    C.run C.new pre = some o0 → C.preprocess o0 st0 = some data → okSetup st0 →
    C.run (C.setup o0 st0 data).2 (hp ++ pts) = some o → (C.proofEval o st).isSome

/-- The scheme with another `proof_eval` (and a verifier that rejects). -/
def CommScheme.withOpening {S Com Pr Pr' Data Obj : Type} (C : CommScheme F S Com Pr Data Obj)
    (pe : Obj → S → Option ((EvalStorage F × Pr') × S)) : CommScheme F S Com Pr' Data Obj where
  new := C.new
  apply := C.apply
  root := C.root
  preprocess := C.preprocess
  setup := C.setup
  proofEval := pe
  verifyEval _ _ _ _ := none

/-- The point at which a prover would open, if it gets that far: the challenge it draws last. It is read off
the run with a `proof_eval` that does nothing. -/
noncomputable def openingChallenge {S H Com Pr Data Obj : Type} (C : CommScheme F S Com Pr Data Obj)
    (T : PlonkTranscript S F H Com) (L : FftLib F) (n : Nat) (d : TableDesc) (c : Circuit F)
    (order : List PlonkVar) (pd : PublicData F H Com Data) (t : PlonkTable F) (obj : Obj) : Option F :=
  (placeholderProve (C.withOpening fun _ st => some (([], ()), st)) T L n d c order pd t obj).map
    (·.challenge)

/-- The lookups of the circuit hold on the table, which is as the packing functions lay it out; `m` bounds the
numbers of columns of the lookup tables. -/
structure LookupsSatisfied (t : PlonkTable F) (sys : LookupSystem F) (usable m : Nat) : Prop where
  wellFormed : LookupsWellFormed sys
  tags : TagsBoolean t sys usable
  laidOut : TablesLaidOut t sys usable
  hold : LookupsHold t sys usable
  columns : ∀ tab ∈ sys.tables, tab.columnsNumber + 1 ≤ m

/-- The public inputs are those of the table: the columns that are given are those of the table, moved by the
least rotation they are used with (which is not at all, unless one of them is negative). -/
structure PublicInputOf (d : TableDesc) (c : Circuit F) (n : Nat) (t : PlonkTable F)
    (publicInput : List (List F)) : Prop where
  sizes : c.publicInputSizes = [] ∨ c.publicInputSizes.length = d.publicInput
  fits : PublicInputFits c.publicInputSizes n publicInput
  given : ∀ i xs, publicInput[i]? = some xs → ∃ col r, t.publicInputs[i]? = some col ∧
    LeastRotation d c i r ∧ publicColumn c.publicInputSizes n i xs = rotateColumn n r col

/-! ## challenges -/

/-- The calls for the first commitment (placeholder/prover.hpp:136-141). -/
def variableCalls (t : PlonkTable F) : List (LpcOp F) :=
  [.append VARIABLE_BATCH (t.witnesses.map .dfs), .append VARIABLE_BATCH (t.publicInputs.map .dfs),
    .commit VARIABLE_BATCH]

/-- The state of the transcript when the lookup argument starts; `lookupTheta` is the challenge there. -/
def lookupStart {S H Com : Type} (T : PlonkTranscript S F H Com) (c : Circuit F) (parts : Nat) (com : Com)
    (st : S) : S :=
  if c.copies = [] then T.absorb com st else (drawN T.challenge (2 + (parts - 1)) (T.absorb com st)).2

/-- None of the challenges of a prover who starts with the transcript and the object `s0` is one of the
bad values: for the permutation argument `badP` of the first challenge, which the second must avoid, for the
lookup argument `badT` for the first challenge, `-1` for the second, and `badL` of those two for the third. -/
structure ChallengesAvoid {S H Com Pr Data Obj : Type} (C : CommScheme F S Com Pr Data Obj)
    (T : PlonkTranscript S F H Com) (n : Nat) (c : Circuit F) (t : PlonkTable F) (usable parts : Nat)
    (s0 : S × Obj) (badP : F → Finset F) (badT : Finset F) (badL : F → F → Finset F) : Prop where
  perm : c.copies ≠ [] → ∀ vcom, (C.run s0.2 (variableCalls t)).bind (C.root · VARIABLE_BATCH) = some vcom →
    (T.challenge (T.challenge (T.absorb vcom s0.1)).2).1 ∉ badP (T.challenge (T.absorb vcom s0.1)).1
  theta : c.lookups.gates ≠ [] →
    ∀ vcom, (C.run s0.2 (variableCalls t)).bind (C.root · VARIABLE_BATCH) = some vcom →
    lookupTheta T c parts vcom s0.1 ∉ badT
  lookup : c.lookups.gates ≠ [] →
    ∀ vcom, (C.run s0.2 (variableCalls t)).bind (C.root · VARIABLE_BATCH) = some vcom →
    ∀ theta, theta = lookupTheta T c parts vcom s0.1 →
    ∀ sorted, sortPolynomials (compressedInputs t c.lookups n theta)
      (compressedValues t c.lookups n usable theta) (2 ^ n) usable = some sorted →
    ∀ obj lcom, (C.run obj (sortedOps sorted)).bind (C.root · LOOKUP_BATCH) = some lcom →
    (∃ perm : List (FriPoly F), C.run s0.2
      (variableCalls t ++ perm.map fun p => .append PERMUTATION_BATCH [p]) = some obj) →
    ∀ st, st = T.absorb lcom (T.challenge (lookupStart T c parts vcom s0.1)).2 →
      (T.challenge st).1 ≠ -1 ∧ (T.challenge (T.challenge st).2).1 ∉ badL theta (T.challenge st).1

end Crypto3Zk
