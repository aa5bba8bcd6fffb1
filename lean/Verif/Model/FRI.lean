import Verif.Model.PolyOps
import Verif.Model.OrderedMap
import Verif.Model.ProofOfWork

/-!
# FRI

Models commitments/detail/polynomial/basic_fri.hpp and fold_polynomial.hpp for the arity `FRI::m = 2`
(the only one the index arithmetic supports).

External libraries: the evaluation domains and the conversion between coefficients and evaluations
(crypto3-math) are `FftLib`; the Merkle trees (crypto3-containers) are `MerkleLib`, whose leaves are
the lists of field elements that `fri_field_element_consumer` serialises; the transcript is any state
machine. `none` is a failed assertion, an exception, an out-of-bounds access, a division by zero or
the remainder by zero. In a verifier, `some none` is `return false`.
-/

namespace Crypto3Zk

variable {F : Type} [Field F]

/-! ## polynomials and domains -/

/-- The part of `math::evaluation_domain` FRI uses: `size()` and `get_domain_element()`
(external, used in basic_fri.hpp:208, 369-372). -/
structure FriDomain (F : Type) where
  size : Nat
  elem : Nat → F

/-- The part of crypto3-math FRI uses (external): the root of unity of order `2 ^ n`, and
`polynomial_dfs::coefficients()`. -/
structure FftLib (F : Type) where
  root : Nat → F
  coefficients : List F → List F

/-- `math::make_evaluation_domain(2 ^ n)` (external): the powers of the root of unity. -/
def FftLib.domain (L : FftLib F) (n : Nat) : FriDomain F := ⟨2 ^ n, fun i => L.root n ^ i⟩

/-- The values of a polynomial on a domain (the result of `from_coefficients` and `resize`,
external) (basic_fri.hpp:369-370, 428, 452-453, 519-520). -/
def FriDomain.evals (D : FriDomain F) (c : List F) : List F :=
  (List.range D.size).map fun i => evalPoly c (D.elem i)

/-- The two instances of `PolynomialType` (basic_fri.hpp:666-674): `math::polynomial` and
`math::polynomial_dfs`. -/
inductive FriPoly (F : Type)
  | coeff (c : List F)
  | dfs (v : List F)

/-- `fold_polynomial` in coefficient form (fold_polynomial.hpp:49-66). An empty vector has degree
`SIZE_MAX`, for which the allocation fails. -/
def foldCoeff (f : List F) (alpha : F) : Option (List F) :=
  if f.length = 0 then none
  else
    let d := f.length - 1
    let g := if d % 2 = 0 then f ++ [0] else f
    let d := if d % 2 = 0 then d + 1 else d
    (List.range (d / 2 + 1)).mapM fun i => do
      let a ← g[2 * i]?
      let b ← g[2 * i + 1]?
      some (a + alpha * b)

/-- The loop of `fold_polynomial` in evaluation form (fold_polynomial.hpp:85-90): `k` entries are left,
the next one is `i`. -/
def foldDfsLoop (f : List F) (half : Nat) (twoInv omegaInv : F) :
    Nat → Nat → F → Option (List F)
  | 0, _, _ => some []
  | k + 1, i, acc => do
    let a ← f[i]?
    let b ← f[half + i]?
    let rest ← foldDfsLoop f half twoInv omegaInv k (i + 1) (acc * omegaInv)
    some (twoInv * ((1 + acc) * a + (1 - acc) * b) :: rest)

/-- `fold_polynomial` in evaluation form (fold_polynomial.hpp:68-93). -/
def foldDfs (f : List F) (alpha : F) (D : FriDomain F) : Option (List F) :=
  if D.size / 2 = 0 then none
  else foldDfsLoop f (D.size / 2) (2 : F)⁻¹ (D.elem (D.size - 1)) (D.size / 2) 0 alpha

/-- The two calls of `fold_polynomial` (basic_fri.hpp:723-729). -/
def FriPoly.fold (f : FriPoly F) (alpha : F) (D : Option (FriDomain F)) : Option (FriPoly F) :=
  match f with
  | .coeff c => (foldCoeff c alpha).map .coeff
  | .dfs v => D.bind fun D => (foldDfs v alpha D).map .dfs

/-- The values on `D` that `precommit` commits to (basic_fri.hpp:369-371, 427-430, 451-455,
518-521). Shrinking a polynomial below its size is a failed assertion of the library. -/
def FriPoly.on (L : FftLib F) (D : FriDomain F) : FriPoly F → Option (List F)
  | .coeff c => if c.length ≤ D.size then some (D.evals c) else none
  | .dfs v =>
    if v.length = D.size then some v
    else
      let c := L.coefficients v
      if c.length ≤ D.size then some (D.evals c) else none

/-- The final polynomial (basic_fri.hpp:735-740). -/
def FriPoly.final (L : FftLib F) : FriPoly F → List F
  | .coeff c => c
  | .dfs v => L.coefficients v

/-! ## parameters -/

/-- `params_type` (basic_fri.hpp:122-237), with the field's `modulus`. -/
structure FriParams (F : Type) where
  lambda : Nat
  useGrinding : Bool
  grindingParameter : Nat
  maxDegree : Nat
  D : List (FriDomain F)
  r : Nat
  stepList : List Nat
  modulus : Nat

/-- `math::calculate_domain_set` (external; used at basic_fri.hpp:162, 179): `size` domains, each half
as large as the one before. -/
def FftLib.domainSet (L : FftLib F) (n size : Nat) : List (FriDomain F) :=
  (List.range size).map fun i => L.domain (n - i)

/-- The constructor from a step list (basic_fri.hpp:168-183). -/
def FriParams.ofStepList (L : FftLib F) (modulus : Nat) (stepList : List Nat)
    (degreeLog lambda expandFactor : Nat) (useGrinding : Bool) (grindingParameter : Nat) :
    FriParams F :=
  ⟨lambda, useGrinding, grindingParameter, (1 <<< degreeLog) - 1,
    L.domainSet (degreeLog + expandFactor) stepList.sum, stepList.sum, stepList, modulus⟩

/-- The inner loop of `generate_random_step_list` (basic_fri.hpp:135-138), run while
`r - steps_sum != 1`: `rest` is `r - steps_sum`. -/
def stepListTail : Nat → List Nat
  | 0 => []
  | rest + 1 => if rest = 0 then [] else [rest]

/-- `generate_random_step_list` (basic_fri.hpp:127-147). `rest` is `r - steps_sum`; `draws` are the
numbers drawn from `1 .. max_step`; `none` when the list of draws is too short or a draw exceeds what
is left (then `steps_sum` passes `r`). The inner loop pushes `rest - 1` once, after which one is
left. -/
def randomStepList (maxStep : Nat) : Nat → List Nat → Option (List Nat)
  | 0, _ => some []
  | rest, draws =>
    if rest ≤ maxStep then some (stepListTail rest ++ [1])
    else
      match draws with
      | [] => none
      | d :: ds => if d ≤ rest then (randomStepList maxStep (rest - d) ds).map (d :: ·) else none

/-- The constructor with a random step list (basic_fri.hpp:151-166). `degree_log = 0` wraps around. -/
def FriParams.ofMaxStep (L : FftLib F) (modulus : Nat) (draws : List Nat)
    (maxStep degreeLog lambda expandFactor : Nat) (useGrinding : Bool) (grindingParameter : Nat) :
    Option (FriParams F) :=
  if degreeLog = 0 then none
  else do
    let steps ← randomStepList maxStep (degreeLog - 1) draws
    some ⟨lambda, useGrinding, grindingParameter, (1 <<< degreeLog) - 1,
      L.domainSet (degreeLog + expandFactor) (degreeLog - 1), degreeLog - 1, steps, modulus⟩

/-- `check_step_list` (basic_fri.hpp:544-570). -/
def checkStepList (steps : List Nat) (r : Nat) : Bool :=
  if steps.isEmpty then false
  else if steps.any fun s => s = 0 ∨ 10 < s then false
  else if steps.sum ≠ r then false
  else decide (steps.getLast? = some 1)

/-! ## index arithmetic -/

/-- `get_paired_index` (basic_fri.hpp:348-351) -/
def pairedIndex (x N : Nat) : Nat := (x + N / 2) % N

/-- The `while` loop that fills `s_indices` (basic_fri.hpp:389-404, 476-490, 598-611): the vector is
filled from the front, so its filled part is the list; `base` and `half` are `base_index` and
`prev_half_size`. The fuel is the target size (every round adds an entry). -/
def indexLoop (N target : Nat) : Nat → Nat → Nat → List (Nat × Nat) → List (Nat × Nat)
  | 0, _, _, acc => acc
  | fuel + 1, base, half, acc =>
    if acc.length < target then
      indexLoop N target fuel (base / 2) (half * 2)
        (acc ++ (acc.take half).map fun p =>
          let i := (base + p.1) % N
          (i, pairedIndex i N))
    else acc

/-- `s_indices` (basic_fri.hpp:381-404, 469-490, 591-611) for `coset_size = 1 << fri_step`; a step of
zero gives an empty vector, whose first entry is then out of bounds. -/
def cosetIndices (x N step : Nat) : Option (List (Nat × Nat)) :=
  let target := 2 ^ step / 2
  if target = 0 then none
  else some (indexLoop N target target (N / 4) 1 [(x, pairedIndex x N)])

/-- `get_folded_index` (basic_fri.hpp:534-542) -/
def foldedIndex : Nat → Nat → Nat → Option Nat
  | x, _, 0 => some x
  | x, N, step + 1 => if N / 2 = 0 then none else foldedIndex (x % (N / 2)) (N / 2) step

/-- the position passed to the Merkle tree by `make_proof_specialized` (basic_fri.hpp:526-532) -/
def specializedIndex (x N : Nat) : Nat := min x (pairedIndex x N)

/-- `calculate_s` (basic_fri.hpp:582-614) -/
def calculateS [DecidableEq F] (x : F) (xIndex step : Nat) (D : FriDomain F) :
    Option (List (F × F) × List (Nat × Nat)) := do
  let ix ← cosetIndices xIndex D.size step
  if D.elem xIndex = x then some (ix.map fun p => (D.elem p.1, D.elem p.2), ix) else none

/-- The loop that fills `correctly_ordered_s_indices` (basic_fri.hpp:626-637). -/
def orderLoop (N target : Nat) : Nat → Nat → Nat → List Nat → List Nat
  | 0, _, _, acc => acc
  | fuel + 1, base, half, acc =>
    if acc.length < target then
      orderLoop N target fuel (base / 2) (half * 2)
        (acc ++ (acc.take half).map fun i => (base + i) % N)
    else acc

/-- `get_correct_order` (basic_fri.hpp:616-664): for every leaf entry its position in `s_indices` and
whether the pair is reversed there. -/
def correctOrder (x N step : Nat) (ix : List (Nat × Nat)) : Option (List (Nat × Nat)) := do
  let target := 2 ^ step / 2
  if ix.length ≠ target ∨ target = 0 then none
  else
    let x0 ← foldedIndex x N step
    (orderLoop N target target (N / 4) 1 [x0]).mapM fun c => do
      let p := pairedIndex c N
      let i ← ix.findIdx? fun v => (v.1 = c ∧ v.2 = p) ∨ (v.2 = c ∧ v.1 = p)
      let v ← ix[i]?
      some (i, if v.1 = c ∧ v.2 = p then 0 else 1)

/-! ## commitments -/

/-- The Merkle trees (crypto3-containers, external): `make_merkle_tree`, `root()`, the constructor of
`merkle_proof`, its `root()` and its `validate()`. -/
structure MerkleLib (F Tree Root Path : Type) where
  build : List (List F) → Tree
  root : Tree → Root
  path : Tree → Nat → Path
  pathRoot : Path → Root
  validate : Path → List F → Bool

variable {Tree Root Path S : Type}

/-- The values one polynomial contributes to leaf `x` (basic_fri.hpp:386-401, 473-487). -/
def leafValues (v : List F) (ix : List (Nat × Nat)) : Option (List F) := do
  let vs ← ix.mapM fun p => do
    let a ← v[p.1]?
    let b ← v[p.2]?
    some [a, b]
  some vs.flatten

/-- The leaves (basic_fri.hpp:372-405, 457-492): leaf `x` holds, polynomial by polynomial, the values
on the coset of `x`. -/
def friLeaves (vs : List (List F)) (N step : Nat) : Option (List (List F)) :=
  (List.range (N / 2 ^ step)).mapM fun x => do
    let ix ← cosetIndices x N step
    let parts ← vs.mapM fun v => leafValues v ix
    some parts.flatten

/-- `precommit` of a batch (basic_fri.hpp:433-524). -/
def friPrecommitBatch (L : FftLib F) (M : MerkleLib F Tree Root Path) (fs : List (FriPoly F))
    (D : FriDomain F) (step : Nat) : Option Tree := do
  let vs ← fs.mapM fun f => f.on L D
  let leaves ← friLeaves vs D.size step
  some (M.build leaves)

/-- `precommit` of one polynomial (basic_fri.hpp:353-431): the tree, and the polynomial afterwards. In
evaluation form it is resized in place; in coefficient form it is unchanged. -/
def friPrecommit (L : FftLib F) (M : MerkleLib F Tree Root Path) (f : FriPoly F)
    (D : FriDomain F) (step : Nat) : Option (Tree × FriPoly F) := do
  let v ← f.on L D
  let leaves ← friLeaves [v] D.size step
  some (M.build leaves, match f with | .coeff c => .coeff c | .dfs _ => .dfs v)

/-! ## proofs -/

/-- `round_proof_type` (basic_fri.hpp:240-252) -/
structure FriRoundProof (F Path : Type) where
  y : List (F × F)
  p : Path

/-- `initial_proof_type` (basic_fri.hpp:254-265) -/
structure FriInitialProof (F Path : Type) where
  values : List (List (F × F))
  p : Path

/-- `query_proof_type` (basic_fri.hpp:267-277) -/
structure FriQueryProof (F Path : Type) where
  initialProof : OMap (FriInitialProof F Path)
  roundProofs : List (FriRoundProof F Path)

/-- `proof_type` (basic_fri.hpp:279-297) -/
structure FriProof (F Root Path : Type) where
  friRoots : List Root
  finalPolynomial : List F
  queryProofs : List (FriQueryProof F Path)
  proofOfWork : Nat

/-- The transcript: absorbing a root, field challenges, and the two calls of the proof of work
(basic_fri.hpp:719-721, 744, 779). -/
structure FriTranscript (S F Root : Type) extends IntTranscript S where
  absorbRoot : S → Root → S
  challenge : S → S × F

/-! ## the prover -/

/-- The folds of one round (basic_fri.hpp:720-730): the transcript, the challenges, the folded
polynomial. -/
def friFoldRound (T : FriTranscript S F Root) (prm : FriParams F) :
    Nat → S → FriPoly F → Nat → Option (S × List F × FriPoly F)
  | 0, st, f, _ => some (st, [], f)
  | k + 1, st, f, t => do
    let (st, alpha) := T.challenge st
    let f ← f.fold alpha prm.D[t]?
    let (st, alphas, f) ← friFoldRound T prm k st f (t + 1)
    some (st, alpha :: alphas, f)

/-- The commit phase (basic_fri.hpp:705-734) over the remaining steps: the transcript, `fri_trees`,
`alphas` and `fs` (which ends with the last folded polynomial). -/
def friCommitPhase (L : FftLib F) (M : MerkleLib F Tree Root Path) (T : FriTranscript S F Root)
    (prm : FriParams F) :
    List Nat → S → FriPoly F → Tree → Nat → Option (S × List Tree × List F × List (FriPoly F))
  | [], st, f, _, _ => some (st, [], [], [f])
  | s :: rest, st, f, tree, t => do
    let st := T.absorbRoot st (M.root tree)
    let (st, alphas, g) ← friFoldRound T prm s st f t
    match rest with
    | [] => some (st, [tree], alphas, [f, g])
    | s' :: rest' => do
      let D ← prm.D[t + s]?
      let (tree', g) ← friPrecommit L M g D s'
      let (st, trees, alphas', fs) ←
        friCommitPhase L M T prm (s' :: rest') st g tree' (t + s)
      some (st, tree :: trees, alphas ++ alphas', f :: fs)

/-- The search for the index of the query point (basic_fri.hpp:781-786, 974-979); the loop ends with
`domain_size` when there is none. -/
def friQueryIndex [DecidableEq F] (D : FriDomain F) (x : F) : Nat :=
  ((List.range D.size).find? fun i => D.elem i = x).getD D.size

/-- One opened pair of the initial proof (basic_fri.hpp:809-853). `N` is the size of `D[0]`. -/
def FriPoly.openPair (L : FftLib F) (N : Nat) (f : FriPoly F) (s : F × F) (ix : Nat × Nat) :
    Option (F × F) :=
  let byEval (c : List F) : F × F :=
    let s0 := if ix.1 < ix.2 then s.1 else s.2
    let s1 := if ix.1 < ix.2 then s.2 else s.1
    (evalPoly c s0, evalPoly c s1)
  match f with
  | .coeff c => some (byEval c)
  | .dfs v =>
    if v.length = N then do
      let a ← v[min ix.1 ix.2]?
      let b ← v[max ix.1 ix.2]?
      some (a, b)
    else some (byEval (L.coefficients v))

/-- One pair of a round proof (basic_fri.hpp:889-902). -/
def FriPoly.roundPair (f : FriPoly F) (s : F × F) (ix : Nat × Nat) : Option (F × F) :=
  match f with
  | .coeff c =>
    let s0 := if ix.1 < ix.2 then s.1 else s.2
    let s1 := if ix.1 > ix.2 then s.1 else s.2
    some (evalPoly c s0, evalPoly c s1)
  | .dfs v => do
    let a ← v[min ix.1 ix.2]?
    let b ← v[max ix.1 ix.2]?
    some (a, b)

/-- The initial proofs of one query (basic_fri.hpp:793-861). -/
def friInitialProofs (L : FftLib F) (M : MerkleLib F Tree Root Path)
    (D0 : FriDomain F) (step xIndex : Nat) (s : List (F × F)) (ix : List (Nat × Nat))
    (trees : OMap Tree) : OMap (List (FriPoly F)) → Option (OMap (FriInitialProof F Path))
  | [] => some []
  | (k, fs) :: rest => do
    let values ← fs.mapM fun f => (s.zip ix).mapM fun p => f.openPair L D0.size p.1 p.2
    let i ← foldedIndex xIndex D0.size step
    let tree ← trees.find k
    let others ← friInitialProofs L M D0 step xIndex s ix trees rest
    some ((k, ⟨values, M.path tree (specializedIndex i D0.size)⟩) :: others)

/-- The round proofs of one query (basic_fri.hpp:863-920) over the remaining steps; `fsNext` starts
with `fs[i + 1]`. -/
def friRoundProofs [DecidableEq F] (M : MerkleLib F Tree Root Path) (prm : FriParams F)
    (final : List F) :
    List Nat → List Tree → List (FriPoly F) → Nat → Nat → Option (List (FriRoundProof F Path))
  | [], _, _, _, _ => some []
  | s :: rest, trees, fsNext, t, xIndex => do
    let D ← prm.D[t]?
    let xIndex := xIndex % D.size
    let i ← foldedIndex xIndex D.size s
    let tree ← trees.head?
    let p := M.path tree (specializedIndex i D.size)
    match rest with
    | s' :: rest' => do
      let D' ← prm.D[t + s]?
      let xIndex := xIndex % D'.size
      let (sv, ix) ← calculateS (D'.elem xIndex) xIndex s' D'
      let f ← fsNext.head?
      let y ← (sv.zip ix).mapM fun p => f.roundPair p.1 p.2
      let others ← friRoundProofs M prm final (s' :: rest') trees.tail fsNext.tail (t + s) xIndex
      some (⟨y, p⟩ :: others)
    | [] => do
      let D' ← prm.D[t + s - 1]?
      let xIndex := xIndex % D'.size
      let x := D'.elem xIndex * D'.elem xIndex
      if D'.size / 2 = 0 then none
      else
        let a := evalPoly final x
        let b := evalPoly final (-x)
        let y := if xIndex % (D'.size / 2) < D'.size / 4 then (a, b) else (b, a)
        some [⟨[y], p⟩]

/-- One query of the prover (basic_fri.hpp:777-923): the transcript afterwards and the query proof. -/
def friQuery [DecidableEq F] (L : FftLib F) (M : MerkleLib F Tree Root Path)
    (T : FriTranscript S F Root) (prm : FriParams F) (g : OMap (List (FriPoly F)))
    (gTrees : OMap Tree) (trees : List Tree) (fs : List (FriPoly F)) (final : List F) (st : S) :
    Option (S × FriQueryProof F Path) := do
  let D0 ← prm.D[0]?
  let s0 ← prm.stepList[0]?
  let (st, c) := T.challenge st
  let x := c ^ ((prm.modulus - 1) / D0.size)
  let xIndex := friQueryIndex D0 x
  let (s, ix) ← calculateS x xIndex s0 D0
  let initial ← friInitialProofs L M D0 s0 xIndex s ix gTrees g
  let rounds ← friRoundProofs M prm final prm.stepList trees fs.tail 0 xIndex
  some (st, ⟨initial, rounds⟩)

/-- The loop over the queries (basic_fri.hpp:777-923). -/
def friQueries [DecidableEq F] (L : FftLib F) (M : MerkleLib F Tree Root Path)
    (T : FriTranscript S F Root) (prm : FriParams F) (g : OMap (List (FriPoly F)))
    (gTrees : OMap Tree) (trees : List Tree) (fs : List (FriPoly F)) (final : List F) :
    Nat → S → Option (S × List (FriQueryProof F Path))
  | 0, st => some (st, [])
  | n + 1, st => do
    let (st, q) ← friQuery L M T prm g gTrees trees fs final st
    let (st, qs) ← friQueries L M T prm g gTrees trees fs final n st
    some (st, q :: qs)

/-- `proof_eval` (basic_fri.hpp:675-930): the proof and the transcript afterwards. `fuel` and `nonce`
are those of the nonce search, whose output type has 32 bits. -/
def friProve [DecidableEq F] (L : FftLib F) (M : MerkleLib F Tree Root Path)
    (T : FriTranscript S F Root) (prm : FriParams F) (g : OMap (List (FriPoly F)))
    (combinedQ : FriPoly F) (gTrees : OMap Tree) (qTree : Tree) (fuel nonce : Nat) (st : S) :
    Option (FriProof F Root Path × S) :=
  if checkStepList prm.stepList prm.r then do
    let (st, trees, _alphas, fs) ← friCommitPhase L M T prm prm.stepList st combinedQ qTree 0
    let last ← fs.getLast?
    let final := last.final L
    let (pow, st) ←
      if prm.useGrinding then powGenerate T.toIntTranscript 32 prm.grindingParameter fuel st nonce
      else some (0, st)
    let (st, queries) ← friQueries L M T prm g gTrees trees fs final prm.lambda st
    some (⟨trees.map M.root, final, queries, pow⟩, st)
  else none

/-! ## the verifier -/

/-- The challenges of the verifier (basic_fri.hpp:954-962): `n` challenges after each root. -/
def friChallenges (T : FriTranscript S F Root) : Nat → S → S × List F
  | 0, st => (st, [])
  | n + 1, st =>
    let (st, a) := T.challenge st
    let (st, as) := friChallenges T n st
    (st, a :: as)

/-- The loop over the rounds (basic_fri.hpp:956-962). -/
def friAlphas (T : FriTranscript S F Root) :
    List Nat → List Root → S → Option (S × List F)
  | [], _, st => some (st, [])
  | s :: rest, roots, st => do
    let root ← roots.head?
    let (st, as) := friChallenges T s (T.absorbRoot st root)
    let (st, bs) ← friAlphas T rest roots.tail st
    some (st, as ++ bs)

/-- The degree check (basic_fri.hpp:949-952). In the code the bound is computed in floating point,
exactly when `max_degree + 1` is a power of two; `degree()` of an empty vector wraps around to
`SIZE_MAX`. With more rounds than `log2 (max_degree + 1) + 1` the bound is negative. -/
def friDegreeOk (prm : FriParams F) (final : List F) : Bool :=
  let n := Nat.log2 (prm.maxDegree + 1)
  if final.length = 0 then false
  else if n + 1 < prm.r then false
  else decide (final.length - 1 ≤ 2 ^ (n + 1 - prm.r) - 1)

/-- The leaf rebuilt from values in the order of `s_indices` (basic_fri.hpp:996-1001, 1051-1054). -/
def reorderLeaf (order : List (Nat × Nat)) (y : List (F × F)) : Option (List F) := do
  let vs ← order.mapM fun o => do
    let v ← y[o.1]?
    some [v.1, v.2]
  some vs.flatten

/-- The checks of the initial proofs of one query (basic_fri.hpp:987-1006). -/
def friCheckInitial [DecidableEq Root] (M : MerkleLib F Tree Root Path)
    (commitments : OMap Root) (order : List (Nat × Nat)) :
    OMap (FriInitialProof F Path) → Option Bool
  | [] => some true
  | (k, ip) :: rest => do
    let c ← commitments.find k
    if M.pathRoot ip.p ≠ c then some false
    else
      let parts ← ip.values.mapM fun y => reorderLeaf order y
      if M.validate ip.p parts.flatten then friCheckInitial M commitments order rest else some false

/-- The value of a polynomial of the initial proof at position `j` of the coset
(basic_fri.hpp:1023-1024). -/
def friOpened (initial : OMap (FriInitialProof F Path)) (id : Nat × Nat) (j : Nat) :
    Option (F × F) := do
  let ip ← initial.find id.1
  let vs ← ip.values[id.2]?
  vs[j]?

/-- The inner loop over `poly_ids[p]` at position `j` (basic_fri.hpp:1021-1027): state
`(theta_acc, Q[j])`. The code runs the loop over `j` inside; `theta_acc` does not depend on `j`. -/
def friCombineStep (initial : OMap (FriInitialProof F Path)) (theta : F) (j : Nat)
    (st : F × F × F) (id : Nat × Nat) : Option (F × F × F) := do
  let v ← friOpened initial id j
  some (st.1 * theta, st.2.1 + v.1 * st.1, st.2.2 + v.2 * st.1)

/-- The combined value at position `j` (basic_fri.hpp:1009-1038), over the remaining points: state
`(theta_acc, y[j])`. The inverse of zero is undefined. -/
def friCombine [DecidableEq F] (initial : OMap (FriInitialProof F Path)) (theta : F)
    (s : F × F) (ix : Nat × Nat) (j : Nat) :
    List (List (Nat × Nat) × F × List F) → F → F × F → Option (F × F)
  | [], _, y => some y
  | (ids, u, den) :: rest, thetaAcc, y => do
    let q ← ids.foldlM (friCombineStep initial theta j) (thetaAcc, 0, 0)
    let s0 := if ix.1 < ix.2 then s.1 else s.2
    let s1 := if ix.1 < ix.2 then s.2 else s.1
    let d0 := evalPoly den s0
    let d1 := evalPoly den s1
    if d0 = 0 ∨ d1 = 0 then none
    else
      friCombine initial theta s ix j rest q.1
        (y.1 + (q.2.1 - u) * d0⁻¹, y.2 + (q.2.2 - u) * d1⁻¹)

/-- The variables the verifier carries along a query (basic_fri.hpp:970-981, 1010, 1040). -/
structure FriWalk (F : Type) where
  t : Nat
  x : F
  xIndex : Nat
  domainSize : Nat
  y : List (F × F)

/-- Interpolation through a pair and evaluation at the challenge (basic_fri.hpp:1075-1092,
1100-1104, 1116-1124). -/
def friInterpolate (s : List (F × F)) (ix : List (Nat × Nat)) (y : List (F × F)) (alpha : F)
    (k : Nat) : Option F := do
  let s ← s[k]?
  let ix ← ix[k]?
  let y ← y[k]?
  let sCh := if ix.1 < ix.2 then s.1 else s.2
  some (evalPoly (lagrangeInterpolation [(sCh, y.1), (-sCh, y.2)]) alpha)

/-- One step of the colinearity check (basic_fri.hpp:1061-1109). -/
def friColinear [DecidableEq F] (prm : FriParams F) (alphas : List F) (step : Nat)
    (w : FriWalk F) : Option (FriWalk F) := do
  let D ← prm.D[w.t]?
  let xIndex := w.xIndex % D.size
  let x := D.elem xIndex
  let D' ← prm.D[w.t + 1]?
  let (_, ixNext) ← calculateS (x * x) (xIndex % D'.size) step D'
  let (s, ix) ← calculateS x xIndex step D
  let alpha ← alphas[w.t]?
  let yNext ← (List.range (w.y.length / 2)).mapM fun k => do
    let l ← friInterpolate s ix w.y alpha (2 * k)
    let r ← friInterpolate s ix w.y alpha (2 * k + 1)
    let n ← ixNext[k]?
    some (if n.1 < n.2 then (l, r) else (r, l))
  some ⟨w.t + 1, x * x, xIndex, D.size, yNext⟩

/-- `k` steps of the colinearity check (basic_fri.hpp:1061-1109). -/
def friColinears [DecidableEq F] (prm : FriParams F) (alphas : List F) (step : Nat) :
    Nat → FriWalk F → Option (FriWalk F)
  | 0, w => some w
  | k + 1, w => do
    let w ← friColinear prm alphas step w
    friColinears prm alphas step k w

/-- The end of a round (basic_fri.hpp:1110-1129): the last interpolation against the next values. -/
def friRoundEnd [DecidableEq F] (prm : FriParams F) (alphas : List F) (step : Nat)
    (next : List (F × F)) (w : FriWalk F) : Option (Option (FriWalk F)) := do
  let D ← prm.D[w.t]?
  let xIndex := w.xIndex % D.size
  let x := D.elem xIndex
  let (s, ix) ← calculateS x xIndex step D
  let alpha ← alphas[w.t]?
  let interpolant ← friInterpolate s ix w.y alpha 0
  let i ← ix[0]?
  let i0 := if i.1 < i.2 then i.1 else i.2
  if D.size / 2 = 0 then none
  else
    let y ← next[0]?
    let expected := if i0 % (D.size / 2) < D.size / 4 then y.1 else y.2
    if interpolant ≠ expected then some none
    else some (some ⟨w.t, x, xIndex, D.size, next⟩)

/-- One round of the verifier (basic_fri.hpp:1042-1132). -/
def friRound [DecidableEq F] [DecidableEq Root] (M : MerkleLib F Tree Root Path)
    (prm : FriParams F) (alphas : List F) (step : Nat) (root : Root)
    (rp : FriRoundProof F Path) (w : FriWalk F) : Option (Option (FriWalk F)) :=
  if M.pathRoot rp.p ≠ root then some none
  else do
    let D ← prm.D[w.t]?
    let (_, ix) ← calculateS w.x w.xIndex step D
    let order ← correctOrder w.xIndex w.domainSize step ix
    let leaf ← reorderLeaf order w.y
    if M.validate rp.p leaf then
      let w ← friColinears prm alphas step (step - 1) w
      friRoundEnd prm alphas step rp.y w
    else some none

/-- The rounds of one query (basic_fri.hpp:1040-1139) over the remaining steps. -/
def friRounds [DecidableEq F] [DecidableEq Root] (M : MerkleLib F Tree Root Path)
    (prm : FriParams F) (alphas : List F) :
    List Nat → List Root → List (FriRoundProof F Path) → FriWalk F → Option (Option (FriWalk F))
  | [], _, _, w => some (some w)
  | s :: rest, roots, rps, w => do
    let rp ← rps.head?
    let root ← roots.head?
    let res ← friRound M prm alphas s root rp w
    match res with
    | none => some none
    | some w =>
      match rest with
      | [] => some (some w)
      | s' :: rest' => do
        let D ← prm.D[w.t + 1]?
        let xIndex := w.xIndex % D.size
        friRounds M prm alphas (s' :: rest') roots.tail rps.tail
          ⟨w.t + 1, D.elem xIndex, xIndex, D.size, w.y⟩

/-- The final polynomial check (basic_fri.hpp:1141-1151). -/
def friFinalCheck [DecidableEq F] (prm : FriParams F) (final : List F) (w : FriWalk F) :
    Option Bool := do
  let D ← prm.D[w.t]?
  let xIndex := w.xIndex % D.size
  let x := D.elem xIndex * D.elem xIndex
  if D.size / 2 = 0 then none
  else
    let y ← w.y[0]?
    let (a, b) := if xIndex % (D.size / 2) < D.size / 4 then (y.1, y.2) else (y.2, y.1)
    some (decide (a = evalPoly final x ∧ b = evalPoly final (-x)))

/-- One query of the verifier (basic_fri.hpp:967-1152): the verdict and the transcript afterwards.
`items` are `poly_ids`, `combined_U` and `denominators`. -/
def friVerifyQuery [DecidableEq F] [DecidableEq Root] (M : MerkleLib F Tree Root Path)
    (T : FriTranscript S F Root) (prm : FriParams F) (commitments : OMap Root) (theta : F)
    (items : List (List (Nat × Nat) × F × List F)) (alphas : List F) (roots : List Root)
    (final : List F) (q : FriQueryProof F Path) (st : S) : Option (Bool × S) := do
  let D0 ← prm.D[0]?
  let s0 ← prm.stepList[0]?
  let (st, c) := T.challenge st
  let x := c ^ ((prm.modulus - 1) / D0.size)
  let xIndex := friQueryIndex D0 x
  let (s, ix) ← calculateS x xIndex s0 D0
  let order ← correctOrder xIndex D0.size s0 ix
  let ok ← friCheckInitial M commitments order q.initialProof
  if ok then
    let y ← (List.range (2 ^ s0 / 2)).mapM fun j => do
      let sj ← s[j]?
      let ixj ← ix[j]?
      friCombine q.initialProof theta sj ixj j items 1 (0, 0)
    let res ← friRounds M prm alphas prm.stepList roots q.roundProofs ⟨0, x, xIndex, D0.size, y⟩
    match res with
    | none => some (false, st)
    | some w => do
      let ok ← friFinalCheck prm final w
      some (ok, st)
  else some (false, st)

/-- The loop over the queries (basic_fri.hpp:967-1152): `n` queries are left, `qs` are their proofs;
the loop stops at the first rejection. -/
def friVerifyQueries [DecidableEq F] [DecidableEq Root] (M : MerkleLib F Tree Root Path)
    (T : FriTranscript S F Root) (prm : FriParams F) (commitments : OMap Root) (theta : F)
    (items : List (List (Nat × Nat) × F × List F)) (alphas : List F) (roots : List Root)
    (final : List F) : Nat → List (FriQueryProof F Path) → S → Option (Bool × S)
  | 0, _, st => some (true, st)
  | n + 1, qs, st => do
    let q ← qs.head?
    let (ok, st) ← friVerifyQuery M T prm commitments theta items alphas roots final q st
    if ok then
      friVerifyQueries M T prm commitments theta items alphas roots final n qs.tail st
    else some (false, st)

/-- `verify_eval` (basic_fri.hpp:932-1155): the verdict and the transcript afterwards. The three
vectors `poly_ids`, `combined_U` and `denominators`, whose sizes are asserted to be equal, are one
list. -/
def friVerify [DecidableEq F] [DecidableEq Root] (M : MerkleLib F Tree Root Path)
    (T : FriTranscript S F Root) (prm : FriParams F) (proof : FriProof F Root Path)
    (commitments : OMap Root) (theta : F) (items : List (List (Nat × Nat) × F × List F)) (st : S) :
    Option (Bool × S) :=
  if checkStepList prm.stepList prm.r then
    if friDegreeOk prm proof.finalPolynomial then do
      let (st, alphas) ← friAlphas T prm.stepList proof.friRoots st
      let (ok, st) :=
        if prm.useGrinding then
          powVerify T.toIntTranscript prm.grindingParameter st proof.proofOfWork
        else (true, st)
      if ok then
        friVerifyQueries M T prm commitments theta items alphas proof.friRoots
          proof.finalPolynomial prm.lambda proof.queryProofs st
      else some (false, st)
    else some (false, st)
  else none

end Crypto3Zk
