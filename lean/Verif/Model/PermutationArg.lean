import Verif.Model.FRI
import Verif.Model.CycleRepresentation

/-!
# The permutation argument of placeholder

Models placeholder/permutation_argument.hpp and the parts of placeholder/preprocessor.hpp that prepare
it.

A `polynomial_dfs` is represented by its coefficients: the values on the basic domain give it through
`FftLib.coefficients` (external), reading entry `j` is evaluation at the `j`-th point of the basic
domain (also after the reduction of `reduce_dfs_polynomial_domain`, which keeps every `step`-th value),
and sums and products (which the library computes on domains large enough for the degree) are the
schoolbook operations of `PolyOps`.

`none` is a failed assertion, an exception, an out-of-bounds access, or the inverse of zero.
-/

namespace Crypto3Zk

variable {F : Type} [Field F] {S : Type}

/-! ## preprocessing -/

/-- `constraint_system.permuted_columns()` (plonk/constraint_system.hpp:101-110): the variables
inserted into the `unordered_set`, in order of insertion and with repetitions. The order in which the
set is iterated over is not determined by the code: `order` in the definitions below is any list
without repetitions that has the same members. -/
def permutedVars (cs : List (PlonkVar × PlonkVar)) : List PlonkVar :=
  cs.flatMap fun c => [⟨c.1.index, 0, true, c.1.type⟩, ⟨c.2.index, 0, true, c.2.type⟩]

/-- The global indices of the permuted columns (preprocessor.hpp:524-528,
permutation_argument.hpp:88-92). -/
def permutedIndices (d : TableDesc) (order : List PlonkVar) : Option (List Nat) :=
  order.mapM d.globalIndex

/-- `permutation_partitions_num` (preprocessor.hpp:78-87); `none` is the remainder by zero. -/
def permutationParts (size mqc : Nat) : Option Nat :=
  if size = 0 then some 0
  else if mqc = 0 then some 1
  else if mqc - 1 = 0 then none
  else if size % (mqc - 1) = 0 then some (size / (mqc - 1))
  else some (size / (mqc - 1) + 1)

/-- The values of `lagrange_polynomial` (preprocessor.hpp:269-284) on a domain of `size` points. -/
def lagrangeValues (size number : Nat) : List F :=
  (List.range size).map fun j => if j = number then 1 else 0

/-- The values of `selector_blind` (preprocessor.hpp:461-472). -/
def blindValues (size usable : Nat) : List F :=
  (List.range size).map fun j => if usable + 1 ≤ j then 1 else 0

/-- The loop of `identity_polynomials` over the rows (preprocessor.hpp:430-433). -/
def identityRow (omega : F) : Nat → F → List F
  | 0, _ => []
  | k + 1, x => x :: identityRow omega k (x * omega)

/-- `identity_polynomials` (preprocessor.hpp:418-437), as values on the domain. -/
def identityValues (size cols : Nat) (omega delta : F) : List (List F) :=
  (List.range cols).map fun i => identityRow omega size (delta ^ i)

/-- `key_type` from two `std::size_t` (preprocessor.hpp:288, 452): a pair of `uint32`. -/
def mkKey (col row : Nat) : Fin (2 ^ 32) × Fin (2 ^ 32) :=
  (⟨col % 2 ^ 32, Nat.mod_lt _ (by decide)⟩, ⟨row % 2 ^ 32, Nat.mod_lt _ (by decide)⟩)

/-- `cycle_representation::operator[]` (preprocessor.hpp:358-360): a key that is not in the map is
inserted with the value `(0, 0)`. (The insertion itself changes no other entry.) -/
def CycleRep.at (perm : CycleRep (Fin (2 ^ 32) × Fin (2 ^ 32))) (k : Fin (2 ^ 32) × Fin (2 ^ 32)) :
    Fin (2 ^ 32) × Fin (2 ^ 32) :=
  (perm.mapping k).getD (0, 0)

/-- One entry of `permutation_polynomials` (preprocessor.hpp:452-454). `idxOf` is the length for a
column that is not in the list, like `find(...) - begin()`. -/
def permutationEntry (gi : List Nat) (omega delta : F)
    (perm : CycleRep (Fin (2 ^ 32) × Fin (2 ^ 32))) (col row : Nat) : F :=
  delta ^ (gi.idxOf (perm.at (mkKey col row)).1.val) * omega ^ (perm.at (mkKey col row)).2.val

/-- `permutation_polynomials` (preprocessor.hpp:439-459), as values on the domain. -/
def permutationValues (size : Nat) (gi : List Nat) (omega delta : F)
    (perm : CycleRep (Fin (2 ^ 32) × Fin (2 ^ 32))) : List (List F) :=
  gi.map fun col => (List.range size).map fun row => permutationEntry gi omega delta perm col row

/-- The part of `preprocessed_data_type` and `common_data_type` the argument uses
(preprocessor.hpp:127-155, 254-266). -/
structure PermData (F : Type) where
  sId : List (List F)
  sSigma : List (List F)
  qLast : List F
  qBlind : List F
  lagrange0 : List F
  parts : Nat
  mqc : Nat
  usableRows : Nat

/-- The part of `process` that prepares the permutation argument (preprocessor.hpp:521-542, 560,
588-608, and 174, 191 for `lagrange_0`), for a table with `2 ^ n` rows. -/
def permPreprocess (L : FftLib F) (n fuel : Nat) (d : TableDesc) (cs : List (PlonkVar × PlonkVar))
    (order : List PlonkVar) (delta : F) (mqc : Nat) : Option (PermData F) := do
  let perm ← preprocessCopies fuel d cs
  let gi ← permutedIndices d order
  let omega := (L.domain n).elem 1
  let parts ← permutationParts order.length mqc
  some
    { sId := (identityValues (2 ^ n) order.length omega delta).map L.coefficients
      sSigma := (permutationValues (2 ^ n) gi omega delta perm).map L.coefficients
      qLast := L.coefficients (lagrangeValues (2 ^ n) d.usableRows)
      qBlind := L.coefficients (blindValues (2 ^ n) d.usableRows)
      lagrange0 := L.coefficients (lagrangeValues (2 ^ n) 0)
      parts := parts
      mqc := mqc
      usableRows := d.usableRows }

/-! ## the prover -/

/-- `polynomial[j]` for a polynomial given on the basic domain. -/
def rowValue (L : FftLib F) (n : Nat) (p : List F) (j : Nat) : F :=
  evalPoly p ((L.domain n).elem j)

/-- `math::polynomial_shift` (external): the polynomial `p(w X)`, where `w` is the shift-th power of
the generator of the domain (used in permutation_argument.hpp:167). -/
def shiftPoly (w : F) (p : List F) : List F := mulByCoset p w

/-- `transcript.template challenge<FieldType>()` repeated `k` times (as in permutation_argument.hpp:95-96, 176). -/
def drawN (ch : S → F × S) : Nat → S → List F × S
  | 0, st => ([], st)
  | k + 1, st =>
    let r := ch st
    let rest := drawN ch k r.2
    (r.1 :: rest.1, rest.2)

/-- `g_v[i]` and `h_v[i]` (permutation_argument.hpp:113-115, 118-120). -/
def permFactor (beta gamma : F) (s col : List F) : List F :=
  polyAdd (polyAdd (polyScale beta s) [gamma]) col

/-- One product of the loop (permutation_argument.hpp:125-131). -/
def rowProduct (L : FftLib F) (n : Nat) (ps : List (List F)) (j : Nat) : F :=
  ps.foldl (fun acc p => acc * rowValue L n p j) 1

/-- The loop that computes `V_P[1], ...` (permutation_argument.hpp:124-133): `k` entries are left, the
next one is `j + 1` and `v` is `V_P[j]`. -/
def runningProduct [DecidableEq F] (num den : Nat → F) : Nat → Nat → F → Option (List F)
  | 0, _, _ => some []
  | k + 1, j, v =>
    if den j = 0 then none
    else do
      let v' := v * num j * (den j)⁻¹
      let rest ← runningProduct num den k (j + 1) v'
      some (v' :: rest)

/-- The loop that collects the factors into groups (permutation_argument.hpp:144-159). -/
def groupFactors (mqc : Nat) : List (List F) → List (List F) → List (List (List F))
  | [], cur => if cur.length ≠ 0 then [cur] else []
  | p :: ps, cur =>
    let cur := cur ++ [p]
    if mqc ≠ 0 ∧ cur.length = mqc - 1 then cur :: groupFactors mqc ps []
    else groupFactors mqc ps cur

/-- `math::polynomial_product` (external) (used in permutation_argument.hpp:148-156). -/
def polyProduct (ps : List (List F)) : List F := ps.foldl polyMul [1]

/-- The update of `current_poly` (permutation_argument.hpp:200-202), on values. -/
def updateCurrent [DecidableEq F] (L : FftLib F) (n usable : Nat) (g h : List F) (prev cur : List F) :
    Option (List F) :=
  if cur.length < usable then none
  else (List.range cur.length).mapM fun j => do
    if j < usable then
      let hj := rowValue L n h j
      if hj = 0 then none else some (((← prev[j]?) * rowValue L n g j) * hj⁻¹)
    else cur[j]?

/-- The loop over the parts but the last (permutation_argument.hpp:195-207), over `gs[i]`, `hs[i]` and
`permutation_alphas[i]`. Returns the values of the polynomials appended to the batch, the sum
`F_dfs[1]` and the last `previous_poly`. -/
def partLoop [DecidableEq F] (L : FftLib F) (n usable : Nat) :
    List ((List F × List F) × F) → List F → List F → List F →
      Option (List (List F) × List F × List F)
  | [], prev, _, f1 => some ([], f1, prev)
  | ((g, h), alpha) :: rest, prev, cur, f1 => do
    let cur ← updateCurrent L n usable g h prev cur
    let part := polyScale alpha
      (polySub (polyMul (L.coefficients prev) g) (polyMul (L.coefficients cur) h))
    let r ← partLoop L n usable rest cur cur (polyAdd f1 part)
    some (cur :: r.1, r.2)

/-- What `prove_eval` returns and appends to the permutation batch (permutation_argument.hpp:63-68,
137, 203). -/
structure PermResult (F : Type) where
  V : List F
  partitions : List (List F)
  F0 : List F
  F1 : List F
  F2 : List F

/-- `prove_eval` (permutation_argument.hpp:70-224). `column` is `column_polynomials[...]`, `gi` are the
global indices of the permuted columns. -/
def permProve [DecidableEq F] (ch : S → F × S) (L : FftLib F) (n : Nat) (pre : PermData F)
    (column : Nat → Option (List F)) (gi : List Nat) (st : S) : Option (PermResult F × S) :=
  let rb := ch st
  let rg := ch rb.2
  if gi.length ≠ pre.sId.length ∨ gi.length ≠ pre.sSigma.length then none
  else do
    let cols ← gi.mapM column
    let gv := List.zipWith (permFactor rb.1 rg.1) pre.sId cols
    let hv := List.zipWith (permFactor rb.1 rg.1) pre.sSigma cols
    let rest ← runningProduct (rowProduct L n gv) (rowProduct L n hv) (2 ^ n - 1) 0 1
    let vVals := 1 :: rest
    let V := L.coefficients vVals
    let gs := (groupFactors pre.mqc gv []).map polyProduct
    let hs := (groupFactors pre.mqc hv []).map polyProduct
    if gs.length ≠ pre.parts ∨ gs.length ≠ hs.length ∨ pre.parts = 0 then none
    else
      let F0 := polyMul (polySub [1] V) pre.lagrange0
      let ra := drawN ch (pre.parts - 1) rg.2
      let shifted := shiftPoly ((L.domain n).elem 1) V
      let F2 := polyMul (polyMul (polySub V [1]) V) pre.qLast
      if pre.parts = 1 then do
        let g ← gs[0]?
        let h ← hs[0]?
        let F1 := polyMul (polySub (polySub [1] pre.qLast) pre.qBlind)
          (polySub (polyMul shifted h) (polyMul V g))
        some (⟨V, [], F0, F1, F2⟩, ra.2)
      else do
        let r ← partLoop L n pre.usableRows ((gs.zip hs).zip ra.1) vVals vVals []
        let g ← gs[ra.1.length]?
        let h ← hs[ra.1.length]?
        let F1 := polyAdd r.2.1 (polySub (polyMul (L.coefficients r.2.2) g) (polyMul shifted h))
        let F1 := polyMul F1 (polySub (polyAdd pre.qLast pre.qBlind) [1])
        some (⟨V, r.1.map L.coefficients, F0, F1, F2⟩, ra.2)

/-! ## the verifier -/

/-- The evaluations `verify_eval` is given (permutation_argument.hpp:229-240): `S_id`, `S_sigma`, the
columns, `V_P(y)`, `V_P(omega y)`, the partitions, and entries 1 and 2 of the special selectors. -/
structure PermClaims (F : Type) where
  sId : List F
  sSigma : List F
  cols : List F
  V : F
  shifted : F
  partitions : List F
  qLast : F
  qBlind : F

/-- The loop that computes `gs` and `hs` (permutation_argument.hpp:259-286), over `S_id[i]`,
`S_sigma[i]` and the column values. -/
def verifyGroups (beta gamma : F) (mqc : Nat) : List ((F × F) × F) → F → F → Nat → List (F × F)
  | [], g, h, size => if size ≠ 0 then [(g, h)] else []
  | ((tId, tSigma), v) :: rest, g, h, size =>
    let pp := v + gamma
    let g := g * (tId * beta + pp)
    let h := h * (tSigma * beta + pp)
    let size := size + 1
    if mqc ≠ 0 ∧ size = mqc - 1 then (g, h) :: verifyGroups beta gamma mqc rest 1 1 0
    else verifyGroups beta gamma mqc rest g h size

/-- The loop over the parts but the last (permutation_argument.hpp:313-320): `gs[i]` and `hs[i]`,
`permutation_alphas[i]`, `perm_partitions[i]`. Returns `F[1]` and `previous_value`; `none` is an
out-of-bounds access. -/
def verifyParts : List (F × F) → List F → List F → F → F → Option (F × F)
  | _, [], _, prev, f1 => some (f1, prev)
  | (g, h) :: ghs, alpha :: alphas, cur :: parts, prev, f1 =>
    verifyParts ghs alphas parts cur (f1 + alpha * (prev * g - cur * h))
  | _, _, _, _, _ => none

/-- `verify_eval` (permutation_argument.hpp:226-332) at the point `y`. The elements of the
`std::array` of results are zero after default construction (the constructor of the external field
element). -/
def permVerify (ch : S → F × S) (lagrange0 : List F) (mqc parts : Nat) (c : PermClaims F) (y : F)
    (st : S) : Option ((F × F × F) × S) :=
  let rb := ch st
  let rg := ch rb.2
  if c.cols.length ≠ c.sId.length ∨ c.cols.length ≠ c.sSigma.length ∨ parts = 0 then none
  else
    let ghs := verifyGroups rb.1 rg.1 mqc ((c.sId.zip c.sSigma).zip c.cols) 1 1 0
    let F0 := evalPoly lagrange0 y * (1 - c.V)
    let ra := drawN ch (parts - 1) rg.2
    if ra.1.length ≠ c.partitions.length then none
    else
      let F2 := c.qLast * (c.V * c.V - c.V)
      if parts = 1 then do
        let gh ← ghs[0]?
        let F1 := (gh.2 * c.shifted - gh.1 * c.V) * (1 - c.qLast - c.qBlind)
        some ((F0, F1, F2), ra.2)
      else do
        let r ← verifyParts ghs ra.1 c.partitions c.V 0
        let gh ← ghs[ra.1.length]?
        let F1 := (r.1 + (r.2 * gh.1 - c.shifted * gh.2)) * ((c.qLast + c.qBlind) - 1)
        some ((F0, F1, F2), ra.2)

end Crypto3Zk
