import Verif.Model.Expression
import Verif.Model.PlonkVariable
import Mathlib.Data.Nat.Log

/-!
# Model of `plonk_table` (plonk/assignment.hpp), of constraint evaluation on a row
(plonk/constraint.hpp:86-109), of padding (plonk/padding.hpp) and of `lookup_parts`
(plonk/constraint_system.hpp:256-309)

Column counts and sizes are natural numbers: the code narrows `size()` to `uint32_t`, so the model
speaks about tables whose sizes fit. Out-of-range reads are `none`.
-/

namespace Crypto3Zk

/-- `plonk_table`: the private witness columns and the three kinds of public columns
(plonk/assignment.hpp:55-61, 124-134, 279-293). -/
structure PlonkTable (F : Type) where
  witnesses : List (List F)
  publicInputs : List (List F)
  constants : List (List F)
  selectors : List (List F)
deriving DecidableEq, Repr

namespace PlonkTable

variable {F : Type}

/-- the columns of one kind; `none` for the uninitialised kind
(plonk/assignment.hpp:312-326 through the `switch` of plonk/constraint.hpp:93-105, whose default
case is an assertion failure). -/
def columnsOf (t : PlonkTable F) : ColumnType → Option (List (List F))
  | .witness => some t.witnesses
  | .publicInput => some t.publicInputs
  | .constant => some t.constants
  | .selector => some t.selectors
  | .uninitialized => none

/-- `operator[]` (plonk/assignment.hpp:98-102, 244-255, 368-375): witnesses, public inputs,
constants, selectors; `none` is the `out_of_range` exception. -/
def column (t : PlonkTable F) (index : Nat) : Option (List F) :=
  if index < t.witnesses.length then t.witnesses[index]?
  else
    let index := index - t.witnesses.length
    if index < t.publicInputs.length + t.constants.length + t.selectors.length then
      if index < t.publicInputs.length then t.publicInputs[index]?
      else
        let index := index - t.publicInputs.length
        if index < t.constants.length then t.constants[index]?
        else
          let index := index - t.constants.length
          if index < t.selectors.length then t.selectors[index]? else none
    else none

/-- one loop of `rows_amount` (plonk/assignment.hpp:432-450). -/
def maxSize (acc : Nat) (cols : List (List F)) : Nat := cols.foldl (fun m c => max m c.length) acc

/-- `rows_amount()` (plonk/assignment.hpp:429-453). -/
def rowsAmount (t : PlonkTable F) : Nat :=
  maxSize (maxSize (maxSize (maxSize 0 t.witnesses) t.publicInputs) t.constants) t.selectors

end PlonkTable

/-! ### Evaluating a constraint on a row -/

/-- `(rows_amount + row_index + var.rotation) % rows_amount` in `std::size_t`
(plonk/constraint.hpp:95): the `int` rotation is converted to 64 unsigned bits, and the sum wraps.
`none` when `rows_amount` is zero. -/
def rotatedRow (rows row : Nat) (rotation : Int) : Option Nat :=
  if rows = 0 then none
  else some ((((rows : Int) + row + rotation) % (2 ^ 64 : Int)).toNat % rows)

/-- the value getter (plonk/constraint.hpp:91-106). `none` is a read outside a column vector or a
column, or an invalid kind. `relative` is not looked at. -/
def PlonkTable.cell {F : Type} (t : PlonkTable F) (row : Nat) (v : PlonkVar) : Option F := do
  let cols ← t.columnsOf v.type
  let col ← cols[v.index]?
  let r ← rotatedRow t.rowsAmount row v.rotation
  col[r]?

/-- `expression_evaluator` (math/expression_evaluator.hpp:103-137) with a getter that may be
undefined. -/
def Expr.evalM {V R : Type} [CommRing R] (get : V → Option R) : Expr V R → Option R
  | .term t => t.vars.foldlM (fun res v => do return res * (← get v)) t.coeff
  | .pow e p => do return (← evalM get e) ^ p
  | .bin .add l r => do return (← evalM get l) + (← evalM get r)
  | .bin .sub l r => do return (← evalM get l) - (← evalM get r)
  | .bin .mult l r => do return (← evalM get l) * (← evalM get r)

/-- `plonk_constraint::evaluate(row_index, assignments)` (plonk/constraint.hpp:86-109). -/
def evaluateAtRow {F : Type} [CommRing F] (e : Expr PlonkVar F) (row : Nat) (t : PlonkTable F) :
    Option F :=
  e.evalM (t.cell row)

/-! ### Padding -/

/-- the padded row count (plonk/padding.hpp:42-49, 88-95). `pow(2, ceil(log2 u))` is computed in
`double`; the model takes the exact value (`0` for `u = 0`, where `log2` is minus infinity).
Conversion of a value that does not fit `uint32_t` is undefined; doubling wraps. -/
def paddedRows (usable : Nat) : Option Nat :=
  let p := if usable = 0 then 0 else 2 ^ Nat.clog 2 usable
  if p ≥ 2 ^ 32 then none
  else
    let p := if p = usable then (p * 2) % 2 ^ 32 else p
    some (if p < 8 then 8 else p)

/-- `std::vector::resize(n, v)` (padding.hpp:54-75, 101-105). -/
def resize {F : Type} (col : List F) (n : Nat) (v : F) : List F :=
  col.take n ++ List.replicate (n - col.length) v

/-- `basic_padding` (plonk/padding.hpp:41-80); returns the new table and the padded row count. -/
def basicPadding {F : Type} [Zero F] (t : PlonkTable F) : Option (PlonkTable F × Nat) := do
  let p ← paddedRows t.rowsAmount
  let f := fun (c : List F) => resize c p 0
  return (⟨t.witnesses.map f, t.publicInputs.map f, t.constants.map f, t.selectors.map f⟩, p)

/-- the loop `column[i] = alg_rnd()` for `i` in `[usable, padded)` after `resize(padded)`
(plonk/padding.hpp:118-121). `rnd k` is the `k`-th value drawn from the engine and `k` counts the
draws so far. -/
def fillRandom {F : Type} (rnd : Nat → F) (usable padded k : Nat) (col : List F) : List F :=
  (col.take padded).take usable ++ (List.range (padded - usable)).map fun i => rnd (k + i)

/-- the outer loop over columns (plonk/padding.hpp:117-122, 128-133, 135-140). -/
def fillColumns {F : Type} (rnd : Nat → F) (usable padded : Nat) :
    Nat → List (List F) → List (List F) × Nat
  | k, [] => ([], k)
  | k, c :: cs =>
    let rest := fillColumns rnd usable padded (k + (padded - usable)) cs
    (fillRandom rnd usable padded k c :: rest.1, rest.2)

/-- `zk_padding` (plonk/padding.hpp:84-143). -/
def zkPadding {F : Type} [Zero F] (rnd : Nat → F) (t : PlonkTable F) :
    Option (PlonkTable F × Nat) := do
  let usable := t.rowsAmount
  let p ← paddedRows usable
  let level := fun (c : List F) => resize c usable 0
  let (w, k) := fillColumns rnd usable p 0 (t.witnesses.map level)
  let pi := (t.publicInputs.map level).map fun c => resize c p 0
  let (c, k) := fillColumns rnd usable p k (t.constants.map level)
  let (s, _) := fillColumns rnd usable p k (t.selectors.map level)
  return (⟨w, pi, c, s⟩, p)

/-! ### Splitting lookups into parts -/

/-- loop state of `lookup_parts`: the parts pushed, `lookup_chunk`, `lookup_part`
(plonk/constraint_system.hpp:265-269). -/
structure PartsState where
  parts : List Nat
  chunk : Nat
  part : Nat

/-- one iteration (plonk/constraint_system.hpp:281-288 with `cost = max_constraint_degree + 1`, and
294-300 with `cost = 3`). -/
def partsStep (maxChunks : Nat) (s : PartsState) (cost : Nat) : PartsState :=
  let s := if s.chunk + cost ≥ maxChunks then ⟨s.parts ++ [s.part], 0, 0⟩ else s
  ⟨s.parts, s.chunk + cost, s.part + 1⟩

/-- `lookup_parts` (plonk/constraint_system.hpp:256-309). `degrees` lists, gate by gate, the maximal
degree of each lookup constraint's inputs (their computation is C09); `options` is the total number
of table options; `numGates` is `_lookup_gates.size()`. -/
def lookupParts (numGates : Nat) (degrees : List Nat) (options maxChunks : Nat) : List Nat :=
  if maxChunks = 0 then [if numGates = 0 then 0 else options + degrees.length]
  else
    let s := (degrees.map (· + 1) ++ List.replicate options 3).foldl (partsStep maxChunks) ⟨[], 0, 0⟩
    s.parts ++ [s.part]

end Crypto3Zk
