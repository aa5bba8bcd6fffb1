import Verif.Model.GateArg
import Verif.Model.LookupTables

/-!
# The lookup argument of placeholder

Models placeholder/lookup_argument.hpp, plonk/lookup_gate.hpp and plonk/lookup_constraint.hpp.

As in the gate argument a `polynomial_dfs` is a Mathlib polynomial; a reduced polynomial
(`reduce_dfs_polynomial_domain`, lookup_argument.hpp:499-518) and the sorted columns are the lists of
their values on the basic domain.

`none` is a failed assertion, `std::abort`, an out-of-bounds access, or the inverse of zero.
`BOOST_CHECK` (line 217) does not stop the program and is not modelled.
-/

namespace Crypto3Zk

open Polynomial

/-- `plonk_lookup_constraint` (plonk/lookup_constraint.hpp:39-48). -/
structure LookupConstraint (F : Type) where
  tableId : Nat
  input : List (Expr PlonkVar F)

/-- `plonk_lookup_gate` (plonk/lookup_gate.hpp:40-47). -/
structure LookupGate (F : Type) where
  tagIndex : Nat
  constraints : List (LookupConstraint F)

/-- The part of `plonk_constraint_system` that the lookup argument uses (plonk/constraint_system.hpp:76-77). -/
structure LookupSystem (F : Type) where
  gates : List (LookupGate F)
  tables : List LookupTable

variable {F : Type} [Field F] [DecidableEq F] {S : Type}

/-- The maximal degree of the inputs of a lookup constraint
(plonk/constraint_system.hpp:273-280). -/
def LookupConstraint.degree (c : LookupConstraint F) : Nat :=
  c.input.foldl (fun d e => max d e.maxDegree32) 0

/-- `constraint_system.lookup_parts(max_quotient_chunks)` (plonk/constraint_system.hpp:256-306). -/
def LookupSystem.parts (sys : LookupSystem F) (mqc : Nat) : List Nat :=
  lookupParts sys.gates.length (sys.gates.flatMap fun g => g.constraints.map LookupConstraint.degree)
    (sys.tables.map fun t => t.options.length).sum mqc

/-! ## compressed tables and inputs -/

/-- The loop over the columns of a lookup option (lookup_argument.hpp:422-426). `columns` is
`lookup_options[o_id]`; the loop runs up to `columns_number`. -/
noncomputable def valueLoop (L : FftLib F) (t : PlonkTable F) (theta : F) (tag : F[X])
    (columns : List PlonkVar) : Nat → Nat → F → F[X] → Option F[X]
  | 0, _, _, v => some v
  | k + 1, i, acc, v => do
    let col ← columns[i]?
    let c ← t.constants[col.index]?
    valueLoop L t theta tag columns k (i + 1) (acc * theta) (v + C acc * tag * dfsPoly L c)

/-- `prepare_lookup_value` (lookup_argument.hpp:411-432). -/
noncomputable def lookupValues (L : FftLib F) (t : PlonkTable F) (sys : LookupSystem F) (theta : F)
    (mask : F[X]) : Option (List F[X]) := do
  let vs ← sys.tables.zipIdx.mapM fun e => do
    let tagCol ← t.selectors[e.1.tagIndex]?
    let tag := dfsPoly L tagCol
    e.1.options.mapM fun o => do
      let v ← valueLoop L t theta tag o e.1.columnsNumber 0 theta (C ((e.2 + 1 : Nat) : F) * tag)
      some (v * mask)
  some vs.flatten

/-- The value of a lookup input as a polynomial (lookup_argument.hpp:445-471, 484-485). The getter is
called for the visited variables. -/
noncomputable def inputPoly (L : FftLib F) (n : Nat) (t : PlonkTable F) (c : Expr PlonkVar F) :
    Option F[X] :=
  let e := c.convert id (fun a => (C a : F[X]))
  if e.visitVars.all fun v => (variablePoly L n t v).isSome then
    some (e.evaluateCached (fun v => (variablePoly L n t v).getD 0) ⟨[], []⟩).1
  else none

/-- The loop over the inputs of a lookup constraint (lookup_argument.hpp:482-489). -/
noncomputable def inputLoop (L : FftLib F) (n : Nat) (t : PlonkTable F) (theta : F) (sel : F[X]) :
    List (Expr PlonkVar F) → F → F[X] → Option F[X]
  | [], _, l => some l
  | c :: cs, acc, l => do
    let p ← inputPoly L n t c
    inputLoop L n t theta sel cs (acc * theta) (l + C acc * sel * p)

/-- `prepare_lookup_input` (lookup_argument.hpp:434-494). -/
noncomputable def lookupInputs (L : FftLib F) (n : Nat) (t : PlonkTable F) (sys : LookupSystem F)
    (theta : F) : Option (List F[X]) := do
  let ls ← sys.gates.mapM fun g => do
    let selCol ← t.selectors[g.tagIndex]?
    let sel := dfsPoly L selCol
    g.constraints.mapM fun c => inputLoop L n t theta sel c.input theta (sel * C (c.tableId : F))
  some ls.flatten

/-! ## sorting -/

/-- The values on the basic domain (as in lookup_argument.hpp:179, 185, 262). -/
noncomputable def rowsOf (L : FftLib F) (n : Nat) (p : F[X]) : List F :=
  (List.range (2 ^ n)).map fun j => p.eval (L.root n ^ j)

/-- The entries of the columns that the nested loops visit (lookup_argument.hpp:573-574, 582-583,
608-609), in this order; `none` if a column has fewer rows. -/
def usableCells (cols : List (List F)) (usable : Nat) : Option (List F) :=
  (cols.mapM fun c => if usable ≤ c.length then some (c.take usable) else none).map List.flatten

/-- `sorting_map` (lookup_argument.hpp:572): `none` for an absent key. -/
abbrev SortingMap (F : Type) := F → Option Nat

/-- `sorting_map[x]++`, or `= 1` for an absent key (lookup_argument.hpp:575-578, 586). -/
def SortingMap.incr (m : SortingMap F) (x : F) : SortingMap F :=
  fun y => if y = x then some ((m x).getD 0 + 1) else m y

/-- Counting the inputs (lookup_argument.hpp:582-588) with the assertion. -/
def countInputs : List F → SortingMap F → Option (SortingMap F)
  | [], m => some m
  | x :: xs, m => if (m x).isSome then countInputs xs (m.incr x) else none

/-- The variables of `append_to_sorted` (lookup_argument.hpp:592-596). -/
structure SortState (F : Type) where
  sorted : List (List F)
  i1 : Nat
  j1 : Nat

/-- `append_to_sorted` (lookup_argument.hpp:599-606). -/
def SortState.append (usable : Nat) (s : SortState F) (value : F) : Option (SortState F) := do
  let col ← s.sorted[s.i1]?
  if s.j1 < col.length then
    let sorted := s.sorted.set s.i1 (col.set s.j1 value)
    if s.j1 + 1 ≥ usable then some ⟨sorted, s.i1 + 1, 0⟩ else some ⟨sorted, s.i1, s.j1 + 1⟩
  else none

/-- `append_to_sorted(value)` repeated `k` times (lookup_argument.hpp:613-627). -/
def SortState.appendN (usable : Nat) : Nat → F → SortState F → Option (SortState F)
  | 0, _, s => some s
  | k + 1, value, s => do SortState.appendN usable k value (← s.append usable value)

/-- The loop over the table values (lookup_argument.hpp:608-623). The assertion on `j1`, which
`append_to_sorted` keeps below `usable`, is checked once before the copies are appended. -/
def sortLoop (usable : Nat) (m : SortingMap F) :
    List F → F → SortState F → Option (F × SortState F)
  | [], prev, s => some (prev, s)
  | v :: vs, prev, s =>
    if v ≠ prev then do
      if ¬ s.j1 < usable then none
      else
        let s ← if prev = 0 then s.append usable prev
          else s.appendN usable ((m prev).getD 0) prev
        sortLoop usable m vs v s
    else sortLoop usable m vs prev s

/-- The last loop (lookup_argument.hpp:631-633): `k` columns are left, the next one is `i`. -/
def overlapLoop (usable : Nat) : Nat → Nat → List (List F) → Option (List (List F))
  | 0, _, sorted => some sorted
  | k + 1, i, sorted => do
    let next ← sorted[i + 1]?
    let x ← next[0]?
    let col ← sorted[i]?
    if usable < col.length then overlapLoop usable k (i + 1) (sorted.set i (col.set usable x)) else none

/-- `sort_polynomials` (lookup_argument.hpp:565-635). With no columns at all, `sorted.size() - 1` wraps
and the last loop reads out of bounds. -/
def sortPolynomials (inputs values : List (List F)) (domainSize usable : Nat) :
    Option (List (List F)) := do
  let vs ← usableCells values usable
  let m : SortingMap F := vs.foldl SortingMap.incr (fun _ => none)
  let ins ← usableCells inputs usable
  let m ← countInputs ins m
  let s : SortState F :=
    ⟨List.replicate (inputs.length + values.length) (List.replicate domainSize 0), 0, 0⟩
  let (prev, s) ← sortLoop usable m vs 0 s
  let s ← if prev ≠ 0 then s.appendN usable ((m prev).getD 0) prev else some s
  if s.sorted.length = 0 then none
  else overlapLoop usable (s.sorted.length - 1) 0 s.sorted

/-! ## the running product -/

/-- `g_tmp` (lookup_argument.hpp:390-398), for `k = j + 1`. -/
def lookupNum (inputs values : List (List F)) (beta gamma : F) (j : Nat) : F :=
  let g := inputs.foldl (fun g c => g * (gamma + c.getD j 0)) ((1 + beta) ^ inputs.length)
  let part1 := (1 + beta) * gamma
  values.foldl (fun g c => g * (part1 + c.getD j 0 + beta * c.getD (j + 1) 0)) g

/-- `h_tmp` (lookup_argument.hpp:402-405), for `k = j + 1`. -/
def lookupDen (sorted : List (List F)) (beta gamma : F) (j : Nat) : F :=
  let part1 := (1 + beta) * gamma
  sorted.foldl (fun h c => h * (part1 + c.getD j 0 + beta * c.getD (j + 1) 0)) 1

/-- `compute_V_L` (lookup_argument.hpp:375-409): the columns have `domainSize` rows (so the reads up to
row `usable` are in bounds if that is a row); the loop has the form of the one of the permutation
argument. -/
def lookupV (sorted inputs values : List (List F)) (domainSize usable : Nat) (beta gamma : F) :
    Option (List F) := do
  if usable < domainSize then
    let vs ← runningProduct (lookupNum inputs values beta gamma) (lookupDen sorted beta gamma) usable 0 1
    some (1 :: vs ++ List.replicate (domainSize - 1 - usable) 0)
  else none

/-! ## the prover -/

/-- The grouping loops of `compute_gs` and `compute_hs` (lookup_argument.hpp:310-339, 357-371): reading
`lookup_part_sizes[current_part]` past the end is out of bounds; factors left over at the end are a
failed assertion. -/
def groupByParts {X : Type} : List Nat → List X → List X → Option (List (List X))
  | _, [], cur => if cur.length = 0 then some [] else none
  | [], _ :: _, _ => none
  | p :: ps, x :: xs, cur =>
    let cur := cur ++ [x]
    if cur.length = p then (groupByParts ps xs []).map (cur :: ·)
    else groupByParts (p :: ps) xs cur

/-- `math::polynomial_product` (external) (used in lookup_argument.hpp:315, 331). -/
noncomputable def dfsProduct (ps : List F[X]) : F[X] := ps.foldl (· * ·) 1

/-- The factors of `compute_gs` (lookup_argument.hpp:312-313, 326-329). -/
noncomputable def gFactors (w : F) (inputs values : List F[X]) (beta gamma : F) : List F[X] :=
  inputs.map (fun l => C (1 + beta) * (C gamma + l)) ++
    values.map fun v => C ((1 + beta) * gamma) + v + C beta * shiftDfs w 1 v

/-- The factors of `compute_hs` (lookup_argument.hpp:359-361). -/
noncomputable def hFactors (w : F) (sorted : List F[X]) (beta gamma : F) : List F[X] :=
  sorted.map fun s => C ((1 + beta) * gamma) + s + C beta * shiftDfs w 1 s

/-- The update of `current_poly` (lookup_argument.hpp:262-266), on values. -/
noncomputable def updateLookupPart (L : FftLib F) (n usable : Nat) (g h : F[X]) (prev cur : List F) :
    Option (List F) :=
  if cur.length < usable then none
  else (List.range cur.length).mapM fun j => do
    if j < usable then
      let hj := h.eval (L.root n ^ j)
      if hj = 0 then none else some (((← prev[j]?) * g.eval (L.root n ^ j)) * hj⁻¹)
    else cur[j]?

/-- The loop over the parts but the last (lookup_argument.hpp:259-271). Returns the values of the
polynomials appended to the batch, the sum `F_dfs[2]` and the last `previous_poly`. -/
noncomputable def lookupPartLoop (L : FftLib F) (n usable : Nat) :
    List ((F[X] × F[X]) × F) → List F → List F → F[X] → Option (List (List F) × F[X] × List F)
  | [], prev, _, f => some ([], f, prev)
  | ((g, h), alpha) :: rest, prev, cur, f => do
    let cur ← updateLookupPart L n usable g h prev cur
    let par := C alpha * (dfsPoly L prev * g - dfsPoly L cur * h)
    let r ← lookupPartLoop L n usable rest cur cur (f + par)
    some (cur :: r.1, r.2)

/-- The loop of `F_dfs[3]` (lookup_argument.hpp:281-288), over neighbouring columns and the challenges
drawn. -/
noncomputable def overlapSum (L : FftLib F) (n usable : Nat) (lagrange0 : F[X]) :
    List (List F) → List F → F[X]
  | a :: b :: rest, alpha :: alphas =>
    (dfsPoly L b - shiftDfs (L.root n) usable (dfsPoly L a)) * (C alpha * lagrange0) +
      overlapSum L n usable lagrange0 (b :: rest) alphas
  | _, _ => 0

/-- What `prove_eval` returns, commits to and appends to the permutation batch
(lookup_argument.hpp:125-128, 192-195, 215, 267). The sorted columns, the running product and the
partition polynomials are given by their values. -/
structure LookupResult (F : Type) [Field F] where
  sorted : List (List F)
  V : List F
  partitions : List (List F)
  F0 : F[X]
  F1 : F[X]
  F2 : F[X]
  F3 : F[X]

/-- The parts of the preprocessed data that are used: `q_last`, `q_blind`, `lagrange_0`,
`usable_rows_amount` and `max_quotient_chunks`. -/
structure LookupData (F : Type) [Field F] where
  qLast : F[X]
  qBlind : F[X]
  lagrange0 : F[X]
  usable : Nat
  mqc : Nat

/-- The constructor and `prove_eval` of `placeholder_lookup_argument_prover`
(lookup_argument.hpp:130-294) for a table with `2 ^ n` rows. `commit` is the commitment to the sorted
columns and `absorb` adds it to the transcript. -/
noncomputable def lookupProve {Com : Type} (ch : S → F × S) (absorb : Com → S → S)
    (commit : List (List F) → Com) (L : FftLib F) (n : Nat) (t : PlonkTable F) (sys : LookupSystem F)
    (pre : LookupData F) (st : S) : Option (LookupResult F × S) := do
  let rt := ch st
  let mask := 1 - pre.qLast - pre.qBlind
  let values ← lookupValues L t sys rt.1 mask
  let inputs ← lookupInputs L n t sys rt.1
  let valueRows := values.map (rowsOf L n)
  let inputRows := inputs.map (rowsOf L n)
  let sorted ← sortPolynomials inputRows valueRows (2 ^ n) pre.usable
  let st := absorb (commit sorted) rt.2
  let rb := ch st
  let rg := ch rb.2
  let parts := sys.parts pre.mqc
  let ra := drawN ch (parts.length - 1) rg.2
  let V ← lookupV sorted inputRows valueRows (2 ^ n) pre.usable rb.1 rg.1
  if parts.sum ≠ sorted.length then none
  else do
    let w := L.root n
    let gg ← groupByParts parts (gFactors w inputs values rb.1 rg.1) []
    let hh ← groupByParts parts (hFactors w (sorted.map (dfsPoly L)) rb.1 rg.1) []
    let gs := gg.map dfsProduct
    let hs := hh.map dfsProduct
    let vPoly := dfsPoly L V
    let shifted := shiftDfs w 1 vPoly
    let F0 := pre.lagrange0 * (1 - vPoly)
    let F1 := pre.qLast * (vPoly * vPoly - vPoly)
    let r3 := drawN ch (sorted.length - 1) ra.2
    let F3 := overlapSum L n pre.usable pre.lagrange0 sorted r3.1
    if parts.length = 1 then do
      let g ← gs[0]?
      let h ← hs[0]?
      let F2 := (g * vPoly - h * shifted) * (pre.qLast + pre.qBlind - 1)
      some (⟨sorted, V, [], F0, F1, F2, F3⟩, r3.2)
    else if parts.length ≠ gs.length ∨ parts.length ≠ hs.length then none
    else do
      let r ← lookupPartLoop L n pre.usable ((gs.zip hs).zip ra.1) V V 0
      let g ← gs[ra.1.length]?
      let h ← hs[ra.1.length]?
      let F2 := (r.2.1 + (dfsPoly L r.2.2 * g - shifted * h)) * (pre.qLast + pre.qBlind - 1)
      some (⟨sorted, V, r.1, F0, F1, F2, F3⟩, r3.2)

/-! ## the verifier -/

/-- The evaluations `verify_eval` is given besides the map (lookup_argument.hpp:666-677):
`special_selector_values` (`lagrange_0`, `q_last`, `q_blind`) and the last two at `omega y`; the sorted
columns at `y`, `omega y` and `omega^usable y`; `V_L` at `y` and `omega y`; the parts. -/
structure LookupClaims (F : Type) where
  lagrange0 : F
  qLast : F
  qBlind : F
  qLastShifted : F
  qBlindShifted : F
  sorted : List (F × F × F)
  V : F
  shifted : F
  parts : List F

/-- The loop over the columns of an option (lookup_argument.hpp:711-719): the value and the shifted
value. -/
def verifyValueLoop (ev : Nat → Int → ColumnType → Option F) (theta sel selShifted : F) :
    List PlonkVar → F → F → F → F × F
  | [], _, v, vs => (v, vs)
  | c :: cs, acc, v, vs =>
    verifyValueLoop ev theta sel selShifted cs (acc * theta)
      (v + acc * (ev c.index 0 .constant).getD 0 * sel)
      (vs + acc * (ev c.index 1 .constant).getD 0 * selShifted)

/-- The compressed table values (lookup_argument.hpp:699-725). Missing keys of the map read as zero. -/
def verifyValues (ev : Nat → Int → ColumnType → Option F) (sys : LookupSystem F) (theta mask maskShifted : F) :
    Option (List (F × F)) := do
  let vs ← sys.tables.zipIdx.mapM fun e =>
    let sel := (ev e.1.tagIndex 0 .selector).getD 0
    let selShifted := (ev e.1.tagIndex 1 .selector).getD 0
    e.1.options.mapM fun o =>
      if o.length = e.1.columnsNumber then
        let r := verifyValueLoop ev theta sel selShifted o theta
          (sel * ((e.2 + 1 : Nat) : F)) (selShifted * ((e.2 + 1 : Nat) : F))
        some (r.1 * mask, r.2 * maskShifted)
      else none
  some vs.flatten

/-- The loop over the inputs of a lookup constraint (lookup_argument.hpp:736-740). -/
def verifyInputLoop (ev : Nat → Int → ColumnType → Option F) (theta sel : F) :
    List (Expr PlonkVar F) → F → F → Option F
  | [], _, l => some l
  | c :: cs, acc, l => do
    let v ← evaluateOnMap ev c
    verifyInputLoop ev theta sel cs (acc * theta) (l + sel * acc * v)

/-- The compressed inputs (lookup_argument.hpp:728-743). -/
def verifyInputs (ev : Nat → Int → ColumnType → Option F) (sys : LookupSystem F) (theta : F) :
    Option (List F) := do
  let ls ← sys.gates.mapM fun g =>
    let sel := (ev g.tagIndex 0 .selector).getD 0
    g.constraints.mapM fun c => verifyInputLoop ev theta sel c.input theta (sel * (c.tableId : F))
  some ls.flatten

/-- The grouping loops of the verifier (lookup_argument.hpp:758-781, 783-796) over the factors. -/
def verifyPartProducts : List Nat → List F → F → Nat → Option (List F)
  | _, [], _, size => if size = 0 then some [] else none
  | [], _ :: _, _, _ => none
  | p :: ps, x :: xs, acc, size =>
    let acc := acc * x
    let size := size + 1
    if size = p then (verifyPartProducts ps xs 1 0).map (acc :: ·)
    else verifyPartProducts (p :: ps) xs acc size

/-- The loop over the parts but the last (lookup_argument.hpp:813-820). -/
def verifyLookupParts : List F → List F → List F → List F → F → F → Option (F × F)
  | _, _, [], _, prev, f => some (f, prev)
  | g :: gs, h :: hs, alpha :: alphas, cur :: parts, prev, f =>
    verifyLookupParts gs hs alphas parts cur (f + alpha * (prev * g - cur * h))
  | _, _, _, _, _, _ => none

/-- The loop of `F[3]` (lookup_argument.hpp:827-831). -/
def verifyOverlap (lagrange0 : F) : List (F × F × F) → List F → F → F
  | a :: b :: rest, alpha :: alphas, f =>
    verifyOverlap lagrange0 (b :: rest) alphas (f + (b.1 - a.2.2) * alpha * lagrange0)
  | _, _, f => f

/-- `placeholder_lookup_argument_verifier::verify_eval` (lookup_argument.hpp:664-833). -/
def lookupVerify {Com : Type} (ch : S → F × S) (absorb : Com → S → S) (com : Com)
    (sys : LookupSystem F) (mqc : Nat) (ev : Nat → Int → ColumnType → Option F) (c : LookupClaims F)
    (st : S) : Option ((F × F × F × F) × S) := do
  let rt := ch st
  let st := absorb com rt.2
  let mask := 1 - (c.qLast + c.qBlind)
  let maskShifted := 1 - (c.qLastShifted + c.qBlindShifted)
  let values ← verifyValues ev sys rt.1 mask maskShifted
  let inputs ← verifyInputs ev sys rt.1
  let rb := ch st
  let rg := ch rb.2
  let beta := rb.1
  let gamma := rg.1
  let parts := sys.parts mqc
  let ra := drawN ch (parts.length - 1) rg.2
  if ra.1.length ≠ c.parts.length then none
  else do
    let gs ← verifyPartProducts parts
      (inputs.map (fun l => (1 + beta) * (gamma + l)) ++
        values.map fun v => (1 + beta) * gamma + v.1 + beta * v.2) 1 0
    let hs ← verifyPartProducts parts
      (c.sorted.map fun s => (1 + beta) * gamma + s.1 + beta * s.2.1) 1 0
    if gs.length ≠ c.parts.length + 1 ∨ hs.length ≠ c.parts.length + 1 then none
    else do
      let F0 := (1 - c.V) * c.lagrange0
      let F1 := c.qLast * (c.V * c.V - c.V)
      let r3 := drawN ch (c.sorted.length - 1) ra.2
      let F3 := verifyOverlap c.lagrange0 c.sorted r3.1 0
      if parts.length = 1 then do
        let g ← gs[0]?
        let h ← hs[0]?
        let F2 := (1 - (c.qLast + c.qBlind)) * (c.shifted * h - c.V * g)
        some ((F0, F1, F2, F3), r3.2)
      else do
        let r ← verifyLookupParts gs hs ra.1 c.parts c.V 0
        let g ← gs[ra.1.length]?
        let h ← hs[ra.1.length]?
        let F2 := (r.1 + (r.2 * g - c.shifted * h)) * ((c.qLast + c.qBlind) - 1)
        some ((F0, F1, F2, F3), r3.2)

end Crypto3Zk
