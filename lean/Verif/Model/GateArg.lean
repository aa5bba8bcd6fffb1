import Verif.Model.PermutationArg
import Verif.Model.PlonkTable
import Verif.Lemmas.Poly
import Verif.Lemmas.PlonkVarOrder

/-!
# The gate argument of placeholder

Models placeholder/gates_argument.hpp, plonk/gate.hpp and the mask polynomial of
placeholder/prover.hpp.

Here a `polynomial_dfs` is a Mathlib polynomial (the expression evaluator needs a ring). The number of
values it is stored with is not modelled: resizing to a larger domain keeps the polynomial, and sums
and products are computed by the library on domains large enough for the degree.

`none` is a failed assertion, `std::abort`, an out-of-bounds access or an undefined conversion.
-/

namespace Crypto3Zk

open Polynomial

variable {F : Type} [Field F] [DecidableEq F] {S : Type}

/-- equality of polynomials, needed for `expression::is_empty` (math/expression.hpp:136-138). -/
noncomputable instance polyDecidableEq : DecidableEq F[X] := Classical.decEq _

/-- `plonk_gate` (plonk/gate.hpp:39-46). -/
structure Gate (F : Type) where
  selectorIndex : Nat
  constraints : List (Expr PlonkVar F)

/-- A column of the polynomial table: the `polynomial_dfs` with the column's values on the basic domain
(used in gates_argument.hpp:130, 205). -/
noncomputable def dfsPoly (L : FftLib F) (col : List F) : F[X] := toPoly (L.coefficients col)

/-- `math::polynomial_shift(p, shift, domain->m)` (external): the polynomial `p(w^shift X)`, where `w`
is the generator of the basic domain (used in gates_argument.hpp:117). -/
noncomputable def shiftDfs (w : F) (shift : Int) (p : F[X]) : F[X] := p.comp (C (w ^ shift) * X)

/-- The value of one variable in `build_variable_value_map` (gates_argument.hpp:96-118). -/
noncomputable def variablePoly (L : FftLib F) (n : Nat) (t : PlonkTable F) (v : PlonkVar) :
    Option F[X] := do
  let cols ← t.columnsOf v.type
  let col ← cols[v.index]?
  if v.rotation ≠ 0 then some (shiftDfs ((L.domain n).elem 1) v.rotation (dfsPoly L col))
  else some (dfsPoly L col)

/-- `build_variable_value_map` (gates_argument.hpp:76-124), over the visited variables. The map is an
association list; a variable that is in the map already is skipped (also when it is visited again; the
code visits the distinct ones through `variable_counts`). -/
noncomputable def buildVariables (L : FftLib F) (n : Nat) (t : PlonkTable F) :
    List PlonkVar → List (PlonkVar × F[X]) → Option (List (PlonkVar × F[X]))
  | [], m => some m
  | v :: vs, m =>
    if (m.find? fun e => decide (e.1 = v)).isSome then buildVariables L n t vs m
    else do
      let p ← variablePoly L n t v
      buildVariables L n t vs (m ++ [(v, p)])

/-- `assignments[var]` (gates_argument.hpp:209-211): a default-constructed polynomial for a key that is
not in the map. -/
noncomputable def readVariable (m : List (PlonkVar × F[X])) (v : PlonkVar) : F[X] :=
  ((m.find? fun e => decide (e.1 = v)).map Prod.snd).getD 0

/-- `polynomial_dfs_type(0, 1, coeff)` as an expression (gates_argument.hpp:142-145). -/
noncomputable def constExpr (c : F) : Expr PlonkVar F[X] := .term (Term.ofConst (C c))

/-- The loop over the constraints of a gate (gates_argument.hpp:174-187). There are two sizes, so two
expressions: `limit` is `degree_limits[1]`, and whatever exceeds it goes to expression 0. -/
noncomputable def constraintLoop (theta : F) (limit : Nat) :
    List (Expr PlonkVar F) → F → Expr PlonkVar F[X] → Expr PlonkVar F[X] →
      (Expr PlonkVar F[X] × Expr PlonkVar F[X]) × F
  | [], acc, e0, e1 => ((e0, e1), acc)
  | c :: cs, acc, e0, e1 =>
    let next := (c.convert id (fun a => (C a : F[X]))).mul (constExpr acc)
    let degree := c.maxDegree32 + 1
    if limit ≥ degree then constraintLoop theta limit cs (acc * theta) e0 (e1.addAssign next)
    else constraintLoop theta limit cs (acc * theta) (e0.addAssign next) e1

/-- The selector of a gate as an expression (gates_argument.hpp:189-190). -/
noncomputable def selectorExpr (index : Nat) : Expr PlonkVar F[X] :=
  .term (Term.ofVar ⟨index, 0, false, .selector⟩)

/-- The loop over the gates (gates_argument.hpp:171-196). -/
noncomputable def gateLoop (theta : F) (limit : Nat) :
    List (Gate F) → F → Expr PlonkVar F[X] → Expr PlonkVar F[X] →
      Expr PlonkVar F[X] × Expr PlonkVar F[X]
  | [], _, e0, e1 => (e0, e1)
  | g :: gs, acc, e0, e1 =>
    let r := constraintLoop theta limit g.constraints acc .empty .empty
    let s := selectorExpr g.selectorIndex
    gateLoop theta limit gs r.2 (e0.addAssign (r.1.1.mulAssign s)) (e1.addAssign (r.1.2.mulAssign s))

/-- `max_degree` (gates_argument.hpp:139, 149): the exact value of `pow(2, ceil(log2 ...))`, which is
computed in `double`; `log2` of zero (after wrap-around) is minus infinity. A value that does not fit in
32 bits is an undefined conversion. -/
def gateMaxDegree (maxGatesDegree : Nat) : Option Nat :=
  let d := (maxGatesDegree + 1) % 2 ^ 32
  let p := if d = 0 then 0 else 2 ^ Nat.clog 2 d
  if p < 2 ^ 32 then some p else none

/-- `placeholder_gates_argument::prove_eval` (gates_argument.hpp:126-218) for a table with `2 ^ n` rows.
The fresh `cached_expression_evaluator` of each expression starts with empty members. -/
noncomputable def gateProve (ch : S → F × S) (L : FftLib F) (n : Nat) (t : PlonkTable F)
    (gates : List (Gate F)) (maxGatesDegree : Nat) (mask : F[X]) (st : S) : Option (F[X] × S) := do
  let r := ch st
  let maxDegree ← gateMaxDegree maxGatesDegree
  let size0 := (2 ^ n * maxDegree) % 2 ^ 32
  let size1 := size0 / 2
  let es := gateLoop r.1 (maxDegree / 2) gates 1 .empty .empty
  let m0 ← buildVariables L n t es.1.visitVars []
  let f := (es.1.evaluateCached (readVariable m0) ⟨[], []⟩).1
  let m1 ← buildVariables L n t es.2.visitVars (if size1 ≠ size0 then [] else m0)
  let f := f + (es.2.evaluateCached (readVariable m1) ⟨[], []⟩).1
  some (f * mask, r.2)

/-- The mask polynomial (prover.hpp:176-181). -/
noncomputable def gateMask (qLast qBlind : F[X]) : F[X] := 1 - qLast - qBlind

/-- `plonk_constraint::evaluate(evaluations)` (plonk/constraint.hpp:190-203). The key of the map is
`(index, rotation, type)`; a missing key is a failed assertion. -/
def evaluateOnMap (evaluations : Nat → Int → ColumnType → Option F) (c : Expr PlonkVar F) : Option F :=
  c.evalM fun v => evaluations v.index v.rotation v.type

/-- The loop over the constraints in `verify_eval` (gates_argument.hpp:235-238). -/
def verifyConstraints (evaluations : Nat → Int → ColumnType → Option F) (theta : F) :
    List (Expr PlonkVar F) → F → F → Option (F × F)
  | [], acc, res => some (res, acc)
  | c :: cs, acc, res => do
    let v ← evaluateOnMap evaluations c
    verifyConstraints evaluations theta cs (acc * theta) (res + v * acc)

/-- The loop over the gates in `verify_eval` (gates_argument.hpp:232-247). `evaluations[selector_key]` is
zero for a missing key (default construction of the external field element). -/
def verifyGates (evaluations : Nat → Int → ColumnType → Option F) (theta : F) :
    List (Gate F) → F → F → Option F
  | [], _, f => some f
  | g :: gs, acc, f => do
    let r ← verifyConstraints evaluations theta g.constraints acc 0
    let sel := (evaluations g.selectorIndex 0 .selector).getD 0
    verifyGates evaluations theta gs r.2 (f + r.1 * sel)

/-- `placeholder_gates_argument::verify_eval` (gates_argument.hpp:220-251). The element of the
`std::array` of results is zero after default construction. -/
def gateVerify (ch : S → F × S) (gates : List (Gate F))
    (evaluations : Nat → Int → ColumnType → Option F) (maskValue : F) (st : S) : Option (F × S) := do
  let r := ch st
  let f ← verifyGates evaluations r.1 gates 1 0
  some (f * maskValue, r.2)

end Crypto3Zk
