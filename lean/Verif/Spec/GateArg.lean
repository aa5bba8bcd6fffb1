import Verif.Model.GateArg
import Verif.Spec.FRI
import Verif.Spec.PlonkTable

/-!
# Specification for the gate argument
-/

namespace Crypto3Zk

open Polynomial

variable {F : Type} [Field F] [DecidableEq F]

/-- The variable names a column of the table. -/
def PlonkTable.HasVar (t : PlonkTable F) (v : PlonkVar) : Prop :=
  ∃ cols, t.columnsOf v.type = some cols ∧ v.index < cols.length

/-- The gates only use columns of the table. -/
def GatesInTable (t : PlonkTable F) (gates : List (Gate F)) : Prop :=
  ∀ g ∈ gates, g.selectorIndex < t.selectors.length ∧
    ∀ c ∈ g.constraints, ∀ v ∈ c.visitVars, t.HasVar v

/-- The value of selector column `i` in row `j`. -/
def PlonkTable.selectorAt (t : PlonkTable F) (i j : Nat) : F := (t.selectors.getD i []).getD j 0

/-- Every gate holds: in each of the first `usable` rows, every constraint of every gate whose selector is
not zero there evaluates to zero on the table. -/
def GatesHold (t : PlonkTable F) (gates : List (Gate F)) (usable : Nat) : Prop :=
  ∀ j < usable, ∀ g ∈ gates, t.selectorAt g.selectorIndex j ≠ 0 →
    ∀ c ∈ g.constraints, evaluateAtRow c j t = some 0

/-- The number of constraints of all gates. -/
def constraintCount (gates : List (Gate F)) : Nat := (gates.map fun g => g.constraints.length).sum

/-- The setting: a table with `2 ^ n` rows of which `usable` are used, at least one row is left for the
`q_last` selector, and the gates are in the table. -/
structure GateSetup (L : FftLib F) (A n usable : Nat) (t : PlonkTable F) (gates : List (Gate F))
    (maxGatesDegree : Nat) : Prop where
  lib : L.Lawful A
  small : n ≤ A
  fits : n ≤ 64
  rect : t.Rectangular (2 ^ n)
  rows : t.rowsAmount = 2 ^ n
  usable : usable < 2 ^ n
  inTable : GatesInTable t gates
  degree : maxGatesDegree < 2 ^ 31

/-- The mask the prover builds from the selectors of the preprocessor. -/
noncomputable def rowMask (L : FftLib F) (n usable : Nat) : F[X] :=
  gateMask (dfsPoly L (lagrangeValues (2 ^ n) usable)) (dfsPoly L (blindValues (2 ^ n) usable))

/-- The polynomial of the column a variable names. -/
noncomputable def columnPoly (L : FftLib F) (t : PlonkTable F) (i : Nat) (type : ColumnType) : F[X] :=
  dfsPoly L (((t.columnsOf type).getD []).getD i [])

/-- `evaluations` holds, for each variable of the gates and for their selectors, the value at `y`
(multiplied by the rotation) of the column's polynomial. -/
def TrueEvaluations (L : FftLib F) (n : Nat) (t : PlonkTable F) (gates : List (Gate F)) (y : F)
    (evaluations : Nat → Int → ColumnType → Option F) : Prop :=
  ∀ g ∈ gates,
    evaluations g.selectorIndex 0 .selector =
      some ((columnPoly L t g.selectorIndex .selector).eval y) ∧
    ∀ c ∈ g.constraints, ∀ v ∈ c.visitVars,
      evaluations v.index v.rotation v.type =
        some ((columnPoly L t v.index v.type).eval (L.root n ^ v.rotation * y))

end Crypto3Zk
