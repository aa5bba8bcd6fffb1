import Verif.Model.LookupArg
import Verif.Spec.GateArg

/-!
# Specification for the lookup argument
-/

namespace Crypto3Zk

open Polynomial

variable {F : Type} [Field F] [DecidableEq F]

/-- The entries of the first `usable` rows, column by column. -/
def cells (cols : List (List F)) (usable : Nat) : List F := cols.flatMap (·.take usable)

/-- The pairs of entries in rows `j` and `j + 1`, for `j < usable`, column by column. -/
def cellPairs (cols : List (List F)) (usable : Nat) : List (F × F) :=
  cols.flatMap fun c => (List.range usable).map fun j => (c.getD j 0, c.getD (j + 1) 0)

/-- Equal entries other than zero are next to each other. -/
def Grouped (l : List F) : Prop :=
  ∀ i j k, i ≤ j → j ≤ k → k < l.length → l.getD i 0 ≠ 0 → l.getD i 0 = l.getD k 0 →
    l.getD j 0 = l.getD i 0

/-- Columns that can be sorted: all have `size` rows, of which `usable` are used and at least one is not;
there is a table; the table columns are zero in the first row and in the first row that is not used;
table entries are grouped; and every input is in a table. -/
structure Sortable (inputs values : List (List F)) (size usable : Nat) : Prop where
  used : 0 < usable
  spare : usable < size
  inputSize : ∀ c ∈ inputs, c.length = size
  valueSize : ∀ c ∈ values, c.length = size
  table : values ≠ []
  first : ∀ c ∈ values, c.getD 0 0 = 0
  last : ∀ c ∈ values, c.getD usable 0 = 0
  grouped : Grouped (cells values usable)
  present : ∀ x ∈ cells inputs usable, x ∈ cells values usable

/-! ## tables and gates -/

/-- The lookup gates and lookup tables only use columns of the table, and every option of a lookup table
has as many columns as the table says. -/
def LookupsInTable (t : PlonkTable F) (sys : LookupSystem F) : Prop :=
  (∀ g ∈ sys.gates, g.tagIndex < t.selectors.length ∧
    ∀ c ∈ g.constraints, ∀ e ∈ c.input, ∀ v ∈ e.visitVars, t.HasVar v) ∧
  ∀ tab ∈ sys.tables, tab.tagIndex < t.selectors.length ∧
    ∀ o ∈ tab.options, o.length = tab.columnsNumber ∧ ∀ v ∈ o, v.index < t.constants.length

/-- The setting: a table with `2 ^ n` rows, of which at least one is usable and at least one is not; the
selectors of the preprocessor; the lookups are in the table. -/
structure LookupSetup (L : FftLib F) (A n : Nat) (t : PlonkTable F) (sys : LookupSystem F)
    (pre : LookupData F) : Prop where
  lib : L.Lawful A
  small : n ≤ A
  fits : n ≤ 64
  rect : t.Rectangular (2 ^ n)
  rows : t.rowsAmount = 2 ^ n
  used : 0 < pre.usable
  spare : pre.usable < 2 ^ n
  qLast : pre.qLast = dfsPoly L (lagrangeValues (2 ^ n) pre.usable)
  qBlind : pre.qBlind = dfsPoly L (blindValues (2 ^ n) pre.usable)
  lagrange0 : pre.lagrange0 = dfsPoly L (lagrangeValues (2 ^ n) 0)
  inTable : LookupsInTable t sys

/-- The value of constant column `i` in row `j`. -/
def PlonkTable.constantAt (t : PlonkTable F) (i j : Nat) : F := (t.constants.getD i []).getD j 0

/-- The table entry in row `i` of an option of a lookup table. -/
def optionRow (t : PlonkTable F) (o : List PlonkVar) (i : Nat) : List F :=
  o.map fun v => t.constantAt v.index i

/-- Every lookup holds: in each of the first `usable` rows in which the selector of a lookup gate is not
zero, the values of the inputs of each constraint are the entries of some option of the table it names
(tables are numbered from one), in some usable row with the table's tag. -/
def LookupsHold (t : PlonkTable F) (sys : LookupSystem F) (usable : Nat) : Prop :=
  ∀ j < usable, ∀ g ∈ sys.gates, t.selectorAt g.tagIndex j ≠ 0 → ∀ c ∈ g.constraints,
    ∃ k tab, sys.tables[k]? = some tab ∧ c.tableId = k + 1 ∧ ∃ o ∈ tab.options, ∃ i < usable,
      t.selectorAt tab.tagIndex i ≠ 0 ∧
      c.input.map (evaluateAtRow · j t) = (optionRow t o i).map some

/-- The inputs of the lookup gates, compressed with `theta`: one column for each constraint. In row `j` it is
the selector times (table number + first input · theta + second input · theta² + …), where the inputs are
evaluated on the table with cyclic rotation. -/
def compressedInputs (t : PlonkTable F) (sys : LookupSystem F) (n : Nat) (theta : F) : List (List F) :=
  sys.gates.flatMap fun g => g.constraints.map fun c => (List.range (2 ^ n)).map fun j =>
    t.selectorAt g.tagIndex j *
      evalPoly ((c.tableId : F) :: c.input.map fun e => e.eval (t.cyclicCell (2 ^ n) j)) theta

/-- The lookup tables, compressed with `theta`: one column for each option of each table, and zero in the
rows that are not usable. -/
def compressedValues (t : PlonkTable F) (sys : LookupSystem F) (n usable : Nat) (theta : F) :
    List (List F) :=
  sys.tables.zipIdx.flatMap fun e => e.1.options.map fun o => (List.range (2 ^ n)).map fun j =>
    if j < usable then
      t.selectorAt e.1.tagIndex j * evalPoly (((e.2 + 1 : Nat) : F) :: optionRow t o j) theta
    else 0

/-- The number of lookup constraints and the number of options of the lookup tables. -/
def LookupSystem.inputCount (sys : LookupSystem F) : Nat := (sys.gates.map (·.constraints.length)).sum
def LookupSystem.optionCount (sys : LookupSystem F) : Nat := (sys.tables.map (·.options.length)).sum

/-- Lookup gates that fit their tables: constraints name an existing table (tables are numbered from one)
with as many columns as the constraint has inputs; and the numbers of the tables are different in the
field, also from zero. -/
structure LookupsWellFormed (sys : LookupSystem F) : Prop where
  named : ∀ g ∈ sys.gates, ∀ c ∈ g.constraints, ∃ k tab, sys.tables[k]? = some tab ∧ c.tableId = k + 1 ∧
    c.input.length = tab.columnsNumber
  nonzero : ∀ k < sys.tables.length, ((k + 1 : Nat) : F) ≠ 0
  distinct : ∀ k < sys.tables.length, ∀ k' < sys.tables.length, ((k + 1 : Nat) : F) = ((k' + 1 : Nat) : F) →
    k = k'

/-- The selectors of lookup gates and the tags of lookup tables are zero or one in the usable rows. -/
def TagsBoolean (t : PlonkTable F) (sys : LookupSystem F) (usable : Nat) : Prop :=
  ∀ j < usable, (∀ g ∈ sys.gates, t.selectorAt g.tagIndex j = 0 ∨ t.selectorAt g.tagIndex j = 1) ∧
    ∀ tab ∈ sys.tables, t.selectorAt tab.tagIndex j = 0 ∨ t.selectorAt tab.tagIndex j = 1

/-- The entries of the lookup tables, table by table, option by option and row by row: `none` where the tag
is zero, and otherwise the number of the table and the values. -/
def tableEntries (t : PlonkTable F) (sys : LookupSystem F) (usable : Nat) : List (Option (Nat × List F)) :=
  sys.tables.zipIdx.flatMap fun e => e.1.options.flatMap fun o => (List.range usable).map fun j =>
    if t.selectorAt e.1.tagIndex j = 0 then none else some (e.2 + 1, optionRow t o j)

/-- Lookup tables as the packing functions lay them out: there is at least one option, the first row has no
entry, and equal entries are next to each other. -/
structure TablesLaidOut (t : PlonkTable F) (sys : LookupSystem F) (usable : Nat) : Prop where
  some : 0 < sys.optionCount
  first : ∀ tab ∈ sys.tables, t.selectorAt tab.tagIndex 0 = 0
  grouped : ∀ i j k, i ≤ j → j ≤ k → k < (tableEntries t sys usable).length →
    (tableEntries t sys usable).getD i none ≠ none →
    (tableEntries t sys usable).getD i none = (tableEntries t sys usable).getD k none →
    (tableEntries t sys usable).getD j none = (tableEntries t sys usable).getD i none

/-! ## the argument -/

/-- The evaluations a prover with the sorted columns `sorted`, the running product `V` and the partition
polynomials `parts` (given by their values) opens at the point `y`. -/
noncomputable def trueLookupClaims (L : FftLib F) (n : Nat) (pre : LookupData F) (sorted : List (List F))
    (V : List F) (parts : List (List F)) (y : F) : LookupClaims F :=
  { lagrange0 := pre.lagrange0.eval y
    qLast := pre.qLast.eval y
    qBlind := pre.qBlind.eval y
    qLastShifted := pre.qLast.eval (L.root n * y)
    qBlindShifted := pre.qBlind.eval (L.root n * y)
    sorted := sorted.map fun c => ((dfsPoly L c).eval y, (dfsPoly L c).eval (L.root n * y),
      (dfsPoly L c).eval (L.root n ^ pre.usable * y))
    V := (dfsPoly L V).eval y
    shifted := (dfsPoly L V).eval (L.root n * y)
    parts := parts.map fun p => (dfsPoly L p).eval y }

/-- `ev` holds the values at `y` (multiplied by the rotation) of the columns that the lookups use: the
selectors and constants of the lookup tables with rotations zero and one, the selectors of the gates and
the variables of their inputs. -/
def TrueLookupEvaluations (L : FftLib F) (n : Nat) (t : PlonkTable F) (sys : LookupSystem F) (y : F)
    (ev : Nat → Int → ColumnType → Option F) : Prop :=
  (∀ tab ∈ sys.tables, ∀ r : Int, r = 0 ∨ r = 1 →
    ev tab.tagIndex r .selector =
      some ((columnPoly L t tab.tagIndex .selector).eval (L.root n ^ r * y)) ∧
    ∀ o ∈ tab.options, ∀ v ∈ o,
      ev v.index r .constant = some ((columnPoly L t v.index .constant).eval (L.root n ^ r * y))) ∧
  ∀ g ∈ sys.gates,
    ev g.tagIndex 0 .selector = some ((columnPoly L t g.tagIndex .selector).eval y) ∧
    ∀ c ∈ g.constraints, ∀ e ∈ c.input, ∀ v ∈ e.visitVars,
      ev v.index v.rotation v.type =
        some ((columnPoly L t v.index v.type).eval (L.root n ^ v.rotation * y))

/-- The evaluations of the columns of the table that the verifier reads at the point `y`. -/
noncomputable def tableEvaluations (L : FftLib F) (n : Nat) (t : PlonkTable F) (y : F) :
    Nat → Int → ColumnType → Option F :=
  fun i r type => some ((columnPoly L t i type).eval (L.root n ^ r * y))

/-- Every value the verifier computes is zero at every row of the table, for the true evaluations. This is
what the quotient check of the proof system enforces on the committed polynomials. -/
def LookupRowsAccepted {S Com : Type} (ch : S → F × S) (absorb : Com → S → S) (com : Com) (st : S)
    (L : FftLib F) (n : Nat) (t : PlonkTable F) (sys : LookupSystem F) (pre : LookupData F)
    (sorted : List (List F)) (V : List F) (parts : List (List F)) : Prop :=
  ∀ j < 2 ^ n, ∃ st', lookupVerify ch absorb com sys pre.mqc
    (tableEvaluations L n t (L.root n ^ j))
    (trueLookupClaims L n pre sorted V parts (L.root n ^ j)) st = some ((0, 0, 0, 0), st')

/-- The polynomial is zero on every row of the table. -/
def PolyVanishesOnRows (L : FftLib F) (n : Nat) (p : F[X]) : Prop :=
  ∀ j < 2 ^ n, p.eval (L.root n ^ j) = 0

end Crypto3Zk
