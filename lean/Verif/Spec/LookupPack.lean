import Verif.Spec.LookupTables

/-!
# Specification vocabulary for C63: where tables below the limit are put
-/

namespace Crypto3Zk

variable {F : Type}

/-- The first row and the first column (counted in the columns handed over) of every table: tables are
put below each other from row 1 on as long as they end before the limit; otherwise a new group of columns
is opened to the right of the widest table of the last group. -/
def hPlacements (maxRows : Nat) : Nat → Nat → Nat → List (LookupTableDef F) →
    List (Nat × Nat × LookupTableDef F)
  | _, _, _, [] => []
  | row, col, width, d :: ds =>
    if row + d.rowsNumber < maxRows then
      (row, col, d) :: hPlacements maxRows (row + d.rowsNumber) col (max width d.columnsNumber) ds
    else
      (1, col + width, d) :: hPlacements maxRows (1 + d.rowsNumber) (col + width) d.columnsNumber ds

/-- What a caller has to provide so that the code keeps its promise: besides what `pack_lookup_tables`
needs, all tables have fewer rows than the limit, no two subtables of a table have the same rows, and the
columns handed over suffice. -/
structure HPackInput (ids : String → Option Nat) (numIds : Nat) (tables : List (LookupTableDef F))
    (sel0 : Nat) (t : PlonkTable F) (constIds : List Nat) (maxRows : Nat) : Prop
    extends PackInput ids numIds tables sel0 t constIds where
  width : ∀ d ∈ tables, d.columnsNumber = d.table.length
  below : ∀ d ∈ tables, d.rowsNumber < maxRows
  ranges : ∀ d ∈ tables, (d.subtables.map fun s => (s.first, s.last)).Nodup
  room : ∀ row col d, (row, col, d) ∈ hPlacements maxRows 1 0 0 tables →
    col + d.table.length ≤ constIds.length

end Crypto3Zk
