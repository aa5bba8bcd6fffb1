import Verif.Model.LookupTables

/-!
# Specification vocabulary for C30
-/

namespace Crypto3Zk

variable {F : Type}

/-- The rows a lookup table's tag column switches on. -/
def selectedRows [One F] [DecidableEq F] (t : PlonkTable F) (tag : Nat) : List Nat :=
  let sel := t.selectors.getD tag []
  (List.range sel.length).filter fun r => sel[r]? = some 1

/-- The tuple a lookup option offers in a row; `none` if a cell does not exist. -/
def tupleAt (t : PlonkTable F) (opt : List PlonkVar) (row : Nat) : Option (List F) :=
  opt.mapM fun v => do
    let cols ← t.columnsOf v.type
    let c ← cols[v.index]?
    c[row]?

/-- The tuples a lookup table offers, in order, option by option. -/
def offered [One F] [DecidableEq F] (t : PlonkTable F) (lt : LookupTable) : List (Option (List F)) :=
  lt.options.flatMap fun o => (selectedRows t lt.tagIndex).map (tupleAt t o)

/-- The tuples a subtable declares: rows `first` to `last` of its columns. -/
def declared (t : LookupTableDef F) (st : SubtableDef) : List (Option (List F)) :=
  (List.range' st.first (st.last + 1 - st.first)).map fun r =>
    st.columns.mapM fun c => do (← t.table[c]?)[r]?

/-- What a caller has to provide. -/
structure PackInput (ids : String → Option Nat) (numIds : Nat) (tables : List (LookupTableDef F))
    (sel0 : Nat) (t : PlonkTable F) (constIds : List Nat) : Prop where
  /-- the constant columns handed over are distinct, exist, and are empty -/
  constNodup : constIds.Nodup
  constEmpty : ∀ i ∈ constIds, t.constants[i]? = some []
  /-- tables have a column, are rectangular and fit the columns -/
  tableNonempty : ∀ d ∈ tables, d.table ≠ []
  tableRect : ∀ d ∈ tables, ∀ c ∈ d.table, c.length = d.rowsNumber
  tableFits : ∀ d ∈ tables, d.table.length ≤ constIds.length
  /-- subtables lie inside their table -/
  subColumns : ∀ d ∈ tables, ∀ s ∈ d.subtables, ∀ c ∈ s.columns, c < d.table.length
  subRows : ∀ d ∈ tables, ∀ s ∈ d.subtables, s.last < d.rowsNumber
  /-- every subtable has its own identifier between 1 and `numIds` -/
  idRange : ∀ d ∈ tables, ∀ s ∈ d.subtables, ∃ i, ids (d.name ++ "/" ++ s.name) = some i ∧
    0 < i ∧ i ≤ numIds
  idNodup : (tables.flatMap fun d => d.subtables.map fun s => ids (d.name ++ "/" ++ s.name)).Nodup
  /-- there are enough empty selector columns from the first free one on -/
  selEmpty : ∀ j < (tables.flatMap (·.subtables)).length, t.selectors[sel0 + j]? = some []

/-- The first row of every table: one after the other, from row 1. -/
def placements : Nat → List (LookupTableDef F) → List (Nat × LookupTableDef F)
  | _, [] => []
  | start, d :: ds => (start, d) :: placements (start + d.rowsNumber) ds

end Crypto3Zk
