import Verif.Model.PlonkTable

/-!
# Model of `pack_lookup_tables` and `pack_lookup_tables_horizontal`
(plonk/lookup_table_definition.hpp)

A `std::map` keyed by table name is the list of its entries in iteration order. A failed
`BOOST_ASSERT`, an `out_of_range` exception and an out-of-range `operator[]` are all `none`.
`resize(n)` of a column appends default-constructed field elements; the model takes them to be zero.
-/

namespace Crypto3Zk

/-- `lookup_subtable_definition` with its key in `subtables` (lookup_table_definition.hpp:39-44, 52). -/
structure SubtableDef where
  name : String
  columns : List Nat
  first : Nat
  last : Nat
deriving DecidableEq, Repr

/-- `lookup_table_definition` (lookup_table_definition.hpp:47-69): `get_table()`,
`get_rows_number()`, `get_columns_number()`, `table_name` and `subtables`. -/
structure LookupTableDef (F : Type) where
  name : String
  table : List (List F)
  rowsNumber : Nat
  columnsNumber : Nat
  subtables : List SubtableDef
deriving DecidableEq, Repr

/-- `plonk_lookup_table` (plonk/lookup_table.hpp:42-66); the default constructor gives zeros. -/
structure LookupTable where
  columnsNumber : Nat := 0
  tagIndex : Nat := 0
  options : List (List PlonkVar) := []
deriving DecidableEq, Repr

variable {F : Type}

/-- `column[start + j] = values[j]` for every `j`; the column is long enough
(as in lookup_table_definition.hpp:149). -/
def writeAt (col : List F) (start : Nat) (values : List F) : List F :=
  col.take start ++ values ++ col.drop (start + values.length)

/-- the selector column of a subtable (lookup_table_definition.hpp:156-159, 308-312). `none` if the
loop writes outside the column. -/
def selectorColumn [Zero F] [One F] (size startRow first last : Nat) : Option (List F) :=
  if first ≤ last ∧ size ≤ startRow + last then none
  else some ((List.range size).map fun r =>
    if startRow + first ≤ r ∧ r ≤ startRow + last then 1 else 0)

/-- `assignment.fill_selector` and `fill_constant` (plonk/assignment.hpp:230-242) with their
assertions. -/
def fillColumn (cols : List (List F)) (index : Nat) (col : List F) : Option (List (List F)) := do
  let old ← cols[index]?
  if old.length = 0 then some (cols.set index col) else none

/-- the variables of a lookup option (lookup_table_definition.hpp:163-169). -/
def lookupOption (constIds : List Nat) (base : Nat) (columns : List Nat) : Option (List PlonkVar) :=
  columns.mapM fun c => (constIds[base + c]?).map fun i => ⟨i, 0, false, .constant⟩

/-- the variables of the packing loops (lookup_table_definition.hpp:117-136). -/
structure PackState (F : Type) where
  constCols : List (List F)
  selectors : List (List F)
  bpTables : List LookupTable
  curSel : Nat
  usableAfter : Nat
  startRow : Nat
deriving DecidableEq, Repr

/-- placing one column (lookup_table_definition.hpp:140-151). -/
def placeColumn [Zero F] (base : Nat) (s : PackState F) (ic : List F × Nat) : Option (PackState F) := do
  let c ← s.constCols[base + ic.2]?
  let e := s.startRow + ic.1.length
  let (c, u) := if c.length < e then (resize c e 0, if s.usableAfter < e then e else s.usableAfter)
    else (c, s.usableAfter)
  return { s with constCols := s.constCols.set (base + ic.2) (writeAt c s.startRow ic.1), usableAfter := u }

/-- `bp_lookup_tables[lookup_table_ids.at(name) - 1] = table` (lookup_table_definition.hpp:161-170);
an identifier of zero indexes out of range. -/
def declare (ids : String → Option Nat) (bpTables : List LookupTable) (name : String)
    (table : LookupTable) : Option (List LookupTable) := do
  let id ← ids name
  if id = 0 then none
  else if id - 1 < bpTables.length then some (bpTables.set (id - 1) table) else none

/-- one subtable (lookup_table_definition.hpp:153-176). -/
def packSubtable [Zero F] [One F] (ids : String → Option Nat) (constIds : List Nat)
    (tableName : String) (s : PackState F) (st : SubtableDef) : Option (PackState F) := do
  let sel ← selectorColumn s.usableAfter s.startRow st.first st.last
  let opt ← lookupOption constIds 0 st.columns
  let bp ← declare ids s.bpTables (tableName ++ "/" ++ st.name) ⟨st.columns.length, s.curSel, [opt]⟩
  let sels ← fillColumn s.selectors s.curSel sel
  return { s with bpTables := bp, selectors := sels, curSel := s.curSel + 1 }

/-- one table (lookup_table_definition.hpp:137-178). -/
def packTable [Zero F] [One F] (ids : String → Option Nat) (constIds : List Nat)
    (s : PackState F) (t : LookupTableDef F) : Option (PackState F) := do
  let s ← t.table.zipIdx.foldlM (placeColumn 0) s
  let s ← t.subtables.foldlM (packSubtable ids constIds t.name) s
  return { s with startRow := s.startRow + t.rowsNumber }

/-- `cur_selector_id` before the loop (lookup_table_definition.hpp:120-127) from the gates'
selector indices and the lookup gates' tag indices. -/
def firstSelector (gateSelectors lookupTags : List Nat) : Nat :=
  lookupTags.foldl max (gateSelectors.foldl max 0) + 1

/-- `assignment.fill_constant(constant_columns_ids[i], constant_columns[i])` for every `i`
(lookup_table_definition.hpp:182-184). -/
def fillConstants (constants : List (List F)) (l : List (Nat × List F)) : Option (List (List F)) :=
  l.foldlM (fun cs p => fillColumn cs p.1 p.2) constants

/-- `pack_lookup_tables` (lookup_table_definition.hpp:107-187). `numIds` is
`lookup_table_ids.size()`. Returns the lookup tables appended to the constraint system, the new
assignment table, and the new number of usable rows. -/
def packLookupTables [Zero F] [One F] (ids : String → Option Nat) (numIds : Nat)
    (tables : List (LookupTableDef F)) (gateSelectors lookupTags : List Nat)
    (t : PlonkTable F) (constIds : List Nat) (usable : Nat) :
    Option (List LookupTable × PlonkTable F × Nat) := do
  let s : PackState F := ⟨List.replicate constIds.length (List.replicate usable 0), t.selectors,
    List.replicate numIds {}, firstSelector gateSelectors lookupTags, usable, 1⟩
  let s ← tables.foldlM (packTable ids constIds) s
  let consts ← fillConstants t.constants (constIds.zip s.constCols)
  return (s.bpTables, { t with constants := consts, selectors := s.selectors }, s.usableAfter)

/-! ### `pack_lookup_tables_horizontal` -/

/-- the variables of the horizontal packing loop (lookup_table_definition.hpp:200-214). -/
structure HPackState (F : Type) where
  core : PackState F
  startCol : Nat
  prevCols : Nat
  fullSel : Nat
deriving DecidableEq, Repr

/-- the cells a table wider than the limit puts in option `i` of column `k`
(lookup_table_definition.hpp:240-250): `max_usable_rows - 1` rows per option, the last row of the
table repeated once the table is exhausted. -/
def bigColumn [Zero F] (col : List F) (rows maxRows i : Nat) : List F :=
  (0 : F) :: (List.range (maxRows - 1)).map fun r =>
    let cur := i * (maxRows - 1) + r
    if cur < rows then col.getD cur 0 else col.getD (rows - 1) 0

/-- a table with more rows than the limit (lookup_table_definition.hpp:219-268). Only tables whose
subtables span all rows are accepted (the assertion at 252-253). Simplification: a column that the
code resizes (226-228) but then leaves unused is left as it was. -/
def hPackBig [Zero F] [One F] (ids : String → Option Nat) (constIds : List Nat) (maxRows : Nat)
    (s : HPackState F) (t : LookupTableDef F) : Option (HPackState F) := do
  let n0 := t.rowsNumber / maxRows + 1
  let startCol := s.startCol + s.prevCols
  let prevCols := n0 * t.columnsNumber
  if s.core.constCols.length < startCol + prevCols then none else
  let (sels, fullSel, curSel) ←
    if s.fullSel = 0 then do
      let sels ← fillColumn s.core.selectors s.core.curSel ((0 : F) :: List.replicate (maxRows - 1) 1)
      pure (sels, s.core.curSel, s.core.curSel + 1)
    else pure (s.core.selectors, s.fullSel, s.core.curSel)
  let n := if t.rowsNumber % maxRows = 0 then n0 - 1 else n0
  let constCols := (List.range n).foldl (fun cc i =>
    (List.range t.columnsNumber).foldl (fun cc k =>
      cc.set (startCol + i * t.columnsNumber + k) (bigColumn (t.table.getD k []) t.rowsNumber maxRows i)) cc)
    s.core.constCols
  let bp ← t.subtables.foldlM (fun bp (st : SubtableDef) => do
    if st.first ≠ 0 ∨ st.last ≠ t.rowsNumber - 1 then none else
    let opts ← (List.range n).mapM fun i =>
      lookupOption constIds (startCol + i * t.columnsNumber) st.columns
    declare ids bp (t.name ++ "/" ++ st.name) ⟨st.columns.length, fullSel, opts⟩) s.core.bpTables
  return ⟨⟨constCols, sels, bp, curSel, maxRows, s.core.startRow⟩,
    startCol + n * t.columnsNumber, prevCols, fullSel⟩

/-- one subtable of a table that fits (lookup_table_definition.hpp:290-330). `selIds` is the map from
row ranges to the selectors already made for this table. When a range repeats, the option is built
from `constant_columns_ids[column_index]` without the start column (lines 298-303). -/
def hPackSubtable [Zero F] [One F] (ids : String → Option Nat) (constIds : List Nat) (base : Nat)
    (tableName : String) (sm : PackState F × List ((Nat × Nat) × Nat)) (st : SubtableDef) :
    Option (PackState F × List ((Nat × Nat) × Nat)) := do
  let (s, m) := sm
  match (m.find? fun e => e.1 = (st.first, st.last)) with
  | some e =>
    let opt ← lookupOption constIds 0 st.columns
    let bp ← declare ids s.bpTables (tableName ++ "/" ++ st.name) ⟨st.columns.length, e.2, [opt]⟩
    return ({ s with bpTables := bp }, m)
  | none =>
    let sel ← selectorColumn s.usableAfter s.startRow st.first st.last
    let opt ← lookupOption constIds base st.columns
    let bp ← declare ids s.bpTables (tableName ++ "/" ++ st.name) ⟨st.columns.length, s.curSel, [opt]⟩
    let sels ← fillColumn s.selectors s.curSel sel
    return ({ s with bpTables := bp, selectors := sels, curSel := s.curSel + 1 },
      m ++ [((st.first, st.last), s.curSel)])

/-- one table (lookup_table_definition.hpp:216-332). -/
def hPackTable [Zero F] [One F] (ids : String → Option Nat) (constIds : List Nat) (maxRows : Nat)
    (s : HPackState F) (t : LookupTableDef F) : Option (HPackState F) :=
  if t.rowsNumber > maxRows then hPackBig ids constIds maxRows s t
  else do
    let s : HPackState F :=
      if s.core.startRow + t.rowsNumber < maxRows then
        { s with prevCols := if s.prevCols < t.columnsNumber then t.columnsNumber else s.prevCols }
      else if t.rowsNumber < maxRows then
        ⟨{ s.core with startRow := 1 }, s.startCol + s.prevCols, t.columnsNumber, s.fullSel⟩
      else s
    let core ← t.table.zipIdx.foldlM (placeColumn s.startCol) s.core
    let (core, _) ← t.subtables.foldlM (hPackSubtable ids constIds s.startCol t.name) (core, [])
    return { s with core := { core with startRow := core.startRow + t.rowsNumber } }

/-- `pack_lookup_tables_horizontal` (lookup_table_definition.hpp:190-344). `tables` is in the order
of `get_tables_ordered_by_rows_number` (lines 73-86), sorted by row number. -/
def packLookupTablesHorizontal [Zero F] [One F] (ids : String → Option Nat) (numIds : Nat)
    (tables : List (LookupTableDef F)) (t : PlonkTable F) (constIds : List Nat)
    (curSel usable maxRows : Nat) : Option (List LookupTable × PlonkTable F × Nat) := do
  let s : PackState F := ⟨List.replicate constIds.length (List.replicate usable 0), t.selectors,
    List.replicate numIds {}, curSel, usable, 1⟩
  let s ← tables.foldlM (hPackTable ids constIds maxRows) ⟨s, 0, 0, 0⟩
  let consts ← fillConstants t.constants (constIds.zip s.core.constCols)
  return (s.core.bpTables, { t with constants := consts, selectors := s.core.selectors },
    s.core.usableAfter)

end Crypto3Zk
