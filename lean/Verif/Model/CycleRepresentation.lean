import Verif.Model.PlonkVariable

/-!
# Model of `cycle_representation` (placeholder/preprocessor.hpp:286-361), of
`plonk_copy_constraint` (plonk/copy_constraint.hpp) and of the column numbering of
`plonk_table_description` (plonk/table_description.hpp)

A `std::map` is a partial function. Reading a missing key with `operator[]` would create a bogus
entry; the model turns it into `none`, and C14 proves it never happens. The `do ... while` loop has
a fuel argument; running out of fuel is `none`, and C14 proves it does not happen either.
-/

namespace Crypto3Zk



/-- insert or overwrite `m[k] = v` (the writes to the maps of preprocessor.hpp:286-361). -/
def mapPut {K : Type} {V : Type} [DecidableEq K] (m : K → Option V) (k : K) (v : V) : K → Option V :=
  fun k' => if k' = k then some v else m k'

/-- the three maps (preprocessor.hpp:290-292). `_sizes` holds `uint32` values. -/
structure CycleRep (K : Type) where
  mapping : K → Option K
  aux : K → Option K
  sizes : K → Option Nat

namespace CycleRep

variable {K : Type} [DecidableEq K]

/-- `_mapping[k] = k; _aux[k] = k; _sizes[k] = 1` (preprocessor.hpp:303-305, 324-326, 330-332). -/
def addKey (s : CycleRep K) (k : K) : CycleRep K :=
  ⟨mapPut s.mapping k k, mapPut s.aux k k, mapPut s.sizes k 1⟩

/-- `if (!_mapping.count(k)) ...` (preprocessor.hpp:323-333). -/
def ensureKey (s : CycleRep K) (k : K) : CycleRep K :=
  match s.mapping k with
  | some _ => s
  | none => s.addKey k

/-- the relabelling loop (preprocessor.hpp:347-350). -/
def relabel (mapping : K → Option K) (left exit : K) : Nat → (K → Option K) → K →
    Option (K → Option K)
  | 0, _, _ => none
  | fuel + 1, aux, z => do
    let al ← aux left
    let aux := mapPut aux z al
    let z' ← mapping z
    if z' = exit then some aux else relabel mapping left exit fuel aux z'

/-- the merge of two cycles (preprocessor.hpp:342-354), after `left` and `right` are chosen. -/
def merge (fuel : Nat) (s : CycleRep K) (left right : K) : Option (CycleRep K) := do
  let al ← s.aux left
  let ar ← s.aux right
  let sl ← s.sizes al
  let sr ← s.sizes ar
  let sizes := mapPut s.sizes al ((sl + sr) % 2 ^ 32)
  let aux ← relabel s.mapping left ar fuel s.aux ar
  let tmp ← s.mapping left
  let mr ← s.mapping right
  some ⟨mapPut (mapPut s.mapping left mr) right tmp, aux, sizes⟩

/-- `apply_copy_constraint` (preprocessor.hpp:321-356). -/
def applyCopy (fuel : Nat) (s : CycleRep K) (x y : K) : Option (CycleRep K) := do
  let s := (s.ensureKey x).ensureKey y
  let ax ← s.aux x
  let ay ← s.aux y
  if ax = ay then some s
  else
    let sx ← s.sizes ax
    let sy ← s.sizes ay
    if sx < sy then merge fuel s y x else merge fuel s x y

/-- the constructor (preprocessor.hpp:294-319): the initial grid, then every constraint. -/
def build (fuel : Nat) (grid : List K) (cs : List (K × K)) : Option (CycleRep K) :=
  cs.foldlM (fun s c => applyCopy fuel s c.1 c.2)
    (grid.foldl addKey ⟨fun _ => none, fun _ => none, fun _ => none⟩)

end CycleRep

/-- the column counts of `plonk_table_description` (table_description.hpp:40-47). -/
structure TableDesc where
  witness : Nat
  publicInput : Nat
  constant : Nat
  selector : Nat
  usableRows : Nat
  rows : Nat
deriving DecidableEq, Repr

namespace TableDesc

/-- `global_index` (table_description.hpp:68-85); `none` is `std::abort`. -/
def globalIndex (d : TableDesc) (v : PlonkVar) : Option Nat :=
  match v.type with
  | .witness => some v.index
  | .publicInput => some (d.witness + v.index)
  | .constant => some (d.witness + d.publicInput + v.index)
  | .selector => some (d.witness + d.publicInput + d.constant + v.index)
  | .uninitialized => none

/-- `table_width` (table_description.hpp:87-89). -/
def width (d : TableDesc) : Nat := d.witness + d.publicInput + d.constant + d.selector

end TableDesc

/-- `plonk_copy_constraint` after `initialize` (copy_constraint.hpp:54-66): `none` is a failed
assertion, the two variables are swapped when `first > second`. -/
def mkCopyConstraint (a b : PlonkVar) : Option (PlonkVar × PlonkVar) :=
  if a.relative = false ∧ b.relative = false then
    if PlonkVar.bgt a b then some (b, a) else some (a, b)
  else none

/-- `key_type(global_index(v), v.rotation)` (preprocessor.hpp:312-316): both components are
converted to `uint32`. -/
def cellKey (d : TableDesc) (v : PlonkVar) : Option (Fin (2 ^ 32) × Fin (2 ^ 32)) :=
  (d.globalIndex v).map fun i =>
    (⟨i % 2 ^ 32, Nat.mod_lt _ (by decide)⟩,
     ⟨(v.rotation % 2 ^ 32).toNat, by omega⟩)

/-- the initial grid (preprocessor.hpp:298-307). -/
def gridKeys (d : TableDesc) : List (Fin (2 ^ 32) × Fin (2 ^ 32)) :=
  (List.range (d.width - d.selector)).flatMap fun i =>
    (List.range d.rows).map fun j =>
      (⟨i % 2 ^ 32, Nat.mod_lt _ (by decide)⟩, ⟨j % 2 ^ 32, Nat.mod_lt _ (by decide)⟩)

/-- the whole constructor for a list of copy constraints (preprocessor.hpp:294-319). -/
def preprocessCopies (fuel : Nat) (d : TableDesc) (cs : List (PlonkVar × PlonkVar)) :
    Option (CycleRep (Fin (2 ^ 32) × Fin (2 ^ 32))) := do
  let keys ← cs.mapM fun c => do return (← cellKey d c.1, ← cellKey d c.2)
  CycleRep.build fuel (gridKeys d) keys

end Crypto3Zk
