import Verif.Model.CycleRepresentation

/-!
# Which variables name a column of a table
-/

namespace Crypto3Zk

/-- the variable denotes a column of the table. -/
def TableDesc.HasColumn (d : TableDesc) (v : PlonkVar) : Prop :=
  match v.type with
  | .witness => v.index < d.witness
  | .publicInput => v.index < d.publicInput
  | .constant => v.index < d.constant
  | .selector => v.index < d.selector
  | .uninitialized => False

end Crypto3Zk
