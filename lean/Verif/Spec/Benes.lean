import Verif.Model.Benes

/-! # Specification vocabulary for C24 -/

namespace Crypto3Zk

/-- Follow a packet through a layered network: in each column the switch in front of its row sends it along the
straight edge or the cross edge of the topology. -/
def followSwitches : BenesTopology → BenesRouting → Nat → Option Nat
  | [], [], x => some x
  | edges :: topology, switches :: routing, x => do
    let e ← edges[x]?
    let s ← switches[x]?
    followSwitches topology routing (if s then e.2 else e.1)
  | _, _, _ => none

/-- the settings carry packet `i` to `p(i)`, for every packet -/
def CarriesAll (topology : BenesTopology) (routing : BenesRouting) (p : IntPerm) : Prop :=
  ∀ i < p.size, ∃ v, p.get i = some v ∧ followSwitches topology routing i = some v

/-- the vectors of settings have the sizes of the topology -/
def FitsTopology (topology : BenesTopology) (routing : BenesRouting) : Prop :=
  routing.map List.length = topology.map List.length

/-- the two rows that share a switch have the same setting for it -/
def SwitchesAgree (topology : BenesTopology) (routing : BenesRouting) : Prop :=
  ∀ column ∈ topology.zip routing, ∀ e ∈ column.1, column.2[e.1]? = column.2[e.2]?

end Crypto3Zk
