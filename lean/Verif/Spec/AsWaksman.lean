import Verif.Model.AsWaksman

/-! # Specification vocabulary for C25 -/

namespace Crypto3Zk

/-- The setting of the switch of row `x` in a column: it is stored under one of the two rows of the switch, that is
under `x` or under `x - 1`, but not under both. -/
def switchSetting (column : Nat → Option Bool) (x : Nat) : Option Bool :=
  match column x, (if x = 0 then none else column (x - 1)) with
  | some s, none => some s
  | none, some s => some s
  | _, _ => none

/-- Follow a packet through a layered network. In each column the straight wire in front of its row, or the straight
or the cross edge of the switch in front of its row, takes it to the next column. -/
def followWaksman : AsWaksmanTopology → AsWaksmanRouting → Nat → Option Nat
  | [], [], x => some x
  | edges :: topology, switches :: routing, x => do
    let e ← edges[x]?
    if e.1 = e.2 then followWaksman topology routing e.1
    else do
      let s ← switchSetting switches x
      followWaksman topology routing (if s then e.2 else e.1)
  | _, _, _ => none

/-- the settings carry packet `i` to `p(i)`, for every packet -/
def WaksmanCarriesAll (topology : AsWaksmanTopology) (routing : AsWaksmanRouting) (p : IntPerm) : Prop :=
  ∀ i < p.size, ∃ v, p.get i = some v ∧ followWaksman topology routing i = some v

/-- a column of wires and switches: the straight edges lead to different rows, and a row whose edges differ shares a
switch with the row above or below it, which has the same edges in the other order. -/
structure SwitchColumn (n : Nat) (edges : List (Nat × Nat)) : Prop where
  height : edges.length = n
  inRows : ∀ e ∈ edges, e.1 < n ∧ e.2 < n
  straight : (edges.map Prod.fst).Nodup
  switch : ∀ x e, edges[x]? = some e → e.1 = e.2 ∨ edges[x + 1]? = some (e.2, e.1) ∨
    (0 < x ∧ edges[x - 1]? = some (e.2, e.1))

/-- settings for `n` rows in every column of the topology -/
def FitsWaksman (n : Nat) (topology : AsWaksmanTopology) (routing : AsWaksmanRouting) : Prop :=
  routing.length = topology.length ∧ ∀ column ∈ routing, ∀ x, n ≤ x → column x = none

/-- the two rows of a switch find the same setting -/
def WaksmanSwitchesAgree (topology : AsWaksmanTopology) (routing : AsWaksmanRouting) : Prop :=
  ∀ (c : Nat) (edges : List (Nat × Nat)) (switches : Nat → Option Bool), topology[c]? = some edges →
    routing[c]? = some switches → ∀ x y e, edges[x]? = some e → e.1 ≠ e.2 → edges[y]? = some (e.2, e.1) →
    switchSetting switches x = switchSetting switches y

end Crypto3Zk
