import Verif.Model.IntegerPermutation
import Mathlib.Data.Nat.Log

/-!
# Model of `snark/routing/as_waksman.hpp`

`std::size_t` values are natural numbers; differences of rows are truncated at zero (the row is never above the
offset it is compared with, except where noted). A failed assertion and an access outside of a vector are
`none`. (Two functions are declared `const` outside of a class, lines 152 and 168; without that the header
compiles.)
-/

namespace Crypto3Zk

/-- `as_waksman_topology` (as_waksman.hpp:99) -/
abbrev AsWaksmanTopology := List (List (Nat × Nat))

/-- `as_waksman_routing` (as_waksman.hpp:118); a map is a partial function, the code only looks up, assigns and
erases keys. -/
abbrev AsWaksmanRouting := List (Nat → Option Bool)

/-- `as_waksman_top_height` (as_waksman.hpp:152-154) -/
def awTopHeight (numPackets : Nat) : Nat := numPackets / 2

/-- `as_waksman_switch_output` (as_waksman.hpp:167-172) -/
def awSwitchOutput (numPackets rowOffset row : Nat) (useTop : Bool) : Option Nat :=
  let relpos := row - rowOffset
  if relpos % 2 = 0 ∧ relpos + 1 < numPackets then
    some (rowOffset + relpos / 2 + (if useTop then 0 else awTopHeight numPackets))
  else none

/-- `as_waksman_switch_input` (as_waksman.hpp:180-184) -/
def awSwitchInput (numPackets rowOffset row : Nat) (useTop : Bool) : Option Nat :=
  awSwitchOutput numPackets rowOffset row useTop

/-- `as_waksman_num_columns` (as_waksman.hpp:186-188), with an exact logarithm -/
def awNumColumns (numPackets : Nat) : Nat := if numPackets > 1 then 2 * Nat.clog 2 numPackets - 1 else 0

/-- `neighbors[column][row].first = value` (as_waksman.hpp:223-237, 254-285) -/
def awSetFirst (neighbors : AsWaksmanTopology) (column row value : Nat) : Option AsWaksmanTopology := do
  let c ← neighbors[column]?
  let e ← c[row]?
  pure (neighbors.set column (c.set row (value, e.2)))

/-- `neighbors[column][row].second = value` (as_waksman.hpp:223-237, 254-285) -/
def awSetSecond (neighbors : AsWaksmanTopology) (column row value : Nat) : Option AsWaksmanTopology := do
  let c ← neighbors[column]?
  let e ← c[row]?
  pure (neighbors.set column (c.set row (e.1, value)))

/-- `neighbors[column][row].first` (as_waksman.hpp:284-285) -/
def awFirst (neighbors : AsWaksmanTopology) (column row : Nat) : Option Nat := do
  let c ← neighbors[column]?
  let e ← c[row]?
  pure e.1

/-- `dests[index] = value` (as_waksman.hpp:230, 259-260, 277, 309) -/
def awSetDest (dests : List Nat) (index value : Nat) : Option (List Nat) :=
  if index < dests.length then some (dests.set index value) else none

/-- one iteration of the loop that adds straight edges (as_waksman.hpp:222-226) -/
def awStraightRow (left right lo : Nat) (rhsDests : List Nat) (neighbors : AsWaksmanTopology) (packet : Nat) :
    Option AsWaksmanTopology := do
  let neighbors ← awSetSecond neighbors left packet packet
  let neighbors ← awSetFirst neighbors left packet packet
  let v ← rhsDests[packet - lo]?
  let neighbors ← awSetSecond neighbors right packet v
  awSetFirst neighbors right packet v

/-- one iteration of the loop that adds switches (as_waksman.hpp:252-267) -/
def awSwitchRow (left right lo size : Nat) (rhsDests : List Nat) (acc : AsWaksmanTopology × List Nat) (row : Nat) :
    Option (AsWaksmanTopology × List Nat) := do
  let (neighbors, newDests) := acc
  let top ← awSwitchOutput size lo row true
  let neighbors ← awSetSecond neighbors left (row + 1) top
  let neighbors ← awSetFirst neighbors left row top
  let bottom ← awSwitchOutput size lo row false
  let neighbors ← awSetFirst neighbors left (row + 1) bottom
  let neighbors ← awSetSecond neighbors left row bottom
  let inTop ← awSwitchInput size lo row true
  let newDests ← awSetDest newDests (inTop - lo) row
  let inBottom ← awSwitchInput size lo row false
  let newDests ← awSetDest newDests (inBottom - lo) (row + 1)
  let v ← rhsDests[row - lo]?
  let neighbors ← awSetSecond neighbors right (row + 1) v
  let neighbors ← awSetFirst neighbors right row v
  let v' ← rhsDests[row + 1 - lo]?
  let neighbors ← awSetFirst neighbors right (row + 1) v'
  let neighbors ← awSetSecond neighbors right row v'
  pure (neighbors, newDests)

/-- the special cases of the last wire or switch (as_waksman.hpp:269-286) -/
def awLastRow (left right lo hi size : Nat) (rhsDests : List Nat) (neighbors : AsWaksmanTopology)
    (newDests : List Nat) : Option (AsWaksmanTopology × List Nat) :=
  if size % 2 = 1 then do
    let neighbors ← awSetSecond neighbors left hi hi
    let neighbors ← awSetFirst neighbors left hi hi
    let v ← rhsDests[hi - lo]?
    let neighbors ← awSetSecond neighbors right hi v
    let neighbors ← awSetFirst neighbors right hi v
    let newDests ← awSetDest newDests (hi - lo) hi
    pure (neighbors, newDests)
  else do
    let v ← awFirst neighbors left (hi - 1)
    let neighbors ← awSetSecond neighbors left (hi - 1) v
    let v ← awFirst neighbors left hi
    let neighbors ← awSetSecond neighbors left hi v
    pure (neighbors, newDests)

/-- `construct_as_waksman_inner` (as_waksman.hpp:202-297); `none` as well if the recursion is deeper than `fuel`,
and where `right - 1` would wrap. -/
def awConstruct : Nat → Nat → Nat → Nat → Nat → List Nat → AsWaksmanTopology → Option AsWaksmanTopology
  | 0, _, _, _, _, _, _ => none
  | fuel + 1, left, right, lo, hi, rhsDests, neighbors =>
    if left > right then some neighbors else do
      let size := hi - lo + 1
      guard (rhsDests.length = size)
      let width := awNumColumns size
      guard (width ≤ right - left + 1)
      if right - left + 1 > width then
        let neighbors ← (List.range' lo size).foldlM (awStraightRow left right lo rhsDests) neighbors
        guard (0 < right)
        awConstruct fuel (left + 1) (right - 1) lo hi (List.range' lo size) neighbors
      else if size = 2 then do
        let d0 ← rhsDests[0]?
        let d1 ← rhsDests[1]?
        let neighbors ← awSetSecond neighbors left hi d0
        let neighbors ← awSetFirst neighbors left lo d0
        let neighbors ← awSetFirst neighbors left hi d1
        awSetSecond neighbors left lo d1
      else do
        let bound := if size % 2 = 1 then hi else hi + 1
        let rows := (List.range ((bound - lo + 1) / 2)).map fun i => lo + 2 * i
        let (neighbors, newDests) ← rows.foldlM (awSwitchRow left right lo size rhsDests)
          (neighbors, List.replicate size (2 ^ 64 - 1))
        let (neighbors, newDests) ← awLastRow left right lo hi size rhsDests neighbors newDests
        let d := awTopHeight size
        guard (0 < right)
        let neighbors ← awConstruct fuel (left + 1) (right - 1) lo (lo + d - 1) (newDests.take d) neighbors
        awConstruct fuel (left + 1) (right - 1) (lo + d) hi (newDests.drop d) neighbors

/-- `generate_as_waksman_topology` (as_waksman.hpp:299-315) -/
def awTopology (numPackets : Nat) : Option AsWaksmanTopology := do
  guard (numPackets > 1)
  let width := awNumColumns numPackets
  awConstruct (width + 1) 0 (width - 1) 0 (numPackets - 1) (List.range numPackets)
    (List.replicate width (List.replicate numPackets (2 ^ 64 - 1, 2 ^ 64 - 1)))

/-- `as_waksman_get_canonical_row_idx` (as_waksman.hpp:324-327) -/
def awCanonical (rowOffset row : Nat) : Nat := ((row - rowOffset) &&& (2 ^ 64 - 1 - 1)) + rowOffset

/-- `as_waksman_get_switch_setting_from_top_bottom_decision` (as_waksman.hpp:339-344) -/
def awSetting (rowOffset packet : Nat) (useTop : Bool) : Bool := (packet == awCanonical rowOffset packet) ^^ useTop

/-- `as_waksman_get_top_bottom_decision_from_switch_setting` (as_waksman.hpp:356-361) -/
def awDecision (rowOffset packet : Nat) (setting : Bool) : Bool := (awCanonical rowOffset packet == packet) ^^ setting

/-- `as_waksman_other_output_position`, `as_waksman_other_input_position` (as_waksman.hpp:367-379) -/
def awOther (rowOffset packet : Nat) : Nat :=
  (1 - (packet - awCanonical rowOffset packet)) + awCanonical rowOffset packet

/-- `routing[column][key] = value` (as_waksman.hpp:424, 468, 484, 499, 524, 553) -/
def awAssign (routing : AsWaksmanRouting) (column key : Nat) (value : Bool) : Option AsWaksmanRouting := do
  let m ← routing[column]?
  pure (routing.set column fun k => if k = key then some value else m k)

/-- `routing[column].erase(key)` (as_waksman.hpp:590) -/
def awErase (routing : AsWaksmanRouting) (column key : Nat) : Option AsWaksmanRouting := do
  let m ← routing[column]?
  pure (routing.set column fun k => if k = key then none else m k)

/-- the variables of the loop of `as_waksman_route_inner` (as_waksman.hpp:433-441) -/
structure AwState where
  lhsRouted : List Bool
  toRoute : Nat
  routeLeft : Bool
  maxUnrouted : Nat
  newPermutation : IntPerm
  newPermutationInv : IntPerm
  routing : AsWaksmanRouting

/-- `lhs_routed[index] = true` (as_waksman.hpp:477, 513, 531, 561) -/
def awMark (routed : List Bool) (index : Nat) : Option (List Bool) :=
  if index < routed.length then some (routed.set index true) else none

/-- the state before the loop (as_waksman.hpp:433-488) -/
def awInit (left right lo hi size : Nat) (permutation : IntPerm) (routing : AsWaksmanRouting) : Option AwState := do
  let np ← IntPerm.ofRange lo hi
  let npi ← IntPerm.ofRange lo hi
  let routed := List.replicate size false
  if size % 2 = 1 then do
    let v ← permutation.get hi
    if v = hi then do
      let np ← np.set hi hi
      let npi ← npi.set hi hi
      let routed ← awMark routed (hi - lo)
      pure ⟨routed, hi - 1, true, hi - 1, np, npi, routing⟩
    else do
      let rhsSwitch := awCanonical lo v
      let routing ← awAssign routing right rhsSwitch (awSetting lo v false)
      let tprime ← awSwitchInput size lo rhsSwitch false
      let np ← np.set hi tprime
      let npi ← npi.set tprime hi
      let routed ← awMark routed (hi - lo)
      pure ⟨routed, awOther lo v, false, hi - 1, np, npi, routing⟩
  else do
    let routing ← awAssign routing left (hi - 1) false
    pure ⟨routed, hi, true, hi, np, npi, routing⟩

/-- `if (find(key) == end()) routing[column][key] = false` (as_waksman.hpp:498-500) -/
def awDefault (routing : AsWaksmanRouting) (column key : Nat) : Option AsWaksmanRouting := do
  let m ← routing[column]?
  match m key with
  | none => awAssign routing column key false
  | some _ => pure routing

/-- routing from the left (as_waksman.hpp:496-534) -/
def awForward (left right lo hi size : Nat) (permutation : IntPerm) (st : AwState) : Option AwState := do
  let w := st.toRoute
  let lhsSwitch := awCanonical lo w
  let routing ← awDefault st.routing left lhsSwitch
  let m ← routing[left]?
  let setting ← m lhsSwitch
  let useTop := awDecision lo w setting
  let t ← awSwitchOutput size lo lhsSwitch useTop
  let v ← permutation.get w
  if v = hi then do
    let np ← st.newPermutation.set t hi
    let npi ← st.newPermutationInv.set hi t
    let routed ← awMark st.lhsRouted (w - lo)
    pure ⟨routed, st.maxUnrouted, true, st.maxUnrouted, np, npi, routing⟩
  else do
    let rhsSwitch := awCanonical lo v
    let mr ← routing[right]?
    guard (mr rhsSwitch = none)
    let routing ← awAssign routing right rhsSwitch (awSetting lo v useTop)
    let tprime ← awSwitchInput size lo rhsSwitch useTop
    let np ← st.newPermutation.set t tprime
    let npi ← st.newPermutationInv.set tprime t
    let routed ← awMark st.lhsRouted (w - lo)
    pure ⟨routed, awOther lo v, false, st.maxUnrouted, np, npi, routing⟩

/-- routing back from the right (as_waksman.hpp:536-564) -/
def awBackward (left right lo size : Nat) (permutationInv : IntPerm) (st : AwState) : Option AwState := do
  let z := st.toRoute
  let rhsSwitch := awCanonical lo z
  let y ← permutationInv.get z
  let lhsSwitch := awCanonical lo y
  let mr ← st.routing[right]?
  let rhsSetting ← mr rhsSwitch
  let useTop := awDecision lo z rhsSetting
  let lhsSetting := awSetting lo y useTop
  let ml ← st.routing[left]?
  guard (ml lhsSwitch = none ∨ ml lhsSwitch = some lhsSetting)
  let routing ← awAssign st.routing left lhsSwitch lhsSetting
  let t ← awSwitchInput size lo rhsSwitch useTop
  let tprime ← awSwitchOutput size lo lhsSwitch useTop
  let np ← st.newPermutation.set tprime t
  let npi ← st.newPermutationInv.set t tprime
  let routed ← awMark st.lhsRouted (y - lo)
  pure ⟨routed, awOther lo y, true, st.maxUnrouted, np, npi, routing⟩

/-- `while (max_unrouted > lo && lhs_routed[max_unrouted - lo]) --max_unrouted` (as_waksman.hpp:572-574) -/
def awSearch (routed : List Bool) (lo : Nat) : Nat → Option Nat
  | 0 => some 0
  | m + 1 =>
    if m + 1 > lo then do
      let r ← routed[m + 1 - lo]?
      if r then awSearch routed lo m else some (m + 1)
    else some (m + 1)

/-- the end of the body of the loop (as_waksman.hpp:566-585); the flag tells whether the loop goes on. -/
def awContinue (lo : Nat) (st : AwState) : Option (AwState × Bool) :=
  if st.routeLeft = false then some (st, true) else do
    let r ← st.lhsRouted[st.toRoute - lo]?
    if r = false then pure (st, true) else do
      let m ← awSearch st.lhsRouted lo st.maxUnrouted
      if m < lo then pure ({ st with maxUnrouted := m }, false) else do
        let r0 ← st.lhsRouted[0]?
        if m = lo ∧ r0 = true then pure ({ st with maxUnrouted := m }, false)
        else pure ({ st with maxUnrouted := m, toRoute := m, routeLeft := true }, true)

/-- the loop `while (true)` (as_waksman.hpp:490-586); `none` as well if it runs longer than `fuel`. -/
def awLoop (left right lo hi size : Nat) (permutation permutationInv : IntPerm) : Nat → AwState → Option AwState
  | 0, _ => none
  | fuel + 1, st => do
    let st ← if st.routeLeft then awForward left right lo hi size permutation st
      else awBackward left right lo size permutationInv st
    let (st, continue_) ← awContinue lo st
    if continue_ then awLoop left right lo hi size permutation permutationInv fuel st else pure st

/-- `as_waksman_route_inner` (as_waksman.hpp:394-610); `none` as well if the recursion is deeper than `fuel`, and
where `right - 1` would wrap. The loop is given two iterations per packet. -/
def awRoute : Nat → Nat → Nat → Nat → Nat → IntPerm → IntPerm → AsWaksmanRouting → Option AsWaksmanRouting
  | 0, _, _, _, _, _, _, _ => none
  | fuel + 1, left, right, lo, hi, permutation, permutationInv, routing =>
    if left > right then some routing else do
      let size := hi - lo + 1
      let width := awNumColumns size
      guard (width ≤ right - left + 1)
      if right - left + 1 > width then do
        guard (0 < right)
        awRoute fuel (left + 1) (right - 1) lo hi permutation permutationInv routing
      else if size = 2 then do
        let p0 ← permutation.get lo
        let p1 ← permutation.get (lo + 1)
        guard (p0 = lo ∨ p0 = lo + 1)
        guard (p1 = lo ∨ p1 = lo + 1)
        guard (p0 ≠ p1)
        awAssign routing left lo (p0 != lo)
      else do
        let st ← awInit left right lo hi size permutation routing
        let st ← awLoop left right lo hi size permutation permutationInv (2 * size) st
        let routing ← if size % 2 = 0 then awErase st.routing left (hi - 1) else pure st.routing
        let d := awTopHeight size
        let upper ← st.newPermutation.slice lo (lo + d - 1)
        let lower ← st.newPermutation.slice (lo + d) hi
        let invUpper ← st.newPermutationInv.slice lo (lo + d - 1)
        let invLower ← st.newPermutationInv.slice (lo + d) hi
        guard (0 < right)
        let routing ← awRoute fuel (left + 1) (right - 1) lo (lo + d - 1) upper invUpper routing
        awRoute fuel (left + 1) (right - 1) (lo + d) hi lower invLower routing

/-- `get_as_waksman_routing` (as_waksman.hpp:612-620). Up to one packet there are no columns, `width - 1` wraps and
the code goes on outside of its vectors: `none`. -/
def getAsWaksmanRouting (permutation : IntPerm) : Option AsWaksmanRouting := do
  let numPackets := permutation.size
  let width := awNumColumns numPackets
  guard (0 < width)
  let inv ← permutation.inverse
  awRoute (width + 1) 0 (width - 1) 0 (numPackets - 1) permutation inv (List.replicate width fun _ => none)

/-- where a packet goes in one column (as_waksman.hpp:633-645); `packet_idx - 1` wraps for the first packet. -/
def awRouted (neighbors : AsWaksmanTopology) (routing : AsWaksmanRouting) (column packet : Nat) : Option Nat := do
  let c ← neighbors[column]?
  let e ← c[packet]?
  if e.1 = e.2 then pure e.1 else do
    let m ← routing[column]?
    let setting ← match m packet, m ((packet + (2 ^ 64 - 1)) % 2 ^ 64) with
      | some s, none => some s
      | none, some s => some s
      | _, _ => none
    pure (if setting then e.2 else e.1)

/-- one column of `valid_as_waksman_routing` (as_waksman.hpp:631-648) -/
def awColumn (neighbors : AsWaksmanTopology) (routing : AsWaksmanRouting) (numPackets : Nat) (curperm : IntPerm)
    (column : Nat) : Option IntPerm :=
  (List.range numPackets).foldlM (fun nextperm packet => do
    let r ← awRouted neighbors routing column packet
    let v ← curperm.get packet
    nextperm.set r v) (IntPerm.ofSize numPackets)

/-- `valid_as_waksman_routing` (as_waksman.hpp:622-654) -/
def validAsWaksmanRouting (permutation : IntPerm) (routing : AsWaksmanRouting) : Option Bool := do
  let numPackets := permutation.size
  let width := awNumColumns numPackets
  let neighbors ← awTopology numPackets
  let curperm ← (List.range width).foldlM (awColumn neighbors routing numPackets) (IntPerm.ofSize numPackets)
  let inv ← permutation.inverse
  pure (decide (curperm = inv))

end Crypto3Zk
