import Verif.Model.IntegerPermutation
import Mathlib.Data.Nat.Log

/-!
# Model of `snark/routing/benes.hpp`

`std::size_t` values are natural numbers below `2^64`. A failed assertion and an access outside of a vector
are `none`. The assertion of line 250 names a member function that does not exist (`inversed`); it is read
as `inverse`.
-/

namespace Crypto3Zk

/-- `benes_topology` (benes.hpp:62) -/
abbrev BenesTopology := List (List (Nat × Nat))

/-- `benes_routing` (benes.hpp:72) -/
abbrev BenesRouting := List (List Bool)

/-- `benes_cross_edge_mask` (benes.hpp:124-127) -/
def benesMask (dimension column : Nat) : Nat :=
  if column < dimension then 1 <<< (dimension - 1 - column) else 1 <<< (column - dimension)

/-- `benes_lhs_packet_destination` (benes.hpp:144-148); `~mask` is the complement in 64 bits. -/
def benesLhsDestination (dimension column row : Nat) (useTop : Bool) : Nat :=
  let mask := benesMask dimension column
  if useTop then row &&& (2 ^ 64 - 1 - mask) else row ||| mask

/-- `benes_rhs_packet_source` (benes.hpp:165-168) -/
def benesRhsSource (dimension column row : Nat) (useTop : Bool) : Nat :=
  benesLhsDestination dimension (column - 1) row useTop

/-- `benes_get_switch_setting_from_subnetwork` (benes.hpp:175-178) -/
def benesSetting (dimension column row : Nat) (useTop : Bool) : Bool :=
  row != benesLhsDestination dimension column row useTop

/-- `benes_packet_cross_destination` (benes.hpp:186-190) -/
def benesCrossDestination (dimension column row : Nat) : Nat := row ^^^ benesMask dimension column

/-- `benes_packet_cross_source` (benes.hpp:198-201) -/
def benesCrossSource (dimension column row : Nat) : Nat := benesCrossDestination dimension (column - 1) row

/-- `std::ceil(std::log2(num_packets))` and the assertion (benes.hpp:204-205). The logarithm is exact;
that of `double` is, for the powers of two that pass. -/
def benesDimension (numPackets : Nat) : Option Nat :=
  if numPackets = 2 ^ Nat.clog 2 numPackets then some (Nat.clog 2 numPackets) else none

/-- `benes_num_columns` (benes.hpp:203-208) -/
def benesNumColumns (numPackets : Nat) : Option Nat := do
  let dimension ← benesDimension numPackets
  pure (2 * dimension)

/-- `generate_benes_topology` (benes.hpp:210-227) -/
def benesTopology (numPackets : Nat) : Option BenesTopology := do
  let numColumns ← benesNumColumns numPackets
  let dimension ← benesDimension numPackets
  pure ((List.range numColumns).map fun column => (List.range numPackets).map fun packet =>
    (packet, benesCrossDestination dimension column packet))

/-- `routing[column][row] = value` (benes.hpp:275, 282, 294, 300) -/
def benesWrite (routing : BenesRouting) (column row : Nat) (value : Bool) : Option BenesRouting := do
  let c ← routing[column]?
  if row < c.length then some (routing.set column (c.set row value)) else none

/-- the variables of the loop of `route_benes_inner` (benes.hpp:256-262) -/
structure BenesState where
  lhsRouted : List Bool
  w : Nat
  lastUnrouted : Nat
  newPermutation : IntPerm
  newPermutationInv : IntPerm
  routing : BenesRouting

/-- `while (last_unrouted < offset + size && lhs_routed[last_unrouted - offset]) ++last_unrouted` (benes.hpp:311-314) -/
def benesAdvance (lhsRouted : List Bool) (offset lastUnrouted : Nat) : Nat :=
  lastUnrouted + ((lhsRouted.drop (lastUnrouted - offset)).takeWhile id).length

/-- the body of the loop (benes.hpp:265-323); the flag tells whether the loop goes on. -/
def benesBody (dimension : Nat) (permutation permutationInv : IntPerm) (start end_ offset size : Nat)
    (st : BenesState) : Option (BenesState × Bool) := do
  let w := st.w
  let wprime ← permutation.get w
  let routing ← benesWrite st.routing start w (benesSetting dimension start w true)
  let np ← st.newPermutation.set (benesLhsDestination dimension start w true)
    (benesRhsSource dimension end_ wprime true)
  guard (offset ≤ w ∧ w - offset < st.lhsRouted.length)
  let routed := st.lhsRouted.set (w - offset) true
  let routing ← benesWrite routing (end_ - 1) (benesRhsSource dimension end_ wprime true)
    (benesSetting dimension (end_ - 1) wprime true)
  let npi ← st.newPermutationInv.set (benesRhsSource dimension end_ wprime true)
    (benesLhsDestination dimension start w true)
  let vprime := benesCrossSource dimension end_ wprime
  let v ← permutationInv.get vprime
  guard (offset ≤ v)
  let r ← routed[v - offset]?
  guard (r = false)
  let routing ← benesWrite routing (end_ - 1) (benesRhsSource dimension end_ vprime false)
    (benesSetting dimension (end_ - 1) vprime false)
  let npi ← npi.set (benesRhsSource dimension end_ vprime false) (benesLhsDestination dimension start v false)
  let routing ← benesWrite routing start v (benesSetting dimension start v false)
  let np ← np.set (benesLhsDestination dimension start v false) (benesRhsSource dimension end_ vprime false)
  let routed := routed.set (v - offset) true
  let other := benesCrossDestination dimension start v
  guard (offset ≤ other)
  let r ← routed[other - offset]?
  if r = false then
    pure (⟨routed, other, st.lastUnrouted, np, npi, routing⟩, true)
  else
    let last := benesAdvance routed offset st.lastUnrouted
    if last = offset + size then pure (⟨routed, w, last, np, npi, routing⟩, false)
    else pure (⟨routed, last, last, np, npi, routing⟩, true)

/-- the loop `while (true)` (benes.hpp:264-324); `none` as well if it runs longer than `fuel`. -/
def benesLoop (dimension : Nat) (permutation permutationInv : IntPerm) (start end_ offset size : Nat) :
    Nat → BenesState → Option BenesState
  | 0, _ => none
  | fuel + 1, st => do
    let (st, continue_) ← benesBody dimension permutation permutationInv start end_ offset size st
    if continue_ then benesLoop dimension permutation permutationInv start end_ offset size fuel st
    else pure st

/-- `route_benes_inner` (benes.hpp:240-342); `none` as well if the recursion is deeper than `fuel`. The loop is
given as many iterations as there are packets. -/
def benesInner (dimension : Nat) : Nat → IntPerm → IntPerm → Nat → Nat → Nat → Nat → BenesRouting →
    Option BenesRouting
  | 0, _, _, _, _, _, _, _ => none
  | fuel + 1, permutation, permutationInv, start, end_, offset, size, routing => do
    guard (permutation.size = size)
    guard (permutation.isValid = true)
    let inv ← permutation.inverse
    guard (inv = permutationInv)
    if start = end_ then pure routing else
      let np ← IntPerm.ofRange offset (offset + size - 1)
      let npi ← IntPerm.ofRange offset (offset + size - 1)
      let st ← benesLoop dimension permutation permutationInv start end_ offset size size
        ⟨List.replicate size false, offset, offset, np, npi, routing⟩
      let upper ← st.newPermutation.slice offset (offset + size / 2 - 1)
      let lower ← st.newPermutation.slice (offset + size / 2) (offset + size - 1)
      let invUpper ← st.newPermutationInv.slice offset (offset + size / 2 - 1)
      let invLower ← st.newPermutationInv.slice (offset + size / 2) (offset + size - 1)
      let routing ← benesInner dimension fuel upper invUpper (start + 1) (end_ - 1) offset (size / 2) st.routing
      benesInner dimension fuel lower invLower (start + 1) (end_ - 1) (offset + size / 2) (size / 2) routing

/-- `get_benes_routing` (benes.hpp:344-355) -/
def getBenesRouting (permutation : IntPerm) : Option BenesRouting := do
  let numPackets := permutation.size
  let numColumns ← benesNumColumns numPackets
  let dimension ← benesDimension numPackets
  let inv ← permutation.inverse
  benesInner dimension (dimension + 1) permutation inv 0 numColumns 0 numPackets
    (List.replicate numColumns (List.replicate numPackets false))

/-- one column of `route_by_benes` (benes.hpp:368-374) -/
def benesRouteColumn {T : Type} [Inhabited T] (mask : Nat) (switches : List Bool) (cur : List T) : Option (List T) :=
  (List.range cur.length).foldlM (fun next packet => do
    let s ← switches[packet]?
    let x ← cur[packet]?
    let dst := if s then packet ^^^ mask else packet
    if dst < next.length then some (next.set dst x) else none) (List.replicate cur.length default)

/-- `route_by_benes` (benes.hpp:358-378): the packets in front of each column and at the end. -/
def routeByBenes {T : Type} [Inhabited T] (routing : BenesRouting) (start : List T) : Option (List (List T)) := do
  let numColumns ← benesNumColumns start.length
  let dimension ← benesDimension start.length
  let out ← (List.range numColumns).foldlM (fun (acc : List (List T) × List T) column => do
    let switches ← routing[column]?
    let next ← benesRouteColumn (benesMask dimension column) switches acc.2
    pure (acc.1 ++ [next], next)) ([start], start)
  pure out.1

/-- the loop of `valid_benes_routing` (benes.hpp:391-395) over the packets in the list -/
def benesCheck (permutation : IntPerm) (last : List Nat) : List Nat → Option Bool
  | [] => some true
  | packet :: rest => do
    let v ← permutation.get packet
    let x ← last[v]?
    if x ≠ packet then some false else benesCheck permutation last rest

/-- `valid_benes_routing` (benes.hpp:380-398) -/
def validBenesRouting (permutation : IntPerm) (routing : BenesRouting) : Option Bool := do
  let numPackets := permutation.size
  let numColumns ← benesNumColumns numPackets
  let routed ← routeByBenes routing (List.range numPackets)
  let last ← routed[numColumns]?
  benesCheck permutation last (List.range numPackets)

end Crypto3Zk
