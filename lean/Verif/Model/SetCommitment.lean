import Mathlib.Data.Nat.Log

/-!
# Set-commitment accumulator (snark/set_commitment.hpp)

The Merkle tree class is not in `/repo` (the include does not resolve); it is an interface. The hash
of a value is a parameter. `std::map` from digests to positions is an association list whose keys
are never replaced.
-/

namespace Crypto3Zk

/-- `std::vector<bool>`, the type of the keys (snark/set_commitment.hpp:60) -/
abbrev Bits := List Bool

/-- The calls `set_commitment_accumulator` makes on its `merkle_tree` (snark/set_commitment.hpp:72, 80, 92, 102) -/
structure MerkleOps (Tree Root Path : Type) where
  empty : Nat → Nat → Tree
  setValue : Tree → Nat → Bits → Tree
  root : Tree → Root
  path : Tree → Nat → Path

/-- `set_commitment_accumulator` (snark/set_commitment.hpp:56-65) -/
structure SetAccumulator (Tree : Type) where
  tree : Tree
  hashToPos : List (Bits × Nat)
  depth : Nat
  digestSize : Nat
  valueSize : Nat

variable {Tree Root Path : Type}

/-- the constructor (snark/set_commitment.hpp:67-73); the logarithm of zero is undefined -/
def SetAccumulator.make (M : MerkleOps Tree Root Path) (digestSize maxEntries valueSize : Nat) :
    Option (SetAccumulator Tree) :=
  if maxEntries = 0 then none
  else
    let depth := Nat.clog 2 maxEntries
    some ⟨M.empty depth digestSize, [], depth, digestSize, valueSize⟩

/-- `hash_to_pos.find(hash)` (snark/set_commitment.hpp:78, 88, 97) -/
def SetAccumulator.find (a : SetAccumulator Tree) (hash : Bits) : Option Nat :=
  (a.hashToPos.find? fun e => e.1 = hash).map (·.2)

/-- `add` (snark/set_commitment.hpp:75-83); `none` is the failed assertion on the value's size -/
def SetAccumulator.add (M : MerkleOps Tree Root Path) (H : Bits → Bits) (a : SetAccumulator Tree)
    (value : Bits) : Option (SetAccumulator Tree) :=
  if a.valueSize = 0 ∨ value.length = a.valueSize then
    let hash := H value
    if (a.find hash).isNone then
      let pos := a.hashToPos.length
      some { a with tree := M.setValue a.tree pos hash, hashToPos := a.hashToPos ++ [(hash, pos)] }
    else some a
  else none

/-- `is_in_set` (snark/set_commitment.hpp:85-89) -/
def SetAccumulator.isInSet (H : Bits → Bits) (a : SetAccumulator Tree) (value : Bits) :
    Option Bool :=
  if a.valueSize = 0 ∨ value.length = a.valueSize then some (a.find (H value)).isSome else none

/-- `get_commitment` (snark/set_commitment.hpp:91-93) -/
def SetAccumulator.commitment (M : MerkleOps Tree Root Path) (a : SetAccumulator Tree) : Root :=
  M.root a.tree

/-- `get_membership_proof` (snark/set_commitment.hpp:95-105): the address and the path; `none` is the
failed assertion -/
def SetAccumulator.membershipProof (M : MerkleOps Tree Root Path) (H : Bits → Bits)
    (a : SetAccumulator Tree) (value : Bits) : Option (Nat × Path) :=
  match a.find (H value) with
  | none => none
  | some pos => some (pos, M.path a.tree pos)

/-- A history of additions (snark/set_commitment.hpp:75-83). -/
def SetAccumulator.addAll (M : MerkleOps Tree Root Path) (H : Bits → Bits) :
    SetAccumulator Tree → List Bits → Option (SetAccumulator Tree)
  | a, [] => some a
  | a, v :: vs => (a.add M H v).bind fun a => SetAccumulator.addAll M H a vs

end Crypto3Zk
