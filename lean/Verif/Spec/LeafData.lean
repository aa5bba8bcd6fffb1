import Verif.Model.LeafData
import Verif.Spec.FRI
import Verif.Spec.FRISound

/-!
# Specification for the leaves of the Merkle trees as data
-/

namespace Crypto3Zk

variable {F W Tree Root Path : Type}

/-- The contract of crypto3-marshalling: an element takes `len` entries, at least one, and can be read
back from them. -/
structure LeafCodec.Lawful (C : LeafCodec F W) : Prop where
  pos : 0 < C.len
  length : ∀ x, (C.enc x).length = C.len
  injective : Function.Injective C.enc

/-- The data of a list of values: one after the other. -/
def LeafCodec.encode (C : LeafCodec F W) (values : List F) : List W := values.flatMap C.enc

/-- The abstract buffer: `size` places, each empty or holding a value, and the place to write next. -/
structure LeafSlots (F : Type) where
  slots : List (Option F)
  next : Nat

/-- The effect of a call on the abstract buffer: a value goes to the next place, if there is one; going
back to the beginning empties nothing. -/
def LeafSlots.apply (b : LeafSlots F) : LeafOp F → Option (LeafSlots F)
  | .consume x => if b.next < b.slots.length then some ⟨b.slots.set b.next (some x), b.next + 1⟩ else none
  | .reset => some ⟨b.slots, 0⟩

/-- The data of one place. -/
def LeafCodec.slot (C : LeafCodec F W) : Option F → List W
  | none => List.replicate C.len C.zero
  | some x => C.enc x

/-- The data of a buffer. -/
def LeafCodec.slots (C : LeafCodec F W) (l : List (Option F)) : List W := l.flatMap C.slot

/-- Trees over data, seen as trees over values. -/
def MerkleLib.onValues (C : LeafCodec F W) (M : MerkleLib W Tree Root Path) :
    MerkleLib F Tree Root Path where
  build := fun leaves => M.build (leaves.map C.encode)
  root := M.root
  path := M.path
  pathRoot := M.pathRoot
  validate := fun path leaf => M.validate path (C.encode leaf)

end Crypto3Zk
