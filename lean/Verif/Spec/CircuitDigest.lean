import Verif.Model.CircuitDigest
import Verif.Model.Equality
import Verif.Spec.Placeholder

/-!
# Specification for the digest of a circuit and the verification key
-/

namespace Crypto3Zk

variable {F : Type} [Field F] [DecidableEq F] {P B S H Com Pr Data Obj : Type} {Tree Root Path : Type}

/-- The contract of crypto3-marshalling: a context can be read back from the beginning of a buffer, and
constraint systems written in the same way compare equal. -/
structure DigestLib.Lawful (D : DigestLib F P B H) : Prop where
  context : ∀ a b x y, D.context a ++ x = D.context b ++ y → a = b
  system : ∀ a b, D.system a = D.system b → a.eqv b = true

/-- Merkle trees without collisions: trees with the same root have the same leaves. -/
def MerkleLib.CollisionFree (M : MerkleLib F Tree Root Path) : Prop :=
  ∀ a b, M.root (M.build a) = M.root (M.build b) → a = b

/-- Two buffers are a collision of the hash: different, with the same hash. -/
def DigestLib.Collision (D : DigestLib F P B H) (a b : List B) : Prop :=
  a ≠ b ∧ D.hash a = D.hash b

end Crypto3Zk
