import Verif.Model.IntegerPermutation
import Mathlib.Logic.ExistsUnique

/-! # Specification vocabulary for C13 -/

namespace Crypto3Zk.IntPerm

/-- an object of the class: a non-empty interval, with one entry per position. -/
def WF (p : IntPerm) : Prop :=
  p.minElement ≤ p.maxElement ∧ p.contents.length = p.maxElement - p.minElement + 1

/-- `position` belongs to the interval. -/
def InRange (p : IntPerm) (x : Nat) : Prop := p.minElement ≤ x ∧ x ≤ p.maxElement

/-- the position-to-value map is a bijection of the interval. -/
def IsBijection (p : IntPerm) : Prop :=
  (∀ i, p.InRange i → ∃ v, p.get i = some v ∧ p.InRange v) ∧
  (∀ v, p.InRange v → ∃! i, p.InRange i ∧ p.get i = some v)

end Crypto3Zk.IntPerm
