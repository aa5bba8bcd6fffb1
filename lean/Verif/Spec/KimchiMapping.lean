import Mathlib.Algebra.BigOperators.Group.Finset.Basic
import Mathlib.Algebra.Group.Even
import Mathlib.Algebra.Field.Defs
import Mathlib.Data.Int.Init

/-!
# Specification for C78 and C79
-/

namespace Crypto3Zk

open scoped BigOperators

/-- the sign that the pair of bits `2 i`, `2 i + 1` of a challenge stands for -/
def endoSign (rep i : Nat) : ℤ := if rep.testBit (2 * i) then 1 else -1

/-- the factor of the endomorphism's eigenvalue: two high bits and the signed digits with a set upper
bit -/
def endoA (rep : Nat) : ℤ :=
  2 ^ 65 + ∑ i ∈ Finset.range 64, if rep.testBit (2 * i + 1) then endoSign rep i * 2 ^ i else 0

/-- the constant part: the signed digits with a clear upper bit -/
def endoB (rep : Nat) : ℤ :=
  2 ^ 65 + ∑ i ∈ Finset.range 64, if rep.testBit (2 * i + 1) then 0 else endoSign rep i * 2 ^ i

/-- what is assumed of the external square root -/
def IsSqrt {F : Type} [Field F] (sqrt : F → F) : Prop :=
  ∀ x, (∃ y, x = y * y) → sqrt x * sqrt x = x

end Crypto3Zk
