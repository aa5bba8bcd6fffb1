import Mathlib.Data.Nat.Notation

/-!
# `std::size_t` arithmetic
-/

namespace Crypto3Zk

/-- subtraction of `std::size_t` values, modulo `2 ^ 64` (the difference of two iterators that is
compared with a `std::size_t` is converted in the same way) -/
def subSize (a b : Nat) : Nat := (a + 2 ^ 64 - b) % 2 ^ 64

end Crypto3Zk
