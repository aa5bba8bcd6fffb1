/-!
# Model of `math/integer_permutation.hpp`

`std::size_t` values are natural numbers below `2^64`. A failed `assert` or an access outside
`contents` is `none`.
-/

namespace Crypto3Zk

/-- `integer_permutation` (math/integer_permutation.hpp:40-46). -/
structure IntPerm where
  contents : List Nat
  minElement : Nat
  maxElement : Nat
deriving DecidableEq, Repr

namespace IntPerm

/-- `integer_permutation(size)` (math/integer_permutation.hpp:48-51); `size - 1` wraps for zero. -/
def ofSize (size : Nat) : IntPerm := ⟨List.range size, 0, (size + (2 ^ 64 - 1)) % 2 ^ 64⟩

/-- `integer_permutation(min_element, max_element)` (math/integer_permutation.hpp:53-59). The size
is not reduced modulo `2^64`; this matters only for the interval `[0, 2^64 - 1]`. -/
def ofRange (lo hi : Nat) : Option IntPerm :=
  if lo ≤ hi then some ⟨List.range' lo (hi - lo + 1), lo, hi⟩ else none

/-- `size` (math/integer_permutation.hpp:63-65). -/
def size (p : IntPerm) : Nat := (p.maxElement + 2 ^ 64 - p.minElement + 1) % 2 ^ 64

/-- `set` (math/integer_permutation.hpp:80-83). -/
def set (p : IntPerm) (position value : Nat) : Option IntPerm :=
  if p.minElement ≤ position ∧ position ≤ p.maxElement then
    if position - p.minElement < p.contents.length then
      some { p with contents := p.contents.set (position - p.minElement) value }
    else none
  else none

/-- `get` (math/integer_permutation.hpp:85-88). -/
def get (p : IntPerm) (position : Nat) : Option Nat :=
  if p.minElement ≤ position ∧ position ≤ p.maxElement then
    p.contents[position - p.minElement]?
  else none

/-- the loop of `is_valid` (math/integer_permutation.hpp:93-101); `elems` is the set so far. -/
def isValidLoop (lo hi : Nat) (elems : List Nat) : List Nat → Bool
  | [] => true
  | el :: rest =>
    if el < lo || el > hi || elems.contains el then false
    else isValidLoop lo hi (el :: elems) rest

/-- `is_valid` (math/integer_permutation.hpp:90-102). -/
def isValid (p : IntPerm) : Bool := isValidLoop p.minElement p.maxElement [] p.contents

/-- one iteration of the loop of `inverse` (math/integer_permutation.hpp:107-109). -/
def inverseStep (p : IntPerm) (res : List Nat) (position : Nat) : Option (List Nat) :=
  match p.contents[position - p.minElement]? with
  | none => none
  | some v =>
    if p.minElement ≤ v ∧ v - p.minElement < res.length then
      some (res.set (v - p.minElement) position)
    else none

/-- `inverse` (math/integer_permutation.hpp:104-116). -/
def inverse (p : IntPerm) : Option IntPerm := do
  let result ← ofRange p.minElement p.maxElement
  let c ← (List.range' p.minElement (p.maxElement - p.minElement + 1)).foldlM (inverseStep p)
    result.contents
  return { result with contents := c }

/-- `slice` (math/integer_permutation.hpp:118-131). -/
def slice (p : IntPerm) (lo hi : Nat) : Option IntPerm :=
  if p.minElement ≤ lo ∧ lo ≤ hi ∧ hi ≤ p.maxElement then
    if hi - p.minElement < p.contents.length then
      some ⟨(p.contents.drop (lo - p.minElement)).take (hi - lo + 1), lo, hi⟩
    else none
  else none

end IntPerm
end Crypto3Zk
