/-!
# Model of `std::map<std::size_t, V>`

An association list whose keys are kept in increasing order, so that iterating the list is
iterating the map. `none` for `at` on a missing key is the exception `std::out_of_range`.
-/

namespace Crypto3Zk

/-- `std::map<std::size_t, V>` (for example batched_commitment.hpp:71-73 and
detail/polynomial/eval_storage.hpp:38) -/
abbrev OMap (V : Type) := List (Nat × V)

namespace OMap

variable {V : Type}

/-- `find(k)` / `at(k)` -/
def find : OMap V → Nat → Option V
  | [], _ => none
  | (k', v) :: m, k => if k' = k then some v else find m k

/-- `m[k] = v`: overwrite, or insert at the place of the key -/
def insert : OMap V → Nat → V → OMap V
  | [], k, v => [(k, v)]
  | (k', v') :: m, k, v =>
    if k < k' then (k, v) :: (k', v') :: m
    else if k = k' then (k, v) :: m
    else (k', v') :: insert m k v

/-- the value read by `m[k]`: a missing key is inserted with the default value -/
def getD (m : OMap V) (k : Nat) (d : V) : V := (m.find k).getD d

/-- the keys in iteration order -/
def keys (m : OMap V) : List Nat := m.map Prod.fst

end OMap

end Crypto3Zk
