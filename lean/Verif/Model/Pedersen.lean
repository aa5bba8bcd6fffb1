import Mathlib.Algebra.Module.Defs
import Mathlib.Algebra.Field.Defs

/-!
# Pedersen commitments and verifiable secret sharing (commitments/polynomial/pedersen.hpp)

The curve group is an `F`-module `G` over the scalar field. `algebra::random_element` is a stream of
field elements given as an argument. Thresholds and party counts (`int`) are natural numbers, so
negative ones are not modelled. Converting a negative `int` difference to a field element is taken
to give the negative field element. `key_generator`, which draws `g` and `h`, is not modelled.
-/

namespace Crypto3Zk

variable {F G : Type} [Field F] [DecidableEq F] [AddCommGroup G] [Module F G] [DecidableEq G]

/-- `params_type` (pedersen.hpp:50-56) -/
structure PedersenParams (G : Type) where
  n : Nat
  k : Nat
  g : G
  h : G

/-- `proof_type` (pedersen.hpp:69-73); a `private_key` (58-67) is a pair `(s, t)` -/
structure PedersenProof (F G : Type) where
  E0 : G
  E : List G
  pk : List (F × F)

/-- `commitment` (pedersen.hpp:90-93) -/
def pedCommitment (params : PedersenParams G) (pk : F × F) : G := pk.1 • params.g + pk.2 • params.h

/-- the inner loop of `poly_eval` (pedersen.hpp:102-107) for one `i`; `none` is an out-of-bounds
read -/
def pedPolyAt (k : Nat) (coeffs : List F) (i : Nat) : Option F := do
  let c0 ← coeffs[0]?
  let (_, sum) ← (List.range' 1 (k - 1)).foldlM (fun (spare, sum) j => do
    let spare := spare * (i : F)
    let c ← coeffs[j]?
    return (spare, sum + spare * c)) ((1 : F), c0)
  return sum

/-- `poly_eval` (pedersen.hpp:95-111) -/
def pedPolyEval (params : PedersenParams G) (coeffs : List F) : Option (List F) :=
  (List.range' 1 params.n).mapM (pedPolyAt params.k coeffs)

/-- `proof_eval` (pedersen.hpp:113-143) for the secret `w`; `rand` is the stream of random
elements: first `t`, then alternately a coefficient of the first and of the second polynomial. -/
def pedProve (params : PedersenParams G) (w : F) (rand : Nat → F) : Option (PedersenProof F G) := do
  let t := rand 0
  let E0 := pedCommitment params (w, t)
  let fCoeffs := w :: (List.range' 1 (params.k - 1)).map fun i => rand (2 * i - 1)
  let gCoeffs := t :: (List.range' 1 (params.k - 1)).map fun i => rand (2 * i)
  let s ← pedPolyEval params fCoeffs
  let ti ← pedPolyEval params gCoeffs
  let pk ← (List.range params.n).mapM fun i => do
    let a ← s[i]?
    let b ← ti[i]?
    return (a, b)
  let E ← (List.range' 1 (params.k - 1)).mapM fun i => do
    let a ← fCoeffs[i]?
    let b ← gCoeffs[i]?
    return pedCommitment params (a, b)
  return ⟨E0, E, pk⟩

/-- one round of `verify_eval` (pedersen.hpp:154-161): whether the share of party `i` matches -/
def pedVerifyAt (params : PedersenParams G) (prf : PedersenProof F G) (i : Nat) : Option Bool := do
  let pk ← prf.pk[i - 1]?
  let E := pedCommitment params pk
  let (_, sum) ← (List.range' 1 (params.k - 1)).foldlM (fun (power, sum) j => do
    let power := power * (i : F)
    let e ← prf.E[j - 1]?
    return (power, sum + power • e)) ((1 : F), prf.E0)
  return decide (E = sum)

/-- `verify_eval` (pedersen.hpp:145-164) -/
def pedVerify (params : PedersenParams G) (prf : PedersenProof F G) : Option Bool :=
  (List.range' 1 params.n).foldlM (fun answer i => do
    let b ← pedVerifyAt params prf i
    return (answer && b)) true

/-- the interpolation weight of the `j`-th index (pedersen.hpp:177-182). Inverting zero (two equal
indices) is left to the field library, here it is `none`. -/
def pedWeight (k : Nat) (idx : List Int) (j : Nat) : Option F :=
  (List.range k).foldlM (fun mult l =>
    if l ≠ j then do
      let il ← idx[l]?
      let ij ← idx[j]?
      let d : F := ((il - ij : Int) : F)
      if d = 0 then none else some (mult * ((il : F) * d⁻¹))
    else some mult) 1

/-- `message_eval` (pedersen.hpp:166-186). `none` is an out-of-bounds read or the inversion of
zero. -/
def pedMessage (params : PedersenParams G) (prf : PedersenProof F G) (idx : List Int) : Option F :=
  if idx.length < params.k then some 0
  else do
    let ok ← pedVerify params prf
    if !ok then some 0
    else
      (List.range params.k).foldlM (fun sum j => do
        let mult ← pedWeight params.k idx j
        let i ← idx[j]?
        if 1 ≤ i then
          let pk ← prf.pk[(i - 1).toNat]?
          return sum + mult * pk.1
        else none) 0

end Crypto3Zk
