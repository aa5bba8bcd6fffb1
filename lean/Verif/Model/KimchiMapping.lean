import Mathlib.Algebra.Field.Defs
import Mathlib.Data.Nat.Bitwise

/-!
# Challenges and the map to the curve (`plonk/pickles/detail/mapping.hpp`)

Line numbers are those of that file. Field elements are elements of a field. `sqrt()` is external: a
parameter that returns a root of every square and anything for the other elements. `inversed()` of zero
is an undefined outcome.
-/

namespace Crypto3Zk

variable {F : Type} [Field F] [DecidableEq F]

/-! ## `ScalarChallenge` -/

/-- one iteration of the loop of `to_field` (lines 95-111) -/
def endoStep (rep : Nat) (ab : F × F) (i : Nat) : F × F :=
  let a := ab.1 + ab.1
  let b := ab.2 + ab.2
  let s : F := if rep.testBit (2 * i) then 1 else -1
  if rep.testBit (2 * i + 1) = false then (a, b + s) else (a + s, b)

/-- `to_field` (lines 85-114) for a challenge with the representative `rep`:
`length_in_bits = 64 * CHALLENGE_LENGTH_IN_LIMBS = 128` -/
def scalarToField (rep : Nat) (endo : F) : F :=
  let ab := (List.range (64 * 2 / 2)).reverse.foldl (endoStep rep) (2, 2)
  ab.1 * endo + ab.2

/-! ## `group_map` -/

/-- the members of `group_map` (lines 16-23) -/
structure GroupMap (F : Type) where
  a : F
  b : F
  u : F
  fu : F
  sqrtNeg3U2MinusUOver2 : F
  sqrtNeg3U2 : F
  inv3U2 : F
deriving DecidableEq

/-- `curve_eqn` (lines 25-32) -/
def curveEqn (a b x : F) : F := (x * x + a) * x + b

/-- the loop of the constructor (lines 35-44), cut off after `fuel` iterations (`none`); see
`C79_constructor` for why four are enough -/
def groupMapSearch (a b : F) : Nat → F → Option F
  | 0, _ => none
  | fuel + 1, u => if curveEqn a b u ≠ 0 then some u else groupMapSearch a b fuel (u + 1)

/-- the constructor (lines 34-50) -/
def groupMapInit (sqrt : F → F) (a b : F) : Option (GroupMap F) := do
  let u ← groupMapSearch a b 4 1
  let threeU2 : F := 3 * (u * u)
  if threeU2 = 0 ∨ (2 : F) = 0 then none else
    let s := sqrt (-threeU2)
    some { a := a, b := b, u := u, fu := curveEqn a b u, sqrtNeg3U2 := s,
           sqrtNeg3U2MinusUOver2 := (s - u) * 2⁻¹, inv3U2 := threeU2⁻¹ }

/-- `potential_xs_helper` (lines 52-58) -/
def GroupMap.potentialXsHelper (m : GroupMap F) (t2 alpha : F) : List F :=
  let x1 := m.sqrtNeg3U2MinusUOver2 - t2 * t2 * alpha * m.sqrtNeg3U2
  let x2 := -m.u - x1
  let t2PlusFu := t2 + m.fu
  let x3 := m.u - t2PlusFu * t2PlusFu * alpha * t2PlusFu * m.inv3U2
  [x1, x2, x3]

/-- `potential_xs` (lines 60-65); `none` if zero would be inverted -/
def GroupMap.potentialXs (m : GroupMap F) (t : F) : Option (List F) :=
  let t2 := t * t
  if (t2 + m.fu) * t2 = 0 then none else some (m.potentialXsHelper t2 ((t2 + m.fu) * t2)⁻¹)

/-- `get_xy` (lines 67-76): inside, `none` is the default-constructed point -/
def GroupMap.getXY (sqrt : F → F) (m : GroupMap F) : List F → Option (F × F)
  | [] => none
  | x :: xs =>
    let y := sqrt (curveEqn m.a m.b x)
    if y * y = x ^ 3 + m.a * x + m.b then some (x, y) else m.getXY sqrt xs

/-- `to_group` (lines 78-80) -/
def GroupMap.toGroup (sqrt : F → F) (m : GroupMap F) (t : F) : Option (Option (F × F)) :=
  (m.potentialXs t).map (m.getXY sqrt)

end Crypto3Zk
