import Verif.Model.LinearCombination

/-!
# Model of `snark/arithmetization/constraint_satisfaction_problems/r1cs.hpp`
-/

namespace Crypto3Zk

/-- `r1cs_constraint` (r1cs.hpp:60-93). -/
structure R1CSConstraint (F : Type*) where
  a : LinComb F
  b : LinComb F
  c : LinComb F

/-- `r1cs_constraint_system` (r1cs.hpp:125-135). -/
structure R1CS (F : Type*) where
  primaryInputSize : Nat
  auxiliaryInputSize : Nat
  constraints : List (R1CSConstraint F)

namespace R1CS

variable {F : Type*} [Field F] [DecidableEq F]

/-- `num_inputs` (r1cs.hpp:137-139). -/
def numInputs (cs : R1CS F) : Nat := cs.primaryInputSize

/-- `num_variables` (r1cs.hpp:141-143). -/
def numVariables (cs : R1CS F) : Nat := cs.primaryInputSize + cs.auxiliaryInputSize

/-- `num_constraints` (r1cs.hpp:145-147). -/
def numConstraints (cs : R1CS F) : Nat := cs.constraints.length

/-- the loop of `is_satisfied` (r1cs.hpp:173-184) on the full assignment; `none` is an
out-of-bounds read. -/
def satisfiedLoop (full : List F) : List (R1CSConstraint F) → Option Bool
  | [] => some true
  | k :: ks =>
    match LinComb.evaluate k.a full, LinComb.evaluate k.b full, LinComb.evaluate k.c full with
    | some ares, some bres, some cres =>
      if ares * bres ≠ cres then some false else satisfiedLoop full ks
    | _, _, _ => none

/-- `is_satisfied` (r1cs.hpp:164-187). The two asserts on sizes are debug-only and not part of
the model. -/
def isSatisfied (cs : R1CS F) (primary aux : List F) : Option Bool :=
  satisfiedLoop (primary ++ aux) cs.constraints

/-- the loop of `is_valid` (r1cs.hpp:153-159): short-circuit `&&`; `none` is the undefined
behaviour of `linear_combination::is_valid` on an empty combination. -/
def validLoop (n : Nat) : List (R1CSConstraint F) → Option Bool
  | [] => some true
  | k :: ks =>
    match LinComb.isValid k.a n with
    | none => none
    | some false => some false
    | some true =>
      match LinComb.isValid k.b n with
      | none => none
      | some false => some false
      | some true =>
        match LinComb.isValid k.c n with
        | none => none
        | some false => some false
        | some true => validLoop n ks

/-- `is_valid` (r1cs.hpp:149-162). -/
def isValid (cs : R1CS F) : Option Bool :=
  if cs.numInputs > cs.numVariables then some false
  else validLoop cs.numVariables cs.constraints

/-- marking `touched[index] = true` (r1cs.hpp:198-204); `none` is an out-of-bounds write. -/
def touchAll (touched : List Bool) (lc : LinComb F) : Option (List Bool) :=
  lc.foldlM (fun t lt => if lt.index < t.length then some (t.set lt.index true) else none) touched

/-- `touched_by_*` after the loop over constraints (r1cs.hpp:194-205), for one of the sides. -/
def touchedBy (side : R1CSConstraint F → LinComb F) (cs : R1CS F) : Option (List Bool) :=
  cs.constraints.foldlM (fun t k => touchAll t (side k))
    (List.replicate (cs.numVariables + 1) false)

/-- `non_zero_*_count` (r1cs.hpp:207-211). -/
def countTrue (t : List Bool) : Nat := t.foldl (fun n b => n + if b then 1 else 0) 0

/-- `swap_AB_if_beneficial` (r1cs.hpp:193-218). -/
def swapABIfBeneficial (cs : R1CS F) : Option (R1CS F) :=
  match touchedBy R1CSConstraint.a cs, touchedBy R1CSConstraint.b cs with
  | some tA, some tB =>
    if countTrue tB > countTrue tA then
      some { cs with constraints := cs.constraints.map fun k => ⟨k.b, k.a, k.c⟩ }
    else some cs
  | _, _ => none

end R1CS
end Crypto3Zk
