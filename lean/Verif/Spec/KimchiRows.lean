import Verif.Spec.KimchiVerifier
import Mathlib.Algebra.Polynomial.Eval.Degree

/-!
# The constraints of Kimchi on the rows of the domain

The polynomials of a proof as polynomials, for the meaning of the equation at a random point.
-/

namespace Crypto3Zk

open Polynomial

/-- the polynomials of a circuit and of a proof; `others k` is what the other gates contribute with the power
`k` of `α` -/
structure KRows (F : Type) [Field F] where
  w : Fin 15 → F[X]
  z : F[X]
  sigma : Fin 7 → F[X]
  q : Fin 15 → F[X]
  generic : F[X]
  zkpm : F[X]
  others : Nat → F[X]

variable {F : Type} [Field F]

/-- the values at a point -/
noncomputable def KRows.at (P : KRows F) (x : F) : KEvals F :=
  { w := fun i => (P.w i).eval x
    z := P.z.eval x
    s := fun i => (P.sigma i.castSucc).eval x
    lookup := ⟨[], 0, 0, 0, false⟩
    lookupUsed := false
    genericSelector := P.generic.eval x
    poseidonSelector := 0 }

/-- the equation that the verifier checks at `zeta` (`KimchiEquation`) -/
def KRows.Holds (P : KRows F) (n start : Nat) (omega w beta gamma : F) (shift : Fin 7 → F) (t : F[X])
    (alpha zeta : F) : Prop :=
  KimchiEquation (P.at zeta) (P.at (omega * zeta)) ((P.sigma 6).eval zeta) (fun i => (P.q i).eval zeta) shift
    (P.zkpm.eval zeta) beta gamma zeta (zeta ^ n) w (alpha ^ start) (alpha ^ (start + 1)) (alpha ^ (start + 2))
    (alpha ^ start) (alpha ^ (start + 1))
    (∑ k ∈ Finset.range start, alpha ^ k * (P.others k).eval zeta) (t.eval zeta)

/-- the first generic gate of a row -/
noncomputable def KRows.gate0 (P : KRows F) (x : F) : F :=
  genericConstraint ((P.q 0).eval x) ((P.q 1).eval x) ((P.q 2).eval x) ((P.q 3).eval x) ((P.q 4).eval x)
    ((P.w 0).eval x) ((P.w 1).eval x) ((P.w 2).eval x)

/-- the second generic gate of a row -/
noncomputable def KRows.gate1 (P : KRows F) (x : F) : F :=
  genericConstraint ((P.q 5).eval x) ((P.q 6).eval x) ((P.q 7).eval x) ((P.q 8).eval x) ((P.q 9).eval x)
    ((P.w 3).eval x) ((P.w 4).eval x) ((P.w 5).eval x)

/-- the permutation constraint between a row and the next -/
noncomputable def KRows.perm (P : KRows F) (omega beta gamma : F) (shift : Fin 7 → F) (x : F) : F :=
  permConstraint (P.at x) (P.at (omega * x)) ((P.sigma 6).eval x) beta gamma x shift

/-- a bound on the degrees of the polynomials -/
structure KRows.Degrees (P : KRows F) (d : Nat) : Prop where
  one : 1 ≤ d
  w : ∀ i, (P.w i).natDegree ≤ d
  z : P.z.natDegree ≤ d
  sigma : ∀ i, (P.sigma i).natDegree ≤ d
  q : ∀ i, (P.q i).natDegree ≤ d
  generic : P.generic.natDegree ≤ d
  zkpm : P.zkpm.natDegree ≤ d
  others : ∀ k, (P.others k).natDegree ≤ 9 * d

end Crypto3Zk
