import Mathlib.Algebra.Field.Defs
import Mathlib.Algebra.BigOperators.Intervals
import Mathlib.Algebra.BigOperators.Group.List.Basic

/-!
# Coefficient vectors, and the contract of the external evaluation-domain library

The evaluation domains (`math::evaluation_domain`, `math::make_evaluation_domain`,
`math::multiply_by_coset`) are in the crypto3-math library, which is not part of `/repo`. They are
modelled by an interface (`EvalDomain`) with a stated contract (`EvalDomain.Lawful`). The contract
is part of the trusted base; `Verif/Lemmas/Poly.lean` proves that it is satisfiable for every
finite set of points.
-/

namespace Crypto3Zk

variable {F : Type*} [Field F]

/-- The value at `x` of the polynomial with coefficients `a` (lowest first). -/
def evalPoly (a : List F) (x : F) : F := a.foldr (fun c acc => c + x * acc) 0

/-- `algebra::inner_product` (external; used at qap.hpp:276-293 and elsewhere): the sum of the
products of the entries of two ranges. -/
def innerProduct (xs ys : List F) : F := (List.zipWith (· * ·) xs ys).sum

/-- The loop `Ht[i] = ti; ti *= t` (r1cs_to_qap.hpp:178-182; also sap/ssp). -/
def powersFrom (t : F) : F → Nat → List F
  | _, 0 => []
  | ti, n + 1 => ti :: powersFrom t (ti * t) n

/-- `math::multiply_by_coset` (external; used at r1cs_to_qap.hpp:266-276): coefficient `i` is
multiplied by `g^i`. -/
def mulByCoset (a : List F) (g : F) : List F := a.mapIdx fun i c => c * g ^ i

/-- `x[i] += c` on a vector; `none` is an out-of-bounds access. -/
def addAt (l : List F) (i : Nat) (c : F) : Option (List F) :=
  if h : i < l.length then some (l.set i (l[i] + c)) else none

/-- `x[i] = c` on a vector; `none` is an out-of-bounds access. -/
def setAt (l : List F) (i : Nat) (c : F) : Option (List F) :=
  if i < l.length then some (l.set i c) else none

/-- The interface of `math::evaluation_domain` used by the reductions, together with the constant
`fields::arithmetic_params<FieldType>::multiplicative_generator` (external, as in r1cs_to_qap.hpp:103-166). -/
structure EvalDomain (F : Type*) where
  /-- number of points -/
  m : Nat
  /-- `get_domain_element` -/
  point : Nat → F
  fft : List F → List F
  inverseFft : List F → List F
  /-- `compute_vanishing_polynomial` -/
  vanishing : F → F
  /-- `evaluate_all_lagrange_polynomials` -/
  lagrange : F → List F
  /-- `add_poly_z` -/
  addPolyZ : F → List F → List F
  /-- `divide_by_z_on_coset` -/
  divideByZOnCoset : List F → List F
  /-- the multiplicative generator that shifts to the coset -/
  generator : F

/-- The contract of the evaluation-domain library. -/
structure EvalDomain.Lawful (D : EvalDomain F) : Prop where
  inj : ∀ i < D.m, ∀ j < D.m, D.point i = D.point j → i = j
  generator_ne : D.generator ≠ 0
  vanishing_eq : ∀ t, D.vanishing t = ∏ i ∈ Finset.range D.m, (t - D.point i)
  coset_ne : ∀ i < D.m, D.vanishing (D.generator * D.point i) ≠ 0
  fft_eq : ∀ a, a.length = D.m → D.fft a = (List.range D.m).map fun i => evalPoly a (D.point i)
  inverse_length : ∀ a, a.length = D.m → (D.inverseFft a).length = D.m
  fft_inverse : ∀ a, a.length = D.m → D.fft (D.inverseFft a) = a
  lagrange_eq : ∀ t, D.lagrange t = (List.range D.m).map fun i =>
    ∏ j ∈ (Finset.range D.m).erase i, (t - D.point j) / (D.point i - D.point j)
  addPolyZ_length : ∀ c h, h.length = D.m + 1 → (D.addPolyZ c h).length = D.m + 1
  addPolyZ_eq : ∀ c h, h.length = D.m + 1 → ∀ x,
    evalPoly (D.addPolyZ c h) x = evalPoly h x + c * D.vanishing x
  divide_eq : ∀ a, a.length = D.m → D.divideByZOnCoset a =
    (List.zipWith (fun v i => v / D.vanishing (D.generator * D.point i)) a (List.range D.m))

end Crypto3Zk
