import Verif.Spec.GipaTree
import Mathlib.Algebra.Polynomial.AlgebraMap
import Mathlib.Algebra.Polynomial.RingDivision
import Mathlib.Algebra.Polynomial.Roots

/-!
# Specification: a prover that knows a representation of every element

The elements that a prover can make by linear combinations of the reference string of the aggregation
argument, as polynomials in the two secrets `α` and `β`: sums of a polynomial in `α` and a polynomial
in `β`, with coefficients in a ring that holds the other secrets. Pairings are products.
-/

set_option linter.unusedSectionVars false

namespace Crypto3Zk

open Polynomial

variable (F R : Type) [Field F] [CommRing R] [Algebra F R]

/-- polynomials in `α` (inner) and `β` (outer) -/
abbrev FormalTarget (R : Type) [CommRing R] : Type := Polynomial (Polynomial R)

/-- polynomials of degree at most `d` in `α` and in `β` without a monomial in which both occur -/
noncomputable def formalElements (d : Nat) : Submodule F (FormalTarget R) where
  carrier := {p | ∀ i j, (0 < i ∧ 0 < j) ∨ d < i ∨ d < j → (p.coeff j).coeff i = 0}
  add_mem' {p q} hp hq i j h := by rw [coeff_add, coeff_add, hp i j h, hq i j h, add_zero]
  zero_mem' i j h := by simp
  smul_mem' c p hp i j h := by rw [coeff_smul, coeff_smul, hp i j h, smul_zero]

/-- the secret `α` -/
noncomputable def formalAlpha : FormalTarget R := C X

/-- the secret `β` -/
noncomputable def formalBeta : FormalTarget R := X

theorem alpha_mem (d i : Nat) (h : i ≤ d) : formalAlpha R ^ i ∈ formalElements F R d := by
  intro a b hab
  rw [formalAlpha, ← C_pow, coeff_C]
  split
  · rw [coeff_X_pow, if_neg (by omega)]
  · simp

theorem beta_mem (d i : Nat) (h : i ≤ d) : formalBeta R ^ i ∈ formalElements F R d := by
  intro a b hab
  rw [formalBeta, coeff_X_pow]
  split
  · rw [coeff_one, if_neg (by omega)]
  · simp

/-- `α^i`, and zero beyond the bound on the degree -/
noncomputable def formalAlphaPower (d i : Nat) : formalElements F R d :=
  if h : i ≤ d then ⟨formalAlpha R ^ i, alpha_mem F R d i h⟩ else 0

/-- `β^i`, and zero beyond the bound on the degree -/
noncomputable def formalBetaPower (d i : Nat) : formalElements F R d :=
  if h : i ≤ d then ⟨formalBeta R ^ i, beta_mem F R d i h⟩ else 0

/-- the product as pairing -/
noncomputable def formalPairing (d : Nat) : Pairing F (formalElements F R d) (formalElements F R d)
    (FormalTarget R) :=
  ⟨(LinearMap.mul F (FormalTarget R)).compl₁₂ (formalElements F R d).subtype (formalElements F R d).subtype,
    formalAlphaPower F R d 0, formalAlphaPower F R d 0, fun _ => true, fun _ => true⟩

/-- the powers of the reference string -/
noncomputable def formalPowers (d : Nat) : AggPowers (formalElements F R d) (formalElements F R d) :=
  ⟨formalAlphaPower F R d, formalBetaPower F R d, formalAlphaPower F R d, formalBetaPower F R d⟩

/-- the verifier's part of the reference string for `n` proofs -/
noncomputable def formalSrs (n d : Nat) : AggVerificationSrs (formalElements F R d) (formalElements F R d) :=
  ⟨n, formalAlphaPower F R d 0, formalAlphaPower F R d 0, formalAlphaPower F R d 1, formalBetaPower F R d 1,
    formalAlphaPower F R d 1, formalBetaPower F R d 1⟩

end Crypto3Zk
