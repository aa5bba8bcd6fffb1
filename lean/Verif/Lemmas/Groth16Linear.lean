import Verif.Lemmas.ManyPoints
import Mathlib.Tactic.LinearCombination
import Mathlib.Tactic.FieldSimp
import Mathlib.Tactic.Ring

/-!
# The verification equation of Groth16 as an identity in the secrets

The values at one evaluation point are fixed; `x 0, x 1, x 2, x 3` are α, β, γ, δ.
-/

set_option linter.unusedSectionVars false

namespace Crypto3Zk

variable {F : Type} [Field F] [DecidableEq F]

/-- the exponents of α, β, γ, δ in the monomials of the verification equation, times γδ -/
def groth16Monomials : Fin 29 → Fin 4 → Nat :=
  ![![1, 1, 1, 1], ![1, 0, 2, 1], ![1, 0, 1, 2], ![1, 0, 1, 1], ![0, 2, 1, 1], ![0, 1, 2, 1],
    ![0, 1, 1, 2], ![0, 1, 1, 1], ![0, 0, 2, 2], ![0, 0, 1, 3], ![0, 0, 1, 2], ![0, 0, 2, 1],
    ![0, 0, 1, 1], ![0, 2, 0, 1], ![0, 1, 0, 2], ![0, 1, 0, 1], ![1, 1, 0, 1], ![1, 0, 0, 2],
    ![1, 0, 0, 1], ![0, 0, 0, 2], ![0, 0, 0, 1], ![0, 2, 1, 0], ![0, 1, 2, 0], ![0, 1, 1, 0],
    ![1, 1, 1, 0], ![1, 0, 2, 0], ![1, 0, 1, 0], ![0, 0, 2, 0], ![0, 0, 1, 0]]

/-- what a combination of the elements of `G1` is, at one evaluation point: the coefficients of
α, β, δ, 1, of α, β, 1 over γ and of α, β, 1 over δ -/
structure Lin1 (F : Type) where
  alpha : F
  beta : F
  delta : F
  one : F
  u1 : F
  v1 : F
  w1 : F
  u2 : F
  v2 : F
  w2 : F

/-- the value of the combination -/
def Lin1.value (A : Lin1 F) (alpha beta gamma delta : F) : F :=
  A.alpha * alpha + A.beta * beta + A.delta * delta + A.one +
    (beta * A.u1 + alpha * A.v1 + A.w1) * gamma⁻¹ + (beta * A.u2 + alpha * A.v2 + A.w2) * delta⁻¹

/-- a combination of the elements of `G2`, at one evaluation point -/
structure Lin2 (F : Type) where
  beta : F
  gamma : F
  delta : F
  one : F

def Lin2.value (B : Lin2 F) (beta gamma delta : F) : F :=
  B.beta * beta + B.gamma * gamma + B.delta * delta + B.one

theorem groth16_identity [Fintype F] (A C : Lin1 F) (B : Lin2 F) (pu pv pw : F)
    (S : Finset (Fin 4 → F)) (hcard : 4 * Fintype.card F ^ 3 < S.card)
    (hS : ∀ x ∈ S, x 2 ≠ 0 ∧ x 3 ≠ 0 ∧
      A.value (x 0) (x 1) (x 2) (x 3) * B.value (x 1) (x 2) (x 3) =
        x 0 * x 1 + (x 1 * pu + x 0 * pv + pw) + C.value (x 0) (x 1) (x 2) (x 3) * x 3) :
    A.alpha * B.beta = 1 ∧ A.alpha * B.one = pv + C.v2 ∧ A.one * B.beta = pu + C.u2 ∧
      A.one * B.one = pw + C.w2 := by
  obtain ⟨a1, a2, a3, a4, a5, a6, a7, a8, a9, a10⟩ := A
  obtain ⟨c1, c2, c3, c4, c5, c6, c7, c8, c9, c10⟩ := C
  obtain ⟨b1, b2, b3, b4⟩ := B
  simp only [Lin1.value, Lin2.value] at hS ⊢
  have key := coefficients_zero_of_many 3 4 groth16Monomials (by decide +kernel) (by decide +kernel)
    (![a1 * b1 - 1, a1 * b2, a1 * b3 - c1, a1 * b4 + a6 * b2 + a9 * b3 - pv - c9, a2 * b1, a2 * b2,
      a2 * b3 + a3 * b1 - c2, a2 * b4 + a4 * b1 + a5 * b2 + a8 * b3 - pu - c8, a3 * b2, a3 * b3 - c3,
      a3 * b4 + a4 * b3 - c4, a4 * b2, a4 * b4 + a7 * b2 + a10 * b3 - pw - c10,
      a5 * b1, a5 * b3 - c5, a5 * b4 + a7 * b1, a6 * b1, a6 * b3 - c6, a6 * b4, a7 * b3 - c7, a7 * b4,
      a8 * b1, a8 * b2, a8 * b4 + a10 * b1, a9 * b1, a9 * b2, a9 * b4, a10 * b2, a10 * b4] : Fin 29 → F)
    S ?_ hcard
  · have k0 := key 0
    have k4 := key 4
    have k13 := key 13
    have k16 := key 16
    have k15 := key 15
    have k21 := key 21
    have k24 := key 24
    have k23 := key 23
    have k3 := key 3
    have k7 := key 7
    have k12 := key 12
    clear key hS
    change a1 * b1 - 1 = 0 at k0
    change a2 * b1 = 0 at k4
    change a5 * b1 = 0 at k13
    change a6 * b1 = 0 at k16
    change a5 * b4 + a7 * b1 = 0 at k15
    change a8 * b1 = 0 at k21
    change a9 * b1 = 0 at k24
    change a8 * b4 + a10 * b1 = 0 at k23
    change a1 * b4 + a6 * b2 + a9 * b3 - pv - c9 = 0 at k3
    change a2 * b4 + a4 * b1 + a5 * b2 + a8 * b3 - pu - c8 = 0 at k7
    change a4 * b4 + a7 * b2 + a10 * b3 - pw - c10 = 0 at k12
    have hb : b1 ≠ 0 := by rintro rfl; simp at k0
    have z2 : a2 = 0 := (mul_eq_zero.1 k4).resolve_right hb
    have z5 : a5 = 0 := (mul_eq_zero.1 k13).resolve_right hb
    have z6 : a6 = 0 := (mul_eq_zero.1 k16).resolve_right hb
    have z8 : a8 = 0 := (mul_eq_zero.1 k21).resolve_right hb
    have z9 : a9 = 0 := (mul_eq_zero.1 k24).resolve_right hb
    subst z2 z5 z6 z8 z9
    have z7 : a7 = 0 := (mul_eq_zero.1 (by simpa using k15)).resolve_right hb
    have z10 : a10 = 0 := (mul_eq_zero.1 (by simpa using k23)).resolve_right hb
    subst z7 z10
    exact ⟨by linear_combination k0, by linear_combination k3, by linear_combination k7,
      by linear_combination k12⟩
  · intro x hx
    obtain ⟨h2, h3, h⟩ := hS x hx
    have e : ∀ j : Fin 29, ∏ k, x k ^ groth16Monomials j k =
        x 0 ^ groth16Monomials j 0 * x 1 ^ groth16Monomials j 1 * x 2 ^ groth16Monomials j 2 *
          x 3 ^ groth16Monomials j 3 := fun j => by rw [Fin.prod_univ_four]
    simp only [e]
    generalize x 0 = α at *
    generalize x 1 = β at *
    generalize x 2 = γ at *
    generalize x 3 = δ at *
    clear e
    simp only [groth16Monomials, Fin.sum_univ_succ, Fin.sum_univ_zero, Matrix.cons_val_zero,
      Matrix.cons_val_succ, Matrix.cons_val_one, Matrix.cons_val]
    field_simp at h
    linear_combination h

end Crypto3Zk
