import Verif.Lemmas.ManyPoints
import Mathlib.Algebra.BigOperators.Fin
import Mathlib.Tactic.Ring
import Mathlib.Tactic.LinearCombination
import Mathlib.Data.Fin.VecNotation

/-!
# The equations of the Groth–Maller verifier as polynomials in the secrets
-/

namespace Crypto3Zk

variable {F : Type} [Field F] [DecidableEq F]

/-- a combination of elements of the first group; `x` is `α, β, γ` -/
structure GLin1 (F : Type) where
  one : F
  al : F
  ab : F
  g : F
  gg : F
  abg : F

def GLin1.value (A : GLin1 F) (x : Fin 3 → F) : F :=
  A.one + A.al * x 0 + A.ab * (x 0 + x 1) + A.g * x 2 + A.gg * x 2 * x 2 + A.abg * (x 0 + x 1) * x 2

/-- a combination of elements of the second group -/
structure GLin2 (F : Type) where
  one : F
  be : F
  g : F

def GLin2.value (B : GLin2 F) (x : Fin 3 → F) : F := B.one + B.be * x 1 + B.g * x 2

/-- the exponents of the secrets in the second equation -/
def gm17SecondMon : Fin 7 → Fin 3 → Nat :=
  ![![0, 0, 1], ![1, 0, 1], ![0, 1, 1], ![0, 0, 2], ![0, 0, 3], ![1, 0, 2], ![0, 1, 2]]

theorem gm17Second [Fintype F] (A : GLin1 F) (B : GLin2 F) (S : Finset (Fin 3 → F))
    (hcard : 3 * Fintype.card F ^ 2 < S.card)
    (hS : ∀ x ∈ S, A.value x * x 2 = x 2 * B.value x) :
    ∀ x, A.value x = B.value x := by
  have key := coefficients_zero_of_many 2 3 gm17SecondMon (by decide +kernel) (by decide +kernel)
    (![A.one - B.one, A.al + A.ab, A.ab - B.be, A.g - B.g, A.gg, A.abg, A.abg] : Fin 7 → F) S ?_ hcard
  · have h0 : A.one - B.one = 0 := key 0
    have h1 : A.al + A.ab = 0 := key 1
    have h2 : A.ab - B.be = 0 := key 2
    have h3 : A.g - B.g = 0 := key 3
    have h4 : A.gg = 0 := key 4
    have h5 : A.abg = 0 := key 5
    intro x
    rw [GLin1.value, GLin2.value]
    linear_combination h0 + x 0 * h1 + x 1 * h2 + x 2 * h3 + x 2 * x 2 * h4 + (x 0 + x 1) * x 2 * h5
  · intro x hx
    have h := hS x hx
    have e : ∀ j : Fin 7, ∏ k, x k ^ gm17SecondMon j k =
        x 0 ^ gm17SecondMon j 0 * x 1 ^ gm17SecondMon j 1 * x 2 ^ gm17SecondMon j 2 := fun j => by
      rw [Fin.prod_univ_three]
    simp only [e]
    simp only [GLin1.value, GLin2.value] at h
    generalize x 0 = x0 at *
    generalize x 1 = x1 at *
    generalize x 2 = x2 at *
    clear e
    simp only [gm17SecondMon, Fin.sum_univ_succ, Fin.sum_univ_zero, Matrix.cons_val_zero,
      Matrix.cons_val_succ, Matrix.cons_val_one, Matrix.cons_val]
    linear_combination h

/-- the exponents of the secrets in the first equation -/
def gm17FirstMon : Fin 9 → Fin 3 → Nat :=
  ![![0, 0, 0], ![1, 0, 0], ![0, 1, 0], ![0, 0, 1], ![0, 2, 0], ![1, 1, 0], ![0, 1, 1], ![1, 0, 1], ![0, 0, 2]]

/-- what the two equations mean for combinations that are accepted for many secrets -/
theorem gm17_identity [Fintype F] (A : GLin1 F) (B : GLin2 F) (C : GLin1 F) (ain cin : F)
    (S : Finset (Fin 3 → F)) (hcard : 3 * Fintype.card F ^ 2 < S.card)
    (h1 : ∀ x ∈ S, (A.value x + x 0) * (B.value x + x 1) =
      x 0 * x 1 + (x 2 * cin + (x 0 + x 1) * ain) * x 2 + C.value x)
    (h2 : ∀ x ∈ S, A.value x * x 2 = x 2 * B.value x) :
    (ain + C.abg) ^ 2 = cin + C.gg := by
  have hAB := gm17Second A B S hcard h2
  have key := coefficients_zero_of_many 2 3 gm17FirstMon (by decide +kernel) (by decide +kernel)
    (![B.one * B.one - C.one, B.one - C.al - C.ab, 2 * B.one * B.be + B.one - C.ab, 2 * B.one * B.g - C.g,
      B.be * B.be + B.be, B.be, 2 * B.be * B.g + B.g - ain - C.abg, B.g - ain - C.abg,
      B.g * B.g - cin - C.gg] : Fin 9 → F) S ?_ hcard
  · have h7 : B.g - ain - C.abg = 0 := key 7
    have h8 : B.g * B.g - cin - C.gg = 0 := key 8
    linear_combination h8 - (B.g + (ain + C.abg)) * h7
  · intro x hx
    have h := h1 x hx
    rw [hAB x] at h
    have e : ∀ j : Fin 9, ∏ k, x k ^ gm17FirstMon j k =
        x 0 ^ gm17FirstMon j 0 * x 1 ^ gm17FirstMon j 1 * x 2 ^ gm17FirstMon j 2 := fun j => by
      rw [Fin.prod_univ_three]
    simp only [e]
    simp only [GLin1.value, GLin2.value] at h
    generalize x 0 = x0 at *
    generalize x 1 = x1 at *
    generalize x 2 = x2 at *
    clear e
    simp only [gm17FirstMon, Fin.sum_univ_succ, Fin.sum_univ_zero, Matrix.cons_val_zero,
      Matrix.cons_val_succ, Matrix.cons_val_one, Matrix.cons_val]
    linear_combination h

end Crypto3Zk
