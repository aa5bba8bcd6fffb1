import Verif.Lemmas.ManyPoints
import Mathlib.Tactic.LinearCombination
import Mathlib.Tactic.FieldSimp
import Mathlib.Tactic.Ring

/-!
# The verification equations of PGHR13 as identities in the secrets

The values at one evaluation point are fixed; `x 0, ..., x 6` are αA, αB, αC, rA, rB, β, γ.
-/

set_option linter.unusedSectionVars false

namespace Crypto3Zk

variable {F : Type} [Field F] [DecidableEq F]

/-- what a combination of the elements of `G1` is, at one evaluation point: the coefficients of the products of
secrets -/
structure PLin1 (F : Type) where
  one : F
  a : F
  aA : F
  bB : F
  c : F
  cC : F
  ka : F
  kb : F
  kc : F
  alphaB : F
  gb : F

/-- the value of the combination -/
def PLin1.value (A : PLin1 F) (x : Fin 7 → F) : F :=
  A.one + A.a * x 3 + A.aA * x 0 * x 3 + A.bB * x 1 * x 4 + A.c * x 3 * x 4 + A.cC * x 2 * x 3 * x 4 + A.ka * x 3 * x 5 + A.kb * x 4 * x 5 + A.kc * x 3 * x 4 * x 5 + A.alphaB * x 1 + A.gb * x 5 * x 6

/-- a combination of the elements of `G2`, at one evaluation point -/
structure PLin2 (F : Type) where
  one : F
  b : F
  alphaA : F
  alphaC : F
  gamma : F
  gb : F
  rc : F

/-- the value of the combination -/
def PLin2.value (A : PLin2 F) (x : Fin 7 → F) : F :=
  A.one + A.b * x 4 + A.alphaA * x 0 + A.alphaC * x 2 + A.gamma * x 6 + A.gb * x 5 * x 6 + A.rc * x 3 * x 4

/-- the exponents of the secrets in `pghr13EqA` -/
def pghr13EqAMon : Fin 21 → Fin 7 → Nat :=
  ![![1, 0, 0, 0, 0, 0, 0],
    ![1, 0, 0, 1, 0, 0, 0],
    ![2, 0, 0, 1, 0, 0, 0],
    ![1, 1, 0, 0, 1, 0, 0],
    ![1, 0, 0, 1, 1, 0, 0],
    ![1, 0, 1, 1, 1, 0, 0],
    ![1, 0, 0, 1, 0, 1, 0],
    ![1, 0, 0, 0, 1, 1, 0],
    ![1, 0, 0, 1, 1, 1, 0],
    ![1, 1, 0, 0, 0, 0, 0],
    ![1, 0, 0, 0, 0, 1, 1],
    ![0, 0, 0, 0, 0, 0, 0],
    ![0, 0, 0, 1, 0, 0, 0],
    ![0, 1, 0, 0, 1, 0, 0],
    ![0, 0, 0, 1, 1, 0, 0],
    ![0, 0, 1, 1, 1, 0, 0],
    ![0, 0, 0, 1, 0, 1, 0],
    ![0, 0, 0, 0, 1, 1, 0],
    ![0, 0, 0, 1, 1, 1, 0],
    ![0, 1, 0, 0, 0, 0, 0],
    ![0, 0, 0, 0, 0, 1, 1]]

theorem pghr13EqA [Fintype F] (A A' : PLin1 F) (S : Finset (Fin 7 → F))
    (hcard : 5 * Fintype.card F ^ 6 < S.card)
    (hS : ∀ x ∈ S, A.value x * x 0 = A'.value x) :
    ∀ x, A.value x = A'.aA * x 3 := by
  have key := coefficients_zero_of_many 6 4 pghr13EqAMon (by decide +kernel) (by decide +kernel)
    (![A.one,
      A.a - A'.aA,
      A.aA,
      A.bB,
      A.c,
      A.cC,
      A.ka,
      A.kb,
      A.kc,
      A.alphaB,
      A.gb,
      - A'.one,
      - A'.a,
      - A'.bB,
      - A'.c,
      - A'.cC,
      - A'.ka,
      - A'.kb,
      - A'.kc,
      - A'.alphaB,
      - A'.gb] : Fin 21 → F)
    S ?_ (lt_of_le_of_lt (Nat.mul_le_mul_right _ (by decide)) hcard)
  · have k0 : A.one = 0 := key 0
    have k1 : A.a - A'.aA = 0 := key 1
    have k2 : A.aA = 0 := key 2
    have k3 : A.bB = 0 := key 3
    have k4 : A.c = 0 := key 4
    have k5 : A.cC = 0 := key 5
    have k6 : A.ka = 0 := key 6
    have k7 : A.kb = 0 := key 7
    have k8 : A.kc = 0 := key 8
    have k9 : A.alphaB = 0 := key 9
    have k10 : A.gb = 0 := key 10
    clear key hS
    intro x
    rw [PLin1.value]
    linear_combination k0 + x 3 * k1 + x 0 * x 3 * k2 + x 1 * x 4 * k3 + x 3 * x 4 * k4 + x 2 * x 3 * x 4 * k5 + x 3 * x 5 * k6 +
      x 4 * x 5 * k7 + x 3 * x 4 * x 5 * k8 + x 1 * k9 + x 5 * x 6 * k10
  · intro x hx
    have h := hS x hx
    have e : ∀ j : Fin 21, ∏ k, x k ^ pghr13EqAMon j k =
        x 0 ^ pghr13EqAMon j 0 * x 1 ^ pghr13EqAMon j 1 * x 2 ^ pghr13EqAMon j 2 * x 3 ^ pghr13EqAMon j 3 *
          x 4 ^ pghr13EqAMon j 4 * x 5 ^ pghr13EqAMon j 5 * x 6 ^ pghr13EqAMon j 6 := fun j => by
      rw [Fin.prod_univ_seven]
    simp only [e]
    simp only [PLin1.value, PLin2.value] at h
    generalize x 0 = x0 at *
    generalize x 1 = x1 at *
    generalize x 2 = x2 at *
    generalize x 3 = x3 at *
    generalize x 4 = x4 at *
    generalize x 5 = x5 at *
    generalize x 6 = x6 at *
    clear e
    simp only [pghr13EqAMon, Fin.sum_univ_succ, Fin.sum_univ_zero, Matrix.cons_val_zero,
      Matrix.cons_val_succ, Matrix.cons_val_one, Matrix.cons_val]
    linear_combination h

/-- the exponents of the secrets in `pghr13EqC` -/
def pghr13EqCMon : Fin 21 → Fin 7 → Nat :=
  ![![0, 0, 1, 0, 0, 0, 0],
    ![0, 0, 1, 1, 0, 0, 0],
    ![1, 0, 1, 1, 0, 0, 0],
    ![0, 1, 1, 0, 1, 0, 0],
    ![0, 0, 1, 1, 1, 0, 0],
    ![0, 0, 2, 1, 1, 0, 0],
    ![0, 0, 1, 1, 0, 1, 0],
    ![0, 0, 1, 0, 1, 1, 0],
    ![0, 0, 1, 1, 1, 1, 0],
    ![0, 1, 1, 0, 0, 0, 0],
    ![0, 0, 1, 0, 0, 1, 1],
    ![0, 0, 0, 0, 0, 0, 0],
    ![0, 0, 0, 1, 0, 0, 0],
    ![1, 0, 0, 1, 0, 0, 0],
    ![0, 1, 0, 0, 1, 0, 0],
    ![0, 0, 0, 1, 1, 0, 0],
    ![0, 0, 0, 1, 0, 1, 0],
    ![0, 0, 0, 0, 1, 1, 0],
    ![0, 0, 0, 1, 1, 1, 0],
    ![0, 1, 0, 0, 0, 0, 0],
    ![0, 0, 0, 0, 0, 1, 1]]

theorem pghr13EqC [Fintype F] (C C' : PLin1 F) (S : Finset (Fin 7 → F))
    (hcard : 5 * Fintype.card F ^ 6 < S.card)
    (hS : ∀ x ∈ S, C.value x * x 2 = C'.value x) :
    ∀ x, C.value x = C'.cC * (x 3 * x 4) := by
  have key := coefficients_zero_of_many 6 4 pghr13EqCMon (by decide +kernel) (by decide +kernel)
    (![C.one,
      C.a,
      C.aA,
      C.bB,
      C.c - C'.cC,
      C.cC,
      C.ka,
      C.kb,
      C.kc,
      C.alphaB,
      C.gb,
      - C'.one,
      - C'.a,
      - C'.aA,
      - C'.bB,
      - C'.c,
      - C'.ka,
      - C'.kb,
      - C'.kc,
      - C'.alphaB,
      - C'.gb] : Fin 21 → F)
    S ?_ (lt_of_le_of_lt (Nat.mul_le_mul_right _ (by decide)) hcard)
  · have k0 : C.one = 0 := key 0
    have k1 : C.a = 0 := key 1
    have k2 : C.aA = 0 := key 2
    have k3 : C.bB = 0 := key 3
    have k4 : C.c - C'.cC = 0 := key 4
    have k5 : C.cC = 0 := key 5
    have k6 : C.ka = 0 := key 6
    have k7 : C.kb = 0 := key 7
    have k8 : C.kc = 0 := key 8
    have k9 : C.alphaB = 0 := key 9
    have k10 : C.gb = 0 := key 10
    clear key hS
    intro x
    rw [PLin1.value]
    linear_combination k0 + x 3 * k1 + x 0 * x 3 * k2 + x 1 * x 4 * k3 + x 3 * x 4 * k4 + x 2 * x 3 * x 4 * k5 + x 3 * x 5 * k6 +
      x 4 * x 5 * k7 + x 3 * x 4 * x 5 * k8 + x 1 * k9 + x 5 * x 6 * k10
  · intro x hx
    have h := hS x hx
    have e : ∀ j : Fin 21, ∏ k, x k ^ pghr13EqCMon j k =
        x 0 ^ pghr13EqCMon j 0 * x 1 ^ pghr13EqCMon j 1 * x 2 ^ pghr13EqCMon j 2 * x 3 ^ pghr13EqCMon j 3 *
          x 4 ^ pghr13EqCMon j 4 * x 5 ^ pghr13EqCMon j 5 * x 6 ^ pghr13EqCMon j 6 := fun j => by
      rw [Fin.prod_univ_seven]
    simp only [e]
    simp only [PLin1.value, PLin2.value] at h
    generalize x 0 = x0 at *
    generalize x 1 = x1 at *
    generalize x 2 = x2 at *
    generalize x 3 = x3 at *
    generalize x 4 = x4 at *
    generalize x 5 = x5 at *
    generalize x 6 = x6 at *
    clear e
    simp only [pghr13EqCMon, Fin.sum_univ_succ, Fin.sum_univ_zero, Matrix.cons_val_zero,
      Matrix.cons_val_succ, Matrix.cons_val_one, Matrix.cons_val]
    linear_combination h

/-- the exponents of the secrets in `pghr13EqB` -/
def pghr13EqBMon : Fin 16 → Fin 7 → Nat :=
  ![![0, 1, 0, 0, 0, 0, 0],
    ![0, 1, 0, 0, 1, 0, 0],
    ![1, 1, 0, 0, 0, 0, 0],
    ![0, 1, 1, 0, 0, 0, 0],
    ![0, 1, 0, 0, 0, 0, 1],
    ![0, 1, 0, 0, 0, 1, 1],
    ![0, 1, 0, 1, 1, 0, 0],
    ![0, 0, 0, 0, 0, 0, 0],
    ![0, 0, 0, 1, 0, 0, 0],
    ![1, 0, 0, 1, 0, 0, 0],
    ![0, 0, 0, 1, 1, 0, 0],
    ![0, 0, 1, 1, 1, 0, 0],
    ![0, 0, 0, 1, 0, 1, 0],
    ![0, 0, 0, 0, 1, 1, 0],
    ![0, 0, 0, 1, 1, 1, 0],
    ![0, 0, 0, 0, 0, 1, 1]]

theorem pghr13EqB [Fintype F] (B : PLin2 F) (B' : PLin1 F) (S : Finset (Fin 7 → F))
    (hcard : 5 * Fintype.card F ^ 6 < S.card)
    (hS : ∀ x ∈ S, x 1 * B.value x = B'.value x) :
    ∀ x, B.value x = B.one + B.b * x 4 := by
  have key := coefficients_zero_of_many 6 4 pghr13EqBMon (by decide +kernel) (by decide +kernel)
    (![B.one - B'.alphaB,
      B.b - B'.bB,
      B.alphaA,
      B.alphaC,
      B.gamma,
      B.gb,
      B.rc,
      - B'.one,
      - B'.a,
      - B'.aA,
      - B'.c,
      - B'.cC,
      - B'.ka,
      - B'.kb,
      - B'.kc,
      - B'.gb] : Fin 16 → F)
    S ?_ (lt_of_le_of_lt (Nat.mul_le_mul_right _ (by decide)) hcard)
  · have k2 : B.alphaA = 0 := key 2
    have k3 : B.alphaC = 0 := key 3
    have k4 : B.gamma = 0 := key 4
    have k5 : B.gb = 0 := key 5
    have k6 : B.rc = 0 := key 6
    clear key hS
    intro x
    rw [PLin2.value]
    linear_combination x 0 * k2 + x 2 * k3 + x 6 * k4 + x 5 * x 6 * k5 + x 3 * x 4 * k6
  · intro x hx
    have h := hS x hx
    have e : ∀ j : Fin 16, ∏ k, x k ^ pghr13EqBMon j k =
        x 0 ^ pghr13EqBMon j 0 * x 1 ^ pghr13EqBMon j 1 * x 2 ^ pghr13EqBMon j 2 * x 3 ^ pghr13EqBMon j 3 *
          x 4 ^ pghr13EqBMon j 4 * x 5 ^ pghr13EqBMon j 5 * x 6 ^ pghr13EqBMon j 6 := fun j => by
      rw [Fin.prod_univ_seven]
    simp only [e]
    simp only [PLin1.value, PLin2.value] at h
    generalize x 0 = x0 at *
    generalize x 1 = x1 at *
    generalize x 2 = x2 at *
    generalize x 3 = x3 at *
    generalize x 4 = x4 at *
    generalize x 5 = x5 at *
    generalize x 6 = x6 at *
    clear e
    simp only [pghr13EqBMon, Fin.sum_univ_succ, Fin.sum_univ_zero, Matrix.cons_val_zero,
      Matrix.cons_val_succ, Matrix.cons_val_one, Matrix.cons_val]
    linear_combination h

/-- the exponents of the secrets in `pghr13EqK` -/
def pghr13EqKMon : Fin 12 → Fin 7 → Nat :=
  ![![0, 0, 0, 0, 0, 0, 1],
    ![0, 0, 0, 1, 0, 0, 1],
    ![1, 0, 0, 1, 0, 0, 1],
    ![0, 1, 0, 0, 1, 0, 1],
    ![0, 0, 0, 1, 1, 0, 1],
    ![0, 0, 1, 1, 1, 0, 1],
    ![0, 0, 0, 1, 0, 1, 1],
    ![0, 0, 0, 0, 1, 1, 1],
    ![0, 0, 0, 1, 1, 1, 1],
    ![0, 1, 0, 0, 0, 0, 1],
    ![0, 0, 0, 0, 0, 1, 2],
    ![0, 0, 0, 0, 0, 1, 1]]

theorem pghr13EqK [Fintype F] (K : PLin1 F) (a c f0 f1 : F) (S : Finset (Fin 7 → F))
    (hcard : 5 * Fintype.card F ^ 6 < S.card)
    (hS : ∀ x ∈ S, K.value x * x 6 = (a * x 3 + c * (x 3 * x 4) + f0 + f1 * x 4) * (x 6 * x 5)) :
    K.ka = a ∧ K.kb = f1 ∧ K.kc = c ∧ f0 = 0 := by
  have key := coefficients_zero_of_many 6 4 pghr13EqKMon (by decide +kernel) (by decide +kernel)
    (![K.one,
      K.a,
      K.aA,
      K.bB,
      K.c,
      K.cC,
      K.ka - a,
      K.kb - f1,
      K.kc - c,
      K.alphaB,
      K.gb,
      - f0] : Fin 12 → F)
    S ?_ (lt_of_le_of_lt (Nat.mul_le_mul_right _ (by decide)) hcard)
  · have k1 : K.ka - a = 0 := key 6
    have k2 : K.kb - f1 = 0 := key 7
    have k3 : K.kc - c = 0 := key 8
    have k4 : - f0 = 0 := key 11
    clear key hS
    exact ⟨by linear_combination k1, by linear_combination k2, by linear_combination k3, by linear_combination -k4⟩
  · intro x hx
    have h := hS x hx
    have e : ∀ j : Fin 12, ∏ k, x k ^ pghr13EqKMon j k =
        x 0 ^ pghr13EqKMon j 0 * x 1 ^ pghr13EqKMon j 1 * x 2 ^ pghr13EqKMon j 2 * x 3 ^ pghr13EqKMon j 3 *
          x 4 ^ pghr13EqKMon j 4 * x 5 ^ pghr13EqKMon j 5 * x 6 ^ pghr13EqKMon j 6 := fun j => by
      rw [Fin.prod_univ_seven]
    simp only [e]
    simp only [PLin1.value, PLin2.value] at h
    generalize x 0 = x0 at *
    generalize x 1 = x1 at *
    generalize x 2 = x2 at *
    generalize x 3 = x3 at *
    generalize x 4 = x4 at *
    generalize x 5 = x5 at *
    generalize x 6 = x6 at *
    clear e
    simp only [pghr13EqKMon, Fin.sum_univ_succ, Fin.sum_univ_zero, Matrix.cons_val_zero,
      Matrix.cons_val_succ, Matrix.cons_val_one, Matrix.cons_val]
    linear_combination h

/-- the exponents of the secrets in `pghr13EqQ` -/
def pghr13EqQMon : Fin 11 → Fin 7 → Nat :=
  ![![0, 0, 0, 1, 1, 0, 0],
    ![0, 0, 0, 2, 1, 0, 0],
    ![1, 0, 0, 2, 1, 0, 0],
    ![0, 1, 0, 1, 2, 0, 0],
    ![0, 0, 0, 2, 2, 0, 0],
    ![0, 0, 1, 2, 2, 0, 0],
    ![0, 0, 0, 2, 1, 1, 0],
    ![0, 0, 0, 1, 2, 1, 0],
    ![0, 0, 0, 2, 2, 1, 0],
    ![0, 1, 0, 1, 1, 0, 0],
    ![0, 0, 0, 1, 1, 1, 1]]

theorem pghr13EqQ [Fintype F] (H : PLin1 F) (a c f1 z : F) (S : Finset (Fin 7 → F))
    (hcard : 5 * Fintype.card F ^ 6 < S.card)
    (hS : ∀ x ∈ S, H.value x * (x 3 * x 4 * z) + c * (x 3 * x 4) = a * x 3 * (f1 * x 4)) :
    a * f1 = H.one * z + c := by
  have key := coefficients_zero_of_many 6 5 pghr13EqQMon (by decide +kernel) (by decide +kernel)
    (![H.one * z +c - a * f1,
      H.a * z,
      H.aA * z,
      H.bB * z,
      H.c * z,
      H.cC * z,
      H.ka * z,
      H.kb * z,
      H.kc * z,
      H.alphaB * z,
      H.gb * z] : Fin 11 → F)
    S ?_ (lt_of_le_of_lt (Nat.mul_le_mul_right _ (by decide)) hcard)
  · have k1 : H.one * z +c - a * f1 = 0 := key 0
    clear key hS
    linear_combination -k1
  · intro x hx
    have h := hS x hx
    have e : ∀ j : Fin 11, ∏ k, x k ^ pghr13EqQMon j k =
        x 0 ^ pghr13EqQMon j 0 * x 1 ^ pghr13EqQMon j 1 * x 2 ^ pghr13EqQMon j 2 * x 3 ^ pghr13EqQMon j 3 *
          x 4 ^ pghr13EqQMon j 4 * x 5 ^ pghr13EqQMon j 5 * x 6 ^ pghr13EqQMon j 6 := fun j => by
      rw [Fin.prod_univ_seven]
    simp only [e]
    simp only [PLin1.value, PLin2.value] at h
    generalize x 0 = x0 at *
    generalize x 1 = x1 at *
    generalize x 2 = x2 at *
    generalize x 3 = x3 at *
    generalize x 4 = x4 at *
    generalize x 5 = x5 at *
    generalize x 6 = x6 at *
    clear e
    simp only [pghr13EqQMon, Fin.sum_univ_succ, Fin.sum_univ_zero, Matrix.cons_val_zero,
      Matrix.cons_val_succ, Matrix.cons_val_one, Matrix.cons_val]
    linear_combination h

/-- what the five equations say at one evaluation point, if they hold for many secrets -/
theorem pghr13_identity [Fintype F] (A A' : PLin1 F) (B : PLin2 F) (B' C C' H K : PLin1 F) (inp z : F)
    (S : Finset (Fin 7 → F)) (hcard : 5 * Fintype.card F ^ 6 < S.card)
    (hS : ∀ x ∈ S, A.value x * x 0 = A'.value x ∧ x 1 * B.value x = B'.value x ∧
      C.value x * x 2 = C'.value x ∧
      (A.value x + x 3 * inp) * B.value x = H.value x * (x 3 * x 4 * z) + C.value x ∧
      K.value x * x 6 = (A.value x + x 3 * inp + C.value x) * (x 6 * x 5) + x 6 * x 5 * B.value x) :
    A'.aA + inp = K.ka ∧ K.ka * K.kb = H.one * z + K.kc := by
  have hA := pghr13EqA A A' S hcard fun x hx => (hS x hx).1
  have hB := pghr13EqB B B' S hcard fun x hx => (hS x hx).2.1
  have hC := pghr13EqC C C' S hcard fun x hx => (hS x hx).2.2.1
  obtain ⟨k1, k2, k3, k4⟩ := pghr13EqK K (A'.aA + inp) C'.cC B.one B.b S hcard fun x hx => by
    have h := (hS x hx).2.2.2.2
    rw [hA x, hB x, hC x] at h
    linear_combination h
  have hQ := pghr13EqQ H (A'.aA + inp) C'.cC B.b z S hcard fun x hx => by
    have h := (hS x hx).2.2.2.1
    rw [hA x, hB x, hC x, k4] at h
    linear_combination -h
  refine ⟨k1.symm, ?_⟩
  rw [k1, k2, k3, hQ]

end Crypto3Zk
