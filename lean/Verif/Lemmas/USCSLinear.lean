import Verif.Lemmas.ManyPoints
import Mathlib.Algebra.BigOperators.Fin
import Mathlib.Tactic.Ring
import Mathlib.Tactic.LinearCombination
import Mathlib.Data.Fin.VecNotation

/-!
# The equations of the verifier for unitary-square constraint systems as polynomials in the secrets
-/

namespace Crypto3Zk

variable {F : Type} [Field F] [DecidableEq F]

/-- a combination of elements of the first group; `x` is the pair of secrets besides `t` -/
structure ULin1 (F : Type) where
  one : F
  al : F

def ULin1.value (A : ULin1 F) (x : Fin 2 → F) : F := A.one + A.al * x 0

def uscsThirdMon : Fin 3 → Fin 2 → Nat := ![![0, 1], ![1, 1], ![2, 1]]

theorem uscsThird [Fintype F] (V A : ULin1 F) (S : Finset (Fin 2 → F)) (hcard : 3 * Fintype.card F ^ 1 < S.card)
    (hS : ∀ x ∈ S, V.value x * (x 0 * x 1) = A.value x * x 1) : V.one = A.al ∧ V.al = 0 := by
  have key := coefficients_zero_of_many 1 3 uscsThirdMon (by decide +kernel) (by decide +kernel)
    (![- A.one, V.one - A.al, V.al] : Fin 3 → F) S ?_ hcard
  · have h1 : V.one - A.al = 0 := key 1
    have h2 : V.al = 0 := key 2
    exact ⟨sub_eq_zero.1 h1, h2⟩
  · intro x hx
    have h := hS x hx
    have e : ∀ j : Fin 3, ∏ k, x k ^ uscsThirdMon j k = x 0 ^ uscsThirdMon j 0 * x 1 ^ uscsThirdMon j 1 := fun j => by
      rw [Fin.prod_univ_two]
    simp only [e]
    clear e
    simp only [ULin1.value] at h
    generalize x 0 = x0 at *
    generalize x 1 = x1 at *
    simp only [uscsThirdMon, Fin.sum_univ_succ, Fin.sum_univ_zero, Matrix.cons_val_zero,
      Matrix.cons_val_succ, Matrix.cons_val_one, Matrix.cons_val]
    linear_combination h

def uscsFirstMon : Fin 4 → Fin 2 → Nat := ![![0, 0], ![1, 0], ![0, 1], ![1, 1]]

/-- what the three equations mean for combinations that are accepted for many secrets -/
theorem uscs_identity [Fintype F] (V A H : ULin1 F) (B : (Fin 2 → F) → F) (acc z : F)
    (S : Finset (Fin 2 → F)) (hcard : 3 * Fintype.card F ^ 1 < S.card)
    (h1 : ∀ x ∈ S, V.value x + acc = B x)
    (h2 : ∀ x ∈ S, (V.value x + acc) * B x = H.value x * z + 1)
    (h3 : ∀ x ∈ S, V.value x * (x 0 * x 1) = A.value x * x 1) :
    (A.al + acc) * (A.al + acc) - 1 = H.one * z := by
  obtain ⟨e1, e2⟩ := uscsThird V A S hcard h3
  have hV : ∀ x, V.value x = A.al := fun x => by rw [ULin1.value, e1, e2]; ring
  have key := coefficients_zero_of_many 1 3 uscsFirstMon (by decide +kernel) (by decide +kernel)
    (![(A.al + acc) * (A.al + acc) - 1 - H.one * z, - H.al * z, 0, 0] : Fin 4 → F) S ?_ hcard
  · have h0 : (A.al + acc) * (A.al + acc) - 1 - H.one * z = 0 := key 0
    exact sub_eq_zero.1 h0
  · intro x hx
    have h := h2 x hx
    rw [← h1 x hx, hV] at h
    have e : ∀ j : Fin 4, ∏ k, x k ^ uscsFirstMon j k = x 0 ^ uscsFirstMon j 0 * x 1 ^ uscsFirstMon j 1 := fun j => by
      rw [Fin.prod_univ_two]
    simp only [e]
    clear e
    simp only [ULin1.value] at h
    generalize x 0 = x0 at *
    generalize x 1 = x1 at *
    simp only [uscsFirstMon, Fin.sum_univ_succ, Fin.sum_univ_zero, Matrix.cons_val_zero,
      Matrix.cons_val_succ, Matrix.cons_val_one, Matrix.cons_val]
    linear_combination h

end Crypto3Zk
