import Verif.Lemmas.SeenProofs
import Verif.Lemmas.Groth16Linear

/-!
# The equation of the Groth16 verifier for provers that have seen proofs
-/

set_option linter.unusedSectionVars false

namespace Crypto3Zk

variable {F : Type} [Field F] [DecidableEq F]

/-- The equation at fixed secrets, in the simulator's random values `z.1 k` and `z.2 k`. -/
theorem seenGroth16_fixed [Fintype F] (hc : ∃ c : F, c ≠ 0 ∧ c ≠ 1) (n : Nat) (a0 b0 e : F)
    (u v w p q s : Fin (n + 1) → F) (S : Finset ((Fin (n + 1) → F) × (Fin (n + 1) → F)))
    (hcard : 3 * Fintype.card F ^ (2 * n + 1) < S.card)
    (hS : ∀ z ∈ S, (a0 + ∑ k, (u k * z.1 k + v k * (z.1 k * z.2 k - s k))) * (b0 + ∑ k, w k * z.2 k) =
      e + ∑ k, (p k * z.1 k + q k * (z.1 k * z.2 k - s k))) :
    (∀ k l, v k * w l = 0) ∧ (∀ k, u k * w k + v k * b0 = q k) ∧ (∀ k l, k ≠ l → u k * w l = 0) ∧
      (∀ k, u k * b0 = p k) ∧ (∀ l, (a0 - ∑ k, v k * s k) * w l = 0) ∧
      (a0 - ∑ k, v k * s k) * b0 = e - ∑ k, q k * s k := by
  classical
  set K := Fintype.card F with hK
  obtain ⟨good, hgood, hslice⟩ := many_slices S (K ^ n) (2 * K ^ n) (by
    rw [Fintype.card_fun, Fintype.card_fin, ← hK]
    calc _ = 3 * K ^ (2 * n + 1) := by ring
      _ < _ := hcard)
  set a1 := a0 - ∑ k, v k * s k with ha1
  set e1 := e - ∑ k, q k * s k with he1
  have hq : ∀ a ∈ good,
      (a1 * b0 - e1) + ∑ k, (u k * b0 - p k) * a k = 0 ∧
      (∀ i, a1 * w i + ∑ k, (u k * w i + if k = i then v i * b0 - q i else 0) * a k = 0) ∧
      (∀ i, v i * a i * w i = 0) ∧ ∀ i j, v i * a i * w j + v j * a j * w i = 0 := by
    intro a ha
    have := quadratic_zero_of_three hc n ((a1 + ∑ k, u k * a k) * b0 - e1 - ∑ k, p k * a k)
      (fun i => (a1 + ∑ k, u k * a k) * w i + v i * a i * b0 - q i * a i) (fun i j => v i * a i * w j) _
      (hslice a ha) (by
        intro b hb
        have h := hS _ (Finset.mem_filter.1 hb).2
        simp only at h
        have f1 : ∑ k, (u k * a k + v k * (a k * b k - s k)) =
            ∑ k, u k * a k + ∑ k, v k * a k * b k - ∑ k, v k * s k := by
          rw [← Finset.sum_add_distrib, ← Finset.sum_sub_distrib]
          exact Finset.sum_congr rfl fun k _ => by ring
        have f2 : ∑ k, (p k * a k + q k * (a k * b k - s k)) =
            ∑ k, p k * a k + ∑ k, q k * a k * b k - ∑ k, q k * s k := by
          rw [← Finset.sum_add_distrib, ← Finset.sum_sub_distrib]
          exact Finset.sum_congr rfl fun k _ => by ring
        have f3 : ∑ i, ((a1 + ∑ k, u k * a k) * w i + v i * a i * b0 - q i * a i) * b i =
            (a1 + ∑ k, u k * a k) * ∑ i, w i * b i + (∑ i, v i * a i * b i) * b0 - ∑ i, q i * a i * b i := by
          rw [Finset.mul_sum, Finset.sum_mul, ← Finset.sum_add_distrib, ← Finset.sum_sub_distrib]
          exact Finset.sum_congr rfl fun k _ => by ring
        have f4 : ∑ i, ∑ j, v i * a i * w j * (b i * b j) = (∑ i, v i * a i * b i) * ∑ j, w j * b j := by
          rw [Finset.sum_mul_sum]
          exact Finset.sum_congr rfl fun i _ => Finset.sum_congr rfl fun j _ => by ring
        rw [f1, f2] at h
        rw [f3, f4]
        linear_combination h)
    obtain ⟨g1, g2, g3, g4⟩ := this
    refine ⟨?_, fun i => ?_, g3, g4⟩
    · have f : ∑ k, (u k * b0 - p k) * a k = (∑ k, u k * a k) * b0 - ∑ k, p k * a k := by
        rw [Finset.sum_mul, ← Finset.sum_sub_distrib]
        exact Finset.sum_congr rfl fun k _ => by ring
      rw [f]
      linear_combination g1
    · have f : ∑ k, (u k * w i + if k = i then v i * b0 - q i else 0) * a k =
          (∑ k, u k * a k) * w i + (v i * b0 - q i) * a i := by
        simp only [add_mul, Finset.sum_add_distrib, ite_mul, zero_mul, Finset.sum_ite_eq', Finset.mem_univ,
          if_true]
        rw [Finset.sum_mul]
        congr 1
        exact Finset.sum_congr rfl fun k _ => by ring
      rw [f]
      linear_combination g2 i
  obtain ⟨r1, r2⟩ := affine_zero n _ _ good hgood fun a ha => (hq a ha).1
  have r3 := fun i => affine_zero n _ _ good hgood fun a ha => (hq a ha).2.1 i
  have r4 : ∀ i, v i * w i = 0 := by
    intro i
    have := (affine_zero n 0 (fun k => if k = i then v i * w i else 0) good hgood fun a ha => by
      have := (hq a ha).2.2.1 i
      simp only [ite_mul, zero_mul, Finset.sum_ite_eq', Finset.mem_univ, if_true]
      linear_combination this).2 i
    simpa using this
  have r5 : ∀ i j, v i * w j = 0 := by
    intro i j
    by_cases hij : i = j
    · subst hij; exact r4 i
    have := (affine_zero n 0 (fun k => (if k = i then v i * w j else 0) + if k = j then v j * w i else 0)
      good hgood fun a ha => by
      have := (hq a ha).2.2.2 i j
      simp only [add_mul, ite_mul, zero_mul, Finset.sum_add_distrib, Finset.sum_ite_eq', Finset.mem_univ, if_true]
      linear_combination this).2 i
    simpa [hij] using this
  refine ⟨r5, fun k => ?_, fun k l hkl => ?_, fun k => sub_eq_zero.1 (r2 k), fun l => (r3 l).1,
    sub_eq_zero.1 r1⟩
  · have := (r3 k).2 k
    simp only [if_true] at this
    linear_combination this
  · have := (r3 l).2 k
    simpa [hkl] using this

/-- the exponents of α, β, γ, δ when the first element is made of a seen one, times γ -/
def seenGroth16Monomials : Fin 11 → Fin 4 → Nat :=
  ![![1, 1, 1, 0], ![0, 1, 1, 0], ![1, 0, 1, 0], ![0, 0, 1, 0], ![1, 0, 1, 1], ![0, 1, 1, 1],
    ![0, 0, 1, 2], ![0, 0, 1, 1], ![0, 1, 0, 1], ![1, 0, 0, 1], ![0, 0, 0, 1]]

/-- if a seen proof is used for the first element, its third element is used once, and the inputs
agree up to the elements for the auxiliary input -/
theorem seenGroth16_used [Fintype F] (C : Lin1 F) (q pu pv pw : F) (S : Finset (Fin 4 → F))
    (hcard : 3 * Fintype.card F ^ 3 < S.card)
    (hS : ∀ x ∈ S, x 2 ≠ 0 ∧ x 3 ≠ 0 ∧
      x 0 * x 1 + (x 1 * pu + x 0 * pv + pw) + C.value (x 0) (x 1) (x 2) (x 3) * x 3 = q * (x 0 * x 1)) :
    q = 1 ∧ pu + C.u2 = 0 := by
  obtain ⟨c1, c2, c3, c4, c5, c6, c7, c8, c9, c10⟩ := C
  simp only [Lin1.value] at hS ⊢
  have key := coefficients_zero_of_many 3 3 seenGroth16Monomials (by decide +kernel) (by decide +kernel)
    (![1 - q, pu + c8, pv + c9, pw + c10, c1, c2, c3, c4, c5, c6, c7] : Fin 11 → F) S ?_ hcard
  · have k0 := key 0
    have k1 := key 1
    change 1 - q = 0 at k0
    change pu + c8 = 0 at k1
    exact ⟨by linear_combination -k0, k1⟩
  · intro x hx
    obtain ⟨h2, h3, h⟩ := hS x hx
    have e : ∀ j : Fin 11, ∏ k, x k ^ seenGroth16Monomials j k =
        x 0 ^ seenGroth16Monomials j 0 * x 1 ^ seenGroth16Monomials j 1 * x 2 ^ seenGroth16Monomials j 2 *
          x 3 ^ seenGroth16Monomials j 3 := fun j => by rw [Fin.prod_univ_four]
    simp only [e]
    generalize x 0 = α at *
    generalize x 1 = β at *
    generalize x 2 = γ at *
    generalize x 3 = δ at *
    clear e
    simp only [seenGroth16Monomials, Fin.sum_univ_succ, Fin.sum_univ_zero, Matrix.cons_val_zero,
      Matrix.cons_val_succ, Matrix.cons_val_one, Matrix.cons_val]
    field_simp at h
    linear_combination h

end Crypto3Zk
