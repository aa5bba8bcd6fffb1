import Verif.Lemmas.GM17Linear
import Mathlib.Algebra.BigOperators.Ring.Finset
import Mathlib.Algebra.BigOperators.Pi

/-!
# The equations of the Groth–Maller verifier for provers that have seen proofs
-/

set_option linter.unusedSectionVars false

namespace Crypto3Zk

variable {F : Type} [Field F] [DecidableEq F]

/-- a polynomial of degree at most `d` with more than `d · |F|^n` zeros is zero -/
theorem polynomial_zero_of_many [Fintype F] (n d : Nat) (p : MvPolynomial (Fin (n + 1)) F)
    (hdeg : p.totalDegree ≤ d) (S : Finset (Fin (n + 1) → F))
    (hS : ∀ x ∈ S, MvPolynomial.eval x p = 0) (hcard : d * Fintype.card F ^ n < S.card) : p = 0 := by
  by_contra hp
  have hsz := MvPolynomial.schwartz_zippel_totalDegree hp (Finset.univ : Finset F)
  have hsub : S.card ≤
      (Finset.filter (fun f => MvPolynomial.eval f p = 0) (Fintype.piFinset fun _ => Finset.univ)).card := by
    refine Finset.card_le_card fun x hx => ?_
    simp only [Finset.mem_filter, Fintype.mem_piFinset, Finset.mem_univ, implies_true, true_and]
    exact hS x hx
  have hF : (0 : ℚ≥0) < Fintype.card F := by exact_mod_cast Fintype.card_pos
  rw [Finset.card_univ, div_le_div_iff₀ (pow_pos hF _) hF, pow_succ] at hsz
  have h2 : ((Finset.filter (fun f => MvPolynomial.eval f p = 0)
      (Fintype.piFinset fun _ => Finset.univ)).card : ℚ≥0) ≤ p.totalDegree * (Fintype.card F) ^ n := by
    refine le_of_mul_le_mul_right ?_ hF
    calc _ ≤ _ := hsz
      _ = _ := by ring
  have h3 : (Finset.filter (fun f => MvPolynomial.eval f p = 0)
      (Fintype.piFinset fun _ => Finset.univ)).card ≤ p.totalDegree * (Fintype.card F) ^ n := by
    exact_mod_cast h2
  have h4 : p.totalDegree * (Fintype.card F) ^ n ≤ d * Fintype.card F ^ n := Nat.mul_le_mul_right _ hdeg
  omega

/-- a quadratic expression in several variables with many zeros has coefficients zero -/
theorem quadratic_zero_of_three [Fintype F] (hc : ∃ c : F, c ≠ 0 ∧ c ≠ 1) (n : Nat) (c : F) (l : Fin (n + 1) → F)
    (m : Fin (n + 1) → Fin (n + 1) → F) (S : Finset (Fin (n + 1) → F))
    (hcard : 2 * Fintype.card F ^ n < S.card)
    (hS : ∀ x ∈ S, c + ∑ i, l i * x i + ∑ i, ∑ j, m i j * (x i * x j) = 0) :
    c = 0 ∧ (∀ i, l i = 0) ∧ (∀ i, m i i = 0) ∧ ∀ i j, m i j + m j i = 0 := by
  have hp := polynomial_zero_of_many n 2
    (MvPolynomial.C c + ∑ i, MvPolynomial.C (l i) * MvPolynomial.X i +
      ∑ i, ∑ j, MvPolynomial.C (m i j) * (MvPolynomial.X i * MvPolynomial.X j)) (by
    refine (MvPolynomial.totalDegree_add _ _).trans (max_le ((MvPolynomial.totalDegree_add _ _).trans
      (max_le (by simp) ?_)) ?_)
    · refine (MvPolynomial.totalDegree_finset_sum _ _).trans (Finset.sup_le fun i _ => ?_)
      refine (MvPolynomial.totalDegree_mul _ _).trans ?_
      simp
    · refine (MvPolynomial.totalDegree_finset_sum _ _).trans (Finset.sup_le fun i _ => ?_)
      refine (MvPolynomial.totalDegree_finset_sum _ _).trans (Finset.sup_le fun j _ => ?_)
      refine (MvPolynomial.totalDegree_mul _ _).trans ?_
      have := MvPolynomial.totalDegree_mul (MvPolynomial.X (R := F) i) (MvPolynomial.X j)
      simp only [MvPolynomial.totalDegree_X, MvPolynomial.totalDegree_C] at this ⊢
      omega) S (by
    intro x hx
    simpa using hS x hx) hcard
  have hall : ∀ x : Fin (n + 1) → F, c + ∑ i, l i * x i + ∑ i, ∑ j, m i j * (x i * x j) = 0 := by
    intro x
    have := congrArg (MvPolynomial.eval x) hp
    simpa using this
  have h0 : c = 0 := by simpa using hall 0
  have hone : ∀ (i : Fin (n + 1)) (a : F), l i * a + m i i * (a * a) = 0 := by
    intro i a
    have := hall (Pi.single i a)
    rw [h0, zero_add, Finset.sum_eq_single i (by intro j _ hj; simp [hj]) (by simp),
      Finset.sum_eq_single i (by intro j _ hj; simp [hj]) (by simp),
      Finset.sum_eq_single i (by intro j _ hj; simp [hj]) (by simp)] at this
    simpa using this
  have hm : ∀ i, m i i = 0 := by
    intro i
    obtain ⟨a, ha0, ha1⟩ := hc
    have e1 := hone i 1
    have e2 := hone i a
    have : a * (a - 1) * m i i = 0 := by linear_combination e2 - a * e1
    exact (mul_eq_zero.1 this).resolve_left (mul_ne_zero ha0 (sub_ne_zero.2 ha1))
  have hl : ∀ i, l i = 0 := by
    intro i
    have e1 := hone i 1
    rw [hm i] at e1
    simpa using e1
  refine ⟨h0, hl, hm, fun i j => ?_⟩
  by_cases hij : i = j
  · subst hij; simp [hm]
  have := hall (fun k => if k = i ∨ k = j then 1 else 0)
  simp only [h0, hl, zero_mul, Finset.sum_const_zero, zero_add] at this
  have hs : ∀ f : Fin (n + 1) → F, ∑ k, f k * (if k = i ∨ k = j then (1 : F) else 0) = f i + f j := by
    intro f
    rw [← Finset.sum_subset (Finset.subset_univ {i, j})]
    · rw [Finset.sum_pair hij]; simp
    · intro k _ hk
      simp only [Finset.mem_insert, Finset.mem_singleton] at hk
      simp [hk]
  have hr : ∀ k, ∑ k', m k k' * ((if k = i ∨ k = j then (1 : F) else 0) * if k' = i ∨ k' = j then (1 : F) else 0)
      = (m k i + m k j) * (if k = i ∨ k = j then (1 : F) else 0) := by
    intro k
    rw [← hs (m k), Finset.sum_mul]
    exact Finset.sum_congr rfl fun k' _ => by ring
  simp only [hr, hs, hm] at this
  linear_combination this

theorem quadratic_zero [Fintype F] (h2 : (2 : F) ≠ 0) (n : Nat) (c : F) (l : Fin (n + 1) → F)
    (m : Fin (n + 1) → Fin (n + 1) → F) (S : Finset (Fin (n + 1) → F))
    (hcard : 2 * Fintype.card F ^ n < S.card)
    (hS : ∀ x ∈ S, c + ∑ i, l i * x i + ∑ i, ∑ j, m i j * (x i * x j) = 0) :
    c = 0 ∧ (∀ i, l i = 0) ∧ (∀ i, m i i = 0) ∧ ∀ i j, m i j + m j i = 0 :=
  quadratic_zero_of_three ⟨-1, by simp, fun h => h2 (by linear_combination -h)⟩ n c l m S hcard hS

/-- an affine expression in several variables with many zeros has coefficients zero -/
theorem affine_zero [Fintype F] (n : Nat) (c : F) (l : Fin (n + 1) → F) (S : Finset (Fin (n + 1) → F))
    (hcard : Fintype.card F ^ n < S.card) (hS : ∀ x ∈ S, c + ∑ i, l i * x i = 0) : c = 0 ∧ ∀ i, l i = 0 := by
  have hp := polynomial_zero_of_many n 1
    (MvPolynomial.C c + ∑ i, MvPolynomial.C (l i) * MvPolynomial.X i) (by
    refine (MvPolynomial.totalDegree_add _ _).trans (max_le (by simp) ?_)
    refine (MvPolynomial.totalDegree_finset_sum _ _).trans (Finset.sup_le fun i _ => ?_)
    refine (MvPolynomial.totalDegree_mul _ _).trans ?_
    simp) S (by
    intro x hx
    simpa using hS x hx) (by rw [one_mul]; exact hcard)
  have hall : ∀ x : Fin (n + 1) → F, c + ∑ i, l i * x i = 0 := by
    intro x
    have := congrArg (MvPolynomial.eval x) hp
    simpa using this
  have h0 : c = 0 := by simpa using hall 0
  refine ⟨h0, fun i => ?_⟩
  have := hall (Pi.single i 1)
  rw [h0, zero_add, Finset.sum_eq_single i (by intro j _ hj; simp [hj]) (by simp)] at this
  simpa using this

/-- the second equation for a prover that has seen proofs, at fixed secrets -/
theorem seen_second [Fintype F] (h2 : (2 : F) ≠ 0) (n : Nat) (a0 b0 s gamma : F) (psi u v w : Fin (n + 1) → F)
    (S : Finset (Fin (n + 1) → F)) (hcard : 2 * Fintype.card F ^ n < S.card)
    (hS : ∀ x ∈ S, (a0 + ∑ k, (u k * x k + v k * (x k ^ 2 + s * x k - gamma * psi k))) * gamma =
      gamma * (b0 + ∑ k, w k * x k)) :
    gamma * (a0 - gamma * ∑ k, v k * psi k - b0) = 0 ∧ ∀ k, gamma * v k = 0 ∧ gamma * (u k + v k * s - w k) = 0 := by
  obtain ⟨h0, h1, h3, -⟩ := quadratic_zero h2 n (gamma * (a0 - gamma * ∑ k, v k * psi k - b0))
    (fun k => gamma * (u k + v k * s - w k)) (fun i j => if i = j then gamma * v i else 0) S hcard (by
    intro x hx
    have h := hS x hx
    have e1 : ∑ k, (u k * x k + v k * (x k ^ 2 + s * x k - gamma * psi k)) =
        ∑ k, (u k + v k * s) * x k + ∑ k, v k * x k ^ 2 - gamma * ∑ k, v k * psi k := by
      rw [Finset.mul_sum, ← Finset.sum_add_distrib, ← Finset.sum_sub_distrib]
      exact Finset.sum_congr rfl fun k _ => by ring
    have e2 : ∑ k, gamma * (u k + v k * s - w k) * x k =
        gamma * (∑ k, (u k + v k * s) * x k) - gamma * ∑ k, w k * x k := by
      rw [Finset.mul_sum, Finset.mul_sum, ← Finset.sum_sub_distrib]
      exact Finset.sum_congr rfl fun k _ => by ring
    have e3 : ∑ i, ∑ j, (if i = j then gamma * v i else 0) * (x i * x j) = gamma * ∑ k, v k * x k ^ 2 := by
      rw [Finset.mul_sum]
      refine Finset.sum_congr rfl fun i _ => ?_
      simp only [ite_mul, zero_mul, Finset.sum_ite_eq, Finset.mem_univ, if_true]
      ring
    rw [e1] at h
    rw [e2, e3]
    linear_combination h)
  exact ⟨h0, fun k => ⟨by simpa using h3 k, h1 k⟩⟩

/-- the first equation, when the first two elements use the seen proofs alike -/
theorem seen_first [Fintype F] (h2 : (2 : F) ≠ 0) (n : Nat) (a0 b0 c0 al be gamma ps : F)
    (psi u v' u' : Fin (n + 1) → F)
    (S : Finset (Fin (n + 1) → F)) (hcard : 2 * Fintype.card F ^ n < S.card)
    (hS : ∀ x ∈ S, (a0 + ∑ k, u k * x k + al) * (b0 + ∑ k, u k * x k + be) =
      al * be + ps * gamma + (c0 + ∑ k, (u' k * x k + v' k * (x k ^ 2 + (al + be) * x k - gamma * psi k)))) :
    (a0 + al) * (b0 + be) = al * be + (ps - ∑ k, v' k * psi k) * gamma + c0 ∧
      (∀ k, u k * (a0 + b0) + u k * (al + be) = u' k + v' k * (al + be)) ∧ (∀ k, v' k = u k * u k) ∧
      ∀ i j, i ≠ j → u i * u j = 0 := by
  obtain ⟨h0, h1, h3, h4⟩ := quadratic_zero h2 n
    ((a0 + al) * (b0 + be) - al * be - ps * gamma - c0 + gamma * ∑ k, v' k * psi k)
    (fun k => u k * (a0 + b0) + u k * (al + be) - u' k - v' k * (al + be))
    (fun i j => u i * u j - if i = j then v' i else 0) S hcard (by
    intro x hx
    have h := hS x hx
    have e1 : ∑ k, (u' k * x k + v' k * (x k ^ 2 + (al + be) * x k - gamma * psi k)) =
        ∑ k, u' k * x k + (al + be) * ∑ k, v' k * x k + ∑ k, v' k * x k ^ 2 - gamma * ∑ k, v' k * psi k := by
      rw [Finset.mul_sum, Finset.mul_sum, ← Finset.sum_add_distrib, ← Finset.sum_add_distrib,
        ← Finset.sum_sub_distrib]
      exact Finset.sum_congr rfl fun k _ => by ring
    have e2 : ∑ k, (u k * (a0 + b0) + u k * (al + be) - u' k - v' k * (al + be)) * x k =
        (a0 + b0 + al + be) * (∑ k, u k * x k) - ∑ k, u' k * x k - (al + be) * ∑ k, v' k * x k := by
      rw [Finset.mul_sum, Finset.mul_sum, ← Finset.sum_sub_distrib, ← Finset.sum_sub_distrib]
      exact Finset.sum_congr rfl fun k _ => by ring
    have e3 : ∑ i, ∑ j, (u i * u j - if i = j then v' i else 0) * (x i * x j) =
        (∑ k, u k * x k) * (∑ k, u k * x k) - ∑ k, v' k * x k ^ 2 := by
      rw [Finset.sum_mul_sum, ← Finset.sum_sub_distrib]
      refine Finset.sum_congr rfl fun i _ => ?_
      simp only [sub_mul, ite_mul, zero_mul, Finset.sum_sub_distrib, Finset.sum_ite_eq, Finset.mem_univ, if_true]
      congr 1
      · exact Finset.sum_congr rfl fun k _ => by ring
      · ring
    rw [e1] at h
    rw [e2, e3]
    linear_combination h)
  refine ⟨by linear_combination h0, fun k => by linear_combination h1 k, fun k => ?_, fun i j hij => ?_⟩
  · have := h3 k
    simp only [if_true] at this
    linear_combination -this
  · have := h4 i j
    simp only [if_neg hij, if_neg (Ne.symm hij)] at this
    have h : 2 * (u i * u j) = 0 := by linear_combination this
    exact (mul_eq_zero.1 h).resolve_left h2

/-- monomials of degree one -/
def seenLinMon : Fin 4 → Fin 3 → Nat := ![![0, 0, 0], ![1, 0, 0], ![0, 1, 0], ![0, 0, 1]]

/-- monomials of the first equation -/
def seenMon : Fin 7 → Fin 3 → Nat :=
  ![![0, 0, 0], ![1, 0, 0], ![0, 1, 0], ![0, 0, 1], ![1, 0, 1], ![0, 1, 1], ![0, 0, 2]]

/-- a prover whose proof uses a seen one: it uses it once, and nothing else of the keys in the first two elements
than a constant -/
theorem seen_used [Fintype F] (h2 : (2 : F) ≠ 0) (A : GLin1 F) (B : GLin2 F) (C : GLin1 F) (ain cin s r : F)
    (hs : s ≠ 0) (S : Finset (Fin 3 → F)) (hcard : 3 * Fintype.card F ^ 2 < S.card)
    (hab : ∀ x ∈ S, x 2 * (A.value x - B.value x) = 0)
    (hlin : ∀ x ∈ S, s * (A.value x + B.value x) + s * (x 0 + x 1) = r + s * s * (x 0 + x 1))
    (hfst : ∀ x ∈ S, (A.value x + x 0) * (B.value x + x 1) =
      x 0 * x 1 + (x 2 * cin + (x 0 + x 1) * ain) * x 2 + C.value x) :
    s = 1 ∧ r = 2 * B.one ∧ C.ab = B.one ∧ ain + C.abg = 0 ∧
      ∀ x, A.value x = B.one ∧ B.value x = B.one ∧
        C.value x = B.one ^ 2 + B.one * (x 0 + x 1) - (x 2 * cin + (x 0 + x 1) * ain) * x 2 := by
  have hAB := gm17Second A B S hcard fun x hx => by linear_combination hab x hx
  have key := coefficients_zero_of_many 2 3 seenLinMon (by decide +kernel) (by decide +kernel)
    (![2 * s * B.one - r, s - s * s, 2 * s * B.be + s - s * s, 2 * s * B.g] : Fin 4 → F) S (by
    intro x hx
    have h := hlin x hx
    rw [hAB x] at h
    have e : ∀ j : Fin 4, ∏ k, x k ^ seenLinMon j k =
        x 0 ^ seenLinMon j 0 * x 1 ^ seenLinMon j 1 * x 2 ^ seenLinMon j 2 := fun j => by
      rw [Fin.prod_univ_three]
    simp only [e]
    simp only [GLin2.value] at h
    generalize x 0 = x0 at *
    generalize x 1 = x1 at *
    generalize x 2 = x2 at *
    clear e
    simp only [seenLinMon, Fin.sum_univ_succ, Fin.sum_univ_zero, Matrix.cons_val_zero,
      Matrix.cons_val_succ, Matrix.cons_val_one, Matrix.cons_val]
    linear_combination h) hcard
  have k0 : 2 * s * B.one - r = 0 := key 0
  have k1 : s - s * s = 0 := key 1
  have k2 : 2 * s * B.be + s - s * s = 0 := key 2
  have k3 : 2 * s * B.g = 0 := key 3
  have s1 : s = 1 := by
    have : s * (1 - s) = 0 := by linear_combination k1
    exact (sub_eq_zero.1 ((mul_eq_zero.1 this).resolve_left hs)).symm
  subst s1
  have b1 : B.be = 0 := by
    have : 2 * B.be = 0 := by linear_combination k2
    exact (mul_eq_zero.1 this).resolve_left h2
  have b2 : B.g = 0 := by
    have : 2 * B.g = 0 := by linear_combination k3
    exact (mul_eq_zero.1 this).resolve_left h2
  have hB : ∀ x, B.value x = B.one := by
    intro x
    rw [GLin2.value, b1, b2]
    ring
  have key' := coefficients_zero_of_many 2 3 seenMon (by decide +kernel) (by decide +kernel)
    (![B.one ^ 2 - C.one, B.one - C.al - C.ab, B.one - C.ab, -C.g, -(ain + C.abg), -(ain + C.abg),
      -(cin + C.gg)] : Fin 7 → F) S (by
    intro x hx
    have h := hfst x hx
    rw [hAB x, hB x] at h
    have e : ∀ j : Fin 7, ∏ k, x k ^ seenMon j k =
        x 0 ^ seenMon j 0 * x 1 ^ seenMon j 1 * x 2 ^ seenMon j 2 := fun j => by
      rw [Fin.prod_univ_three]
    simp only [e]
    simp only [GLin1.value] at h
    generalize x 0 = x0 at *
    generalize x 1 = x1 at *
    generalize x 2 = x2 at *
    clear e
    simp only [seenMon, Fin.sum_univ_succ, Fin.sum_univ_zero, Matrix.cons_val_zero,
      Matrix.cons_val_succ, Matrix.cons_val_one, Matrix.cons_val]
    linear_combination h) hcard
  have c0 : B.one ^ 2 - C.one = 0 := key' 0
  have c1 : B.one - C.al - C.ab = 0 := key' 1
  have c2 : B.one - C.ab = 0 := key' 2
  have c3 : -C.g = 0 := key' 3
  have c4 : -(ain + C.abg) = 0 := key' 4
  have c5 : -(cin + C.gg) = 0 := key' 6
  refine ⟨rfl, by linear_combination -k0, by linear_combination -c2, by linear_combination -c4, fun x =>
    ⟨(hAB x).trans (hB x), hB x, ?_⟩⟩
  rw [GLin1.value]
  linear_combination -c0 - x 0 * c1 - x 1 * c2 - x 2 * c3 - (x 0 + x 1) * x 2 * c4 - x 2 * x 2 * c5

end Crypto3Zk
