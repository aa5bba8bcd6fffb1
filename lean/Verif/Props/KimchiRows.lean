import Verif.Spec.KimchiRows
import Mathlib.Algebra.Polynomial.Roots
import Mathlib.Algebra.Polynomial.BigOperators
import Mathlib.Algebra.Ring.GeomSum
import Mathlib.Algebra.Field.Rat
import Mathlib.Tactic.Ring
import Mathlib.Tactic.LinearCombination
import Mathlib.Tactic.NormNum
import Mathlib.Tactic.FieldSimp

/-!
# C83: what the equation of the Kimchi verifier says about the rows
-/

set_option linter.unusedSectionVars false

namespace Crypto3Zk

open Polynomial

variable {F : Type} [Field F] [DecidableEq F]

private theorem deg_mul {p q : F[X]} {a b c : Nat} (hp : p.natDegree ≤ a) (hq : q.natDegree ≤ b) (h : a + b ≤ c) :
    (p * q).natDegree ≤ c := (natDegree_mul_le_of_le hp hq).trans h

private theorem deg_add {p q : F[X]} {c : Nat} (hp : p.natDegree ≤ c) (hq : q.natDegree ≤ c) :
    (p + q).natDegree ≤ c := natDegree_add_le_of_degree_le hp hq

private theorem deg_sub {p q : F[X]} {c : Nat} (hp : p.natDegree ≤ c) (hq : q.natDegree ≤ c) :
    (p - q).natDegree ≤ c := (natDegree_sub_le_iff_left hq).mpr hp

private theorem deg_C (a : F) (c : Nat) : (C a).natDegree ≤ c := by simp

/-- the permutation constraint as a polynomial -/
private noncomputable def KRows.permPoly (P : KRows F) (omega beta gamma : F) (shift : Fin 7 → F) : F[X] :=
  P.z * ∏ i : Fin 7, (C gamma + C beta * X * C (shift i) + P.w (i.castLE (by decide))) -
    P.z.comp (C omega * X) * ((∏ i : Fin 6, (C gamma + C beta * P.sigma i.castSucc + P.w (i.castLE (by decide)))) *
      (C gamma + C beta * P.sigma 6 + P.w 6))

private noncomputable def gatePoly (q0 q1 q2 q3 q4 a b c : F[X]) : F[X] :=
  q0 * a + q1 * b + q2 * c + q3 * (a * b) + q4

private noncomputable def onePoly (F : Type) [Field F] (n : Nat) : F[X] := ∑ i ∈ Finset.range n, X ^ i

private noncomputable def lastPoly (n : Nat) (w : F) : F[X] :=
  ∑ i ∈ Finset.range n, X ^ i * C w ^ (n - 1 - i)

private theorem one_mul_eq (n : Nat) (x : F) : (onePoly F n).eval x * (x - 1) = x ^ n - 1 := by
  rw [onePoly, eval_finsetSum]
  simp only [eval_pow, eval_X]
  exact geom_sum_mul x n

private theorem last_mul_eq (n : Nat) (w x : F) (hw : w ^ n = 1) :
    (lastPoly n w).eval x * (x - w) = x ^ n - 1 := by
  rw [lastPoly, eval_finsetSum]
  simp only [eval_mul, eval_pow, eval_X, eval_C]
  rw [(Commute.all x w).geom_sum₂_mul n, hw]

private theorem one_at_one (n : Nat) : (onePoly F n).eval 1 = n := by
  rw [onePoly, eval_finsetSum]
  simp

private theorem last_at (n : Nat) (w : F) (hw : w ^ n = 1) (hn : (n : F) ≠ 0) : (lastPoly n w).eval w ≠ 0 := by
  rw [lastPoly, eval_finsetSum]
  simp only [eval_mul, eval_pow, eval_X, eval_C]
  have : ∀ i ∈ Finset.range n, w ^ i * w ^ (n - 1 - i) = w ^ (n - 1) := by
    intro i hi
    rw [← pow_add]
    congr 1
    have := Finset.mem_range.mp hi
    omega
  rw [Finset.sum_congr rfl this, Finset.sum_const, Finset.card_range, nsmul_eq_mul]
  have hn' : n ≠ 0 := fun h => hn (by simp [h])
  have hw0 : w ≠ 0 := by
    rintro rfl
    rw [zero_pow hn'] at hw
    exact zero_ne_one hw
  exact mul_ne_zero hn (pow_ne_zero _ hw0)

private theorem one_degree (n : Nat) : (onePoly F n).natDegree ≤ n := by
  rw [onePoly]
  refine natDegree_sum_le_of_forall_le _ _ fun i hi => ?_
  rw [natDegree_X_pow]
  exact (Finset.mem_range.mp hi).le

private theorem last_degree (n : Nat) (w : F) : (lastPoly n w).natDegree ≤ n := by
  rw [lastPoly]
  refine natDegree_sum_le_of_forall_le _ _ fun i hi => ?_
  rw [← C_pow]
  refine deg_mul (a := i) (b := 0) (by rw [natDegree_X_pow]) (deg_C _ _) ?_
  exact (Finset.mem_range.mp hi).le

private theorem perm_eval (P : KRows F) (omega beta gamma : F) (shift : Fin 7 → F) (x : F) :
    (P.permPoly omega beta gamma shift).eval x = P.perm omega beta gamma shift x := by
  simp only [KRows.permPoly, KRows.perm, permConstraint, KRows.at, eval_sub, eval_mul, eval_prod, eval_add,
    eval_C, eval_X, eval_comp]

private theorem perm_degree (P : KRows F) (omega beta gamma : F) (shift : Fin 7 → F) (d : Nat)
    (h : P.Degrees d) : (P.permPoly omega beta gamma shift).natDegree ≤ 8 * d := by
  have hd := h.one
  rw [KRows.permPoly]
  refine deg_sub ?_ ?_
  · refine deg_mul h.z (b := 7 * d) ?_ (by omega)
    refine (natDegree_prod_le _ _).trans ?_
    refine (Finset.sum_le_card_nsmul _ _ d fun i _ => ?_).trans (by simp)
    refine deg_add (deg_add (deg_C _ _) ?_) (h.w _)
    exact deg_mul (a := 1) (b := 0) (deg_mul (a := 0) (b := 1) (deg_C _ _) natDegree_X.le le_rfl) (deg_C _ _) hd
  · refine deg_mul (a := d) (b := 7 * d) ?_ (deg_mul (a := 6 * d) (b := d) ?_ ?_ (by omega)) (by omega)
    · refine natDegree_comp_le.trans ?_
      have : (C omega * X : F[X]).natDegree ≤ 1 := deg_mul (a := 0) (b := 1) (deg_C _ _) natDegree_X.le le_rfl
      calc _ ≤ d * 1 := Nat.mul_le_mul h.z this
        _ = d := by omega
    · refine (natDegree_prod_le _ _).trans ?_
      refine (Finset.sum_le_card_nsmul _ _ d fun i _ => ?_).trans (by simp)
      exact deg_add (deg_add (deg_C _ _) (deg_mul (a := 0) (b := d) (deg_C _ _) (h.sigma _) (by omega))) (h.w _)
    · exact deg_add (deg_add (deg_C _ _) (deg_mul (a := 0) (b := d) (deg_C _ _) (h.sigma _) (by omega))) (h.w _)

private theorem gate_degree {q0 q1 q2 q3 q4 a b c : F[X]} {d : Nat} (h0 : q0.natDegree ≤ d)
    (h1 : q1.natDegree ≤ d) (h2 : q2.natDegree ≤ d) (h3 : q3.natDegree ≤ d) (h4 : q4.natDegree ≤ d)
    (ha : a.natDegree ≤ d) (hb : b.natDegree ≤ d) (hc : c.natDegree ≤ d) :
    (gatePoly q0 q1 q2 q3 q4 a b c).natDegree ≤ 3 * d := by
  rw [gatePoly]
  refine deg_add (deg_add (deg_add (deg_add ?_ ?_) ?_) ?_) (by omega)
  · exact deg_mul h0 ha (by omega)
  · exact deg_mul h1 hb (by omega)
  · exact deg_mul h2 hc (by omega)
  · exact deg_mul h3 (deg_mul ha hb le_rfl) (by omega)

private theorem coeffs_zero (n : Nat) (c : Nat → F) (A : Finset F) (hA : n ≤ A.card)
    (h : ∀ a ∈ A, ∑ k ∈ Finset.range n, a ^ k * c k = 0) : ∀ k < n, c k = 0 := by
  intro k hk
  set p : F[X] := ∑ k ∈ Finset.range n, C (c k) * X ^ k with hp
  have hc : p.coeff k = c k := by
    rw [hp, finset_sum_coeff]
    rw [Finset.sum_eq_single k]
    · rw [coeff_C_mul_X_pow, if_pos rfl]
    · intro i _ hi
      rw [coeff_C_mul_X_pow, if_neg (Ne.symm hi)]
    · exact fun hk' => absurd (Finset.mem_range.mpr hk) hk'
  have hdeg : p.natDegree < A.card := by
    have : p.natDegree ≤ n - 1 := by
      refine natDegree_sum_le_of_forall_le _ _ fun i hi => ?_
      have := Finset.mem_range.mp hi
      exact (natDegree_C_mul_X_pow_le _ _).trans (by omega)
    omega
  have h0 : p = 0 := by
    apply eq_zero_of_natDegree_lt_card_of_eval_eq_zero' p A ?_ hdeg
    intro a ha
    rw [hp, eval_finsetSum, ← h a ha]
    refine Finset.sum_congr rfl fun i _ => ?_
    rw [eval_mul, eval_C, eval_pow, eval_X, mul_comm]
  rw [← hc, h0, coeff_zero]

/-- C83, partial: Fix the polynomials of the circuit and the commitments made before `α`. If for more than
`start + 2` values of `α` there is a quotient such that the equation holds at more points `ζ` than its degree,
then on every row: the contributions of the other gates vanish; the permutation constraint *plus* the first
generic gate vanishes; the second generic gate vanishes, on the first row *plus* a multiple of the boundary
condition; and `z` is `1` at the last boundary row. What is missing: the generic gates have the powers of `α`
of the permutation argument, so that only the sums vanish (`C83_generic_and_permutation_cancel`). -/
theorem C83_rows_partial (P : KRows F) (n start d dt : Nat) (omega w beta gamma : F) (shift : Fin 7 → F)
    (hn : (n : F) ≠ 0) (hw : w ^ n = 1) (hd : P.Degrees d) (A : Finset F) (hA : start + 2 < A.card)
    (t : F → F[X]) (ht : ∀ a ∈ A, (t a).natDegree ≤ dt) (Z : F → Finset F)
    (hZ : ∀ a ∈ A, 9 * d + n + dt < (Z a).card)
    (h : ∀ a ∈ A, ∀ zeta ∈ Z a, zeta ≠ 1 ∧ zeta ≠ w ∧
      P.Holds n start omega w beta gamma shift (t a) a zeta) (x : F) (hx : x ^ n = 1) :
    (∀ k < start, (P.others k).eval x = 0) ∧
    P.zkpm.eval x * P.perm omega beta gamma shift x + P.generic.eval x * P.gate0 x = 0 ∧
    (P.generic.eval x * P.gate1 x + if x = 1 then n * (P.z.eval 1 - 1) else 0) = 0 ∧
    (x = w → P.z.eval w = 1) := by
  have hd1 := hd.one
  set g0 := gatePoly (P.q 0) (P.q 1) (P.q 2) (P.q 3) (P.q 4) (P.w 0) (P.w 1) (P.w 2) with hg0
  set g1 := gatePoly (P.q 5) (P.q 6) (P.q 7) (P.q 8) (P.q 9) (P.w 3) (P.w 4) (P.w 5) with hg1
  have eg0 : ∀ y, g0.eval y = P.gate0 y := fun y => by
    simp only [hg0, gatePoly, KRows.gate0, genericConstraint, eval_add, eval_mul]
  have eg1 : ∀ y, g1.eval y = P.gate1 y := fun y => by
    simp only [hg1, gatePoly, KRows.gate1, genericConstraint, eval_add, eval_mul]
  set c : Nat → F[X] := fun k =>
    if k < start then P.others k
    else if k = start then P.zkpm * P.permPoly omega beta gamma shift + P.generic * g0
    else if k = start + 1 then P.generic * g1 + onePoly F n * (P.z - 1)
    else lastPoly n w * (P.z - 1) with hc
  have hsum : ∀ (a y : F), ∑ k ∈ Finset.range (start + 3), a ^ k * (c k).eval y =
      (∑ k ∈ Finset.range start, a ^ k * (P.others k).eval y) +
      a ^ start * (P.zkpm.eval y * P.perm omega beta gamma shift y + P.generic.eval y * P.gate0 y) +
      a ^ (start + 1) * (P.generic.eval y * P.gate1 y + (onePoly F n).eval y * (P.z.eval y - 1)) +
      a ^ (start + 2) * ((lastPoly n w).eval y * (P.z.eval y - 1)) := by
    intro a y
    rw [Finset.sum_range_succ, Finset.sum_range_succ, Finset.sum_range_succ]
    have e : ∑ k ∈ Finset.range start, a ^ k * (c k).eval y =
        ∑ k ∈ Finset.range start, a ^ k * (P.others k).eval y :=
      Finset.sum_congr rfl fun k hk => by simp only [hc, if_pos (Finset.mem_range.mp hk)]
    rw [e]
    have c0 : c start = P.zkpm * P.permPoly omega beta gamma shift + P.generic * g0 := by simp [hc]
    have c1 : c (start + 1) = P.generic * g1 + onePoly F n * (P.z - 1) := by simp [hc]
    have c2 : c (start + 2) = lastPoly n w * (P.z - 1) := by simp [hc]
    rw [c0, c1, c2]
    simp only [eval_add, eval_mul, eval_sub, eval_one, perm_eval, eg0, eg1]
  have hz1 : (P.z - 1).natDegree ≤ d := deg_sub hd.z (by simp)
  have hcd : ∀ k, (c k).natDegree ≤ 9 * d + n := by
    intro k
    have hp := perm_degree P omega beta gamma shift d hd
    have hq0 : g0.natDegree ≤ 3 * d := gate_degree (hd.q _) (hd.q _) (hd.q _) (hd.q _) (hd.q _) (hd.w _) (hd.w _) (hd.w _)
    have hq1 : g1.natDegree ≤ 3 * d := gate_degree (hd.q _) (hd.q _) (hd.q _) (hd.q _) (hd.q _) (hd.w _) (hd.w _) (hd.w _)
    simp only [hc]
    split_ifs
    · exact (hd.others k).trans (by omega)
    · exact deg_add (deg_mul hd.zkpm hp (by omega)) (deg_mul hd.generic hq0 (by omega))
    · exact deg_add (deg_mul hd.generic hq1 (by omega)) (deg_mul (one_degree n) hz1 (by omega))
    · exact deg_mul (last_degree n w) hz1 (by omega)
  have hid : ∀ a ∈ A, ∀ y : F, ∑ k ∈ Finset.range (start + 3), a ^ k * (c k).eval y =
      (t a).eval y * (y ^ n - 1) := by
    intro a ha y
    set p : F[X] := (∑ k ∈ Finset.range (start + 3), C (a ^ k) * c k) - t a * (X ^ n - 1) with hp
    have hpe : ∀ y, p.eval y = (∑ k ∈ Finset.range (start + 3), a ^ k * (c k).eval y) -
        (t a).eval y * (y ^ n - 1) := by
      intro y
      simp [hp, eval_finsetSum]
    have hp0 : p = 0 := by
      apply eq_zero_of_natDegree_lt_card_of_eval_eq_zero' p (Z a)
      · intro zeta hzeta
        obtain ⟨h1, hw', heq⟩ := h a ha zeta hzeta
        have h1' : zeta - 1 ≠ 0 := sub_ne_zero.mpr h1
        have hw'' : zeta - w ≠ 0 := sub_ne_zero.mpr hw'
        have l1 : (zeta ^ n - 1) / (zeta - 1) = (onePoly F n).eval zeta := by
          rw [← one_mul_eq, mul_div_cancel_right₀ _ h1']
        have l2 : (zeta ^ n - 1) / (zeta - w) = (lastPoly n w).eval zeta := by
          rw [← last_mul_eq n w zeta hw, mul_div_cancel_right₀ _ hw'']
        rw [KRows.Holds, KimchiEquation, l1, l2] at heq
        rw [hpe, hsum]
        simp only [KRows.perm, KRows.gate0, KRows.gate1]
        simp only [KRows.at] at heq ⊢
        linear_combination heq
      · refine lt_of_le_of_lt ?_ (hZ a ha)
        refine deg_sub ?_ ?_
        · refine natDegree_sum_le_of_forall_le _ _ fun k _ => ?_
          exact deg_mul (a := 0) (deg_C _ _) (hcd k) (by omega)
        · refine deg_mul (ht a ha) (b := n) ?_ (by omega)
          exact deg_sub (by rw [natDegree_X_pow]) (by simp)
    have := hpe y
    rw [hp0, eval_zero] at this
    exact (sub_eq_zero.mp this.symm)
  have hall := coeffs_zero (start + 3) (fun k => (c k).eval x) A (by omega) fun a ha => by
    rw [hid a ha x, hx, sub_self, mul_zero]
  refine ⟨?_, ?_, ?_, ?_⟩
  · intro k hk
    have := hall k (by omega)
    simpa only [hc, if_pos hk] using this
  · have := hall start (by omega)
    simp only [hc, lt_irrefl, if_false, if_true, eval_add, eval_mul, perm_eval, eg0] at this
    exact this
  · have := hall (start + 1) (by omega)
    have c1 : c (start + 1) = P.generic * g1 + onePoly F n * (P.z - 1) := by simp [hc]
    rw [c1] at this
    simp only [eval_add, eval_mul, eg1, eval_sub, eval_one] at this
    split_ifs with hx1
    · subst hx1
      rw [one_at_one] at this
      exact this
    · have h0 : (onePoly F n).eval x = 0 := by
        have := one_mul_eq n x
        rw [hx, sub_self] at this
        exact (mul_eq_zero.mp this).resolve_right (sub_ne_zero.mpr hx1)
      rw [h0] at this
      simpa using this
  · rintro rfl
    have := hall (start + 2) (by omega)
    have c2 : c (start + 2) = lastPoly n x * (P.z - 1) := by simp [hc]
    rw [c2] at this
    simp only [eval_mul, eval_sub, eval_one] at this
    have := (mul_eq_zero.mp this).resolve_left (last_at n x hx hn)
    exact sub_eq_zero.mp this

/-- C83 fails: a generic gate and a permutation constraint of a row that are both violated can cancel, for
every `α`. The row has a first generic gate `a - 5 = 0` with `a = 0`, and columns 1 and 2 are wired crosswise
although they differ; still the equation holds with quotient 0, for all powers `a0 a1 a2` of the permutation
argument and `g0 = a0`, `g1 = a1` for the generic gates as in the code. With powers of their own for the
generic gates it would fail. -/
theorem C83_generic_and_permutation_cancel :
    ∃ (e0 e1 : KEvals ℚ) (sigma6 : ℚ) (q : Fin 15 → ℚ) (shift : Fin 7 → ℚ) (zkp beta gamma zeta zn w : ℚ),
      zeta ≠ 1 ∧ zeta ≠ w ∧ e0.genericSelector = 1 ∧
      permConstraint e0 e1 sigma6 beta gamma zeta shift ≠ 0 ∧
      genericConstraint (q 0) (q 1) (q 2) (q 3) (q 4) (e0.w 0) (e0.w 1) (e0.w 2) ≠ 0 ∧
      (∀ a0 a1 a2 : ℚ, KimchiEquation e0 e1 sigma6 q shift zkp beta gamma zeta zn w a0 a1 a2 a0 a1 0 0) ∧
      ∀ a0 a1 a2 g0 g1 : ℚ, a0 ≠ g0 →
        ¬ KimchiEquation e0 e1 sigma6 q shift zkp beta gamma zeta zn w a0 a1 a2 g0 g1 0 0 := by
  refine ⟨⟨![0, 0, 1, 0, 0, 0, 0, 0, 0, 0, 0, 0, 0, 0, 0], 1, ![0, 4, 2, 6, 8, 10], ⟨[], 0, 0, 0, false⟩, false, 1, 0⟩,
    ⟨fun _ => 0, 1, fun _ => 0, ⟨[], 0, 0, 0, false⟩, false, 1, 0⟩, 12,
    ![1, 0, 0, 0, -5, 0, 0, 0, 0, 0, 0, 0, 0, 0, 0], ![0, 1, 2, 3, 4, 5, 6], -5 / 18018, 1, 1, 2, 1, 3,
    by norm_num,
    by norm_num, rfl, ?_, ?_, ?_, ?_⟩
  all_goals
    simp only [KimchiEquation, permConstraint, genericConstraint, Fin.prod_univ_seven, Fin.prod_univ_six]
  · decide +kernel
  · decide +kernel
  · intro a0 a1 a2
    show a0 * (-5 / 18018 * (1 * ((1 + 1 * 2 * 0 + 0) * (1 + 1 * 2 * 1 + 0) * (1 + 1 * 2 * 2 + 1) * (1 + 1 * 2 * 3 + 0) *
      (1 + 1 * 2 * 4 + 0) * (1 + 1 * 2 * 5 + 0) * (1 + 1 * 2 * 6 + 0)) - 1 * (((1 + 1 * 0 + 0) * (1 + 1 * 4 + 0) *
      (1 + 1 * 2 + 1) * (1 + 1 * 6 + 0) * (1 + 1 * 8 + 0) * (1 + 1 * 10 + 0)) * (1 + 1 * 12 + 0)))) +
      a1 * ((1 - 1) / (2 - 1) * (1 - 1)) + a2 * ((1 - 1) / (2 - 3) * (1 - 1)) +
      1 * (a0 * (1 * 0 + 0 * 0 + 0 * 1 + 0 * (0 * 0) + -5) + a1 * (0 * 0 + 0 * 0 + 0 * 0 + 0 * (0 * 0) + 0)) + 0 =
      (0 : ℚ) * (1 - 1)
    ring
  · intro a0 a1 a2 g0 g1 hne heq
    have heq' : a0 * (-5 / 18018 * (1 * ((1 + 1 * 2 * 0 + 0) * (1 + 1 * 2 * 1 + 0) * (1 + 1 * 2 * 2 + 1) *
      (1 + 1 * 2 * 3 + 0) *
      (1 + 1 * 2 * 4 + 0) * (1 + 1 * 2 * 5 + 0) * (1 + 1 * 2 * 6 + 0)) - 1 * (((1 + 1 * 0 + 0) * (1 + 1 * 4 + 0) *
      (1 + 1 * 2 + 1) * (1 + 1 * 6 + 0) * (1 + 1 * 8 + 0) * (1 + 1 * 10 + 0)) * (1 + 1 * 12 + 0)))) +
      a1 * ((1 - 1) / (2 - 1) * (1 - 1)) + a2 * ((1 - 1) / (2 - 3) * (1 - 1)) +
      1 * (g0 * (1 * 0 + 0 * 0 + 0 * 1 + 0 * (0 * 0) + -5) + g1 * (0 * 0 + 0 * 0 + 0 * 0 + 0 * (0 * 0) + 0)) + 0 =
      (0 : ℚ) * (1 - 1) := heq
    apply hne
    linear_combination heq' / 5

end Crypto3Zk
