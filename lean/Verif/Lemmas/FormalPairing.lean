import Verif.Spec.FormalPairing

/-!
# Lemmas: a prover that knows a representation of every element
-/

set_option linter.unusedSectionVars false

namespace Crypto3Zk

open Polynomial

variable {F R : Type} [Field F] [CommRing R] [IsDomain R] [Algebra F R]

theorem formalAlphaPower_val (d i : Nat) (h : i ≤ d) :
    (formalAlphaPower F R d i : FormalTarget R) = formalAlpha R ^ i := by
  rw [formalAlphaPower, dif_pos h]

theorem formalBetaPower_val (d i : Nat) (h : i ≤ d) :
    (formalBetaPower F R d i : FormalTarget R) = formalBeta R ^ i := by
  rw [formalBetaPower, dif_pos h]

theorem formalPairing_e (d : Nat) (a b : formalElements F R d) :
    (formalPairing F R d).e a b = (a : FormalTarget R) * b := rfl

/-- a polynomial whose product with `αβ` has no mixed monomial is zero -/
theorem unmixed_zero (d : Nat) (q : FormalTarget R) (h : formalAlpha R * formalBeta R * q ∈ formalElements F R d) :
    q = 0 := by
  ext j i
  have := h (i + 1) (j + 1) (Or.inl ⟨by omega, by omega⟩)
  rw [formalAlpha, formalBeta, mul_assoc, coeff_C_mul, coeff_X_mul, coeff_X_mul] at this
  simpa using this

theorem alpha_ne_beta : formalAlpha R ≠ formalBeta R := by
  intro h
  have := congrArg (fun p : FormalTarget R => (p.coeff 1).coeff 0) h
  simp [formalAlpha, formalBeta, coeff_C] at this

/-- a polynomial with coefficients without mixed monomials that vanishes at `α` and `β` is zero -/
theorem formal_roots (d : Nat) (p : Polynomial (FormalTarget R)) (hp : ∀ k, p.coeff k ∈ formalElements F R d)
    (ha : p.eval (formalAlpha R) = 0) (hb : p.eval (formalBeta R) = 0) : p = 0 := by
  obtain ⟨q, rfl⟩ := dvd_iff_isRoot.mpr ha
  rw [eval_mul, eval_sub, eval_X, eval_C] at hb
  rcases mul_eq_zero.mp hb with h | h
  · exact absurd (sub_eq_zero.mp h).symm alpha_ne_beta
  obtain ⟨q', rfl⟩ := dvd_iff_isRoot.mpr h
  have hq : ∀ k, q'.coeff k = 0 := by
    intro k
    induction k using Nat.strong_induction_on with
    | _ k ih =>
      have hk := hp k
      have e : (X - C (formalAlpha R)) * ((X - C (formalBeta R)) * q') =
          X * (X * q' - C (formalAlpha R + formalBeta R) * q') + C (formalAlpha R * formalBeta R) * q' := by
        rw [C_add, C_mul]
        ring
      rw [e, coeff_add, coeff_C_mul] at hk
      have e0 : (X * (X * q' - C (formalAlpha R + formalBeta R) * q')).coeff k = 0 := by
        rcases k with _ | k
        · simp
        · rw [coeff_X_mul, coeff_sub, coeff_C_mul, ih k (by omega), mul_zero, sub_zero]
          rcases k with _ | k
          · simp
          · rw [coeff_X_mul, ih k (by omega)]
      rw [e0, zero_add] at hk
      exact unmixed_zero d _ hk
  have : q' = 0 := by
    ext1 k
    rw [hq k, coeff_zero]
  rw [this, mul_zero, mul_zero]

/-- a non-zero element is divisible by `β - z` for few `z` -/
theorem beta_divides (d : Nat) (hd : 1 ≤ d) (D : formalElements F R d) (hD : D ≠ 0) :
    ∃ S : Finset F, S.card ≤ d ∧ ∀ (z : F) (O : formalElements F R d),
      (D : FormalTarget R) = (formalBeta R - z • 1) * (O : FormalTarget R) → z ∈ S := by
  classical
  have hD' : (D : FormalTarget R) ≠ 0 := fun h => hD (Subtype.ext h)
  have hdeg : (D : FormalTarget R).natDegree ≤ d := by
    refine natDegree_le_iff_coeff_eq_zero.mpr fun j hj => ?_
    ext i
    rw [D.2 i j (Or.inr (Or.inr hj)), coeff_zero]
  have inj : Function.Injective fun z : F => algebraMap F (Polynomial R) z := by
    have : Nontrivial (Polynomial R) := inferInstance
    exact (algebraMap F (Polynomial R)).injective
  refine ⟨(D : FormalTarget R).roots.toFinset.preimage _ inj.injOn, ?_, fun z O h => ?_⟩
  · refine (Finset.card_preimage _ _ _).le.trans ((Finset.card_filter_le _ _).trans
      ((Multiset.toFinset_card_le _).trans ((card_roots' _).trans hdeg)))
  · rw [Finset.mem_preimage, Multiset.mem_toFinset, mem_roots hD', IsRoot, h, eval_mul, formalBeta]
    have e : (z • 1 : FormalTarget R) = C (algebraMap F (Polynomial R) z) := by
      rw [Algebra.smul_def, mul_one]
      rfl
    rw [e, eval_sub, eval_X, eval_C, sub_self, zero_mul]

/-- a non-zero element is divisible by `α - z` for few `z` -/
theorem alpha_divides (d : Nat) (D : formalElements F R d) (hD : D ≠ 0) :
    ∃ S : Finset F, S.card ≤ d ∧ ∀ (z : F) (O : formalElements F R d),
      (D : FormalTarget R) = (formalAlpha R - z • 1) * (O : FormalTarget R) → z ∈ S := by
  classical
  obtain ⟨j, hj⟩ : ∃ j, (D : FormalTarget R).coeff j ≠ 0 := by
    by_contra hcon
    push Not at hcon
    refine hD (Subtype.ext ?_)
    ext1 j
    rw [hcon j]
    simp
  have hdeg : ((D : FormalTarget R).coeff j).natDegree ≤ d := by
    refine natDegree_le_iff_coeff_eq_zero.mpr fun i hi => ?_
    rw [D.2 i j (Or.inr (Or.inl hi))]
  have inj : Function.Injective fun z : F => algebraMap F R z := (algebraMap F R).injective
  refine ⟨((D : FormalTarget R).coeff j).roots.toFinset.preimage _ inj.injOn, ?_, fun z O h => ?_⟩
  · refine (Finset.card_preimage _ _ _).le.trans ((Finset.card_filter_le _ _).trans
      ((Multiset.toFinset_card_le _).trans ((card_roots' _).trans hdeg)))
  · have e : (formalAlpha R - z • 1 : FormalTarget R) = C (X - C (algebraMap F R z)) := by
      rw [Algebra.smul_def, mul_one, formalAlpha, C_sub]
      rfl
    rw [Finset.mem_preimage, Multiset.mem_toFinset, mem_roots hj, IsRoot, h, e, coeff_C_mul, eval_mul,
      eval_sub, eval_X, eval_C, sub_self, zero_mul]

/-- the powers are those of the reference string -/
theorem formalPowers_of (n d : Nat) (hd : 2 * n ≤ d + 1) (h1 : 1 ≤ d) :
    (formalPowers F R d).Of (formalPairing F R d) (formalSrs F R n d) n := by
  have z : formalAlphaPower F R d 0 = formalBetaPower F R d 0 := by
    refine Subtype.ext ?_
    rw [formalAlphaPower_val _ _ (Nat.zero_le _), formalBetaPower_val _ _ (Nat.zero_le _), pow_zero, pow_zero]
  refine ⟨rfl, rfl, z.symm, rfl, z.symm, fun i hi => ?_, fun i hi => ?_, fun i hi => ?_, fun i hi => ?_⟩ <;>
    simp only [formalPairing_e, formalPowers, formalSrs] <;>
    simp only [formalAlphaPower_val _ _ (Nat.zero_le _), formalAlphaPower_val _ _ h1, formalBetaPower_val _ _ h1] <;>
    simp (disch := omega) only [formalAlphaPower_val, formalBetaPower_val] <;> ring

/-- no prover that knows representations breaks the assumptions -/
theorem formal_binding (n d : Nat) (hd : 2 * n ≤ d + 1) (h1 : 1 ≤ d) :
    AggBinding (formalPowers F R d) (formalPairing F R d) (formalSrs F R n d) n d := by
  refine ⟨fun A B h i hi => ?_, fun D hD => ?_, fun D hD => ?_, fun D hD => ?_, fun D hD => ?_⟩
  · set p : Polynomial (FormalTarget R) := ∑ i ∈ Finset.range n,
      (C (A i : FormalTarget R) * X ^ i + C (B i : FormalTarget R) * X ^ (n + i)) with hp
    have hc : ∀ k, p.coeff k = if k < n then (A k : FormalTarget R) else
        if k < 2 * n then (B (k - n) : FormalTarget R) else 0 := by
      intro k
      rw [hp, finset_sum_coeff]
      simp only [coeff_add, coeff_C_mul, coeff_X_pow, Finset.sum_add_distrib, mul_ite, mul_one, mul_zero]
      rw [Finset.sum_ite_eq]
      by_cases hk : k < n
      · rw [if_pos (Finset.mem_range.mpr hk), if_pos hk, Finset.sum_eq_zero, add_zero]
        intro i _
        rw [if_neg (by omega)]
      · rw [if_neg (by simpa using hk), if_neg hk, zero_add]
        by_cases hk2 : k < 2 * n
        · rw [if_pos hk2, Finset.sum_eq_single (k - n)]
          · rw [if_pos (by omega)]
          · intro b _ hb
            rw [if_neg (by omega)]
          · intro hb
            exact absurd (Finset.mem_range.mpr (by omega)) hb
        · rw [if_neg hk2]
          refine Finset.sum_eq_zero fun i hi => ?_
          rw [if_neg (by have := Finset.mem_range.mp hi; omega)]
    have hz : p = 0 := by
      refine formal_roots (F := F) d p (fun k => ?_) ?_ ?_
      · rw [hc]
        split
        · exact (A k).2
        · split
          · exact (B (k - n)).2
          · exact Submodule.zero_mem _
      · rw [hp, eval_finset_sum]
        refine Eq.trans (Finset.sum_congr rfl fun i hi => ?_) h.1.symm
        have := Finset.mem_range.mp hi
        simp only [formalPairing_e, formalPowers]
        rw [formalAlphaPower_val d i (by omega), formalAlphaPower_val d (n + i) (by omega), eval_add, eval_mul,
          eval_mul, eval_C, eval_C, eval_pow, eval_pow, eval_X]
        ring
      · rw [hp, eval_finset_sum]
        refine Eq.trans (Finset.sum_congr rfl fun i hi => ?_) h.2.symm
        have := Finset.mem_range.mp hi
        simp only [formalPairing_e, formalPowers]
        rw [formalBetaPower_val d i (by omega), formalBetaPower_val d (n + i) (by omega), eval_add, eval_mul,
          eval_mul, eval_C, eval_C, eval_pow, eval_pow, eval_X]
        ring
    constructor
    · refine Subtype.ext ?_
      have := hc i
      rw [if_pos hi, hz, coeff_zero] at this
      exact this.symm
    · refine Subtype.ext ?_
      have := hc (n + i)
      rw [if_neg (by omega), if_pos (by omega), hz, coeff_zero, Nat.add_sub_cancel_left] at this
      exact this.symm
  · obtain ⟨S, hS, hz⟩ := alpha_divides d D hD
    refine ⟨S, hS, fun z O h => hz z O ?_⟩
    simp only [formalPairing_e, formalSrs, Submodule.coe_sub, Submodule.coe_smul] at h
    rwa [formalAlphaPower_val _ _ (Nat.zero_le _), formalAlphaPower_val _ _ h1, pow_zero, pow_one, one_mul] at h
  · obtain ⟨S, hS, hz⟩ := beta_divides d h1 D hD
    refine ⟨S, hS, fun z O h => hz z O ?_⟩
    simp only [formalPairing_e, formalSrs, Submodule.coe_sub, Submodule.coe_smul] at h
    rwa [formalAlphaPower_val _ _ (Nat.zero_le _), formalBetaPower_val _ _ h1, pow_zero, pow_one, one_mul] at h
  · obtain ⟨S, hS, hz⟩ := alpha_divides d D hD
    refine ⟨S, hS, fun z O h => hz z O ?_⟩
    simp only [formalPairing_e, formalSrs, Submodule.coe_sub, Submodule.coe_smul] at h
    rwa [formalAlphaPower_val _ _ (Nat.zero_le _), formalAlphaPower_val _ _ h1, pow_zero, pow_one, mul_one,
      mul_comm] at h
  · obtain ⟨S, hS, hz⟩ := beta_divides d h1 D hD
    refine ⟨S, hS, fun z O h => hz z O ?_⟩
    simp only [formalPairing_e, formalSrs, Submodule.coe_sub, Submodule.coe_smul] at h
    rwa [formalAlphaPower_val _ _ (Nat.zero_le _), formalBetaPower_val _ _ h1, pow_zero, pow_one, mul_one,
      mul_comm] at h

end Crypto3Zk
