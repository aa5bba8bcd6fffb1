import Mathlib.GroupTheory.Perm.Support
import Mathlib.Algebra.BigOperators.Group.Finset.Basic
import Mathlib.Algebra.Polynomial.BigOperators
import Mathlib.Algebra.Polynomial.Roots
import Mathlib.Tactic.FieldSimp
import Mathlib.Tactic.LinearCombination

/-!
# The grand product over the cells of a permutation
-/

namespace Crypto3Zk

open Polynomial

variable {F : Type} [Field F] {K : Type} [DecidableEq K]

theorem natDegree_prod_shift (P : Finset K) (c : K → F) :
    (∏ k ∈ P, (X + C (c k))).natDegree ≤ P.card := by
  rw [natDegree_prod_of_monic _ _ (fun k _ => monic_X_add_C (c k))]
  simp

/-- Values invariant under the permutation give equal products. -/
theorem grandProduct_complete (P : Finset K) (σ : Equiv.Perm K) (hσ : ∀ k, σ k ≠ k → k ∈ P)
    (ident val : K → F) (hval : ∀ k, val (σ k) = val k) (beta gamma : F) :
    ∏ k ∈ P, (ident k * beta + (val k + gamma)) =
      ∏ k ∈ P, (ident (σ k) * beta + (val k + gamma)) := by
  rw [← Equiv.Perm.prod_comp σ P (fun k => ident k * beta + (val k + gamma)) hσ]
  apply Finset.prod_congr rfl
  intro k _
  rw [hval]

/-- For all but a few challenges, equal products (or a zero factor) force the values to be invariant. -/
theorem grandProduct_sound (P : Finset K) (σ : Equiv.Perm K) (hσ : ∀ k, σ k ≠ k → k ∈ P)
    (ident val : K → F) (hid : Set.InjOn ident P) :
    ∃ badBeta : Finset F, badBeta.card ≤ P.card ∧ ∀ beta ∉ badBeta,
      ∃ badGamma : Finset F, badGamma.card ≤ 2 * P.card ∧ ∀ gamma ∉ badGamma,
        (∏ k ∈ P, (ident k * beta + (val k + gamma)) ≠ 0) ∧
        (∏ k ∈ P, (ident k * beta + (val k + gamma)) =
          ∏ k ∈ P, (ident (σ k) * beta + (val k + gamma)) → ∀ k, val (σ k) = val k) := by
  classical
  -- the challenges that make a factor zero
  have hzero : ∀ beta gamma : F, gamma ∉ P.image (fun k => -(ident k * beta + val k)) →
      ∏ k ∈ P, (ident k * beta + (val k + gamma)) ≠ 0 := by
    intro beta gamma hg h0
    obtain ⟨k, hk, h0⟩ := Finset.prod_eq_zero_iff.1 h0
    apply hg
    rw [Finset.mem_image]
    exact ⟨k, hk, by linear_combination -h0⟩
  by_cases hinv : ∀ k, val (σ k) = val k
  · refine ⟨∅, by simp, fun beta _ => ⟨P.image (fun k => -(ident k * beta + val k)), ?_, ?_⟩⟩
    · have := Finset.card_image_le (s := P) (f := fun k => -(ident k * beta + val k))
      omega
    · intro gamma hg
      exact ⟨hzero beta gamma hg, fun _ => hinv⟩
  · push Not at hinv
    obtain ⟨k0, hk0⟩ := hinv
    have hmoved : σ k0 ≠ k0 := fun h => hk0 (by rw [h])
    have hk0P : k0 ∈ P := hσ k0 hmoved
    have hk1P : σ k0 ∈ P := hσ _ (fun h => hmoved (σ.injective h))
    refine ⟨P.image fun k => (val k0 - val k) / (ident k - ident (σ k0)), Finset.card_image_le, ?_⟩
    intro beta hbeta
    have hb : ∀ k ∈ P, ident k * beta + val k ≠ ident (σ k0) * beta + val k0 := by
      intro k hk h
      by_cases hk' : k = σ k0
      · subst hk'
        exact hk0 (by linear_combination h)
      · have hne : ident k - ident (σ k0) ≠ 0 := fun h' =>
          hk' (hid hk hk1P (by linear_combination h'))
        apply hbeta
        rw [Finset.mem_image]
        refine ⟨k, hk, ?_⟩
        rw [div_eq_iff hne]
        linear_combination -h
    set p : F[X] := ∏ k ∈ P, (X + C (ident k * beta + val k)) with hp
    set q : F[X] := ∏ k ∈ P, (X + C (ident (σ k) * beta + val k)) with hq
    have hpe : ∀ gamma, p.eval gamma = ∏ k ∈ P, (ident k * beta + (val k + gamma)) := by
      intro gamma
      rw [hp, eval_prod]
      apply Finset.prod_congr rfl
      intro k _
      simp only [eval_add, eval_X, eval_C]
      ring
    have hqe : ∀ gamma, q.eval gamma = ∏ k ∈ P, (ident (σ k) * beta + (val k + gamma)) := by
      intro gamma
      rw [hq, eval_prod]
      apply Finset.prod_congr rfl
      intro k _
      simp only [eval_add, eval_X, eval_C]
      ring
    have hne : p - q ≠ 0 := by
      intro h
      have h' : p = q := sub_eq_zero.1 h
      have h1 : q.eval (-(ident (σ k0) * beta + val k0)) = 0 := by
        rw [hqe]
        apply Finset.prod_eq_zero hk0P
        ring
      rw [← h', hpe] at h1
      obtain ⟨k, hk, h1⟩ := Finset.prod_eq_zero_iff.1 h1
      exact hb k hk (by linear_combination h1)
    have hdeg : (p - q).natDegree ≤ P.card := by
      apply (natDegree_sub_le p q).trans
      rw [max_le_iff, hp, hq]
      exact ⟨natDegree_prod_shift P _, natDegree_prod_shift P _⟩
    refine ⟨P.image (fun k => -(ident k * beta + val k)) ∪ (p - q).roots.toFinset, ?_, ?_⟩
    · apply (Finset.card_union_le _ _).trans
      have h1 := Finset.card_image_le (s := P) (f := fun k => -(ident k * beta + val k))
      have h2 := Multiset.toFinset_card_le (p - q).roots
      have h3 := card_roots' (p - q)
      omega
    · intro gamma hg
      rw [Finset.notMem_union] at hg
      refine ⟨hzero beta gamma hg.1, fun h => ?_⟩
      exfalso
      apply hg.2
      rw [Multiset.mem_toFinset, mem_roots hne, IsRoot.def, eval_sub, hpe, hqe, h, sub_self]

end Crypto3Zk
