import Mathlib.Algebra.MvPolynomial.SchwartzZippel
import Mathlib.Data.Fintype.BigOperators
import Mathlib.Tactic.Ring
import Mathlib.Tactic.Linarith
import Mathlib.Algebra.BigOperators.Fin

/-!
# Expressions that vanish at many points

Counting lemmas for arguments in which a strategy is fixed before the secrets are drawn.
-/

set_option linter.unusedSectionVars false

namespace Crypto3Zk

variable {F : Type} [Field F] [DecidableEq F] [Fintype F]

/-- a combination of different monomials of degree at most `d` that vanishes at more than
`d · |F|^n` of the `|F|^(n+1)` points has coefficients zero -/
theorem coefficients_zero_of_many {ι : Type} [Fintype ι] [DecidableEq ι] (n d : Nat)
    (mon : ι → Fin (n + 1) → Nat) (hinj : Function.Injective mon) (hd : ∀ i, ∑ j, mon i j ≤ d)
    (c : ι → F) (S : Finset (Fin (n + 1) → F))
    (hS : ∀ x ∈ S, ∑ i, c i * ∏ j, x j ^ mon i j = 0)
    (hcard : d * Fintype.card F ^ n < S.card) : ∀ i, c i = 0 := by
  classical
  let e : ι → (Fin (n + 1) →₀ Nat) := fun i => Finsupp.equivFunOnFinite.symm (mon i)
  have he : Function.Injective e := Finsupp.equivFunOnFinite.symm.injective.comp hinj
  let p : MvPolynomial (Fin (n + 1)) F := ∑ i, MvPolynomial.monomial (e i) (c i)
  have hcoeff : ∀ i, p.coeff (e i) = c i := by
    intro i
    simp only [p, MvPolynomial.coeff_sum, MvPolynomial.coeff_monomial]
    rw [Finset.sum_eq_single i]
    · simp
    · intro k _ hk; rw [if_neg fun h => hk (he h)]
    · simp
  have heval : ∀ x, MvPolynomial.eval x p = ∑ i, c i * ∏ j, x j ^ mon i j := by
    intro x
    simp only [p, map_sum, MvPolynomial.eval_monomial]
    refine Finset.sum_congr rfl fun i _ => ?_
    rw [Finsupp.prod_fintype _ _ (by simp)]
    rfl
  have hdeg : p.totalDegree ≤ d := by
    refine (MvPolynomial.totalDegree_finset_sum _ _).trans (Finset.sup_le fun i _ => ?_)
    refine (MvPolynomial.totalDegree_monomial_le _ _).trans ?_
    rw [Finsupp.sum_fintype _ _ (by simp)]
    exact hd i
  by_contra hne
  push Not at hne
  obtain ⟨i, hi⟩ := hne
  have hp : p ≠ 0 := fun h => hi (by rw [← hcoeff i, h, MvPolynomial.coeff_zero])
  have hsz := MvPolynomial.schwartz_zippel_totalDegree hp (Finset.univ : Finset F)
  have hsub : S.card ≤
      (Finset.filter (fun f => MvPolynomial.eval f p = 0) (Fintype.piFinset fun _ => Finset.univ)).card := by
    refine Finset.card_le_card fun x hx => ?_
    simp only [Finset.mem_filter, Fintype.mem_piFinset, Finset.mem_univ, implies_true, true_and]
    rw [heval, hS x hx]
  have hF : (0 : ℚ≥0) < Fintype.card F := by exact_mod_cast Fintype.card_pos
  rw [Finset.card_univ, div_le_div_iff₀ (pow_pos hF _) hF, pow_succ] at hsz
  have h2 : ((Finset.filter (fun f => MvPolynomial.eval f p = 0)
      (Fintype.piFinset fun _ => Finset.univ)).card : ℚ≥0) ≤ p.totalDegree * (Fintype.card F) ^ n := by
    refine le_of_mul_le_mul_right ?_ hF
    calc _ ≤ _ := hsz
      _ = _ := by ring
  have h3 : (Finset.filter (fun f => MvPolynomial.eval f p = 0)
      (Fintype.piFinset fun _ => Finset.univ)).card ≤ p.totalDegree * (Fintype.card F) ^ n := by
    exact_mod_cast h2
  have h4 : p.totalDegree * (Fintype.card F) ^ n ≤ d * Fintype.card F ^ n := Nat.mul_le_mul_right _ hdeg
  omega

/-- many pairs: there are many first components each with many second components -/
theorem many_slices {α β : Type} [Fintype α] [Fintype β] [DecidableEq α] [DecidableEq β]
    (S : Finset (α × β)) (N M : Nat) (h : N * Fintype.card β + M * Fintype.card α < S.card) :
    ∃ good : Finset α, N < good.card ∧
      ∀ a ∈ good, M < (Finset.univ.filter fun b => (a, b) ∈ S).card := by
  classical
  refine ⟨Finset.univ.filter fun a => M < (Finset.univ.filter fun b => (a, b) ∈ S).card, ?_,
    fun a ha => (Finset.mem_filter.1 ha).2⟩
  by_contra hcon
  have hle := not_lt.1 hcon
  have hsum : S.card = ∑ a, (Finset.univ.filter fun b => (a, b) ∈ S).card := by
    rw [Finset.card_eq_sum_card_fiberwise (f := Prod.fst) (t := Finset.univ) (fun _ _ => by simp)]
    refine Finset.sum_congr rfl fun a _ => ?_
    refine Finset.card_bij' (fun z _ => z.2) (fun b _ => (a, b)) ?_ ?_ ?_ ?_
    · rintro ⟨x, y⟩ hz
      simp only [Finset.mem_filter] at hz
      obtain ⟨hz, rfl⟩ := hz
      simpa using hz
    · intro b hb; simpa using hb
    · rintro ⟨x, y⟩ hz
      simp only [Finset.mem_filter] at hz
      obtain ⟨-, rfl⟩ := hz
      rfl
    · intro b _; rfl
  have hbound : S.card ≤ ∑ a : α, (M + if M < (Finset.univ.filter fun b => (a, b) ∈ S).card
      then Fintype.card β else 0) := by
    rw [hsum]
    refine Finset.sum_le_sum fun a _ => ?_
    split
    · exact (Finset.card_le_univ _).trans (Nat.le_add_left _ _)
    · omega
  rw [Finset.sum_add_distrib, Finset.sum_const, Finset.card_univ, ← Finset.sum_filter,
    Finset.sum_const, smul_eq_mul, smul_eq_mul] at hbound
  have := Nat.mul_le_mul_right (Fintype.card β) hle
  rw [Nat.mul_comm (Fintype.card α)] at hbound
  omega

end Crypto3Zk
