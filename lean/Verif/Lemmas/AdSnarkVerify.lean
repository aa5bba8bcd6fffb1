import Verif.Spec.AdSnark
import Verif.Lemmas.AdSnark
import Mathlib.LinearAlgebra.Dual.Lemmas
import Mathlib.Data.Fintype.BigOperators
import Mathlib.Data.Fintype.Pi
import Mathlib.Data.Fintype.Prod
import Mathlib.Algebra.Polynomial.Roots
import Mathlib.Tactic.LinearCombination
import Mathlib.Tactic.Module

/-! # Lemmas for the verifiers of the argument on authenticated data -/

set_option linter.unusedSectionVars false

namespace Crypto3Zk

variable {F : Type} [Field F] [DecidableEq F]
variable {G1 G2 GT : Type} [AddCommGroup G1] [Module F G1] [AddCommGroup G2] [Module F G2]
  [AddCommGroup GT] [Module F GT]
variable {Label Seed SK VK Sig : Type}

/-- a loop that accumulates a conjunction -/
theorem foldlM_and (l : List Nat) (f : Bool → Nat → Option Bool) (b : Nat → Bool)
    (h : ∀ r, ∀ i ∈ l, f r i = some (r && b i)) (r : Bool) :
    l.foldlM f r = some (r && l.all b) := by
  induction l generalizing r with
  | nil => simp
  | cons i l ih =>
    rw [List.foldlM_cons, h r i (by simp), Option.bind_eq_bind, Option.bind_some,
      ih (fun r j hj => h r j (by simp [hj]))]
    simp [Bool.and_assoc]

theorem zipWith_take_len {α β γ : Type} (f : α → β → γ) (as : List α) (bs : List β) :
    List.zipWith f (as.take bs.length) bs = List.zipWith f as bs := by
  induction as generalizing bs with
  | nil => simp
  | cons a as ih =>
    cases bs with
    | nil => simp
    | cons b bs => simp [ih]

/-- the sum of pairings of two lists -/
def pairSum (P : Pairing F G1 G2 GT) (as : List G1) (Ls : List G2) : GT :=
  (List.zipWith (fun a L => P.e a L) as Ls).sum

theorem adAccum_eq (P : Pairing F G1 G2 GT) (Ain : List G1) (Ls : List G2) (hle : Ls.length ≤ Ain.length)
    (fuel i : Nat) (hi : i ≤ Ls.length) (he : (Ls.length - i) % 2 = 0) (hf : Ls.length - i < fuel)
    (acc : Option GT) :
    adAccum P Ain Ls Ls.length fuel i acc
      = some (acc.map fun x => x + pairSum P (Ain.drop i) (Ls.drop i)) := by
  induction fuel generalizing i acc with
  | zero => omega
  | succ fuel ih =>
    rw [adAccum]
    by_cases h : i < Ls.length
    · have h1 : i + 1 < Ls.length := by omega
      rw [if_pos h, List.getElem?_eq_getElem (show i < Ain.length by omega),
        List.getElem?_eq_getElem h, List.getElem?_eq_getElem (show i + 1 < Ain.length by omega),
        List.getElem?_eq_getElem h1]
      simp only [Option.bind_eq_bind, Option.bind_some]
      rw [ih (i + 2) (by omega) (by omega) (by omega), Option.map_map]
      congr 2
      funext x
      rw [List.drop_eq_getElem_cons (show i < Ain.length by omega), List.drop_eq_getElem_cons h,
        List.drop_eq_getElem_cons (show i + 1 < Ain.length by omega), List.drop_eq_getElem_cons h1]
      simp only [Function.comp_apply, pairSum, List.zipWith_cons_cons, List.sum_cons]
      abel
    · rw [if_neg h, List.drop_eq_nil_of_le (show Ls.length ≤ i by omega)]
      simp [pairSum]

theorem adChecks_true [DecidableEq GT] (P : Pairing F G1 G2 GT) (vk : AdVK G1 G2)
    (π : AdProof G1 G2) (a : Bool) :
    adChecks P vk π (π.wellFormed P && adAuthKc P vk π a) = true ↔ AdEquations P vk π ∧ a = true := by
  have hwf : π.wellFormed P = true ↔ (∀ g ∈ [π.gA.1, π.gA.2, π.gB.2, π.gC.1, π.gC.2, π.gH, π.gK,
      π.gAau.1, π.gAau.2, π.muA], P.wf1 g = true) ∧ P.wf2 π.gB.1 = true := by
    simp only [AdProof.wellFormed, Bool.and_eq_true, List.mem_cons, List.not_mem_nil, or_false,
      forall_eq_or_imp, forall_eq]
    tauto
  simp only [adChecks, adAuthKc, ne_eq, sub_eq_zero, ite_not]
  constructor
  · intro h
    split at h <;> try contradiction
    split at h <;> try contradiction
    split at h <;> try contradiction
    split at h <;> try contradiction
    split at h <;> try contradiction
    rename_i h1 h2 h3 h4 h5
    rw [Bool.and_eq_true, hwf] at h
    obtain ⟨⟨w1, w2⟩, h⟩ := h
    split at h <;> try contradiction
    rename_i h6
    exact ⟨⟨w1, w2, h6, h5, h4, h3, h2, h1⟩, h⟩
  · rintro ⟨⟨w1, w2, h6, h5, h4, h3, h2, h1⟩, rfl⟩
    rw [if_pos h1, if_pos h2, if_pos h3, if_pos h4, if_pos h5, if_pos h6, hwf.2 ⟨w1, w2⟩]
    rfl

theorem adVerifierSym_eq [DecidableEq G1] [DecidableEq GT]
    (A : AdPrimitives F G2 Label Seed SK VK Sig) (P : Pairing F G1 G2 GT) (vk : AdVK G1 G2)
    (π : AdProof G1 G2) (sak : AdSecKey F Seed SK) (labels : List Label)
    (hl : labels.length ≤ vk.Ain.length) :
    ∃ b, adVerifierSym A P vk π sak labels = some b ∧
      (b = true ↔ AdEquations P vk π ∧ AdAuthentic A vk π sak labels) := by
  have hm : multiexp (vk.Ain.take labels.length) (labels.map (A.prf sak.S))
      = some (List.zipWith (fun g l => A.prf sak.S l • g) vk.Ain labels).sum := by
    rw [multiexp, if_pos (by simp [hl]), List.zipWith_map_right]
    congr 2
    exact zipWith_take_len _ _ _
  unfold adVerifierSym
  rw [slice_eq _ _ _ (Nat.zero_le _) hl]
  simp only [List.drop_zero, Nat.sub_zero, Option.bind_eq_bind, Option.bind_some, hm,
    Option.pure_def]
  refine ⟨_, rfl, ?_⟩
  rw [adChecks_true, AdAuthentic]
  refine and_congr_right fun _ => ?_
  by_cases h : sak.i • π.gAau.1 + (List.zipWith (fun g l => A.prf sak.S l • g) vk.Ain labels).sum
      = π.muA
  · simp [h]
  · simp only [ne_eq, h, not_false_eq_true, if_true, Bool.false_eq_true, false_iff]
    exact fun e => h e.symm

theorem adVerifierPub_eq [DecidableEq GT]
    (A : AdPrimitives F G2 Label Seed SK VK Sig) (P : Pairing F G1 G2 GT) (gd : Option GT)
    (vk : AdVK G1 G2) (auth : List (AdAuthData F G2 Sig)) (π : AdProof G1 G2) (pak : AdPubKey G2 VK)
    (labels : List Label) (hla : labels.length = auth.length) (hl : labels.length ≤ vk.Ain.length) :
    ∃ b, adVerifierPub A P gd vk auth π pak labels = some b ∧
      (b = true ↔ AdEquations P vk π ∧
        A.batchVerify pak.vkp labels (auth.map (·.Lambda)) (auth.map (·.sigma)) = true ∧
        (if auth.length % 2 = 1 then gd else some 0).map
            (fun x => x + pairSum P (vk.Ain.drop (auth.length % 2))
              ((auth.map (·.Lambda)).drop (auth.length % 2)))
          = some (P.e π.muA P.one2 + P.e π.gAau.1 pak.minusI2)) := by
  set Ls := auth.map (·.Lambda) with hLs
  have lL : Ls.length = auth.length := by simp [hLs]
  have h0 : adAccumInit gd vk.Ain Ls = some (if auth.length % 2 = 1 then gd else some 0) := by
    rw [adAccumInit, lL]
    by_cases h : auth.length % 2 = 1
    · rw [if_pos h, if_pos h, List.getElem?_eq_getElem (by omega), List.getElem?_eq_getElem (by omega)]
      rfl
    · rw [if_neg h, if_neg h]
  have h1 := adAccum_eq P vk.Ain Ls (by omega) (labels.length + 1) (auth.length % 2)
    (by omega) (by omega) (by omega) (if auth.length % 2 = 1 then gd else some 0)
  rw [lL, ← hla] at h1
  unfold adVerifierPub
  rw [hla]
  rw [hla] at h1
  simp only [guard, if_true, Option.bind_eq_bind, Option.pure_def, Option.bind_some]
  rw [← hLs, h0, Option.bind_some, h1, Option.bind_some]
  refine ⟨_, rfl, ?_⟩
  rw [adChecks_true]
  refine and_congr_right fun _ => ?_
  generalize (if auth.length % 2 = 1 then gd else some 0) = acc
  cases acc with
  | none => simp
  | some x =>
    simp only [Option.map_some, Option.some.injEq, ne_eq, sub_eq_zero, ite_not]
    by_cases h : x + pairSum P (vk.Ain.drop (auth.length % 2)) (Ls.drop (auth.length % 2))
        = P.e π.muA P.one2 + P.e π.gAau.1 pak.minusI2
    · simp [h]
    · simp [h]

/-- a nonzero vector is seen by some functional -/
theorem exists_functional {G : Type} [AddCommGroup G] [Module F G] {g : G} (hg : g ≠ 0) :
    ∃ φ : G →ₗ[F] F, φ g ≠ 0 := by
  by_contra hcon
  push Not at hcon
  exact hg ((Module.forall_dual_apply_eq_zero_iff F g).1 hcon)

/-- a nonzero polynomial of the shape `a₀ + Σ λₖ(aₖ + i bₖ) + i c + i² d` has few zeros -/
theorem tag_count {G : Type} [AddCommGroup G] [Module F G] [Fintype F] {n : Nat} (a0 c d : G)
    (a b : Fin n → G) (hne : (∃ k, a k ≠ 0) ∨ (∃ k, b k ≠ 0) ∨ c ≠ 0 ∨ d ≠ 0)
    (S : Finset (F × (Fin n → F)))
    (hS : ∀ z ∈ S, a0 + ∑ k, z.2 k • (a k + z.1 • b k) + z.1 • c + (z.1 * z.1) • d = 0) :
    S.card ≤ 2 * Fintype.card F ^ n := by
  classical
  by_cases hk : ∃ k, a k ≠ 0 ∨ b k ≠ 0
  · obtain ⟨k, hk⟩ := hk
    obtain ⟨φ, hφ⟩ : ∃ φ : G →ₗ[F] F, φ (a k) ≠ 0 ∨ φ (b k) ≠ 0 := by
      rcases hk with h | h
      · obtain ⟨φ, h⟩ := exists_functional (F := F) h
        exact ⟨φ, Or.inl h⟩
      · obtain ⟨φ, h⟩ := exists_functional (F := F) h
        exact ⟨φ, Or.inr h⟩
    set bad := S.filter fun z => φ (a k) + z.1 * φ (b k) = 0 with hbad
    set good := S.filter fun z => ¬ φ (a k) + z.1 * φ (b k) = 0 with hgood
    have hsplit : bad.card + good.card = S.card := Finset.card_filter_add_card_filter_not _
    have hb : bad.card ≤ Fintype.card F ^ n := by
      have : bad.card ≤ (Finset.univ : Finset (Fin n → F)).card := by
        refine Finset.card_le_card_of_injOn (fun z => z.2) (fun _ _ => Finset.mem_univ _) ?_
        intro z hz z' hz' he
        simp only [hbad, Finset.coe_filter, Set.mem_setOf_eq] at hz hz'
        have hb0 : φ (b k) ≠ 0 := by
          intro h0
          rcases hφ with h | h
          · rw [h0, mul_zero, add_zero] at hz; exact h hz.2
          · exact h h0
        refine Prod.ext ?_ he
        exact mul_right_cancel₀ hb0 (add_left_cancel (hz.2.trans hz'.2.symm))
      simpa using this
    have hg : good.card ≤ Fintype.card F ^ n := by
      have : good.card ≤ (Finset.univ : Finset (Fin n → F)).card := by
        refine Finset.card_le_card_of_injOn (fun z => Function.update z.2 k z.1)
          (fun _ _ => Finset.mem_univ _) ?_
        intro z hz z' hz' he
        simp only [hgood, Finset.coe_filter, Set.mem_setOf_eq] at hz hz'
        have h1 : z.1 = z'.1 := by
          have := congrFun he k
          simpa using this
        have h2 : ∀ j, j ≠ k → z.2 j = z'.2 j := by
          intro j hj
          have := congrFun he j
          simpa [Function.update_of_ne hj] using this
        have e1 := congrArg φ (hS z hz.1)
        have e2 := congrArg φ (hS z' hz'.1)
        simp only [map_add, map_sum, map_smul, smul_eq_mul, map_zero] at e1 e2
        rw [← Finset.add_sum_erase _ _ (Finset.mem_univ k)] at e1 e2
        have e3 : ∑ x ∈ Finset.univ.erase k, z.2 x * (φ (a x) + z.1 * φ (b x))
            = ∑ x ∈ Finset.univ.erase k, z'.2 x * (φ (a x) + z'.1 * φ (b x)) := by
          refine Finset.sum_congr rfl fun j hj => ?_
          rw [h1, h2 j (Finset.ne_of_mem_erase hj)]
        rw [← e3, ← h1] at e2
        have e4 : z.2 k = z'.2 k := by
          refine mul_right_cancel₀ hz.2 ?_
          linear_combination e1 - e2
        refine Prod.ext h1 ?_
        funext j
        by_cases hj : j = k
        · rw [hj, e4]
        · exact h2 j hj
      simpa using this
    omega
  · push Not at hk
    have hcd : c ≠ 0 ∨ d ≠ 0 := by
      rcases hne with ⟨k, h⟩ | ⟨k, h⟩ | h
      · exact absurd (hk k).1 h
      · exact absurd (hk k).2 h
      · exact h
    obtain ⟨φ, hφ⟩ : ∃ φ : G →ₗ[F] F, φ c ≠ 0 ∨ φ d ≠ 0 := by
      rcases hcd with h | h
      · obtain ⟨φ, h⟩ := exists_functional (F := F) h
        exact ⟨φ, Or.inl h⟩
      · obtain ⟨φ, h⟩ := exists_functional (F := F) h
        exact ⟨φ, Or.inr h⟩
    let p : Polynomial F := Polynomial.C (φ d) * Polynomial.X ^ 2 + Polynomial.C (φ c) * Polynomial.X
      + Polynomial.C (φ a0)
    have hp : p ≠ 0 := by
      intro h0
      have h1 : p.coeff 1 = φ c := by simp [p, Polynomial.coeff_X, Polynomial.coeff_C]
      have h2 : p.coeff 2 = φ d := by simp [p, Polynomial.coeff_X, Polynomial.coeff_C]
      rw [h0, Polynomial.coeff_zero] at h1 h2
      rcases hφ with h | h
      · exact h h1.symm
      · exact h h2.symm
    have hsub : S ⊆ p.roots.toFinset ×ˢ (Finset.univ : Finset (Fin n → F)) := by
      intro z hz
      rw [Finset.mem_product]
      refine ⟨?_, Finset.mem_univ _⟩
      rw [Multiset.mem_toFinset, Polynomial.mem_roots hp, Polynomial.IsRoot.def]
      have e1 := congrArg φ (hS z hz)
      simp only [(hk _).1, (hk _).2, smul_zero, add_zero, Finset.sum_const_zero, map_add, map_smul,
        smul_eq_mul, map_zero] at e1
      simp only [p, Polynomial.eval_add, Polynomial.eval_mul, Polynomial.eval_C, Polynomial.eval_pow,
        Polynomial.eval_X]
      linear_combination e1
    refine (Finset.card_le_card hsub).trans ?_
    rw [Finset.card_product]
    have hd : p.natDegree ≤ 2 := Polynomial.natDegree_quadratic_le
    have hr : p.roots.toFinset.card ≤ 2 :=
      (Multiset.toFinset_card_le _).trans ((Polynomial.card_roots' _).trans hd)
    refine Nat.mul_le_mul hr ?_
    simp

end Crypto3Zk
