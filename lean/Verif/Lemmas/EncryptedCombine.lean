import Verif.Lemmas.EncryptedLinear

/-!
# Combinations of the elements of the three keys
-/

set_option linter.unusedSectionVars false

namespace Crypto3Zk

open Finset

variable {F : Type} [Field F] [DecidableEq F] {D : EvalDomain F}
variable {G1 G2 GT : Type} [AddCommGroup G1] [Module F G1] [AddCommGroup G2] [Module F G2]
  [AddCommGroup GT] [Module F GT] [DecidableEq GT]

/-- the coefficients of `gamma_g1` and the elements that do not depend on `t_0, …, t_n`, besides those of Groth16 -/
def EncCoeffs1.rest {n : Nat} (c : EncCoeffs1 F) (gamma delta : F) (s : Fin n → F) : F :=
  c.gamma * gamma + (∑ j : Fin n, c.deltaS.getD j 0 * s j) * delta - c.gammaInverse * (1 + ∑ j, s j) * gamma

theorem innerProduct_fin (n : Nat) (xs ys : List F) (hx : xs.length = n) (hy : n ≤ ys.length) :
    innerProduct xs ys = ∑ j : Fin n, xs.getD j 0 * ys.getD j 0 := by
  subst hx
  rw [innerProduct_eq_sum _ _ hy, Finset.sum_range]

theorem sum_zipWith_ofFn {n : Nat} (s t : Fin n → F) :
    (List.zipWith (· * ·) (List.ofFn s) (List.ofFn t)).sum = ∑ j, s j * t j := by
  have := innerProduct_fin n (List.ofFn s) (List.ofFn t) (by simp) (by simp)
  rw [innerProduct] at this
  rw [this]
  refine Finset.sum_congr rfl fun j _ => ?_
  rw [List.getD_eq_getElem _ _ (by simp), List.getD_eq_getElem _ _ (by simp)]
  simp

theorem saverKey_deltaS {n : Nat} (P : Pairing F G1 G2 GT) (g1 : G1) (vk : Groth16ExtVK G1 G2 GT) (s : Fin n → F)
    (τ : Fin (n + 1) → F) (delta : F) (hd : vk.deltaG1 = delta • g1) :
    (saverKey P vk (saverSecretOf s τ)).deltaSG1 = batchExp g1 (List.ofFn fun j => s j * delta) := by
  simp only [saverKey, saverSecretOf, batchExp, hd, List.map_ofFn]
  congr 1
  funext j
  simp [smul_smul]

theorem saverKey_t {n : Nat} (P : Pairing F G1 G2 GT) (g1 : G1) (vk : Groth16ExtVK G1 G2 GT) (s : Fin n → F)
    (τ : Fin (n + 1) → F) (k : List F) (hrest : vk.gammaABC.rest = batchExp g1 k) :
    (saverKey P vk (saverSecretOf s τ)).tG1 =
      batchExp g1 (List.zipWith (· * ·) (List.ofFn fun j : Fin n => τ j.succ) k) := by
  simp only [saverKey, saverSecretOf, batchExp, hrest]
  rw [List.map_zipWith, List.zipWith_map_right]
  simp [smul_smul]

theorem saverKey_sum {n : Nat} (P : Pairing F G1 G2 GT) (g1 : G1) (vk : Groth16ExtVK G1 G2 GT) (s : Fin n → F)
    (τ : Fin (n + 1) → F) (delta : F) (hd : vk.deltaG1 = delta • g1) :
    (saverKey P vk (saverSecretOf s τ)).deltaSumSG1 = ((τ 0 + ∑ j, s j * τ j.succ) * delta) • g1 := by
  simp only [saverKey, saverSecretOf, hd, smul_smul, sum_zipWith_ofFn]

theorem sum_t {n : Nat} (xs k : List F) (τ : Fin (n + 1) → F) (hx : xs.length = n) (hn : n ≤ k.length) :
    innerProduct xs (List.zipWith (· * ·) (List.ofFn fun j : Fin n => τ j.succ) k) =
      ∑ j : Fin n, xs.getD j 0 * k.getD j 0 * τ j.succ := by
  have k2 : (List.zipWith (· * ·) (List.ofFn fun j : Fin n => τ j.succ) k).length = n := by simp; omega
  rw [innerProduct_fin n _ _ hx (by omega)]
  refine Finset.sum_congr rfl fun j _ => ?_
  have hj := j.2
  rw [List.getD_eq_getElem (List.zipWith _ _ _) _ (by rw [k2]; exact hj), List.getD_eq_getElem k _ (by omega)]
  simp
  ring

theorem sum_slope {n : Nat} (a k s : Fin n → F) (b delta : F) (τ : Fin (n + 1) → F) :
    ∑ j, encSlope a b k delta s j * τ j =
      (∑ j : Fin n, a j * k j * τ j.succ) + b * (τ 0 + ∑ j, s j * τ j.succ) * delta := by
  rw [Fin.sum_univ_succ]
  simp only [encSlope, Fin.cons_zero, Fin.cons_succ, add_mul, Finset.sum_add_distrib, mul_add]
  have f3 : ∑ j : Fin n, b * s j * delta * τ j.succ = b * (∑ j : Fin n, s j * τ j.succ) * delta := by
    rw [Finset.mul_sum, Finset.sum_mul]
    exact Finset.sum_congr rfl fun j _ => by ring
  rw [f3]
  ring

theorem EncCoeffs1.combine_eq {n : Nat} (P : Pairing F G1 G2 GT) (c : EncCoeffs1 F) (g1 : G1)
    (pk : Groth16PK F G1 G2) (vk : Groth16ExtVK G1 G2 GT) (s : Fin n → F) (τ : Fin (n + 1) → F) (gamma delta : F)
    (k : List F) (hrest : vk.gammaABC.rest = batchExp g1 k) (hd : vk.deltaG1 = delta • g1)
    (hg : vk.gammaG1 = gamma • g1) (hn : n ≤ k.length) (g : G1)
    (h : c.combine g1 pk vk (saverKey P vk (saverSecretOf s τ)) = some g) :
    c.deltaS.length = n ∧ c.tG1.length = n ∧ ∃ g0, c.base.combine g1 pk vk.toGroth16VK = some g0 ∧
      g = g0 + (c.rest gamma delta s +
        ∑ j, encSlope (fun j : Fin n => c.tG1.getD j 0) c.deltaSum (fun j => k.getD j 0) delta s j * τ j) • g1 := by
  simp only [EncCoeffs1.combine, Option.bind_eq_bind, Option.bind_eq_some_iff, Option.pure_def,
    Option.some.injEq] at h
  obtain ⟨g0, h0, gs, h1, gt, h2, rfl⟩ := h
  have e1 : (saverKey P vk (saverSecretOf s τ)).deltaSG1 = batchExp g1 (List.ofFn fun j => s j * delta) := by
    simp only [saverKey, saverSecretOf, batchExp, hd, List.map_ofFn]
    congr 1
    funext j
    simp [smul_smul]
  have e2 : (saverKey P vk (saverSecretOf s τ)).tG1 =
      batchExp g1 (List.zipWith (· * ·) (List.ofFn fun j : Fin n => τ j.succ) k) := by
    simp only [saverKey, saverSecretOf, batchExp, hrest]
    rw [List.map_zipWith, List.zipWith_map_right]
    simp [smul_smul]
  rw [e1] at h1
  rw [e2] at h2
  have l1 := multiexp_length h1
  have l2 := multiexp_length h2
  have k2 : (List.zipWith (· * ·) (List.ofFn fun j : Fin n => τ j.succ) k).length = n := by simp; omega
  simp only [batchExp, List.length_map, List.length_ofFn] at l1
  simp only [batchExp, List.length_map] at l2
  rw [multiexp_batchExp _ _ _ (by simpa using l1), Option.some_inj,
    innerProduct_fin n _ _ l1.symm (by simp)] at h1
  rw [multiexp_batchExp _ _ _ l2, Option.some_inj, innerProduct_fin n _ _ (by omega) (by omega)] at h2
  refine ⟨l1.symm, by omega, g0, h0, ?_⟩
  subst h1 h2
  rw [add_assoc, add_assoc, add_assoc, add_assoc]
  congr 1
  have e3 : (saverKey P vk (saverSecretOf s τ)).deltaSumSG1 = ((τ 0 + ∑ j, s j * τ j.succ) * delta) • g1 := by
    simp only [saverKey, saverSecretOf, hd, smul_smul, sum_zipWith_ofFn]
  have e4 : (saverKey P vk (saverSecretOf s τ)).gammaInverseSumSG1 = (-((1 + ∑ j, s j) * gamma)) • g1 := by
    simp only [saverKey, saverSecretOf, hg, smul_smul, List.sum_ofFn, neg_smul]
  rw [e3, e4, hg]
  simp only [smul_smul, ← add_smul]
  congr 1
  have f1 : ∑ j : Fin n, c.deltaS.getD j 0 * (List.ofFn fun j => s j * delta).getD j 0 =
      (∑ j : Fin n, c.deltaS.getD j 0 * s j) * delta := by
    rw [Finset.sum_mul]
    refine Finset.sum_congr rfl fun j _ => ?_
    rw [List.getD_eq_getElem (List.ofFn _) _ (by simp)]
    simp [mul_assoc]
  have f2 : ∑ j : Fin n, c.tG1.getD j 0 * (List.zipWith (· * ·) (List.ofFn fun j : Fin n => τ j.succ) k).getD j 0 =
      ∑ j : Fin n, c.tG1.getD j 0 * k.getD j 0 * τ j.succ := by
    refine Finset.sum_congr rfl fun j _ => ?_
    have hj := j.2
    rw [List.getD_eq_getElem (List.zipWith _ _ _) _ (by rw [k2]; exact hj), List.getD_eq_getElem k _ (by omega)]
    simp
    ring
  rw [f1, f2, Fin.sum_univ_succ]
  simp only [EncCoeffs1.rest, encSlope, Fin.cons_zero, Fin.cons_succ, add_mul, Finset.sum_add_distrib]
  have f3 : ∑ j : Fin n, c.deltaSum * s j * delta * τ j.succ = c.deltaSum * (∑ j : Fin n, s j * τ j.succ) * delta := by
    rw [Finset.mul_sum, Finset.sum_mul]
    exact Finset.sum_congr rfl fun j _ => by ring
  rw [f3]
  ring

/-- the combination for a fixed secret key of the encryption scheme, as one of the elements of Groth16 -/
def EncCoeffs1.collapse {n : Nat} (c : EncCoeffs1 F) (ni : Nat) (s : Fin n → F) (τ : Fin (n + 1) → F) :
    Groth16Coeffs1 F :=
  { c.base with
    delta := c.base.delta + ((∑ j : Fin n, c.deltaS.getD j 0 * s j) + c.deltaSum * (τ 0 + ∑ j, s j * τ j.succ))
    inputs := List.zipWith (· + ·) c.base.inputs
      ((List.ofFn fun j : Fin n => c.tG1.getD j 0 * τ j.succ) ++ List.replicate (ni - n) 0) }

theorem multiexp_add {G : Type} [AddCommGroup G] [Module F G] (gs : List G) (xs ys : List F) (g h : G)
    (hx : multiexp gs xs = some g) (hy : multiexp gs ys = some h) :
    multiexp gs (List.zipWith (· + ·) xs ys) = some (g + h) := by
  have lx := multiexp_length hx
  have ly := multiexp_length hy
  rw [multiexp, if_pos lx, Option.some_inj] at hx
  rw [multiexp, if_pos ly, Option.some_inj] at hy
  rw [multiexp, if_pos (by simp [← lx, ← ly]), ← hx, ← hy, Option.some_inj]
  clear hx hy
  induction gs generalizing xs ys with
  | nil => simp
  | cons g gs ih =>
    match xs, ys, lx, ly with
    | x :: xs, y :: ys, lx, ly =>
      simp only [List.zipWith_cons_cons, List.sum_cons, ih xs ys (by simpa using lx) (by simpa using ly)]
      module

theorem EncCoeffs1.collapse_combine {n : Nat} (P : Pairing F G1 G2 GT) (c : EncCoeffs1 F) (g1 : G1)
    (pk : Groth16PK F G1 G2) (vk : Groth16ExtVK G1 G2 GT) (s : Fin n → F) (τ : Fin (n + 1) → F) (gamma delta : F)
    (k : List F) (hrest : vk.gammaABC.rest = batchExp g1 k) (hd : vk.deltaG1 = delta • g1)
    (hpd : pk.deltaG1 = delta • g1) (hg : vk.gammaG1 = gamma • g1) (hn : n ≤ k.length) (g : G1)
    (h : c.combine g1 pk vk (saverKey P vk (saverSecretOf s τ)) = some g) :
    ∃ g0, (c.collapse k.length s τ).combine g1 pk vk.toGroth16VK = some g0 ∧
      g = g0 + ((c.gamma - c.gammaInverse * (1 + ∑ j, s j)) * gamma) • g1 := by
  obtain ⟨l1, l2, g0, h0, rfl⟩ := EncCoeffs1.combine_eq P c g1 pk vk s τ gamma delta k hrest hd hg hn g h
  simp only [Groth16Coeffs1.combine, Option.bind_eq_bind, Option.bind_eq_some_iff, Option.pure_def,
    Option.some.injEq] at h0
  obtain ⟨ga, ha, gb, hb, gh, hh, gl, hl, gi, hi, rfl⟩ := h0
  have hy : multiexp vk.gammaABC.rest ((List.ofFn fun j : Fin n => c.tG1.getD j 0 * τ j.succ) ++
      List.replicate (k.length - n) 0) = some ((∑ j : Fin n, c.tG1.getD j 0 * k.getD j 0 * τ j.succ) • g1) := by
    have hl : k.length = ((List.ofFn fun j : Fin n => c.tG1.getD j 0 * τ j.succ) ++
        List.replicate (k.length - n) 0).length := by simp; omega
    rw [hrest, multiexp_batchExp _ _ _ hl, Option.some_inj]
    congr 1
    rw [innerProduct_eq_sum _ _ (le_of_eq hl.symm), ← hl, show k.length = n + (k.length - n) by omega,
      Finset.sum_range_add, Finset.sum_range]
    rw [Finset.sum_eq_zero (s := range (k.length - n)), add_zero]
    · refine Finset.sum_congr rfl fun j _ => ?_
      rw [List.getD_append _ _ _ _ (by simp), List.getD_eq_getElem (List.ofFn _) _ (by simp)]
      simp
      ring
    · intro j hj
      rw [List.getD_append_right _ _ _ _ (by simp)]
      simp only [List.length_ofFn, Nat.add_sub_cancel_left]
      rw [List.getD_eq_getElem (List.replicate _ _) _ (by simpa using hj), List.getElem_replicate, zero_mul]
  have hi' := multiexp_add _ _ _ _ _ hi hy
  refine ⟨_, by simp only [EncCoeffs1.collapse, Groth16Coeffs1.combine, ha, hb, hh, hl, hi', Option.bind_eq_bind,
    Option.bind_some, Option.pure_def]; rfl, ?_⟩
  have e : ∑ j, encSlope (fun j : Fin n => c.tG1.getD j 0) c.deltaSum (fun j => k.getD j 0) delta s j * τ j =
      (∑ j : Fin n, c.tG1.getD j 0 * k.getD j 0 * τ j.succ) + c.deltaSum * (τ 0 + ∑ j, s j * τ j.succ) * delta := by
    rw [Fin.sum_univ_succ]
    simp only [encSlope, Fin.cons_zero, Fin.cons_succ, add_mul, Finset.sum_add_distrib, mul_add]
    have f3 : ∑ j : Fin n, c.deltaSum * s j * delta * τ j.succ =
        c.deltaSum * (∑ j : Fin n, s j * τ j.succ) * delta := by
      rw [Finset.mul_sum, Finset.sum_mul]
      exact Finset.sum_congr rfl fun j _ => by ring
    rw [f3]
    ring
  rw [e, hpd]
  simp only [EncCoeffs1.rest]
  module

/-- the same in the second group, where `one2` is `κ` times the generator of the keys -/
def EncCoeffs2.collapse {n : Nat} (c : EncCoeffs2 F) (κ : F) (τ : Fin (n + 1) → F) : Groth16Coeffs2 F :=
  { c.base with one := c.base.one + (∑ j : Fin (n + 1), c.tG2.getD j 0 * τ j) * κ }

theorem EncCoeffs2.collapse_combine {n : Nat} (P : Pairing F G1 G2 GT) (c : EncCoeffs2 F) (g2 : G2)
    (pk : Groth16PK F G1 G2) (vk : Groth16ExtVK G1 G2 GT) (s : Fin n → F) (τ : Fin (n + 1) → F) (κ : F)
    (hκ : P.one2 = κ • g2) (g : G2)
    (h : c.combine g2 pk vk (saverKey P vk (saverSecretOf s τ)) = some g) :
    (c.collapse κ τ).combine g2 pk vk.toGroth16VK = some g := by
  simp only [EncCoeffs2.combine, Groth16Coeffs2.combine, Option.bind_eq_bind, Option.bind_eq_some_iff,
    Option.pure_def, Option.some.injEq] at h
  obtain ⟨g0, ⟨gb, hb, rfl⟩, gt, ht, rfl⟩ := h
  have e : (saverKey P vk (saverSecretOf s τ)).tG2 = batchExp g2 (List.ofFn fun j => τ j * κ) := by
    simp only [saverKey, saverSecretOf, batchExp, hκ]
    rw [← List.ofFn_succ (f := τ), List.map_ofFn, List.map_ofFn]
    congr 1
    funext j
    simp [smul_smul]
  rw [e] at ht
  have l := multiexp_length ht
  simp only [batchExp, List.length_map, List.length_ofFn] at l
  rw [multiexp_batchExp _ _ _ (by simpa using l), Option.some_inj, innerProduct_fin (n + 1) _ _ l.symm (by simp)] at ht
  subst ht
  simp only [EncCoeffs2.collapse, Groth16Coeffs2.combine, hb, Option.bind_eq_bind, Option.bind_some, Option.pure_def,
    Option.some_inj]
  have f : ∑ j : Fin (n + 1), c.tG2.getD j 0 * (List.ofFn fun j => τ j * κ).getD j 0 =
      (∑ j : Fin (n + 1), c.tG2.getD j 0 * τ j) * κ := by
    rw [Finset.sum_mul]
    refine Finset.sum_congr rfl fun j _ => ?_
    rw [List.getD_eq_getElem (List.ofFn _) _ (by rw [List.length_ofFn]; exact j.2), List.getElem_ofFn, mul_assoc]
  rw [f]
  module

end Crypto3Zk
