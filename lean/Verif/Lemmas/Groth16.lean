import Verif.Model.Groth16
import Verif.Lemmas.Groups
import Verif.Lemmas.ArithmeticPrograms
import Verif.Props.LinearCombination
import Mathlib.Tactic.LinearCombination
import Mathlib.Tactic.FieldSimp
import Mathlib.Tactic.Ring
import Mathlib.Algebra.BigOperators.Intervals

/-! # Lemmas for the pairing-based arguments -/

set_option linter.unusedSectionVars false

namespace Crypto3Zk

open Finset

variable {F : Type} [Field F] [DecidableEq F]
variable {G1 G2 GT : Type} [AddCommGroup G1] [Module F G1] [AddCommGroup G2] [Module F G2]
  [AddCommGroup GT] [Module F GT]

theorem slice_eq {α : Type} (l : List α) (a b : Nat) (h : a ≤ b) (hb : b ≤ l.length) :
    slice l a b = some ((l.drop a).take (b - a)) := by simp [slice, h, hb]

theorem slice_all {α : Type} (l : List α) (n : Nat) (h : l.length = n) : slice l 0 n = some l := by
  subst h; simp [slice]

theorem innerProduct_eq_sum (xs ys : List F) (h : xs.length ≤ ys.length) :
    innerProduct xs ys = ∑ i ∈ range xs.length, xs.getD i 0 * ys.getD i 0 := by
  rw [innerProduct_eq_range xs ys h, list_sum_range]

/-- the inner product of a constant-padded assignment with a vector -/
theorem innerProduct_padded (x v : List F) (h : v.length = x.length + 1) :
    innerProduct (1 :: x) v = dot v (envOf x) := by
  rw [innerProduct_eq_sum _ _ (by simp [h]), dot_eq_sum, h, List.length_cons]
  refine Finset.sum_congr rfl fun i _ => ?_
  rw [mul_comm]
  cases i <;> rfl

theorem accumulate_batch (g : G1) (a : F) (v xs : List F) (h : xs.length ≤ v.length) :
    (⟨a • g, batchExp g v⟩ : AccVec G1).accumulate xs = some ((a + innerProduct xs v) • g) := by
  simp only [AccVec.accumulate, AccVec.domainSize, batchExp, List.length_map, h, if_true,
    zipWith_smul_batch, add_smul]

theorem multiexp_batchCoeff (g : G1) (c : F) (v xs : List F) (h : v.length = xs.length) :
    multiexp (batchExpWithCoeff g c v) xs = some ((c * innerProduct xs v) • g) := by
  have e : batchExpWithCoeff g c v = batchExp (c • g) v := by
    simp only [batchExpWithCoeff, batchExp, smul_smul]
    refine List.map_congr_left fun x _ => ?_
    rw [mul_comm]
  rw [e, multiexp_batchExp _ _ _ h, smul_smul, mul_comm]

theorem pair_smul (P : Pairing F G1 G2 GT) (a b : F) (g : G1) (h : G2) :
    P.e (a • g) (b • h) = (a * b) • P.e g h := by
  rw [map_smul, map_smul, LinearMap.smul_apply, smul_smul, mul_comm]

theorem R1CS.swap_shape (cs cs' : R1CS F) (h : cs.swapABIfBeneficial = some cs') :
    cs'.primaryInputSize = cs.primaryInputSize ∧ cs'.auxiliaryInputSize = cs.auxiliaryInputSize ∧
      (cs.WellRanged → cs'.WellRanged) := by
  unfold R1CS.swapABIfBeneficial at h
  split at h
  · split at h
    · obtain rfl := Option.some.inj h
      refine ⟨rfl, rfl, fun hr k hk => ?_⟩
      simp only [List.mem_map] at hk
      obtain ⟨k', hk', rfl⟩ := hk
      exact ⟨(hr k' hk').2.1, (hr k' hk').1, (hr k' hk').2.2⟩
    · obtain rfl := Option.some.inj h
      exact ⟨rfl, rfl, id⟩
  · simp at h

/-- `β A_i + α B_i + C_i` -/
def kVal (q : QapEval F) (alpha beta : F) (i : Nat) : F :=
  beta * q.At.getD i 0 + alpha * q.Bt.getD i 0 + q.Ct.getD i 0

/-- a sum over all variables is the constant term, the inputs and the auxiliary variables -/
theorem dot_split (v p w : List F) (h : v.length = p.length + w.length + 1) :
    dot v (envOf (p ++ w)) = v.getD 0 0 + (∑ i ∈ range p.length, p.getD i 0 * v.getD (1 + i) 0)
      + ∑ i ∈ range w.length, w.getD i 0 * v.getD (p.length + 1 + i) 0 := by
  have h1 : ∀ i ∈ range p.length, envOf (p ++ w) (i + 1) = p.getD i 0 := by
    intro i hi
    exact List.getD_append _ _ _ _ (by simpa using hi)
  have h2 : ∀ i, envOf (p ++ w) (p.length + i + 1) = w.getD i 0 := by
    intro i
    show (p ++ w).getD (p.length + i) 0 = _
    rw [List.getD_append_right _ _ _ _ (by omega), Nat.add_sub_cancel_left]
  have h3 : envOf (p ++ w) 0 = 1 := rfl
  rw [dot_eq_sum, h, Finset.sum_range_succ', Finset.sum_range_add, h3, mul_one, add_comm,
    ← add_assoc]
  congr 1
  · congr 1
    refine Finset.sum_congr rfl fun i hi => ?_
    rw [h1 i hi, mul_comm, add_comm i]
  · refine Finset.sum_congr rfl fun i _ => ?_
    rw [h2 i, mul_comm, add_right_comm]

theorem sum_kVal (q : QapEval F) (alpha beta : F) (n : Nat) (x : Nat → F) (g : Nat → Nat) :
    ∑ i ∈ range n, x i * kVal q alpha beta (g i)
      = beta * (∑ i ∈ range n, x i * q.At.getD (g i) 0)
        + alpha * (∑ i ∈ range n, x i * q.Bt.getD (g i) 0)
        + ∑ i ∈ range n, x i * q.Ct.getD (g i) 0 := by
  rw [Finset.mul_sum, Finset.mul_sum, ← Finset.sum_add_distrib, ← Finset.sum_add_distrib]
  refine Finset.sum_congr rfl fun i _ => ?_
  rw [kVal]; ring

theorem groth16Entry_eq (q : QapEval F) (n : Nat) (hA : q.At.length = n) (hB : q.Bt.length = n)
    (hC : q.Ct.length = n) (alpha beta k : F) (i : Nat) (hi : i < n) :
    groth16Entry q alpha beta k i = some (kVal q alpha beta i * k) := by
  have h1 : i < q.At.length := by omega
  have h2 : i < q.Bt.length := by omega
  have h3 : i < q.Ct.length := by omega
  simp only [groth16Entry, kVal, List.getElem?_eq_getElem h1, List.getElem?_eq_getElem h2,
    List.getElem?_eq_getElem h3, List.getD_eq_getElem _ _ h1, List.getD_eq_getElem _ _ h2,
    List.getD_eq_getElem _ _ h3, Option.bind_eq_bind, Option.bind_some, Option.pure_def]

theorem groth16Generate_eq (P : Pairing F G1 G2 GT) (D : EvalDomain F) (cs cs' : R1CS F)
    (T : Groth16Trapdoor F G1 G2) (chunks : Nat) (hs : cs.swapABIfBeneficial = some cs')
    (q : QapEval F) (hq : cs'.qapEval D T.t = some q)
    (nv ni : Nat) (hnv : q.numVariables = nv) (hni : q.numInputs = ni) (hle : ni ≤ nv)
    (hA : q.At.length = nv + 1) (hB : q.Bt.length = nv + 1) (hC : q.Ct.length = nv + 1) :
    groth16Generate P D cs T chunks = some (
      { alphaG1 := T.alpha • T.g1
        betaG1 := T.beta • T.g1
        betaG2 := T.beta • T.g2
        deltaG1 := T.delta • T.g1
        deltaG2 := T.delta • T.g2
        aQuery := batchExp T.g1 q.At
        bQuery := ⟨q.Bt.length, (List.range q.Bt.length).flatMap (kcEntry T.g2 T.g1 1 1 q.Bt)⟩
        hQuery := batchExpWithCoeff T.g1 (q.Zt * T.delta⁻¹) (q.Ht.take (q.Ht.length - 2))
        lQuery := batchExp T.g1 ((List.range (nv - ni)).map fun i =>
          kVal q T.alpha T.beta (ni + 1 + i) * T.delta⁻¹)
        cs := cs' },
      { alphaBeta := P.e (T.alpha • T.g1) (T.beta • T.g2)
        gammaG2 := T.gamma • T.g2
        deltaG2 := T.delta • T.g2
        gammaABC := ⟨(kVal q T.alpha T.beta 0 * T.gamma⁻¹) • T.g1,
          batchExp T.g1 ((List.range' 1 ni).map fun i => kVal q T.alpha T.beta i * T.gamma⁻¹)⟩ }) := by
  have e1 := groth16Entry_eq q _ hA hB hC T.alpha T.beta T.gamma⁻¹
  have e2 := groth16Entry_eq q _ hA hB hC T.alpha T.beta T.delta⁻¹
  have m1 : (List.range' 1 ni).mapM (groth16Entry q T.alpha T.beta T.gamma⁻¹)
      = some ((List.range' 1 ni).map fun i => kVal q T.alpha T.beta i * T.gamma⁻¹) :=
    mapM_eq_some_map _ _ _ fun i hi => e1 i (by rw [List.mem_range'_1] at hi; omega)
  have m2 : (List.range (nv - ni)).mapM (fun i => groth16Entry q T.alpha T.beta T.delta⁻¹ (ni + 1 + i))
      = some ((List.range (nv - ni)).map fun i => kVal q T.alpha T.beta (ni + 1 + i) * T.delta⁻¹) :=
    mapM_eq_some_map _ _ _ fun i hi => e2 _ (by rw [List.mem_range] at hi; omega)
  simp only [groth16Generate, hs, Option.bind_eq_bind, Option.bind_some, hq, e1 0 (by omega), hni,
    hnv, m1, m2, kcBatchExp_spec, Option.pure_def]

/-- the exponents of an honest proof: what the prover's three group elements are, as multiples of
the generators, with `sA, sB` the QAP sides, `hz = H(t)Z(t)` and `k` the auxiliary part -/
theorem groth16Prove_eq (P : Pairing F G1 G2 GT) {D : EvalDomain F} (hD : D.Lawful) (cs : R1CS F)
    (hr : cs.WellRanged) (hm : cs.numConstraints + cs.numInputs + 1 ≤ D.m)
    (T : Groth16Trapdoor F G1 G2) (chunks : Nat) :
    ∃ pk vk, groth16Generate P D cs T chunks = some (pk, vk) ∧
      ∃ kI : List F → F, (∀ p : List F, p.length = cs.primaryInputSize →
          vk.gammaABC.accumulate p = some ((kI p * T.gamma⁻¹) • T.g1)) ∧
        vk.gammaABC.domainSize = cs.primaryInputSize ∧
        vk.alphaBeta = P.e (T.alpha • T.g1) (T.beta • T.g2) ∧
        vk.gammaG2 = T.gamma • T.g2 ∧ vk.deltaG2 = T.delta • T.g2 ∧
        ∀ p w : List F, p.length = cs.primaryInputSize → w.length = cs.auxiliaryInputSize →
          cs.isSatisfied p w = some true → ∃ sA sB : F, ∀ r s,
            groth16Prove D pk p w r s = some
              ⟨(T.alpha + sA + r * T.delta) • T.g1, (T.beta + sB + s * T.delta) • T.g2,
                ((sA * sB + T.beta * sA + T.alpha * sB - kI p) * T.delta⁻¹
                  + s * (T.alpha + sA + r * T.delta) + r * (T.beta + sB + s * T.delta)
                  - r * s * T.delta) • T.g1⟩ := by
  obtain ⟨cs', hcs'⟩ := C16_swap_defined cs hr
  obtain ⟨hp', hw', hr'⟩ := R1CS.swap_shape cs cs' hcs'
  obtain ⟨hsat', hni, hnv, hnc⟩ := C16_swap_preserves cs cs' hcs'
  have hm' : cs'.numConstraints + cs'.numInputs + 1 ≤ D.m := by rw [hnc, hni]; exact hm
  obtain ⟨qi, q, -, hq, -, n1, n2, n3, n4, lA, lB, lC, eH, eZ, dA, dB, dC⟩ :=
    R1CS.qapEval_spec hD cs' (hr' hr) hm' T.t
  set nv := cs'.numVariables with hnv0
  set ni := cs'.numInputs with hni0
  have hle : ni ≤ nv := by simp [hni0, hnv0, R1CS.numInputs, R1CS.numVariables]
  have hgen := groth16Generate_eq P D cs cs' T chunks hcs' q hq nv ni n1 n3 hle lA lB lC
  refine ⟨_, _, hgen, fun p => kVal q T.alpha T.beta 0 +
    ∑ i ∈ range ni, p.getD i 0 * kVal q T.alpha T.beta (1 + i), ?_, ?_, rfl, rfl, rfl, ?_⟩
  · intro p hp
    have hpl : p.length = ni := by rw [hp, ← hp']; rfl
    rw [accumulate_batch _ _ _ _ (by simp [hpl]), innerProduct_eq_sum _ _ (by simp [hpl]), hpl]
    congr 2
    rw [add_mul, Finset.sum_mul]
    congr 1
    refine Finset.sum_congr rfl fun i hi => ?_
    have hi' : i < ni := by simpa using hi
    rw [List.getD_eq_getElem (List.map _ _) _ (by simpa using hi')]
    simp [mul_assoc]
  · simp [AccVec.domainSize, batchExp, hni0, R1CS.numInputs, hp']
  · intro p w hp hw hsat
    have hpl : p.length = cs'.primaryInputSize := by rw [hp, hp']
    have hwl : w.length = cs'.auxiliaryInputSize := by rw [hw, hw']
    have hfull : (p ++ w).length = nv := by simp [hpl, hwl, hnv0, R1CS.numVariables]
    have hsat2 : cs'.isSatisfied p w = some true := by rw [hsat', hsat]
    have hs := (C16_isSatisfied_iff cs' (hr' hr) p w
      (by rw [← List.length_append, hfull])).1.1 hsat2
    obtain ⟨H, eW, lH, eqH, hz⟩ :=
      R1CS.qapWitness_spec hD cs' (hr' hr) p w hpl hwl hm' hs 0 0 0
    obtain ⟨hz1, hz0⟩ := hz rfl rfl rfl
    rw [← hnv0, ← hni0] at eW
    have hH := eqH T.t
    rw [← dA, ← dB, ← dC, ← eZ] at hH
    simp only [zero_mul, add_zero] at hH
    refine ⟨dot q.At (envOf (p ++ w)), dot q.Bt (envOf (p ++ w)), fun r s => ?_⟩
    have hm0 : 0 < D.m := by omega
    have hpad : (1 :: (p ++ w)).length = nv + 1 := by simp [← hfull]
    -- the four multi-exponentiations
    have eA : multiexp (batchExp T.g1 q.At) (1 :: (p ++ w))
        = some (dot q.At (envOf (p ++ w)) • T.g1) := by
      rw [multiexp_batchExp _ _ _ (by rw [lA, hpad]), innerProduct_padded _ _ (by rw [lA, hfull])]
    have eB : kcMultiexp ⟨q.Bt.length, (List.range q.Bt.length).flatMap (kcEntry T.g2 T.g1 1 1 q.Bt)⟩
        0 (nv + 1) (1 :: (p ++ w)) (1 :: (p ++ w)).length
        = some (dot q.Bt (envOf (p ++ w)) • T.g2, dot q.Bt (envOf (p ++ w)) • T.g1) := by
      have := kcMultiexp_batch T.g2 T.g1 1 1 q.Bt 1 0 (nv + 1) (by omega) (by omega)
        (1 :: (p ++ w)) (by omega) _ (le_refl _) (by omega)
      rw [kcBatchExp_spec, Option.bind_some] at this
      rw [this, List.drop_zero, innerProduct_padded _ _ (by rw [lB, hfull]), one_mul]
    have lHt : (q.Ht.take (q.Ht.length - 2)).length = D.m - 1 := by
      rw [eH]; simp [length_powersFrom]; omega
    have eHv : innerProduct (H.take (D.m - 1)) (q.Ht.take (q.Ht.length - 2)) = evalPoly H T.t := by
      rw [← innerProduct_powers T.t H (D.m + 1) lH, ← eH, innerProduct_eq_sum _ _
        (by rw [lHt]; simp), innerProduct_eq_sum _ _ (by rw [eH, length_powersFrom, lH]), eH,
        length_powersFrom]
      obtain ⟨k, hk⟩ : ∃ k, D.m = k + 1 := ⟨D.m - 1, by omega⟩
      have hlk : (H.take (D.m - 1)).length = k := by simp [lH]; omega
      rw [hlk, hk, Finset.sum_range_succ, Finset.sum_range_succ]
      rw [hk] at hz1 hz0
      simp only [Nat.add_sub_cancel] at hz1
      rw [hz1, hz0, mul_zero, mul_zero, add_zero, add_zero]
      refine Finset.sum_congr rfl fun i hi => ?_
      have hi' : i < k := by simpa using hi
      rw [List.getD_eq_getElem (H.take _) _ (by rw [List.length_take]; omega), List.getD_eq_getElem H _ (by omega),
        List.getD_eq_getElem (List.take _ _) _ (by simp [length_powersFrom]; omega),
        List.getD_eq_getElem (powersFrom _ _ _) _ (by simp [length_powersFrom]; omega), mul_comm]
      simp
    have eHm : multiexp (batchExpWithCoeff T.g1 (q.Zt * T.delta⁻¹) (q.Ht.take (q.Ht.length - 2)))
        (H.take (D.m - 1)) = some ((q.Zt * T.delta⁻¹ * evalPoly H T.t) • T.g1) := by
      rw [multiexp_batchCoeff _ _ _ _ (by rw [lHt]; simp [lH]; omega), eHv]
    have hwv : w.length = nv - ni := by
      simp [hnv0, hni0, R1CS.numVariables, R1CS.numInputs, hwl]
    have hpi : p.length = ni := by rw [hpl]; rfl
    have eL : multiexp (batchExp T.g1 ((List.range (nv - ni)).map fun i =>
          kVal q T.alpha T.beta (ni + 1 + i) * T.delta⁻¹)) w
        = some (((∑ i ∈ range (nv - ni), w.getD i 0 * kVal q T.alpha T.beta (ni + 1 + i))
            * T.delta⁻¹) • T.g1) := by
      rw [multiexp_batchExp _ _ _ (by simp [hwv]), innerProduct_eq_sum _ _ (by simp [hwv]),
        Finset.sum_mul, hwv]
      congr 2
      refine Finset.sum_congr rfl fun i hi => ?_
      have hi' : i < nv - ni := by simpa using hi
      rw [List.getD_eq_getElem (List.map _ _) _ (by simpa using hi')]
      simp [mul_assoc]
    -- splitting the sum over all variables
    have hsplit : T.beta * dot q.At (envOf (p ++ w)) + T.alpha * dot q.Bt (envOf (p ++ w))
          + dot q.Ct (envOf (p ++ w))
        = kVal q T.alpha T.beta 0 + (∑ i ∈ range ni, p.getD i 0 * kVal q T.alpha T.beta (1 + i))
          + ∑ i ∈ range (nv - ni), w.getD i 0 * kVal q T.alpha T.beta (ni + 1 + i) := by
      rw [dot_split _ p w (by rw [lA]; omega), dot_split _ p w (by rw [lB]; omega),
        dot_split _ p w (by rw [lC]; omega), hpi, hwv, sum_kVal, sum_kVal, kVal]
      ring
    have hslA : slice (batchExp T.g1 q.At) 0 (nv + 1) = some (batchExp T.g1 q.At) :=
      slice_all _ _ (by simp [batchExp, lA])
    have hslH : slice (batchExpWithCoeff T.g1 (q.Zt * T.delta⁻¹) (q.Ht.take (q.Ht.length - 2))) 0
        (D.m - 1) = some (batchExpWithCoeff T.g1 (q.Zt * T.delta⁻¹) (q.Ht.take (q.Ht.length - 2))) :=
      slice_all _ _ (by rw [batchExpWithCoeff, List.length_map, lHt])
    have hslL : slice (1 :: (p ++ w)) (ni + 1) (nv + 1) = some w := by
      rw [slice_eq _ _ _ (by omega) (by rw [hpad]), List.drop_succ_cons, ← hpi, List.drop_left,
        List.take_of_length_le (by omega)]
    have hslh : slice H 0 (D.m - 1) = some (H.take (D.m - 1)) := by
      rw [slice_eq _ _ _ (by omega) (by omega)]; simp
    have hg1 : H[D.m - 1]? = some 0 := by
      rw [List.getElem?_eq_getElem (by omega), ← List.getD_eq_getElem _ 0 (by omega), hz1]
    have hg0 : H[D.m]? = some 0 := by
      rw [List.getElem?_eq_getElem (by omega), ← List.getD_eq_getElem _ 0 (by omega), hz0]
    simp only [groth16Prove, hsat2, eW, Option.bind_eq_bind, Option.bind_some, guard, if_true, hg1,
      hg0, Option.pure_def, hslA, slice_all _ _ hpad, eA, eB, hslH, hslh, eHm, hslL, eL]
    congr 2
    · simp only [add_smul, mul_smul]
    · simp only [add_smul, mul_smul]
    · simp only [← add_smul, ← sub_smul, smul_smul]
      congr 1
      linear_combination -T.delta⁻¹ * hsplit - T.delta⁻¹ * hH

end Crypto3Zk
