import Verif.Lemmas.SapSsp
import Verif.Props.LinearCombination
import Mathlib.Data.Fintype.Basic

/-!
# C19, C20: the reductions from R1CS to SAP and from USCS to SSP
-/

set_option linter.unusedSectionVars false

namespace Crypto3Zk

variable {F : Type*} [Field F] [DecidableEq F] {D : EvalDomain F}

/-! ## C19: R1CS to SAP -/

/-- **C19** (completeness): a satisfying assignment yields an accepted SAP witness at every point,
for all blinding values; the witness starts with the assignment. -/
theorem C19_sap_complete (hD : D.Lawful) (cs : R1CS F) (hr : cs.WellRanged) (p w : List F)
    (hp : p.length = cs.primaryInputSize) (hw : w.length = cs.auxiliaryInputSize)
    (hm : cs.sapDomainSize ≤ D.m)
    (hsat : cs.isSatisfied p w = some true) (t d1 d2 : F) :
    ∃ q wit, cs.sapEval D t = some q ∧ cs.sapWitness D p w d1 d2 = some wit ∧
      (p ++ w) <+: wit.coefficientsForACs ∧ wit.d1 = d1 ∧ wit.d2 = d2 ∧
      q.isSatisfied D wit = true := by
  have hlen : (p ++ w).length = cs.numVariables := by simp [hp, hw, R1CS.numVariables]
  have hs := (C16_isSatisfied_iff cs hr p w (by rw [← List.length_append, hlen])).1.1 hsat
  obtain ⟨qi, q, -, e2, -, n1, n2, n3, n4, lA, lC, eH, eZ, dA, dC⟩ :=
    R1CS.sapEval_spec hD cs hr hm t
  obtain ⟨H, eW, lH, eqH⟩ := R1CS.sapWitness_spec hD cs hr p w hp hw hm hs d1 d2
  have hfl := R1CS.length_sapFull cs (p ++ w) hlen
  refine ⟨q, _, e2, eW, ?_, rfl, rfl, ?_⟩
  · simp only [R1CS.sapFull, List.append_assoc]
    rw [← List.append_assoc p w]
    exact List.prefix_append _ _
  rw [SapEval.isSatisfied_iff]
  refine ⟨n1, n2, n3, by rw [n1, hfl], by rw [n2, lH], by rw [n1, lA], by rw [n1, lC],
    by rw [eH, length_powersFrom, n2], by rw [eZ, n4], ?_⟩
  simp only
  rw [ansOf_eq _ _ _ _ (by rw [lA, hfl]), ansOf_eq _ _ _ _ (by rw [lC, hfl]), dA, dC, eZ, eH,
    innerProduct_powers _ _ _ lH]
  exact eqH t

/-- **C19** (soundness): in odd characteristic, a witness accepted at more than `2·m` points carries
a satisfying assignment in its first `num_variables` entries. -/
theorem C19_sap_sound (hD : D.Lawful) (h2 : (2 : F) ≠ 0) (cs : R1CS F) (hr : cs.WellRanged)
    (hm : cs.sapDomainSize ≤ D.m) (wit : SapWitness F)
    (S : Finset F) (hS : 2 * D.m < S.card)
    (hacc : ∀ t ∈ S, ∃ q, cs.sapEval D t = some q ∧ q.isSatisfied D wit = true) :
    cs.isSatisfied (wit.coefficientsForACs.take cs.primaryInputSize)
      ((wit.coefficientsForACs.take cs.numVariables).drop cs.primaryInputSize) = some true := by
  obtain ⟨t0, ht0⟩ : S.Nonempty := Finset.card_pos.1 (by omega)
  have key : ∀ t ∈ S, wit.coefficientsForACs.length = cs.sapNumVariables ∧
      wit.coefficientsForH.length = D.m + 1 ∧
      (dot (cs.sapARow D.m (envOf wit.coefficientsForACs)) (fun i => (D.lagrange t).getD i 0)
          + wit.d1 * D.vanishing t) *
        (dot (cs.sapARow D.m (envOf wit.coefficientsForACs))
          (fun i => (D.lagrange t).getD i 0) + wit.d1 * D.vanishing t) -
        (dot (cs.sapCRow D.m (envOf wit.coefficientsForACs))
          (fun i => (D.lagrange t).getD i 0) + wit.d2 * D.vanishing t)
        = evalPoly wit.coefficientsForH t * D.vanishing t := by
    intro t ht
    obtain ⟨q, e1, hq⟩ := hacc t ht
    obtain ⟨qi, q', -, e2, -, n1, n2, n3, n4, lA, lC, eH, eZ, dA, dC⟩ :=
      R1CS.sapEval_spec hD cs hr hm t
    obtain rfl : q = q' := Option.some.inj (e1.symm.trans e2)
    rw [SapEval.isSatisfied_iff] at hq
    obtain ⟨h1, h2, h3, h4, h5, -, -, -, -, heq⟩ := hq
    have hl : wit.coefficientsForACs.length = cs.sapNumVariables := by rw [← h4, n1]
    have hh : wit.coefficientsForH.length = D.m + 1 := by rw [← h5, n2]
    refine ⟨hl, hh, ?_⟩
    rw [ansOf_eq _ _ _ _ (by rw [lA, hl]), ansOf_eq _ _ _ _ (by rw [lC, hl]), dA, dC, eZ, eH,
      innerProduct_powers _ _ _ hh] at heq
    exact heq
  obtain ⟨hl, hh, -⟩ := key t0 ht0
  have hrows := rows_of_many hD _ _ _ _ _ _ _
    (R1CS.length_sapARow D.m cs (envOf wit.coefficientsForACs) hm)
    (R1CS.length_sapARow D.m cs (envOf wit.coefficientsForACs) hm)
    (R1CS.length_sapCRow D.m cs (envOf wit.coefficientsForACs) hm)
    hh S hS (fun t ht => (key t ht).2.2)
  rw [R1CS.sap_rows_iff cs _ D.m hm] at hrows
  have hge : cs.numVariables ≤ wit.coefficientsForACs.length := by
    rw [hl]; simp only [R1CS.sapNumVariables]; omega
  have hpi : cs.primaryInputSize ≤ cs.numVariables := by simp [R1CS.numVariables]
  have hcat : wit.coefficientsForACs.take cs.primaryInputSize ++
      (wit.coefficientsForACs.take cs.numVariables).drop cs.primaryInputSize
      = wit.coefficientsForACs.take cs.numVariables := by
    conv_rhs => rw [← List.take_append_drop cs.primaryInputSize
      (wit.coefficientsForACs.take cs.numVariables)]
    rw [List.take_take, min_eq_left hpi]
  have htl : (wit.coefficientsForACs.take cs.numVariables).length = cs.numVariables := by simp [hge]
  rw [(C16_isSatisfied_iff cs hr _ _ (by rw [← List.length_append, hcat, htl])).1]
  have hfv : ∀ lc : LinComb F, IndicesLE lc cs.numVariables →
      formalValue lc (envOf wit.coefficientsForACs)
        = formalValue lc (envOf (wit.coefficientsForACs.take cs.numVariables)) := by
    intro lc hlc
    conv_lhs => rw [← List.take_append_drop cs.numVariables wit.coefficientsForACs]
    rw [formalValue_append_left _ (by rw [htl]; exact hlc)]
  intro k hk
  rw [hcat]
  obtain ⟨i, hi, rfl⟩ := List.getElem_of_mem hk
  have hmem : (cs.constraints[i], i) ∈ cs.constraints.zipIdx := by
    rw [List.mem_zipIdx_iff_getElem?]; simp [hi]
  obtain ⟨e1, e2⟩ := hrows.1 _ hmem
  have hrk := hr _ hk
  simp only at e1 e2
  rw [hfv _ hrk.1, hfv _ hrk.2.1] at e1 e2
  rw [hfv _ hrk.2.2, ← e2] at e1
  have h4 : (2 : F) * 2 ≠ 0 := mul_ne_zero h2 h2
  apply mul_left_cancel₀ h4
  linear_combination e1

/-- **C19** (agreement): the evaluated polynomials of the SAP instance are the direct evaluation. -/
theorem C19_sap_instance_agrees (hD : D.Lawful) (cs : R1CS F) (hr : cs.WellRanged)
    (hm : cs.sapDomainSize ≤ D.m) (t : F) :
    ∃ qi q, cs.sapInstance D = some qi ∧ qi.evalAt D t = some q ∧ cs.sapEval D t = some q := by
  obtain ⟨qi, q, e1, e2, e3, -⟩ := R1CS.sapEval_spec hD cs hr hm t
  exact ⟨qi, q, e1, e3, e2⟩

/-- **C19** (sizes): the SAP has one more variable per constraint and per input and asks for a
domain of `2·num_constraints + 2·num_inputs + 1` points. -/
theorem C19_sap_sizes (hD : D.Lawful) (cs : R1CS F) (hr : cs.WellRanged)
    (hm : 2 * cs.numConstraints + 2 * cs.numInputs + 1 ≤ D.m) (t : F) :
    ∃ q, cs.sapEval D t = some q ∧
      q.numVariables = cs.numVariables + cs.numConstraints + cs.numInputs ∧
      q.numInputs = cs.numInputs ∧ q.degree = D.m := by
  obtain ⟨qi, q, -, e2, -, n1, n2, n3, -⟩ := R1CS.sapEval_spec hD cs hr (by
    simpa [R1CS.sapDomainSize] using hm) t
  exact ⟨q, e2, n1, n3, n2⟩

/-! ## C20: USCS to SSP -/

/-- **C20** (completeness). -/
theorem C20_ssp_complete (hD : D.Lawful) (cs : USCS F) (hr : cs.WellRanged) (p w : List F)
    (hp : p.length = cs.primaryInputSize) (hw : w.length = cs.auxiliaryInputSize)
    (hm : cs.numConstraints ≤ D.m) (hm0 : 0 < D.m)
    (hsat : cs.isSatisfied p w = some true) (t d : F) :
    ∃ q wit, cs.sspEval D t = some q ∧ cs.sspWitness D p w d = some wit ∧
      wit.coefficientsForVs = p ++ w ∧ wit.d = d ∧ q.isSatisfied D wit = true := by
  have hlen : (p ++ w).length = cs.numVariables := by simp [hp, hw, USCS.numVariables]
  have hs := (uscs_isSatisfied cs hr p w (by rw [← List.length_append, hlen])).1.1 hsat
  obtain ⟨qi, q, -, e2, -, n1, n2, n3, n4, lV, eH, eZ, dV⟩ := USCS.sspEval_spec hD cs hr hm t
  obtain ⟨H, eW, lH, eqH⟩ := USCS.sspWitness_spec hD cs hr p w hp hw hm hm0 hs d
  refine ⟨q, _, e2, eW, rfl, rfl, ?_⟩
  rw [SspEval.isSatisfied_iff]
  refine ⟨n1, n2, n3, by rw [n1, hlen], by rw [n2, lH], by rw [n1, lV],
    by rw [eH, length_powersFrom, n2], by rw [eZ, n4], ?_⟩
  simp only
  rw [ansOf_eq _ _ _ _ (by rw [lV, hlen]), dV, eZ, eH, innerProduct_powers _ _ _ lH]
  exact eqH t

/-- **C20** (soundness). -/
theorem C20_ssp_sound (hD : D.Lawful) (cs : USCS F) (hr : cs.WellRanged)
    (hm : cs.numConstraints ≤ D.m) (hm0 : 0 < D.m) (wit : SspWitness F)
    (S : Finset F) (hS : 2 * D.m < S.card)
    (hacc : ∀ t ∈ S, ∃ q, cs.sspEval D t = some q ∧ q.isSatisfied D wit = true) :
    cs.isSatisfied (wit.coefficientsForVs.take cs.primaryInputSize)
      (wit.coefficientsForVs.drop cs.primaryInputSize) = some true := by
  obtain ⟨t0, ht0⟩ : S.Nonempty := Finset.card_pos.1 (by omega)
  have key : ∀ t ∈ S, wit.coefficientsForVs.length = cs.numVariables ∧
      wit.coefficientsForH.length = D.m + 1 ∧
      (dot (cs.sspRow D.m (envOf wit.coefficientsForVs)) (fun i => (D.lagrange t).getD i 0)
          + wit.d * D.vanishing t) *
        (dot (cs.sspRow D.m (envOf wit.coefficientsForVs))
          (fun i => (D.lagrange t).getD i 0) + wit.d * D.vanishing t) -
        (dot (List.replicate D.m (1 : F)) (fun i => (D.lagrange t).getD i 0)
          + 0 * D.vanishing t)
        = evalPoly wit.coefficientsForH t * D.vanishing t := by
    intro t ht
    obtain ⟨q, e1, hq⟩ := hacc t ht
    obtain ⟨qi, q', -, e2, -, n1, n2, n3, n4, lV, eH, eZ, dV⟩ := USCS.sspEval_spec hD cs hr hm t
    obtain rfl : q = q' := Option.some.inj (e1.symm.trans e2)
    rw [SspEval.isSatisfied_iff] at hq
    obtain ⟨h1, h2, h3, h4, h5, -, -, -, heq⟩ := hq
    have hl : wit.coefficientsForVs.length = cs.numVariables := by rw [← h4, n1]
    have hh : wit.coefficientsForH.length = D.m + 1 := by rw [← h5, n2]
    refine ⟨hl, hh, ?_⟩
    rw [ansOf_eq _ _ _ _ (by rw [lV, hl]), dV, eZ, eH, innerProduct_powers _ _ _ hh] at heq
    rw [dot_lagrange_one hD hm0, zero_mul, add_zero]
    exact heq
  obtain ⟨hl, hh, -⟩ := key t0 ht0
  have hrows := rows_of_many hD _ _ _ _ _ _ _
    (USCS.length_sspRow D.m cs (envOf wit.coefficientsForVs) hm)
    (USCS.length_sspRow D.m cs (envOf wit.coefficientsForVs) hm)
    (by simp) hh S hS (fun t ht => (key t ht).2.2)
  have hcat : wit.coefficientsForVs.take cs.primaryInputSize ++
      wit.coefficientsForVs.drop cs.primaryInputSize = wit.coefficientsForVs :=
    List.take_append_drop _ _
  rw [(uscs_isSatisfied cs hr _ _ (by rw [← List.length_append, hcat, hl])).1,
    ← USCS.ssp_rows_iff cs _ _ D.m hm, hcat]
  intro i hi
  rw [hrows i hi]
  simp [hi]

/-- **C20** (agreement). -/
theorem C20_ssp_instance_agrees (hD : D.Lawful) (cs : USCS F) (hr : cs.WellRanged)
    (hm : cs.numConstraints ≤ D.m) (t : F) :
    ∃ qi q, cs.sspInstance D = some qi ∧ qi.evalAt D t = some q ∧ cs.sspEval D t = some q := by
  obtain ⟨qi, q, e1, e2, e3, -⟩ := USCS.sspEval_spec hD cs hr hm t
  exact ⟨qi, q, e1, e3, e2⟩

section Examples

/-- `x₁ · x₁ = x₂` with `x₁` public -/
def exSqr : R1CS ℚ := ⟨1, 1, [⟨[⟨1, 1⟩], [⟨1, 1⟩], [⟨2, 1⟩]⟩]⟩

theorem exDom5 : (EvalDomain.ofPoints 5 (fun i => (i + 1 : ℚ)) 10).Lawful := by
  apply EvalDomain.ofPoints_lawful
  · norm_num
  · intro i _ j _ h; exact_mod_cast (add_right_cancel h)
  · intro i hi j hj
    interval_cases i <;> interval_cases j <;> norm_num

theorem exSqr_ok : exSqr.WellRanged := by
  intro k hk
  simp only [exSqr, List.mem_singleton] at hk
  subst hk
  refine ⟨?_, ?_, ?_⟩ <;> · intro t ht; simp at ht; subst ht; decide

/-- C19 applied to `3 · 3 = 9` -/
example (t d1 d2 : ℚ) := C19_sap_complete exDom5 exSqr exSqr_ok [3] [9] rfl rfl (by decide)
  (by decide +kernel) t d1 d2

example : (2 : ℚ) ≠ 0 ∧ exSqr.isSatisfied [3] [8] = some false := ⟨by norm_num, by decide +kernel⟩

/-- `2·x₁ − 1 = ±1`, i.e. `x₁` is a bit -/
def exBitCs : USCS ℚ := ⟨1, 0, [[⟨0, -1⟩, ⟨1, 2⟩]]⟩

theorem exBitCs_ok : exBitCs.WellRanged := by
  intro k hk
  simp only [exBitCs, List.mem_singleton] at hk
  subst hk
  intro t ht
  simp only [List.mem_cons, List.not_mem_nil, or_false] at ht
  rcases ht with rfl | rfl <;> decide

/-- C20 applied to the bit `0` -/
example (t d : ℚ) := C20_ssp_complete exDom5 exBitCs exBitCs_ok [0] [] rfl rfl (by decide) (by decide)
  (by decide +kernel) t d

example : exBitCs.isSatisfied [1] [] = some true ∧ exBitCs.isSatisfied [2] [] = some false := by
  decide +kernel

end Examples

end Crypto3Zk
