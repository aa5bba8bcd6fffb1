import Verif.Model.USCSArg
import Verif.Lemmas.GM17

/-! # Lemmas for the argument for unitary-square constraint systems -/

set_option linter.unusedSectionVars false

namespace Crypto3Zk

open Finset

variable {F : Type} [Field F] [DecidableEq F]
variable {G1 G2 GT : Type} [AddCommGroup G1] [Module F G1] [AddCommGroup G2] [Module F G2]
  [AddCommGroup GT] [Module F GT]

theorem uscsGenerate_eq (P : Pairing F G1 G2 GT) (D : EvalDomain F) (cs : USCS F) (t alpha tilde : F)
    (q : SspEval F) (hq : cs.sspEval D t = some q)
    (nv ni : Nat) (hnv : q.numVariables = nv) (hni : q.numInputs = ni) (hle : ni ≤ nv)
    (hV : q.Vt.length = nv + 1) (hH : q.Ht.length = q.degree + 1) :
    uscsGenerate P D cs t alpha tilde =
      if (q.Vt.take (ni + 1)).all (fun x => x ≠ 0) then some (
        { vG1Query := batchExp P.one1 (q.Vt.drop (ni + 1) ++ [q.Zt])
          alphaVG1Query := batchExpWithCoeff P.one1 alpha (q.Vt.drop (ni + 1) ++ [q.Zt])
          hG1Query := batchExp P.one1 q.Ht
          vG2Query := batchExp P.one2 (q.Vt ++ [q.Zt])
          cs },
        { tildeG2 := tilde • P.one2
          alphaTildeG2 := (alpha * tilde) • P.one2
          zG2 := q.Zt • P.one2
          encodedIC := ⟨q.Vt.getD 0 0 • P.one1, batchExp P.one1 ((q.Vt.take (ni + 1)).drop 1)⟩ })
      else none := by
  have s1 : slice (q.Vt ++ [q.Zt]) 0 (ni + 1) = some (q.Vt.take (ni + 1)) := by
    rw [slice_eq _ _ _ (by omega) (by simp; omega), List.drop_zero, Nat.sub_zero,
      List.take_append_of_le_length (by omega)]
  have s2 : slice (q.Vt ++ [q.Zt]) (ni + 1) (q.Vt ++ [q.Zt]).length
      = some (q.Vt.drop (ni + 1) ++ [q.Zt]) := by
    rw [slice_eq _ _ _ (by simp; omega) (le_refl _), List.drop_append_of_le_length (by omega),
      List.take_of_length_le (by simp; omega)]
  have s3 : (q.Vt.take (ni + 1))[0]? = some (q.Vt.getD 0 0) := by
    rw [List.getElem?_take_of_lt (by omega), List.getElem?_eq_getElem (by omega),
      List.getD_eq_getElem _ _ (by omega)]
  have hl : (q.Vt ++ [q.Zt]).length = nv + 2 := by simp [hV]
  rw [hl] at s2
  unfold uscsGenerate
  simp only [hq, Option.bind_eq_bind, Option.bind_some, hni, hnv, s1, s2, hl, hH, guard, if_true,
    Option.pure_def]
  split
  · simp only [Option.bind_some, s3]
  · rfl

set_option maxHeartbeats 1000000 in
/-- the exponents of an honest proof -/
theorem uscsProve_eq (P : Pairing F G1 G2 GT) {D : EvalDomain F} (hD : D.Lawful) (cs : USCS F)
    (hr : cs.WellRanged) (hm : cs.numConstraints ≤ D.m) (hm0 : 0 < D.m) (t alpha tilde : F)
    (pk : UscsPK F G1 G2) (vk : UscsVK G1 G2)
    (hgen : uscsGenerate P D cs t alpha tilde = some (pk, vk)) :
      ∃ kI : List F → F, (∀ p : List F, p.length = cs.primaryInputSize →
          vk.encodedIC.accumulate p = some (kI p • P.one1)) ∧
        vk.encodedIC.domainSize = cs.primaryInputSize ∧
        vk.tildeG2 = tilde • P.one2 ∧ vk.alphaTildeG2 = (alpha * tilde) • P.one2 ∧
        vk.zG2 = D.vanishing t • P.one2 ∧
        ∀ p w : List F, p.length = cs.primaryInputSize → w.length = cs.auxiliaryInputSize →
          cs.isSatisfied p w = some true → ∃ sV : F, ∀ d, ∃ hv : F,
            (sV + d * D.vanishing t) ^ 2 - 1 = hv * D.vanishing t ∧
            uscsProve D pk p w d = some
              ⟨(sV + d * D.vanishing t - kI p) • P.one1,
                (alpha * (sV + d * D.vanishing t - kI p)) • P.one1,
                hv • P.one1, (sV + d * D.vanishing t) • P.one2⟩ := by
  obtain ⟨qi, q, -, hq, -, n1, n2, n3, n4, lV, eH, eZ, dV⟩ := USCS.sspEval_spec hD cs hr hm t
  set nv := cs.numVariables with hnv0
  set ni := cs.numInputs with hni0
  have hle : ni ≤ nv := by simp [hni0, hnv0, USCS.numVariables, USCS.numInputs]
  have lHt : q.Ht.length = q.degree + 1 := by rw [eH, length_powersFrom, n2]
  rw [uscsGenerate_eq P D cs t alpha tilde q hq nv ni n1 n3 hle lV lHt] at hgen
  split at hgen
  swap
  · simp at hgen
  obtain ⟨rfl, rfl⟩ := Prod.mk.inj (Option.some.inj hgen)
  have ltake : (q.Vt.take (ni + 1)).length = ni + 1 := by simp [lV]; omega
  refine ⟨fun p => q.Vt.getD 0 0 + ∑ i ∈ range ni, p.getD i 0 * q.Vt.getD (1 + i) 0, ?_, ?_, rfl, rfl,
    by rw [← eZ], ?_⟩
  · intro p hp
    have hpl : p.length = ni := hp
    rw [accumulate_batch _ _ _ _ (by simp [lV, hpl]; omega),
      innerProduct_eq_sum _ _ (by simp [lV, hpl]; omega), hpl]
    congr 3
    refine Finset.sum_congr rfl fun i hi => ?_
    have hi' : i < ni := by simpa using hi
    congr 1
    rw [List.getD_eq_getElem (List.drop _ _) _ (by simp [lV]; omega),
      List.getD_eq_getElem _ _ (by omega)]
    simp [add_comm]
  · simp [AccVec.domainSize, batchExp, lV, hni0, USCS.numInputs]
    simp [hnv0, USCS.numVariables]
  · intro p w hp hw hsat
    have hfull : (p ++ w).length = nv := by simp [hp, hw, hnv0, USCS.numVariables]
    have hs := (uscs_isSatisfied cs hr p w (by rw [← List.length_append, hfull])).1.1 hsat
    refine ⟨dot q.Vt (envOf (p ++ w)), fun d => ?_⟩
    obtain ⟨H, eW, lH, eqH⟩ := USCS.sspWitness_spec hD cs hr p w hp hw hm hm0 hs d
    have hH := eqH t
    rw [← dV, ← eZ] at hH
    rw [← hnv0, ← hni0] at eW
    rw [← eZ]
    refine ⟨evalPoly H t, by rw [pow_two]; exact hH, ?_⟩
    have hpi : p.length = ni := hp
    have hwl : w.length = nv - ni := by simp at hfull; omega
    have g1 : (batchExp P.one1 (q.Vt.drop (ni + 1) ++ [q.Zt])).length = nv + 2 - ni - 1 := by
      simp [batchExp, lV]; omega
    have g2 : (batchExpWithCoeff P.one1 alpha (q.Vt.drop (ni + 1) ++ [q.Zt])).length
        = nv + 2 - ni - 1 := by
      simp [batchExpWithCoeff, lV]; omega
    have g3 : (batchExp P.one1 q.Ht).length = D.m + 1 := by simp [batchExp, lHt, n2]
    have g4 : (batchExp P.one2 (q.Vt ++ [q.Zt])).length = nv + 2 := by simp [batchExp, lV]
    have l1 : (batchExp P.one1 (q.Vt.drop (ni + 1) ++ [q.Zt]))[nv + 2 - ni - 1 - 1]?
        = some (q.Zt • P.one1) := by
      have : nv + 2 - ni - 1 - 1 = (q.Vt.drop (ni + 1)).length := by simp [lV]; omega
      simp only [batchExp, List.map_append, List.map_cons, List.map_nil]
      rw [List.getElem?_append_right (by simp [this]), this]; simp
    have l2 : (batchExpWithCoeff P.one1 alpha (q.Vt.drop (ni + 1) ++ [q.Zt]))[nv + 2 - ni - 1 - 1]?
        = some ((alpha * q.Zt) • P.one1) := by
      have : nv + 2 - ni - 1 - 1 = (q.Vt.drop (ni + 1)).length := by simp [lV]; omega
      simp only [batchExpWithCoeff, List.map_append, List.map_cons, List.map_nil]
      rw [List.getElem?_append_right (by simp [this]), this]; simp
    have l3 : (batchExp P.one2 (q.Vt ++ [q.Zt]))[0]? = some (q.Vt.getD 0 0 • P.one2) := by
      simp only [batchExp, List.map_append]
      rw [List.getElem?_append_left (by simp [lV]), List.getElem?_map,
        List.getElem?_eq_getElem (by omega), List.getD_eq_getElem _ _ (by omega)]
      rfl
    have l4 : (batchExp P.one2 (q.Vt ++ [q.Zt]))[nv + 2 - 1]? = some (q.Zt • P.one2) := by
      have : nv + 2 - 1 = q.Vt.length := by omega
      simp only [batchExp, List.map_append, List.map_cons, List.map_nil]
      rw [List.getElem?_append_right (by simp [this]), this]; simp
    have s1 : slice (p ++ w) ni nv = some w := by
      rw [slice_eq _ _ _ hle (by omega), ← hpi, List.drop_left,
        List.take_of_length_le (by omega)]
    have s2 : slice (batchExp P.one1 (q.Vt.drop (ni + 1) ++ [q.Zt])) 0 (nv - ni)
        = some (batchExp P.one1 (q.Vt.drop (ni + 1))) := by
      rw [slice_eq _ _ _ (by omega) (by omega), List.drop_zero, Nat.sub_zero]
      simp only [batchExp, List.map_append]
      rw [List.take_append_of_le_length (by simp [lV]), List.take_of_length_le (by simp [lV])]
    have s3 : slice (batchExpWithCoeff P.one1 alpha (q.Vt.drop (ni + 1) ++ [q.Zt])) 0 (nv - ni)
        = some (batchExpWithCoeff P.one1 alpha (q.Vt.drop (ni + 1))) := by
      rw [slice_eq _ _ _ (by omega) (by omega), List.drop_zero, Nat.sub_zero]
      simp only [batchExpWithCoeff, List.map_append]
      rw [List.take_append_of_le_length (by simp [lV]), List.take_of_length_le (by simp [lV])]
    have s4 : slice (batchExp P.one1 q.Ht) 0 (D.m + 1) = some (batchExp P.one1 q.Ht) :=
      slice_all _ _ g3
    have s5 : slice H 0 (D.m + 1) = some H := slice_all _ _ lH
    have s6 : slice (batchExp P.one2 (q.Vt ++ [q.Zt])) 1 (nv + 1)
        = some ((batchExp P.one2 q.Vt).drop 1) := by
      rw [slice_eq _ _ _ (by omega) (by omega)]
      simp only [batchExp, List.map_append]
      rw [List.drop_append_of_le_length (by simp [lV]),
        List.take_append_of_le_length (by simp [lV]), List.take_of_length_le (by simp [lV])]
    have s7 : slice (p ++ w) 0 nv = some (p ++ w) := slice_all _ _ hfull
    obtain ⟨-, a2, a3⟩ := query_head_tail P.one2 q.Vt (p ++ w) (by rw [lV, hfull])
    have hsum : innerProduct w (q.Vt.drop (ni + 1))
        = ∑ i ∈ range w.length, w.getD i 0 * q.Vt.getD (p.length + 1 + i) 0 := by
      rw [innerProduct_eq_sum _ _ (by simp [lV]; omega)]
      refine Finset.sum_congr rfl fun i hi => ?_
      have hi' : i < w.length := by simpa using hi
      congr 1
      rw [List.getD_eq_getElem (List.drop _ _) _ (by simp [lV]; omega),
        List.getD_eq_getElem _ _ (by omega)]
      simp [hpi]
    have hsplit := dot_split q.Vt p w (by rw [lV]; omega)
    rw [← hsum, hpi] at hsplit
    have e1 : multiexp (batchExp P.one1 (q.Vt.drop (ni + 1))) w
        = some (innerProduct w (q.Vt.drop (ni + 1)) • P.one1) :=
      multiexp_batchExp _ _ _ (by simp [lV]; omega)
    have e2 : multiexp (batchExpWithCoeff P.one1 alpha (q.Vt.drop (ni + 1))) w
        = some ((alpha * innerProduct w (q.Vt.drop (ni + 1))) • P.one1) :=
      multiexp_batchCoeff _ _ _ _ (by simp [lV]; omega)
    have e3 : multiexp (batchExp P.one1 q.Ht) H = some (evalPoly H t • P.one1) := by
      rw [multiexp_batchExp _ _ _ (by rw [lHt, n2, lH]), innerProduct_comm', eH,
        innerProduct_powers _ _ _ lH]
    unfold uscsProve
    simp only [eW, Option.bind_eq_bind, Option.bind_some, hsat, guard, if_true, g1, g2, g3, g4,
      Option.pure_def, l1, l2, l3, l4, s1, s2, s3, s4, s5, s6, s7, e1, e2, e3, a2]
    congr 2
    · simp only [smul_smul, ← add_smul]
      congr 1
      linear_combination -hsplit
    · simp only [smul_smul, ← add_smul]
      congr 1
      linear_combination -alpha * hsplit
    · rw [zero_add]
    · simp only [smul_smul, ← add_smul]
      congr 1
      linear_combination a3

end Crypto3Zk
