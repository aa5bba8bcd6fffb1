import Verif.Spec.USCSLinear
import Verif.Lemmas.USCSLinear
import Verif.Props.USCSArg
import Verif.Props.GM17Linear

/-!
# C91: the argument for unitary-square constraint systems is sound against provers that compute with
group elements
-/

set_option linter.unusedSectionVars false

namespace Crypto3Zk

open Finset Polynomial

variable {F : Type} [Field F] [DecidableEq F] {D : EvalDomain F}
variable {G1 G2 GT : Type} [AddCommGroup G1] [Module F G1] [AddCommGroup G2] [Module F G2]
  [AddCommGroup GT] [Module F GT] [DecidableEq GT]

/-- a combination of elements at one evaluation point -/
def UscsCoeffs1.at (c : UscsCoeffs1 F) (q : SspEval F) (ni : Nat) : ULin1 F where
  one := c.one + innerProduct c.v (q.Vt.drop (ni + 1) ++ [q.Zt]) + evalPoly c.h q.t + c.input0 * q.Vt.getD 0 0 +
    innerProduct c.inputs ((q.Vt.take (ni + 1)).drop 1)
  al := innerProduct c.alphaV (q.Vt.drop (ni + 1) ++ [q.Zt])

/-- a combination of elements of the second group -/
def UscsCoeffs2.at (c : UscsCoeffs2 F) (q : SspEval F) (x : Fin 2 → F) : F :=
  c.one + innerProduct c.v (q.Vt ++ [q.Zt]) + c.tilde * x 1 + c.alphaTilde * (x 0 * x 1) + c.z * q.Zt

/-- the keys as multiples of the generators -/
def uscsKeys (P : Pairing F G1 G2 GT) (cs : USCS F) (q : SspEval F) (ni : Nat) (alpha tilde : F) :
    UscsPK F G1 G2 × UscsVK G1 G2 :=
  ({ vG1Query := batchExp P.one1 (q.Vt.drop (ni + 1) ++ [q.Zt])
     alphaVG1Query := batchExpWithCoeff P.one1 alpha (q.Vt.drop (ni + 1) ++ [q.Zt])
     hG1Query := batchExp P.one1 q.Ht
     vG2Query := batchExp P.one2 (q.Vt ++ [q.Zt])
     cs },
   { tildeG2 := tilde • P.one2
     alphaTildeG2 := (alpha * tilde) • P.one2
     zG2 := q.Zt • P.one2
     encodedIC := ⟨q.Vt.getD 0 0 • P.one1, batchExp P.one1 ((q.Vt.take (ni + 1)).drop 1)⟩ })

theorem UscsCoeffs1.combine_eq (P : Pairing F G1 G2 GT) (cs : USCS F) (q : SspEval F) (nv ni m : Nat)
    (alpha tilde : F) (hle : ni ≤ nv) (lV : q.Vt.length = nv + 1) (eH : q.Ht = powersFrom q.t 1 (m + 1))
    (c : UscsCoeffs1 F) (g : G1)
    (h : c.combine P.one1 (uscsKeys P cs q ni alpha tilde).1 (uscsKeys P cs q ni alpha tilde).2 = some g) :
    g = (c.at q ni).value ![alpha, tilde] • P.one1 ∧ c.v.length = nv - ni + 1 ∧ c.alphaV.length = nv - ni + 1 ∧
      c.h.length = m + 1 ∧ c.inputs.length = ni := by
  simp only [UscsCoeffs1.combine, Option.bind_eq_bind, Option.bind_eq_some_iff, uscsKeys] at h
  obtain ⟨v, hv, a, ha, hh, hhe, i, hi, h⟩ := h
  have l1 := multiexp_length hv
  have l2 := multiexp_length ha
  have l3 := multiexp_length hhe
  have l4 := multiexp_length hi
  simp only [batchExp, batchExpWithCoeff, List.length_map] at l1 l2 l3 l4
  rw [multiexp_batchExp _ _ _ l1] at hv
  rw [multiexp_batchCoeff _ _ _ _ l2] at ha
  rw [multiexp_batchExp _ _ _ l3, innerProduct_comm', eH, innerProduct_powers _ _ _ (by
    rw [← l3, eH, length_powersFrom])] at hhe
  rw [multiexp_batchExp _ _ _ l4] at hi
  simp only [Option.some.injEq] at hv ha hhe hi
  subst hv ha hhe hi
  simp only [List.length_append, List.length_drop, List.length_take, lV, List.length_cons, List.length_nil, eH,
    length_powersFrom] at l1 l2 l3 l4
  refine ⟨?_, by omega, by omega, by omega, by omega⟩
  simp only [Option.pure_def, Option.some.injEq] at h
  rw [← h]
  simp only [smul_smul, ← add_smul]
  congr 1
  simp only [ULin1.value, UscsCoeffs1.at, Matrix.cons_val_zero]
  ring

theorem UscsCoeffs2.combine_eq (P : Pairing F G1 G2 GT) (cs : USCS F) (q : SspEval F) (ni : Nat)
    (alpha tilde : F) (c : UscsCoeffs2 F) (g : G2)
    (h : c.combine P.one2 (uscsKeys P cs q ni alpha tilde).1 (uscsKeys P cs q ni alpha tilde).2 = some g) :
    g = c.at q ![alpha, tilde] • P.one2 := by
  simp only [UscsCoeffs2.combine, Option.bind_eq_bind, Option.bind_eq_some_iff, uscsKeys] at h
  obtain ⟨v, hv, h⟩ := h
  have l1 := multiexp_length hv
  rw [multiexp_batchExp _ _ _ (by simpa [batchExp] using l1)] at hv
  simp only [Option.some.injEq] at hv
  subst hv
  simp only [Option.pure_def, Option.some.injEq] at h
  rw [← h]
  simp only [smul_smul, ← add_smul]
  congr 1

/-- the last coefficient belongs to the added element -/
theorem innerProduct_last (xs l : List F) (z : F) (h : xs.length = l.length + 1) :
    innerProduct xs (l ++ [z]) = innerProduct (xs.take l.length) l + xs.getD l.length 0 * z := by
  induction xs generalizing l with
  | nil => simp at h
  | cons x xs ih =>
    cases l with
    | nil =>
      have : xs = [] := by simpa using h
      subst this
      simp [innerProduct]
    | cons a l =>
      have := ih l (by simpa using h)
      simp only [innerProduct] at this ⊢
      simp only [List.cons_append, List.zipWith_cons_cons, List.sum_cons, List.length_cons, List.take_succ_cons,
        List.getD_cons_succ, this]
      ring

theorem innerProduct_append' (xs ys l k : List F) (h : xs.length = l.length) :
    innerProduct (xs ++ ys) (l ++ k) = innerProduct xs l + innerProduct ys k := by
  rw [innerProduct, innerProduct, innerProduct, List.zipWith_append h, List.sum_append]

theorem dot_getD (v xs : List F) (h : xs.length = v.length) :
    dot v (fun i => xs.getD i 0) = innerProduct xs v := by
  rw [innerProduct_eq_sum _ _ h.le, dot_eq_sum, h]
  exact Finset.sum_congr rfl fun i _ => mul_comm _ _

/-- all the coefficients of one combination for values of the wires -/
def UscsCoeffs1.wires (c : UscsCoeffs1 F) (n : Nat) : List F := c.input0 :: (c.inputs ++ c.v.take n)

theorem UscsCoeffs1.one_eq (c : UscsCoeffs1 F) (q : SspEval F) (nv ni : Nat) (hle : ni ≤ nv)
    (lV : q.Vt.length = nv + 1) (l1 : c.v.length = nv - ni + 1) (l4 : c.inputs.length = ni) :
    (c.at q ni).one = c.one + dot q.Vt (fun i => (c.wires (nv - ni)).getD i 0) +
      c.v.getD (nv - ni) 0 * q.Zt + evalPoly c.h q.t := by
  have ld : (q.Vt.drop (ni + 1)).length = nv - ni := by rw [List.length_drop, lV]; omega
  rw [dot_getD _ _ (by simp [UscsCoeffs1.wires, l1, l4, lV]; omega)]
  obtain ⟨v0, vs, hv⟩ : ∃ v0 vs, q.Vt = v0 :: vs := by
    cases h : q.Vt with
    | nil => rw [h] at lV; simp at lV
    | cons a l => exact ⟨a, l, rfl⟩
  have hsp : q.Vt = v0 :: (vs.take ni ++ vs.drop ni) := by rw [List.take_append_drop, hv]
  have e : innerProduct (c.wires (nv - ni)) q.Vt = c.input0 * v0 + (innerProduct c.inputs (vs.take ni) +
      innerProduct (c.v.take (nv - ni)) (vs.drop ni)) := by
    have hvs : vs.length = nv := by rw [hv] at lV; simpa using lV
    rw [hsp, UscsCoeffs1.wires, ← innerProduct_append' _ _ _ _ (by rw [List.length_take, l4, hvs]; omega)]
    simp only [innerProduct, List.zipWith_cons_cons, List.sum_cons]
  rw [e]
  simp only [UscsCoeffs1.at]
  rw [innerProduct_last _ _ _ (by rw [l1, ld]), ld, hv]
  simp only [List.drop_succ_cons, List.take_succ_cons, List.drop_zero, List.getD_cons_zero]
  ring

/-- at one evaluation point: a strategy that is accepted for many secrets satisfies the equation of the square
span program -/
theorem uscs_point [Fintype F] (P : Pairing F G1 G2 GT) (hD : D.Lawful) (cs : USCS F)
    (hr : cs.WellRanged) (hm : cs.numConstraints ≤ D.m) (hne : P.e P.one1 P.one2 ≠ 0) (p : List F)
    (hp : p.length = cs.primaryInputSize) (V A H : UscsCoeffs1 F) (B : UscsCoeffs2 F) (t : F)
    (S : Finset (Fin 2 → F)) (hcard : 3 * Fintype.card F ^ 1 < S.card)
    (hS : ∀ x ∈ S, ∃ pk vk gV gA gH gB,
      uscsGenerate P D cs t (x 0) (x 1) = some (pk, vk) ∧
      V.combine P.one1 pk vk = some gV ∧ A.combine P.one1 pk vk = some gA ∧ H.combine P.one1 pk vk = some gH ∧
      B.combine P.one2 pk vk = some gB ∧ uscsVerifyWeak P vk p ⟨gV, gA, gH, gB⟩ = some true) :
    A.alphaV.length = cs.numVariables - cs.numInputs + 1 ∧
      H.v.length = cs.numVariables - cs.numInputs + 1 ∧ H.h.length = D.m + 1 ∧
      H.inputs.length = cs.numInputs ∧
      ∀ L : List F, L.length = D.m + 1 →
        evalPoly L t = H.one + dot (cs.sspRow D.m (fun i => (H.wires (cs.numVariables - cs.numInputs)).getD i 0))
            (fun i => (D.lagrange t).getD i 0) +
          H.v.getD (cs.numVariables - cs.numInputs) 0 * D.vanishing t + evalPoly H.h t →
        ∃ q, cs.sspEval D t = some q ∧ q.isSatisfied D ⟨cs.numVariables, D.m, cs.numInputs,
          A.alphaV.getD (cs.numVariables - cs.numInputs) 0,
          p ++ A.alphaV.take (cs.numVariables - cs.numInputs), L⟩ = true := by
  obtain ⟨qi, q, -, hq, -, n1, n2, n3, n4, lV, eH, eZ, dV⟩ := USCS.sspEval_spec hD cs hr hm t
  set nv := cs.numVariables with hnv0
  set ni := cs.numInputs with hni0
  have hle : ni ≤ nv := by simp [hni0, hnv0, USCS.numVariables, USCS.numInputs]
  have hpi : p.length = ni := by rw [hp]; rfl
  have lHt : q.Ht.length = q.degree + 1 := by rw [eH, length_powersFrom, n2]
  have eH' : q.Ht = powersFrom q.t 1 (D.m + 1) := by rw [n4, eH]
  have hgen : ∀ (x : Fin 2 → F) (pk : UscsPK F G1 G2) (vk : UscsVK G1 G2),
      uscsGenerate P D cs t (x 0) (x 1) = some (pk, vk) → uscsKeys P cs q ni (x 0) (x 1) = (pk, vk) := by
    intro x pk vk h
    rw [uscsGenerate_eq P D cs t (x 0) (x 1) q hq nv ni n1 n3 hle lV lHt] at h
    split at h
    · exact Option.some.inj h
    · simp at h
  obtain ⟨x0, hx0⟩ : S.Nonempty := Finset.card_pos.1 (by omega)
  have hlen : A.alphaV.length = nv - ni + 1 ∧ H.v.length = nv - ni + 1 ∧ H.h.length = D.m + 1 ∧
      H.inputs.length = ni := by
    obtain ⟨pk, vk, gV, gA, gH, gB, hg, -, hA, hH, -⟩ := hS x0 hx0
    obtain ⟨rfl, rfl⟩ := Prod.ext_iff.1 (hgen _ _ _ hg)
    obtain ⟨-, -, a2, -, -⟩ := UscsCoeffs1.combine_eq P cs q nv ni D.m _ _ hle lV eH' A gA hA
    obtain ⟨-, b1, -, b3, b4⟩ := UscsCoeffs1.combine_eq P cs q nv ni D.m _ _ hle lV eH' H gH hH
    exact ⟨a2, b1, b3, b4⟩
  refine ⟨hlen.1, hlen.2.1, hlen.2.2.1, hlen.2.2.2, fun L lL hL => ⟨q, hq, ?_⟩⟩
  obtain ⟨lA, lHv, lHh, lHi⟩ := hlen
  have ltake : ((q.Vt.take (ni + 1)).drop 1).length = ni := by
    rw [List.length_drop, List.length_take, lV]; omega
  have ldrop : (q.Vt.drop (ni + 1)).length = nv - ni := by rw [List.length_drop, lV]; omega
  have key := uscs_identity (V.at q ni) (A.at q ni) (H.at q ni) (B.at q)
    (q.Vt.getD 0 0 + innerProduct p ((q.Vt.take (ni + 1)).drop 1)) q.Zt S hcard ?_ ?_ ?_
  · have hw : (p ++ A.alphaV.take (nv - ni)).length = nv := by
      rw [List.length_append, hpi, List.length_take, lA]; omega
    rw [SspEval.isSatisfied_iff]
    refine ⟨n1, n2, n3, by rw [n1, hw], by rw [n2, lL], by rw [n1, lV],
      by rw [eH, length_powersFrom, n2], by rw [eZ, n4], ?_⟩
    simp only
    have hans : ansOf q.Vt (A.alphaV.getD (nv - ni) 0) q.Zt (p ++ A.alphaV.take (nv - ni)) =
        (A.at q ni).al + (q.Vt.getD 0 0 + innerProduct p ((q.Vt.take (ni + 1)).drop 1)) := by
      simp only [UscsCoeffs1.at]
      rw [innerProduct_last _ _ _ (by rw [lA, ldrop]), ldrop, ansOf]
      have : q.Vt.drop 1 = (q.Vt.take (ni + 1)).drop 1 ++ q.Vt.drop (ni + 1) := by
        conv_lhs => rw [← List.take_append_drop (ni + 1) q.Vt]
        rw [List.drop_append_of_le_length (by rw [List.length_take, lV]; omega)]
      rw [this, innerProduct_comm', innerProduct_append' _ _ _ _ (by rw [hpi, ltake])]
      ring
    rw [hans, key, eH, innerProduct_powers _ _ _ lL, hL, UscsCoeffs1.one_eq H q nv ni hle lV lHv lHi, dV, n4, eZ]
  all_goals
    intro x hx
    obtain ⟨pk, vk, gV, gA, gH, gB, hg, hV, hA, hH, hB, hv⟩ := hS x hx
    obtain ⟨rfl, rfl⟩ := Prod.ext_iff.1 (hgen _ _ _ hg)
    obtain ⟨rV, -⟩ := UscsCoeffs1.combine_eq P cs q nv ni D.m _ _ hle lV eH' V gV hV
    obtain ⟨rA, -⟩ := UscsCoeffs1.combine_eq P cs q nv ni D.m _ _ hle lV eH' A gA hA
    obtain ⟨rH, -⟩ := UscsCoeffs1.combine_eq P cs q nv ni D.m _ _ hle lV eH' H gH hH
    have rB := UscsCoeffs2.combine_eq P cs q ni _ _ B gB hB
    have hx2 : ![x 0, x 1] = x := by ext i; fin_cases i <;> rfl
    simp only [hx2] at rV rA rH rB
    obtain ⟨-, e1, e2, e3⟩ := (C53_verifier_iff P _ p _ (by
      simp only [uscsKeys, batchExp, List.length_map]; rw [ltake, hpi])).1.1 hv
    have hone : ∀ c : F, P.e (c • P.one1) P.one2 = c • P.e P.one1 P.one2 := by
      intro c; rw [map_smul, LinearMap.smul_apply]
    have hone' : ∀ c : F, P.e P.one1 (c • P.one2) = c • P.e P.one1 P.one2 := by
      intro c; rw [map_smul]
    have hself : P.e P.one1 P.one2 = (1 : F) • P.e P.one1 P.one2 := (one_smul _ _).symm
    simp only [uscsKeys, batchExp] at e1 e2 e3
    rw [rV, rB, zipWith_smul_batch] at e1
    rw [rV, rB, rH, zipWith_smul_batch] at e2
    rw [rV, rA] at e3
    simp only [← add_smul, hone, hone'] at e1
    simp only [← add_smul, pair_smul] at e2
    rw [hself, smul_smul, smul_smul, ← add_smul, mul_one, mul_one] at e2
    simp only [pair_smul] at e3
    have f1 := smul_left_injective F hne e1
    have f2 := smul_left_injective F hne e2
    have f3 := smul_left_injective F hne e3
    first
      | exact f1
      | exact f2
      | exact f3

/-- **C91** (partial) A prover that computes with group elements: it chooses, for each element of the proof, one
coefficient for each group element of the two keys. If its proof for the input `p` is accepted for more than
`(2m + 3) · |F|^2` of the `|F|^3` secrets, then `p` together with the coefficients of the second element for
the α-multiples of the query satisfies the constraint system.

What is missing: coefficients that depend on the keys, and provers that are not of this kind. -/
theorem C91_knowledge_soundness_partial [Fintype F] (P : Pairing F G1 G2 GT) (hD : D.Lawful)
    (cs : USCS F) (hr : cs.WellRanged) (hm : cs.numConstraints ≤ D.m) (hm0 : 0 < D.m)
    (hne : P.e P.one1 P.one2 ≠ 0) (p : List F) (hp : p.length = cs.primaryInputSize)
    (V A H : UscsCoeffs1 F) (B : UscsCoeffs2 F)
    (accepting : Finset (F × (Fin 2 → F)))
    (hacc : ∀ z ∈ accepting, ∃ pk vk gV gA gH gB,
      uscsGenerate P D cs (t := z.1) (alpha := z.2 0) (tilde := z.2 1) = some (pk, vk) ∧
      V.combine P.one1 pk vk = some gV ∧ A.combine P.one1 pk vk = some gA ∧ H.combine P.one1 pk vk = some gH ∧
      B.combine P.one2 pk vk = some gB ∧ uscsVerifyWeak P vk p ⟨gV, gA, gH, gB⟩ = some true)
    (hcard : (2 * D.m + 3) * Fintype.card F ^ 2 < accepting.card) :
    cs.isSatisfied p (A.alphaV.take cs.auxiliaryInputSize) = some true := by
  obtain ⟨good, hgood, hslice⟩ := many_slices accepting (2 * D.m) (3 * Fintype.card F ^ 1) (by
    rw [Fintype.card_fun, Fintype.card_fin]
    calc _ = (2 * D.m + 3) * Fintype.card F ^ 2 := by ring
      _ < _ := hcard)
  have hpoint := fun t ht => uscs_point P hD cs hr hm hne p hp V A H B t _ (hslice t ht)
    fun x hx => hacc _ (Finset.mem_filter.1 hx).2
  obtain ⟨t0, ht0⟩ : good.Nonempty := Finset.card_pos.1 (by omega)
  obtain ⟨lA, lHv, lHh, lHi, -⟩ := hpoint t0 ht0
  have hl := USCS.length_sspRow D.m cs
    (fun i => (H.wires (cs.numVariables - cs.numInputs)).getD i 0) hm
  obtain ⟨L, lL, hL⟩ := exists_coefficients
    (Polynomial.C H.one + interp D (cs.sspRow D.m
        (fun i => (H.wires (cs.numVariables - cs.numInputs)).getD i 0)) +
      Polynomial.C (H.v.getD (cs.numVariables - cs.numInputs) 0) * D.zPoly + toPoly H.h) D.m (by
    refine (natDegree_add_le _ _).trans (max_le ((natDegree_add_le _ _).trans (max_le
      ((natDegree_add_le _ _).trans (max_le ?_ ?_)) ?_)) ?_)
    · simp
    · exact natDegree_interp_le hD _ hl
    · refine natDegree_mul_le.trans ?_
      rw [natDegree_C, EvalDomain.zPoly_natDegree, zero_add]
    · have := degree_toPoly H.h
      rw [lHh] at this
      by_cases h0 : toPoly H.h = 0
      · rw [h0]; simp
      · rw [degree_eq_natDegree h0] at this
        have : (toPoly H.h).natDegree < D.m + 1 := by exact_mod_cast this
        omega)
  have haux : cs.numVariables - cs.numInputs = cs.auxiliaryInputSize := by
    simp [USCS.numVariables, USCS.numInputs]
  have := C20_ssp_sound hD cs hr hm hm0
    ⟨cs.numVariables, D.m, cs.numInputs, A.alphaV.getD (cs.numVariables - cs.numInputs) 0,
      p ++ A.alphaV.take (cs.numVariables - cs.numInputs), L⟩ good hgood fun t ht =>
      (hpoint t ht).2.2.2.2 L lL (by
        rw [hL t, eval_add, eval_add, eval_add, eval_mul, eval_C, eval_C, hD.eval_zPoly, eval_toPoly,
          interp_eval hD _ hl])
  simp only [← hp, List.take_left, List.drop_left, haux] at this
  exact this

/-- C91, partial, in the other direction: if no auxiliary input satisfies the system, a strategy is
accepted for no more than `2m + 3` of every `|F|` choices of the secrets. -/
theorem C91_false_statements_rejected_partial [Fintype F] (P : Pairing F G1 G2 GT) (hD : D.Lawful)
    (cs : USCS F) (hr : cs.WellRanged) (hm : cs.numConstraints ≤ D.m) (hm0 : 0 < D.m)
    (hne : P.e P.one1 P.one2 ≠ 0) (p : List F) (hp : p.length = cs.primaryInputSize)
    (hfalse : ∀ w, cs.isSatisfied p w ≠ some true)
    (V A H : UscsCoeffs1 F) (B : UscsCoeffs2 F)
    (accepting : Finset (F × (Fin 2 → F)))
    (hacc : ∀ z ∈ accepting, ∃ pk vk gV gA gH gB,
      uscsGenerate P D cs (t := z.1) (alpha := z.2 0) (tilde := z.2 1) = some (pk, vk) ∧
      V.combine P.one1 pk vk = some gV ∧ A.combine P.one1 pk vk = some gA ∧ H.combine P.one1 pk vk = some gH ∧
      B.combine P.one2 pk vk = some gB ∧ uscsVerifyWeak P vk p ⟨gV, gA, gH, gB⟩ = some true) :
    accepting.card ≤ (2 * D.m + 3) * Fintype.card F ^ 2 := by
  by_contra hcon
  exact hfalse _ (C91_knowledge_soundness_partial P hD cs hr hm hm0 hne p hp V A H B accepting hacc
    (not_le.1 hcon))

/-- **C91** (partial), adaptive provers: the coefficients, and the input, may depend on the keys. Whenever such a proof
is accepted, the coefficients contain a witness, or else the secrets are in a set that is known from the input and the
coefficients alone, and that has no more than `2m + 3` of every `|F|` secrets. -/
theorem C91_adaptive_provers_partial [Fintype F] (P : Pairing F G1 G2 GT) (hD : D.Lawful)
    (cs : USCS F) (hr : cs.WellRanged) (hm : cs.numConstraints ≤ D.m) (hm0 : 0 < D.m)
    (hne : P.e P.one1 P.one2 ≠ 0) :
    ∃ bad : List F → UscsCoeffs1 F → UscsCoeffs1 F → UscsCoeffs1 F → UscsCoeffs2 F → Finset (F × (Fin 2 → F)),
      (∀ p V A H B, (bad p V A H B).card ≤ (2 * D.m + 3) * Fintype.card F ^ 2) ∧
      ∀ (t alpha tilde : F) pk vk p V A H B gV gA gH gB, p.length = cs.primaryInputSize →
        uscsGenerate P D cs (t := t) (alpha := alpha) (tilde := tilde) = some (pk, vk) →
        V.combine P.one1 pk vk = some gV → A.combine P.one1 pk vk = some gA → H.combine P.one1 pk vk = some gH →
        B.combine P.one2 pk vk = some gB → uscsVerifyWeak P vk p ⟨gV, gA, gH, gB⟩ = some true →
        cs.isSatisfied p (A.alphaV.take cs.auxiliaryInputSize) = some true ∨ (t, ![alpha, tilde]) ∈ bad p V A H B := by
  classical
  refine ⟨fun p V A H B => Finset.univ.filter fun z => p.length = cs.primaryInputSize ∧
    cs.isSatisfied p (A.alphaV.take cs.auxiliaryInputSize) ≠ some true ∧ ∃ pk vk gV gA gH gB,
      uscsGenerate P D cs (t := z.1) (alpha := z.2 0) (tilde := z.2 1) = some (pk, vk) ∧
      V.combine P.one1 pk vk = some gV ∧ A.combine P.one1 pk vk = some gA ∧ H.combine P.one1 pk vk = some gH ∧
      B.combine P.one2 pk vk = some gB ∧ uscsVerifyWeak P vk p ⟨gV, gA, gH, gB⟩ = some true,
    fun p V A H B => ?_, ?_⟩
  · by_cases hp : p.length = cs.primaryInputSize ∧ cs.isSatisfied p (A.alphaV.take cs.auxiliaryInputSize) ≠ some true
    · by_contra hcon
      exact hp.2 (C91_knowledge_soundness_partial P hD cs hr hm hm0 hne p hp.1 V A H B _
        (fun z hz => (Finset.mem_filter.1 hz).2.2.2) (not_le.1 hcon))
    · exact le_trans (le_of_eq (Finset.card_eq_zero.2 (Finset.filter_eq_empty_iff.2
        fun z _ hz => hp ⟨hz.1, hz.2.1⟩))) (Nat.zero_le _)
  · intro t alpha tilde pk vk p V A H B gV gA gH gB hp hg hV hA hH hB hv
    by_cases hs : cs.isSatisfied p (A.alphaV.take cs.auxiliaryInputSize) = some true
    · exact .inl hs
    · exact .inr (Finset.mem_filter.2 ⟨Finset.mem_univ _, hp, hs, pk, vk, gV, gA, gH, gB, hg, hV, hA, hH, hB, hv⟩)

theorem multiexp_snoc {G : Type} [AddCommGroup G] [Module F G] (gs : List G) (xs : List F) (y : F) (u v : G) (n : Nat)
    (hl : gs.length = n + 1) (hu : gs[n]? = some u) (hv : multiexp (gs.take n) xs = some v) :
    multiexp gs (xs ++ [y]) = some (v + y • u) := by
  have hx := multiexp_length hv
  have htl : (gs.take n).length = n := by rw [List.length_take]; omega
  have hn : n < gs.length := by omega
  rw [List.getElem?_eq_getElem hn, Option.some.injEq] at hu
  have hg : gs = gs.take n ++ [u] := by
    rw [← hu, List.take_append_getElem hn, List.take_of_length_le (by omega)]
  rw [multiexp, if_pos hx, Option.some.injEq] at hv
  rw [hg, multiexp, if_pos (by simp [← hx]), sum_zipWith_append _ _ hx, hv]

theorem multiexp_cons' {G : Type} [AddCommGroup G] [Module F G] (gs : List G) (x : F) (xs : List F) (u v : G)
    (hu : gs[0]? = some u) (hv : multiexp (gs.drop 1) xs = some v) :
    multiexp gs (x :: xs) = some (x • u + v) := by
  cases gs with
  | nil => simp at hu
  | cons g gs =>
    simp only [List.getElem?_cons_zero, Option.some.injEq] at hu
    subst hu
    have hl := multiexp_length hv
    simp only [List.drop_succ_cons, List.drop_zero] at hv hl
    rw [multiexp, if_pos hl] at hv
    rw [multiexp, if_pos (by simp [hl]), ← Option.some.inj hv]
    simp

theorem opt_step {α β : Type} {x : Option α} {f : α → Option β} {b : β} (h : (x >>= f) = some b) :
    ∃ a, x = some a ∧ f a = some b := Option.bind_eq_some_iff.1 h

/-- the prover's elements as combinations, for queries of the right lengths -/
theorem uscs_honest_combine (pk : UscsPK F G1 G2) (vk : UscsVK G1 G2) (g : G1) (g2 : G2) (p w H : List F) (d : F)
    (π : UscsProof G1 G2) (nv ni m : Nat) (hle : ni ≤ nv) (hpi : p.length = ni) (hwl : w.length = nv - ni)
    (lH : H.length = m + 1)
    (eW : pk.cs.sspWitness D p w d = some ⟨nv, m, ni, d, p ++ w, H⟩)
    (lq1 : pk.vG1Query.length = nv - ni + 1) (lq2 : pk.alphaVG1Query.length = nv - ni + 1)
    (lq3 : pk.hG1Query.length = m + 1) (lq4 : pk.vG2Query.length = nv + 1 + 1)
    (lq5 : vk.encodedIC.rest.length = ni)
    (hprove : uscsProve D pk p w d = some π) :
    UscsCoeffs1.combine ⟨0, w ++ [d], List.replicate (nv - ni + 1) 0, List.replicate (m + 1) 0, 0,
        List.replicate ni 0⟩ g pk vk = some π.vG1 ∧
      UscsCoeffs1.combine ⟨0, List.replicate (nv - ni + 1) 0, w ++ [d], List.replicate (m + 1) 0, 0,
        List.replicate ni 0⟩ g pk vk = some π.alphaVG1 ∧
      UscsCoeffs1.combine ⟨0, List.replicate (nv - ni + 1) 0, List.replicate (nv - ni + 1) 0, H, 0,
        List.replicate ni 0⟩ g pk vk = some π.hG1 ∧
      UscsCoeffs2.combine ⟨0, 1 :: (p ++ w) ++ [d], 0, 0, 0⟩ g2 pk vk = some π.vG2 := by
  have hfull : (p ++ w).length = nv := by rw [List.length_append]; omega
  have z1 := multiexp_zeros (F := F) _ _ lq1
  have z2 := multiexp_zeros (F := F) _ _ lq2
  have z3 := multiexp_zeros (F := F) _ _ lq3
  have z4 := multiexp_zeros (F := F) _ _ lq5
  have s1 : slice (p ++ w) ni nv = some w := by
    rw [slice_eq _ _ _ hle (by omega), ← hpi, List.drop_left, List.take_of_length_le (by omega)]
  have s2 : slice (p ++ w) 0 nv = some (p ++ w) := slice_all _ _ hfull
  have s3 : slice H 0 (m + 1) = some H := slice_all _ _ lH
  have s4 := slice_all pk.hG1Query _ lq3
  have s5 : slice pk.vG1Query 0 (nv - ni) = some (pk.vG1Query.take (nv - ni)) := by
    rw [slice_eq _ _ _ (by omega) (by omega), List.drop_zero, Nat.sub_zero]
  have s6 : slice pk.alphaVG1Query 0 (nv - ni) = some (pk.alphaVG1Query.take (nv - ni)) := by
    rw [slice_eq _ _ _ (by omega) (by omega), List.drop_zero, Nat.sub_zero]
  have s7 : slice pk.vG2Query 1 (nv + 1) = some ((pk.vG2Query.take (nv + 1)).drop 1) := by
    rw [slice_eq _ _ _ (by omega) (by omega), List.drop_take]
  have i1 : nv - ni + 1 - 1 = nv - ni := by omega
  have i2 : nv + 1 + 1 - 1 = nv + 1 := by omega
  rw [uscsProve] at hprove
  obtain ⟨wit, hwit, hprove⟩ := opt_step hprove
  obtain rfl := Option.some.inj (eW.symm.trans hwit)
  obtain ⟨sat, -, hprove⟩ := opt_step hprove
  obtain ⟨_, -, hprove⟩ := opt_step hprove
  obtain ⟨_, -, hprove⟩ := opt_step hprove
  obtain ⟨_, -, hprove⟩ := opt_step hprove
  obtain ⟨_, -, hprove⟩ := opt_step hprove
  obtain ⟨_, -, hprove⟩ := opt_step hprove
  obtain ⟨vL, hvL, hprove⟩ := opt_step hprove
  obtain ⟨aL, haL, hprove⟩ := opt_step hprove
  obtain ⟨v0, hv0, hprove⟩ := opt_step hprove
  obtain ⟨v2L, hv2L, hprove⟩ := opt_step hprove
  obtain ⟨x1, e1, hprove⟩ := opt_step hprove
  obtain ⟨x2, e2, hprove⟩ := opt_step hprove
  obtain ⟨vS, hvS, hprove⟩ := opt_step hprove
  obtain ⟨x3, e3, hprove⟩ := opt_step hprove
  obtain ⟨aS, haS, hprove⟩ := opt_step hprove
  obtain ⟨x4, e4, hprove⟩ := opt_step hprove
  obtain ⟨x5, e5, hprove⟩ := opt_step hprove
  obtain ⟨hS, hhS, hprove⟩ := opt_step hprove
  obtain ⟨x6, e6, hprove⟩ := opt_step hprove
  obtain ⟨x7, e7, hprove⟩ := opt_step hprove
  obtain ⟨v2S, hv2S, hfin⟩ := opt_step hprove
  obtain rfl := Option.some.inj (s1.symm.trans e1)
  obtain rfl := Option.some.inj (s5.symm.trans e2)
  obtain rfl := Option.some.inj (s6.symm.trans e3)
  obtain rfl := Option.some.inj (s4.symm.trans e4)
  obtain rfl := Option.some.inj (s3.symm.trans e5)
  obtain rfl := Option.some.inj (s7.symm.trans e6)
  obtain rfl := Option.some.inj (s2.symm.trans e7)
  rw [lq1, i1] at hvL
  rw [lq2, i1] at haL
  rw [lq4, i2] at hv2L
  rw [Option.pure_def, Option.some.injEq] at hfin
  subst hfin
  have r1 := multiexp_snoc _ w d _ _ _ lq1 hvL hvS
  have r2 := multiexp_snoc _ w d _ _ _ lq2 haL haS
  have r3 := multiexp_snoc _ (1 :: (p ++ w)) d _ _ _ lq4 hv2L (multiexp_cons' _ 1 _ _ _ (by
    rw [List.getElem?_take_of_lt (by omega)]; exact hv0) hv2S)
  refine ⟨?_, ?_, ?_, ?_⟩
  · simp only [UscsCoeffs1.combine, r1, z2, z3, z4, Option.bind_eq_bind, Option.bind_some, Option.pure_def]
    congr 1
    module
  · simp only [UscsCoeffs1.combine, r2, z1, z3, z4, Option.bind_eq_bind, Option.bind_some, Option.pure_def]
    congr 1
    module
  · simp only [UscsCoeffs1.combine, hhS, z1, z2, z4, Option.bind_eq_bind, Option.bind_some, Option.pure_def]
    congr 1
    module
  · simp only [UscsCoeffs2.combine, r3, Option.bind_eq_bind, Option.bind_some, Option.pure_def]
    congr 1
    module

/-- **C91** (the honest prover is such a prover): for each of its random choices there are coefficients that
reproduce its proof under all keys, and the ones from which `C91_knowledge_soundness_partial` reads the
witness are the auxiliary input. -/
theorem C91_honest_prover_is_linear (P : Pairing F G1 G2 GT) (hD : D.Lawful) (cs : USCS F)
    (hr : cs.WellRanged) (hm : cs.numConstraints ≤ D.m) (hm0 : 0 < D.m)
    (p w : List F) (hp : p.length = cs.primaryInputSize) (hw : w.length = cs.auxiliaryInputSize)
    (hsat : cs.isSatisfied p w = some true) (d : F) :
    ∃ (V A H : UscsCoeffs1 F) (B : UscsCoeffs2 F), A.alphaV.take cs.auxiliaryInputSize = w ∧
      ∀ (t alpha tilde : F) (pk : UscsPK F G1 G2) (vk : UscsVK G1 G2) (π : UscsProof G1 G2),
        uscsGenerate P D cs t alpha tilde = some (pk, vk) → uscsProve D pk p w d = some π →
        V.combine P.one1 pk vk = some π.vG1 ∧ A.combine P.one1 pk vk = some π.alphaVG1 ∧
          H.combine P.one1 pk vk = some π.hG1 ∧ B.combine P.one2 pk vk = some π.vG2 := by
  have hfull : (p ++ w).length = cs.numVariables := by simp [hp, hw, USCS.numVariables]
  have hs := (uscs_isSatisfied cs hr p w (by rw [← List.length_append, hfull])).1.1 hsat
  obtain ⟨H, eW, lH, -⟩ := USCS.sspWitness_spec hD cs hr p w hp hw hm hm0 hs d
  set nv := cs.numVariables with hnv0
  set ni := cs.numInputs with hni0
  have hle : ni ≤ nv := by simp [hni0, hnv0, USCS.numVariables, USCS.numInputs]
  have hpi : p.length = ni := hp
  have hwl : w.length = nv - ni := by simp at hfull; omega
  refine ⟨⟨0, w ++ [d], List.replicate (nv - ni + 1) 0, List.replicate (D.m + 1) 0, 0, List.replicate ni 0⟩,
    ⟨0, List.replicate (nv - ni + 1) 0, w ++ [d], List.replicate (D.m + 1) 0, 0, List.replicate ni 0⟩,
    ⟨0, List.replicate (nv - ni + 1) 0, List.replicate (nv - ni + 1) 0, H, 0, List.replicate ni 0⟩,
    ⟨0, 1 :: (p ++ w) ++ [d], 0, 0, 0⟩, ?_, ?_⟩
  · simp only
    rw [← hw, List.take_left]
  intro t alpha tilde pk vk π hgen hprove
  obtain ⟨qi, q, -, hq, -, n1, n2, n3, n4, lV, eH, eZ, dV⟩ := USCS.sspEval_spec hD cs hr hm t
  have lHt : q.Ht.length = q.degree + 1 := by rw [eH, length_powersFrom, n2]
  rw [uscsGenerate_eq P D cs t alpha tilde q hq nv ni n1 n3 hle lV lHt] at hgen
  split at hgen
  swap
  · simp at hgen
  obtain ⟨rfl, rfl⟩ := Prod.mk.inj (Option.some.inj hgen)
  have ld : (q.Vt.drop (ni + 1) ++ [q.Zt]).length = nv - ni + 1 := by
    rw [List.length_append, List.length_drop, lV]; simp; omega
  have lt : ((q.Vt.take (ni + 1)).drop 1).length = ni := by
    rw [List.length_drop, List.length_take, lV]; omega
  exact uscs_honest_combine _ _ _ _ p w H d π nv ni D.m hle hpi hwl lH eW
    (by rw [batchExp, List.length_map, ld]) (by rw [batchExpWithCoeff, List.length_map, ld])
    (by simp only [batchExp, List.length_map]; rw [lHt, n2])
    (by simp only [batchExp, List.length_map, List.length_append, lV]; rfl)
    (by rw [batchExp, List.length_map, lt]) hprove

section Examples

/-- two bits, the first public -/
def exBits97 : USCS (ZMod 97) := ⟨1, 1, [[⟨0, -1⟩, ⟨1, 2⟩], [⟨0, -1⟩, ⟨2, 2⟩]]⟩

theorem exBits97_ok : exBits97.WellRanged := by
  intro k hk
  simp only [exBits97, List.mem_cons, List.not_mem_nil, or_false] at hk
  rcases hk with rfl | rfl <;>
  · intro t ht
    simp only [List.mem_cons, List.not_mem_nil, or_false] at ht
    rcases ht with rfl | rfl <;> decide

set_option maxRecDepth 20000 in
/-- the hypotheses of `C91_knowledge_soundness_partial` are met: the honest prover for the bits `1`, `0`, and all
secrets for which there are keys -/
example : ∃ (V A H : UscsCoeffs1 (ZMod 97)) (B : UscsCoeffs2 (ZMod 97))
    (accepting : Finset (ZMod 97 × (Fin 2 → ZMod 97))),
    (∀ z ∈ accepting, ∃ pk vk gV gA gH gB,
      uscsGenerate exPairing97 (EvalDomain.ofPoints 4 (fun i => ((i + 1 : Nat) : ZMod 97)) 10) exBits97
        z.1 (z.2 0) (z.2 1) = some (pk, vk) ∧
      V.combine 1 pk vk = some gV ∧ A.combine 1 pk vk = some gA ∧ H.combine 1 pk vk = some gH ∧
      B.combine 1 pk vk = some gB ∧ uscsVerifyWeak exPairing97 vk [1] ⟨gV, gA, gH, gB⟩ = some true) ∧
    (2 * 4 + 3) * Fintype.card (ZMod 97) ^ 2 < accepting.card ∧ A.alphaV.take 1 = [0] := by
  obtain ⟨V, A, H, B, hw, hH⟩ := C91_honest_prover_is_linear exPairing97 exDom97 exBits97 exBits97_ok
    (by decide) (by decide) [1] [0] rfl rfl (by decide +kernel) 5
  let bad : (Fin 2 → ZMod 97) → Finset (ZMod 97) := fun x => Finset.univ.filter fun t =>
    uscsGenerate exPairing97 (EvalDomain.ofPoints 4 (fun i => ((i + 1 : Nat) : ZMod 97)) 10) exBits97
      t (x 0) (x 1) = none
  have hbad : ∀ x, (bad x).card ≤ 6 := fun x =>
    C53_generator_defined exPairing97 exDom97 exBits97 exBits97_ok (by decide) (by decide) (by
      intro i hi
      have : i = 0 ∨ i = 1 := by simp [exBits97, USCS.numInputs] at hi; omega
      rcases this with rfl | rfl
      · exact Or.inr ⟨rfl, by decide⟩
      · exact Or.inl ⟨[⟨0, -1⟩, ⟨1, 2⟩], by simp [exBits97], by decide +kernel⟩) (x 0) (x 1) (bad x)
      (fun t ht => (Finset.mem_filter.1 ht).2)
  refine ⟨V, A, H, B, Finset.univ.filter (fun z : ZMod 97 × (Fin 2 → ZMod 97) => z.1 ∉ bad z.2), fun z hz => ?_, ?_, hw⟩
  · have hz' : z.1 ∉ bad z.2 := (Finset.mem_filter.1 hz).2
    rw [Finset.mem_filter, not_and] at hz'
    obtain ⟨⟨pk, vk⟩, hg⟩ := Option.ne_none_iff_exists'.1 (hz' (Finset.mem_univ _))
    obtain ⟨π, hpr, -, hv⟩ := C53_uscs_complete exPairing97 exDom97 exBits97 exBits97_ok (by decide) (by decide)
      z.1 (z.2 0) (z.2 1) (fun _ => rfl) (fun _ => rfl) pk vk hg [1] [0] rfl rfl (by decide +kernel) 5
    obtain ⟨e1, e2, e3, e4⟩ := hH _ _ _ pk vk π hg hpr
    exact ⟨pk, vk, _, _, _, _, hg, e1, e2, e3, e4, hv⟩
  · have h1 : (Finset.univ.filter (fun z : ZMod 97 × (Fin 2 → ZMod 97) => z.1 ∉ bad z.2)).card =
        ∑ x : Fin 2 → ZMod 97, (97 - (bad x).card) := by
      rw [Finset.card_filter, Fintype.sum_prod_type_right]
      refine Finset.sum_congr rfl fun x _ => ?_
      rw [← Finset.card_filter]
      show (Finset.univ.filter fun i => ¬ i ∈ bad x).card = _
      rw [Finset.filter_not, Finset.filter_mem_eq_inter, Finset.univ_inter,
        ← Finset.compl_eq_univ_sdiff, Finset.card_compl, ZMod.card]
    rw [h1]
    calc (2 * 4 + 3) * Fintype.card (ZMod 97) ^ 2 < ∑ x : Fin 2 → ZMod 97, 91 := by
          rw [Finset.sum_const, Finset.card_univ, Fintype.card_fun, ZMod.card, Fintype.card_fin]
          norm_num
      _ ≤ _ := Finset.sum_le_sum fun x _ => by have := hbad x; omega

end Examples

end Crypto3Zk
