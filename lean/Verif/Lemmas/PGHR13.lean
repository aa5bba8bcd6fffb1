import Verif.Model.PGHR13
import Verif.Lemmas.Groth16

/-! # Lemmas for PGHR13 -/

set_option linter.unusedSectionVars false

namespace Crypto3Zk

open Finset

variable {F : Type} [Field F] [DecidableEq F]
variable {G1 G2 GT : Type} [AddCommGroup G1] [Module F G1] [AddCommGroup G2] [Module F G2]
  [AddCommGroup GT] [Module F GT]

/-- the loop that zeroes the prefix -/
theorem pghr13Prefix_fold (L : List F) (k : Nat) (hk : k ≤ L.length)
    (h : ∀ i < k, L.getD i 0 ≠ 0) :
    (List.range k).foldlM pghr13Prefix (L, []) = some (List.replicate k 0 ++ L.drop k, L.take k) := by
  induction k with
  | zero => simp
  | succ k ih =>
    rw [List.range_succ, List.foldlM_append, ih (by omega) (fun i hi => h i (by omega))]
    have hlt : k < L.length := by omega
    have h0 := h k (by omega)
    rw [List.getD_eq_getElem _ _ hlt] at h0
    have e1 : (List.replicate k (0 : F) ++ L.drop k)[k]? = some L[k] := by
      rw [List.getElem?_append_right (by simp)]
      simp [hlt]
    have e2 : (List.replicate k (0 : F) ++ L.drop k).set k 0
        = List.replicate (k + 1) 0 ++ L.drop (k + 1) := by
      rw [List.set_append_right _ _ (by simp), List.length_replicate, Nat.sub_self,
        List.drop_eq_getElem_cons hlt, List.set_cons_zero, List.replicate_succ',
        List.append_assoc]
      rfl
    simp [pghr13Prefix, e1, guard, h0, e2, List.take_append_getElem hlt]

theorem pghr13Prefix_fail (L : List F) (k i : Nat) (hi : i < k) (h : L.getD i 0 = 0) :
    (List.range k).foldlM pghr13Prefix (L, []) = none := by
  -- an entry is only ever replaced by zero, so reading it fails the assertion
  have key : ∀ (l : List Nat) (A ic : List F), i ∈ l → A.getD i 0 = 0 →
      l.foldlM pghr13Prefix (A, ic) = none := by
    intro l
    induction l with
    | nil => simp
    | cons j l ih =>
      intro A ic hm hA
      rw [List.foldlM_cons]
      by_cases hj : j = i
      · subst hj
        simp only [pghr13Prefix, Option.bind_eq_bind]
        cases hg : A[j]? with
        | none => simp
        | some a =>
          have : a = 0 := by
            rw [List.getD_eq_getElem?_getD, hg] at hA; exact hA
          simp [guard, this]
      · have hm' : i ∈ l := by
          rcases List.mem_cons.1 hm with h | h
          · exact absurd h.symm hj
          · exact h
        simp only [pghr13Prefix, Option.bind_eq_bind]
        cases hg : A[j]? with
        | none => simp
        | some a =>
          by_cases ha : a = 0
          · simp [guard, ha]
          · simp only [Option.bind_some, guard, ha, ne_eq, not_false_eq_true, if_true,
              Option.pure_def]
            apply ih _ _ hm'
            rw [List.getD_eq_getElem?_getD, List.getElem?_set_ne hj, ← List.getD_eq_getElem?_getD, hA]
  exact key _ _ _ (List.mem_range.2 hi) h

/-- the inner product of the assignment with the entries after the first -/
theorem ip_split (v p w : List F) (h : p.length + w.length + 1 ≤ v.length) :
    innerProduct (p ++ w) (v.drop 1) = (∑ i ∈ range p.length, p.getD i 0 * v.getD (1 + i) 0)
      + ∑ i ∈ range w.length, w.getD i 0 * v.getD (p.length + 1 + i) 0 := by
  rw [innerProduct_eq_sum _ _ (by simp; omega), List.length_append, Finset.sum_range_add]
  congr 1
  · refine Finset.sum_congr rfl fun i hi => ?_
    rw [List.getD_append _ _ _ _ (by simpa using hi), add_comm 1 i]
    simp
  · refine Finset.sum_congr rfl fun i hi => ?_
    rw [List.getD_append_right _ _ _ _ (by omega), Nat.add_sub_cancel_left,
      show p.length + 1 + i = p.length + i + 1 by omega]
    simp

theorem innerProduct_take (xs ys : List F) : innerProduct xs (ys.take xs.length) = innerProduct xs ys := by
  induction xs generalizing ys with
  | nil => simp [innerProduct]
  | cons x xs ih =>
    cases ys with
    | nil => simp
    | cons y ys =>
      have := ih ys
      simp only [innerProduct] at this ⊢
      simp [this]

/-- a sparse multi-exponentiation over all variables, plus the constant and the blinding entries -/
theorem pghr13_side (g1 : G1) (g2 : G2) (c1 c2 : F) (v x : List F) (hv : v.length = x.length + 2)
    (d : F) (Q : KcVec (G1 × G2))
    (hQ : Q = ⟨v.length, (List.range v.length).flatMap (kcEntry g1 g2 c1 c2 v)⟩) :
    ∃ m, kcMultiexp Q 1 (1 + x.length) x (x.length + 1) = some m ∧
      Q.get 0 + d • Q.get (x.length + 1) + m =
        ((c1 * (v.getD 0 0 + d * v.getD (x.length + 1) 0 + innerProduct x (v.drop 1))) • g1,
         (c2 * (v.getD 0 0 + d * v.getD (x.length + 1) 0 + innerProduct x (v.drop 1))) • g2) := by
  have := kcMultiexp_batch g1 g2 c1 c2 v 1 1 (1 + x.length) (by omega) (by omega) x (by omega)
    (x.length + 1) (by omega) (by omega)
  rw [kcBatchExp_spec, Option.bind_some, ← hQ] at this
  refine ⟨_, this, ?_⟩
  rw [hQ, kcBatch_get _ _ _ _ _ _ (by omega), kcBatch_get _ _ _ _ _ _ (by omega)]
  simp only [Prod.smul_mk, Prod.mk_add_mk, smul_smul, ← add_smul]
  congr 2 <;> ring

theorem pghr13Generate_eq (P : Pairing F G1 G2 GT) (D : EvalDomain F) (cs cs' : R1CS F)
    (T : Pghr13Trapdoor F) (chunks : Nat) (hs : cs.swapABIfBeneficial = some cs')
    (q : QapEval F) (hq : cs'.qapEval D T.t = some q)
    (nv ni : Nat) (hnv : q.numVariables = nv) (hni : q.numInputs = ni) (hle : ni ≤ nv)
    (hA : q.At.length = nv + 1) (hB : q.Bt.length = nv + 1) (hC : q.Ct.length = nv + 1)
    (hnz : ∀ i < ni + 1, q.At.getD i 0 ≠ 0) :
    pghr13Generate P D cs T chunks = some (
      { aQuery := ⟨nv + 2, (List.range (nv + 2)).flatMap (kcEntry P.one1 P.one1 T.rA
          (T.rA * T.alphaA) (List.replicate (ni + 1) 0 ++ (q.At ++ [q.Zt]).drop (ni + 1)))⟩
        bQuery := ⟨nv + 2, (List.range (nv + 2)).flatMap (kcEntry P.one2 P.one1 T.rB
          (T.rB * T.alphaB) (q.Bt ++ [q.Zt]))⟩
        cQuery := ⟨nv + 2, (List.range (nv + 2)).flatMap (kcEntry P.one1 P.one1 (T.rA * T.rB)
          (T.rA * T.rB * T.alphaC) (q.Ct ++ [q.Zt]))⟩
        hQuery := batchExp P.one1 q.Ht
        kQuery := batchExp P.one1 ((List.range (nv + 1)).map (fun i =>
            T.beta * (T.rA * q.At.getD i 0 + T.rB * q.Bt.getD i 0 + T.rA * T.rB * q.Ct.getD i 0))
          ++ [T.beta * T.rA * q.Zt, T.beta * T.rB * q.Zt, T.beta * (T.rA * T.rB) * q.Zt])
        cs := cs' },
      { alphaAG2 := T.alphaA • P.one2
        alphaBG1 := T.alphaB • P.one1
        alphaCG2 := T.alphaC • P.one2
        gammaG2 := T.gamma • P.one2
        gammaBetaG1 := (T.gamma * T.beta) • P.one1
        gammaBetaG2 := (T.gamma * T.beta) • P.one2
        rCZG2 := (T.rA * T.rB * q.Zt) • P.one2
        encodedIC := ⟨(T.rA * q.At.getD 0 0) • P.one1,
          batchExp P.one1 ((List.range' 1 ni).map fun i => T.rA * q.At.getD i 0)⟩ }) := by
  have hget : ∀ (l : List F) i, l.length = nv + 1 → i < nv + 1 →
      (l ++ [q.Zt])[i]? = some (l.getD i 0) := by
    intro l i hl hi
    rw [List.getElem?_append_left (by omega), List.getElem?_eq_getElem (by omega),
      List.getD_eq_getElem _ _ (by omega)]
  have m1 : (List.range (nv + 1)).mapM (pghr13K T (T.rA * T.rB) (q.At ++ [q.Zt]) (q.Bt ++ [q.Zt])
      (q.Ct ++ [q.Zt])) = some ((List.range (nv + 1)).map (fun i =>
            T.beta * (T.rA * q.At.getD i 0 + T.rB * q.Bt.getD i 0 + T.rA * T.rB * q.Ct.getD i 0))) := by
    refine mapM_eq_some_map _ _ _ fun i hi => ?_
    have hi' := List.mem_range.1 hi
    simp only [pghr13K, hget _ i hA hi', hget _ i hB hi', hget _ i hC hi', Option.bind_eq_bind,
      Option.bind_some, Option.pure_def]
  have hpre := pghr13Prefix_fold (q.At ++ [q.Zt]) (ni + 1) (by simp; omega) (by
    intro i hi
    rw [List.getD_append _ _ _ _ (by omega)]
    exact hnz i hi)
  have htake : (q.At ++ [q.Zt]).take (ni + 1) = q.At.take (ni + 1) :=
    List.take_append_of_le_length (by omega)
  rw [htake] at hpre
  have hic : ∀ i < ni + 1, (q.At.take (ni + 1))[i]? = some (q.At.getD i 0) := by
    intro i hi
    rw [List.getElem?_take_of_lt hi, List.getElem?_eq_getElem (by omega),
      List.getD_eq_getElem _ _ (by omega)]
  have m2 : (List.range' 1 ni).mapM (fun i => (q.At.take (ni + 1))[i]?.bind fun c => some (T.rA * c))
      = some ((List.range' 1 ni).map fun i => T.rA * q.At.getD i 0) := by
    refine mapM_eq_some_map _ _ _ fun i hi => ?_
    rw [List.mem_range'_1] at hi
    simp only [hic i (by omega), Option.bind_some]
  have l1 : (List.replicate (ni + 1) 0 ++ (q.At ++ [q.Zt]).drop (ni + 1)).length = nv + 2 := by
    simp; omega
  have l2 : (q.Bt ++ [q.Zt]).length = nv + 2 := by simp [hB]
  have l3 : (q.Ct ++ [q.Zt]).length = nv + 2 := by simp [hC]
  simp only [pghr13Generate, hs, Option.bind_eq_bind, Option.bind_some, hq, hni, hnv, m1, hpre,
    kcBatchExp_spec, l1, l2, l3, hic 0 (by omega), Option.pure_def, m2]

/-- if one of the first coefficients vanishes at `t` the assertion fails -/
theorem pghr13Generate_none (P : Pairing F G1 G2 GT) (D : EvalDomain F) (cs cs' : R1CS F)
    (T : Pghr13Trapdoor F) (chunks : Nat) (hs : cs.swapABIfBeneficial = some cs')
    (q : QapEval F) (hq : cs'.qapEval D T.t = some q) (i : Nat) (hi : i < q.numInputs + 1)
    (hA : i < q.At.length) (h0 : q.At.getD i 0 = 0) :
    pghr13Generate P D cs T chunks = none := by
  have hpre := pghr13Prefix_fail (q.At ++ [q.Zt]) (q.numInputs + 1) i hi
    (by rw [List.getD_append _ _ _ _ hA, h0])
  simp only [pghr13Generate, hs, Option.bind_eq_bind, Option.bind_some, hq, hpre, Option.bind_none]
  cases (List.range (q.numVariables + 1)).mapM (pghr13K T (T.rA * T.rB) (q.At ++ [q.Zt])
    (q.Bt ++ [q.Zt]) (q.Ct ++ [q.Zt])) <;> rfl

/-- running the prover, step by step -/
theorem pghr13Prove_exec (D : EvalDomain F) (pk : Pghr13PK F G1 G2) (p w : List F) (d1 d2 d3 : F)
    (nv m ni : Nat) (x H : List F)
    (eW : pk.cs.qapWitness D p w d1 d2 d3 = some ⟨nv, m, ni, d1, d2, d3, x, H⟩)
    (k0 k1 k2 k3 mH mK : G1) (mA mC : G1 × G1) (mB : G2 × G1) (kB : List G1)
    (e0 : pk.kQuery[0]? = some k0) (e1 : pk.kQuery[nv + 1]? = some k1)
    (e2 : pk.kQuery[nv + 2]? = some k2) (e3 : pk.kQuery[nv + 3]? = some k3)
    (eA : kcMultiexp pk.aQuery 1 (1 + nv) x (nv + 1) = some mA)
    (eB : kcMultiexp pk.bQuery 1 (1 + nv) x (nv + 1) = some mB)
    (eC : kcMultiexp pk.cQuery 1 (1 + nv) x (nv + 1) = some mC)
    (lHq : pk.hQuery.length = m + 1) (lH : H.length = m + 1)
    (eH : multiexp pk.hQuery H = some mH)
    (eS : slice pk.kQuery 1 (1 + nv) = some kB) (lx : x.length = nv)
    (eK : multiexp kB x = some mK) :
    pghr13Prove D pk p w d1 d2 d3 = some
      ⟨pk.aQuery.get 0 + d1 • pk.aQuery.get (nv + 1) + mA,
       pk.bQuery.get 0 + d2 • pk.bQuery.get (nv + 1) + mB,
       pk.cQuery.get 0 + d3 • pk.cQuery.get (nv + 1) + mC,
       mH, k0 + d1 • k1 + d2 • k2 + d3 • k3 + mK⟩ := by
  have sHq := slice_all _ _ lHq
  have sH := slice_all _ _ lH
  have sx := slice_all _ _ lx
  unfold pghr13Prove
  rw [eW, Option.bind_eq_bind, Option.bind_some]
  dsimp only
  simp only [Option.bind_eq_bind]
  rw [e0, Option.bind_some, e1, Option.bind_some, e2, Option.bind_some, e3, Option.bind_some, eA,
    Option.bind_some, eB, Option.bind_some, eC, Option.bind_some, sHq, Option.bind_some, sH,
    Option.bind_some, eH, Option.bind_some, eS, Option.bind_some, sx, Option.bind_some, eK,
    Option.bind_some, zero_add]
  rfl

set_option maxHeartbeats 1000000 in
/-- the exponents of an honest proof -/
theorem pghr13Prove_eq (P : Pairing F G1 G2 GT) {D : EvalDomain F} (hD : D.Lawful) (cs cs' : R1CS F)
    (hr : cs.WellRanged) (hm : cs.numConstraints + cs.numInputs + 1 ≤ D.m)
    (T : Pghr13Trapdoor F) (chunks : Nat) (hcs' : cs.swapABIfBeneficial = some cs')
    (q : QapEval F) (hq : cs'.qapEval D T.t = some q)
    (hnz : ∀ i < cs.numInputs + 1, q.At.getD i 0 ≠ 0) :
    ∃ pk vk, pghr13Generate P D cs T chunks = some (pk, vk) ∧
      ∃ a : List F → F, (∀ p : List F, p.length = cs.primaryInputSize →
          vk.encodedIC.accumulate p = some ((T.rA * a p) • P.one1)) ∧
        vk.encodedIC.domainSize = cs.primaryInputSize ∧
        vk.alphaAG2 = T.alphaA • P.one2 ∧ vk.alphaBG1 = T.alphaB • P.one1 ∧
        vk.alphaCG2 = T.alphaC • P.one2 ∧ vk.gammaG2 = T.gamma • P.one2 ∧
        vk.gammaBetaG1 = (T.gamma * T.beta) • P.one1 ∧
        vk.gammaBetaG2 = (T.gamma * T.beta) • P.one2 ∧
        vk.rCZG2 = (T.rA * T.rB * D.vanishing T.t) • P.one2 ∧
        ∀ p w : List F, p.length = cs.primaryInputSize → w.length = cs.auxiliaryInputSize →
          cs.isSatisfied p w = some true → ∃ sA sB sC : F, ∀ d1 d2 d3, ∃ h : F,
            let A := sA + d1 * D.vanishing T.t
            let B := sB + d2 * D.vanishing T.t
            let C := sC + d3 * D.vanishing T.t
            A * B - C = h * D.vanishing T.t ∧
            pghr13Prove D pk p w d1 d2 d3 = some
              ⟨((T.rA * (A - a p)) • P.one1, (T.rA * T.alphaA * (A - a p)) • P.one1),
               ((T.rB * B) • P.one2, (T.rB * T.alphaB * B) • P.one1),
               ((T.rA * T.rB * C) • P.one1, (T.rA * T.rB * T.alphaC * C) • P.one1),
               h • P.one1, (T.beta * (T.rA * A + T.rB * B + T.rA * T.rB * C)) • P.one1⟩ := by
  obtain ⟨hp', hw', hr'⟩ := R1CS.swap_shape cs cs' hcs'
  obtain ⟨hsat', hni, hnv, hnc⟩ := C16_swap_preserves cs cs' hcs'
  have hm' : cs'.numConstraints + cs'.numInputs + 1 ≤ D.m := by rw [hnc, hni]; exact hm
  obtain ⟨qi, q', -, hq', -, n1, n2, n3, n4, lA, lB, lC, eH, eZ, dA, dB, dC⟩ :=
    R1CS.qapEval_spec hD cs' (hr' hr) hm' T.t
  obtain rfl : q = q' := Option.some.inj (hq.symm.trans hq')
  rw [← hni] at hnz
  set nv := cs'.numVariables with hnv0
  set ni := cs'.numInputs with hni0
  have hle : ni ≤ nv := by simp [hni0, hnv0, R1CS.numInputs, R1CS.numVariables]
  have hgen := pghr13Generate_eq P D cs cs' T chunks hcs' q hq nv ni n1 n3 hle lA lB lC hnz
  refine ⟨_, _, hgen, fun p => q.At.getD 0 0 +
    ∑ i ∈ range ni, p.getD i 0 * q.At.getD (1 + i) 0, ?_, ?_, rfl, rfl, rfl, rfl, rfl, rfl, ?_, ?_⟩
  · intro p hp
    have hpl : p.length = ni := by rw [hp, ← hp']; rfl
    rw [accumulate_batch _ _ _ _ (by simp [hpl]), innerProduct_eq_sum _ _ (by simp [hpl]), hpl]
    congr 2
    rw [mul_add, Finset.mul_sum]
    congr 1
    refine Finset.sum_congr rfl fun i hi => ?_
    have hi' : i < ni := by simpa using hi
    rw [List.getD_eq_getElem (List.map _ _) _ (by simpa using hi')]
    simp [mul_left_comm]
  · simp [AccVec.domainSize, batchExp, hni0, R1CS.numInputs, hp']
  · simp only [eZ]
  · intro p w hp hw hsat
    have hpl : p.length = cs'.primaryInputSize := by rw [hp, hp']
    have hwl : w.length = cs'.auxiliaryInputSize := by rw [hw, hw']
    have hfull : (p ++ w).length = nv := by simp [hpl, hwl, hnv0, R1CS.numVariables]
    have hsat2 : cs'.isSatisfied p w = some true := by rw [hsat', hsat]
    have hs := (C16_isSatisfied_iff cs' (hr' hr) p w
      (by rw [← List.length_append, hfull])).1.1 hsat2
    have hpi : p.length = ni := by rw [hpl]; rfl
    have hlen : p.length + w.length = nv := by rw [← List.length_append, hfull]
    refine ⟨dot q.At (envOf (p ++ w)), dot q.Bt (envOf (p ++ w)), dot q.Ct (envOf (p ++ w)),
      fun d1 d2 d3 => ?_⟩
    obtain ⟨H, eW, lH, eqH, -⟩ :=
      R1CS.qapWitness_spec hD cs' (hr' hr) p w hpl hwl hm' hs d1 d2 d3
    rw [← hnv0, ← hni0] at eW
    have hH := eqH T.t
    rw [← dA, ← dB, ← dC] at hH
    refine ⟨evalPoly H T.t, hH, ?_⟩
    -- the zeroed vector
    set vA := List.replicate (ni + 1) 0 ++ (q.At ++ [q.Zt]).drop (ni + 1) with hvA
    have lvA : vA.length = nv + 2 := by simp [hvA, lA]; omega
    have gA0 : ∀ i, i < ni + 1 → vA.getD i 0 = 0 := by
      intro i hi
      rw [hvA, List.getD_append _ _ _ _ (by simpa using hi), List.getD_replicate _ (by omega)]
    have gA1 : ∀ i, ni + 1 ≤ i → vA.getD i 0 = (q.At ++ [q.Zt]).getD i 0 := by
      intro i hi
      rw [hvA, List.getD_append_right _ _ _ _ (by simpa using hi), List.getD_eq_getElem?_getD,
        List.getD_eq_getElem?_getD, List.getElem?_drop, List.length_replicate]
      congr 2; omega
    have gZ : ∀ l : List F, l.length = nv + 1 → (l ++ [q.Zt]).getD (nv + 1) 0 = q.Zt := by
      intro l hl
      rw [List.getD_append_right _ _ _ _ (by omega), hl]; simp
    have gl : ∀ (l : List F) i, l.length = nv + 1 → i < nv + 1 →
        (l ++ [q.Zt]).getD i 0 = l.getD i 0 := by
      intro l i hl hi
      rw [List.getD_append _ _ _ _ (by omega)]
    have lB' : (q.Bt ++ [q.Zt]).length = nv + 2 := by simp [lB]
    have lC' : (q.Ct ++ [q.Zt]).length = nv + 2 := by simp [lC]
    obtain ⟨mA, eA, sA⟩ := pghr13_side P.one1 P.one1 T.rA (T.rA * T.alphaA) vA (p ++ w)
      (by rw [lvA, hfull]) d1 _ rfl
    obtain ⟨mB, eB, sB⟩ := pghr13_side P.one2 P.one1 T.rB (T.rB * T.alphaB) (q.Bt ++ [q.Zt]) (p ++ w)
      (by rw [lB', hfull]) d2 _ rfl
    obtain ⟨mC, eC, sC⟩ := pghr13_side P.one1 P.one1 (T.rA * T.rB) (T.rA * T.rB * T.alphaC)
      (q.Ct ++ [q.Zt]) (p ++ w) (by rw [lC', hfull]) d3 _ rfl
    rw [lvA, hfull] at eA sA
    rw [lB', hfull] at eB sB
    rw [lC', hfull] at eC sC
    -- the sums
    have full : ∀ l : List F, l.length = nv + 1 →
        (l ++ [q.Zt]).getD 0 0 + innerProduct (p ++ w) ((l ++ [q.Zt]).drop 1)
          = dot l (envOf (p ++ w)) := by
      intro l hl
      rw [ip_split _ _ _ (by simp [hl]; omega), dot_split l p w (by omega), gl l 0 hl (by omega),
        ← add_assoc]
      congr 1
      · congr 1
        refine Finset.sum_congr rfl fun i hi => ?_
        rw [gl l _ hl (by have := Finset.mem_range.1 hi; omega)]
      · refine Finset.sum_congr rfl fun i hi => ?_
        rw [gl l _ hl (by have := Finset.mem_range.1 hi; omega)]
    have fullA : vA.getD 0 0 + innerProduct (p ++ w) (vA.drop 1)
        = dot q.At (envOf (p ++ w)) - (q.At.getD 0 0 +
          ∑ i ∈ range ni, p.getD i 0 * q.At.getD (1 + i) 0) := by
      rw [ip_split _ _ _ (by omega), dot_split q.At p w (by omega), gA0 0 (by omega), hpi]
      have z : ∑ i ∈ range ni, p.getD i 0 * vA.getD (1 + i) 0 = 0 := by
        refine Finset.sum_eq_zero fun i hi => ?_
        rw [gA0 _ (by have := Finset.mem_range.1 hi; omega), mul_zero]
      have z' : ∑ i ∈ range w.length, w.getD i 0 * vA.getD (ni + 1 + i) 0
          = ∑ i ∈ range w.length, w.getD i 0 * q.At.getD (ni + 1 + i) 0 := by
        refine Finset.sum_congr rfl fun i hi => ?_
        have := Finset.mem_range.1 hi
        rw [gA1 _ (by omega), gl _ _ lA (by omega)]
      rw [z, z']; ring
    have zA : vA.getD (nv + 1) 0 = q.Zt := by rw [gA1 _ (by omega), gZ _ lA]
    -- the same-coefficient query
    set Kt := (List.range (nv + 1)).map (fun i => T.beta * (T.rA * q.At.getD i 0
        + T.rB * q.Bt.getD i 0 + T.rA * T.rB * q.Ct.getD i 0))
      ++ [T.beta * T.rA * q.Zt, T.beta * T.rB * q.Zt, T.beta * (T.rA * T.rB) * q.Zt] with hKt
    have lKt : Kt.length = nv + 4 := by simp [hKt]
    have gK : ∀ i < nv + 1, Kt.getD i 0 = T.beta * (T.rA * q.At.getD i 0
        + T.rB * q.Bt.getD i 0 + T.rA * T.rB * q.Ct.getD i 0) := by
      intro i hi
      rw [hKt, List.getD_append _ _ _ _ (by simpa using hi), List.getD_eq_getElem _ _ (by simpa using hi)]
      simp
    have k0 : (batchExp P.one1 Kt)[0]? = some ((T.beta * (T.rA * q.At.getD 0 0
        + T.rB * q.Bt.getD 0 0 + T.rA * T.rB * q.Ct.getD 0 0)) • P.one1) := by
      rw [batchExp, List.getElem?_map, List.getElem?_eq_getElem (by omega), Option.map_some,
        ← List.getD_eq_getElem _ 0, gK 0 (by omega)]
    have kz : ∀ j, j < 3 → (batchExp P.one1 Kt)[nv + 1 + j]? = some
        (([T.beta * T.rA * q.Zt, T.beta * T.rB * q.Zt, T.beta * (T.rA * T.rB) * q.Zt].getD j 0) •
          P.one1) := by
      intro j hj
      rw [batchExp, List.getElem?_map, hKt, List.getElem?_append_right (by simp),
        List.length_map, List.length_range, Nat.add_sub_cancel_left,
        List.getElem?_eq_getElem (by simpa using hj), Option.map_some, List.getD_eq_getElem]
    have slK : slice (batchExp P.one1 Kt) 1 (1 + nv) = some (batchExp P.one1 ((Kt.drop 1).take nv)) := by
      rw [slice_eq _ _ _ (by omega) (by simp [batchExp]; omega), batchExp, batchExp, List.map_take,
        List.map_drop, Nat.add_sub_cancel_left]
    have eK : multiexp (batchExp P.one1 ((Kt.drop 1).take nv)) (p ++ w)
        = some (innerProduct (p ++ w) (Kt.drop 1) • P.one1) := by
      rw [multiexp_batchExp _ _ _ (by rw [hfull]; simp [lKt])]
      have := innerProduct_take (p ++ w) (Kt.drop 1)
      rw [hfull] at this
      rw [this]
    have sumK : Kt.getD 0 0 + innerProduct (p ++ w) (Kt.drop 1)
        = T.beta * (T.rA * dot q.At (envOf (p ++ w)) + T.rB * dot q.Bt (envOf (p ++ w))
          + T.rA * T.rB * dot q.Ct (envOf (p ++ w))) := by
      rw [ip_split _ _ _ (by omega), dot_split q.At p w (by omega), dot_split q.Bt p w (by omega),
        dot_split q.Ct p w (by omega), gK 0 (by omega)]
      have e1 : ∀ (n : Nat) (x : Nat → F) (f : Nat → Nat), (∀ i < n, f i < nv + 1) →
          ∑ i ∈ range n, x i * Kt.getD (f i) 0
            = T.beta * (T.rA * (∑ i ∈ range n, x i * q.At.getD (f i) 0)
              + T.rB * (∑ i ∈ range n, x i * q.Bt.getD (f i) 0)
              + T.rA * T.rB * (∑ i ∈ range n, x i * q.Ct.getD (f i) 0)) := by
        intro n x f hf
        rw [Finset.mul_sum, Finset.mul_sum, Finset.mul_sum, ← Finset.sum_add_distrib,
          ← Finset.sum_add_distrib, Finset.mul_sum]
        refine Finset.sum_congr rfl fun i hi => ?_
        rw [gK _ (hf i (Finset.mem_range.1 hi))]
        ring
      rw [e1 p.length (fun i => p.getD i 0) (fun i => 1 + i) (fun i hi => by omega),
        e1 w.length (fun i => w.getD i 0) (fun i => p.length + 1 + i) (fun i hi => by omega)]
      ring
    have eHm : multiexp (batchExp P.one1 q.Ht) H = some (evalPoly H T.t • P.one1) := by
      rw [multiexp_batchExp _ _ _ (by rw [eH, length_powersFrom, lH])]
      rw [← innerProduct_powers T.t H (D.m + 1) lH, ← eH, innerProduct, innerProduct,
        List.zipWith_comm]
      simp only [mul_comm]
    have kz0 := kz 0 (by omega)
    have kz1 := kz 1 (by omega)
    have kz2 := kz 2 (by omega)
    simp only [Nat.add_zero, Nat.add_assoc, Nat.reduceAdd, List.getD_cons_zero,
      List.getD_cons_succ] at kz0 kz1 kz2
    rw [pghr13Prove_exec D _ p w d1 d2 d3 nv D.m ni (p ++ w) H eW _ _ _ _ _ _ mA mC mB _ k0 kz0 kz1
      kz2 eA eB eC (by simp [batchExp, eH, length_powersFrom]) lH eHm slK hfull eK]
    simp only [sA, sB, sC]
    congr 2
    · rw [zA, add_right_comm, fullA, eZ]
      congr 2 <;> ring
    · rw [gZ _ lB, add_right_comm, full _ lB, eZ]
    · rw [gZ _ lC, add_right_comm, full _ lC, eZ]
    · rw [gK 0 (by omega)] at sumK
      simp only [smul_smul, ← add_smul]
      congr 1
      rw [eZ]
      linear_combination sumK

end Crypto3Zk
