import Verif.Model.AdSnark
import Verif.Lemmas.PGHR13

/-! # Lemmas for the argument on authenticated data -/

set_option linter.unusedSectionVars false

namespace Crypto3Zk

open Finset

variable {F : Type} [Field F] [DecidableEq F]
variable {G1 G2 GT : Type} [AddCommGroup G1] [Module F G1] [AddCommGroup G2] [Module F G2]
  [AddCommGroup GT] [Module F GT]
variable {Label Seed SK VK Sig : Type}

theorem adGenerate_eq (P : Pairing F G1 G2 GT) (D : EvalDomain F) (cs cs' : R1CS F)
    (prms : AdPubParams G1) (T : Pghr13Trapdoor F) (chunks : Nat)
    (hs : cs.swapABIfBeneficial = some cs')
    (q : QapEval F) (hq : cs'.qapEval D T.t = some q)
    (nv ni : Nat) (hnv : q.numVariables = nv) (hni : q.numInputs = ni) (hle : ni ≤ nv)
    (hA : q.At.length = nv + 1) (hB : q.Bt.length = nv + 1) (hC : q.Ct.length = nv + 1) :
    adGenerate P D cs prms T chunks = some (
      { aQuery := ⟨nv + 2, (List.range (nv + 2)).flatMap (kcEntry P.one1 P.one1 T.rA
          (T.rA * T.alphaA) (q.At ++ [q.Zt]))⟩
        bQuery := ⟨nv + 2, (List.range (nv + 2)).flatMap (kcEntry P.one2 P.one1 T.rB
          (T.rB * T.alphaB) (q.Bt ++ [q.Zt]))⟩
        cQuery := ⟨nv + 2, (List.range (nv + 2)).flatMap (kcEntry P.one1 P.one1 (T.rA * T.rB)
          (T.rA * T.rB * T.alphaC) (q.Ct ++ [q.Zt]))⟩
        hQuery := batchExp P.one1 q.Ht
        kQuery := batchExp P.one1 ((List.range (nv + 1)).map (fun i =>
            T.beta * (T.rA * q.At.getD i 0 + T.rB * q.Bt.getD i 0 + T.rA * T.rB * q.Ct.getD i 0))
          ++ [T.beta * T.rA * q.Zt, T.beta * T.rB * q.Zt, T.beta * (T.rA * T.rB) * q.Zt])
        rAiZG1 := (T.rA * q.Zt) • prms.I1
        cs := cs' },
      { alphaAG2 := T.alphaA • P.one2
        alphaBG1 := T.alphaB • P.one1
        alphaCG2 := T.alphaC • P.one2
        gammaG2 := T.gamma • P.one2
        gammaBetaG1 := (T.gamma * T.beta) • P.one1
        gammaBetaG2 := (T.gamma * T.beta) • P.one2
        rCZG2 := (T.rA * T.rB * q.Zt) • P.one2
        A0 := (T.rA * q.At.getD 0 0) • P.one1
        Ain := (List.range ni).map fun i => (T.rA * q.At.getD (1 + i) 0) • P.one1 }) := by
  have hget : ∀ (l : List F) i, l.length = nv + 1 → i < nv + 1 →
      (l ++ [q.Zt])[i]? = some (l.getD i 0) := by
    intro l i hl hi
    rw [List.getElem?_append_left (by omega), List.getElem?_eq_getElem (by omega),
      List.getD_eq_getElem _ _ (by omega)]
  have m1 : (List.range (nv + 1)).mapM (pghr13K T (T.rA * T.rB) (q.At ++ [q.Zt]) (q.Bt ++ [q.Zt])
      (q.Ct ++ [q.Zt])) = some ((List.range (nv + 1)).map (fun i =>
            T.beta * (T.rA * q.At.getD i 0 + T.rB * q.Bt.getD i 0 + T.rA * T.rB * q.Ct.getD i 0))) := by
    refine mapM_eq_some_map _ _ _ fun i hi => ?_
    have hi' := List.mem_range.1 hi
    simp only [pghr13K, hget _ i hA hi', hget _ i hB hi', hget _ i hC hi', Option.bind_eq_bind,
      Option.bind_some, Option.pure_def]
  have l1 : (q.At ++ [q.Zt]).length = nv + 2 := by simp [hA]
  have l2 : (q.Bt ++ [q.Zt]).length = nv + 2 := by simp [hB]
  have l3 : (q.Ct ++ [q.Zt]).length = nv + 2 := by simp [hC]
  have hg : ∀ i < nv + 1, ((⟨nv + 2, (List.range (nv + 2)).flatMap (kcEntry P.one1 P.one1 T.rA
          (T.rA * T.alphaA) (q.At ++ [q.Zt]))⟩ : KcVec (G1 × G1)).get i).1
        = (T.rA * q.At.getD i 0) • P.one1 := by
    intro i hi
    have := kcBatch_get P.one1 P.one1 T.rA (T.rA * T.alphaA) (q.At ++ [q.Zt]) i (by omega)
    rw [l1] at this
    rw [this, List.getD_append _ _ _ _ (by omega)]
  simp only [adGenerate, hs, Option.bind_eq_bind, Option.bind_some, hq, hni, hnv, m1,
    kcBatchExp_spec, l1, l2, l3, Option.pure_def, hg 0 (by omega)]
  congr 3
  refine List.map_congr_left fun i hi => ?_
  have := List.mem_range.1 hi
  exact hg (1 + i) (by omega)

/-- running the prover, step by step -/
theorem adProve_exec (D : EvalDomain F) (pk : AdPK F G1 G2) (p w : List F)
    (auth : List (AdAuthData F G2 Sig)) (d1 d2 d3 da : F)
    (nv m ni : Nat) (x H sAux sIn : List F)
    (eW : pk.cs.qapWitness D p w (d1 + da) d2 d3 = some ⟨nv, m, ni, d1 + da, d2, d3, x, H⟩)
    (k0 k1 k2 k3 mH mK mu : G1) (mA mAin mC : G1 × G1) (mB : G2 × G1) (kB : List G1)
    (e0 : pk.kQuery[0]? = some k0) (e1 : pk.kQuery[nv + 1]? = some k1)
    (e2 : pk.kQuery[nv + 2]? = some k2) (e3 : pk.kQuery[nv + 3]? = some k3)
    (s1 : slice x ni nv = some sAux) (s2 : slice x 0 ni = some sIn)
    (eA : kcMultiexp pk.aQuery (1 + ni) (1 + nv) sAux sAux.length = some mA)
    (eAin : kcMultiexp pk.aQuery 1 (1 + ni) sIn sIn.length = some mAin)
    (eB : kcMultiexp pk.bQuery 1 (1 + nv) x x.length = some mB)
    (eC : kcMultiexp pk.cQuery 1 (1 + nv) x x.length = some mC)
    (lHq : pk.hQuery.length = m + 1) (lH : H.length = m + 1)
    (eH : multiexp pk.hQuery H = some mH)
    (eS : slice pk.kQuery 1 (1 + nv) = some kB) (lx : x.length = nv)
    (eK : multiexp kB x = some mK) (eMu : adMuA pk ni auth da = some mu) :
    adProve D pk p w auth d1 d2 d3 da = some
      ⟨d1 • pk.aQuery.get (nv + 1) + mA,
       pk.bQuery.get 0 + d2 • pk.bQuery.get (nv + 1) + mB,
       pk.cQuery.get 0 + d3 • pk.cQuery.get (nv + 1) + mC,
       mH, k0 + (d1 + da) • k1 + d2 • k2 + d3 • k3 + mK,
       da • pk.aQuery.get (nv + 1) + mAin, mu⟩ := by
  have sHq := slice_all _ _ lHq
  have sH := slice_all _ _ lH
  have sx := slice_all _ _ lx
  have step : ∀ {α β : Type} {x : Option α} {a : α} {f : α → Option β} {y : β}, x = some a →
      f a = some y → (x >>= f) = some y := by
    intro α β x a f y h1 h2
    rw [h1]; exact h2
  have fin : adProve D pk p w auth d1 d2 d3 da = some
      ⟨d1 • pk.aQuery.get (nv + 1) + mA,
       pk.bQuery.get 0 + d2 • pk.bQuery.get (nv + 1) + mB,
       pk.cQuery.get 0 + d3 • pk.cQuery.get (nv + 1) + mC,
       0 + mH, k0 + (d1 + da) • k1 + d2 • k2 + d3 • k3 + mK,
       da • pk.aQuery.get (nv + 1) + mAin, mu⟩ :=
    step eW (step e0 (step e1 (step e2 (step e3 (step s1 (step s2 (step sx (step eA (step eAin
      (step eB (step eC (step sHq (step sH (step eH (step eS (step eK (step eMu rfl)))))))))))))))))
  rw [fin, zero_add]

/-- the authenticator of an honest prover -/
theorem adMuA_eq (pk : AdPK F G1 G2) (ni : Nat) (auth : List (AdAuthData F G2 Sig)) (da : F)
    (g : G1) (a : Nat → F) (ha : ∀ i < ni, (pk.aQuery.get (i + 1)).1 = a i • g)
    (hl : ni ≤ auth.length) :
    adMuA pk ni auth da = some (da • pk.rAiZG1 +
      (∑ i ∈ range ni, (auth.map (·.mu)).getD i 0 * a i) • g) := by
  have h1 : (List.range ni).mapM (fun i => auth[i]?.bind fun b => some b.mu)
      = some ((List.range ni).map fun i => (auth.map (·.mu)).getD i 0) := by
    refine mapM_eq_some_map _ _ _ fun i hi => ?_
    have := List.mem_range.1 hi
    rw [List.getElem?_eq_getElem (by omega), Option.bind_some,
      List.getD_eq_getElem _ _ (by simp; omega), List.getElem_map]
  have h2 : (List.range ni).map (fun i => (pk.aQuery.get (i + 1)).1)
      = batchExp g ((List.range ni).map a) := by
    rw [batchExp, List.map_map]
    exact List.map_congr_left fun i hi => ha i (List.mem_range.1 hi)
  simp only [adMuA, Option.bind_eq_bind, Option.pure_def, h1, Option.bind_some, h2]
  rw [multiexp_batchExp _ _ _ (by simp), Option.bind_some]
  congr 3
  rw [innerProduct_eq_sum _ _ (by simp), List.length_map, List.length_range]
  refine Finset.sum_congr rfl fun i hi => ?_
  have := Finset.mem_range.1 hi
  rw [List.getD_eq_getElem _ _ (by simpa using this), List.getD_eq_getElem (List.map a _) _ (by simpa using this)]
  simp

set_option maxHeartbeats 1000000 in
/-- the exponents of an honest proof; `a i` is the value of the polynomial of input `i` -/
theorem adProve_eq (P : Pairing F G1 G2 GT) {D : EvalDomain F} (hD : D.Lawful) (cs cs' : R1CS F)
    (hr : cs.WellRanged) (hm : cs.numConstraints + cs.numInputs + 1 ≤ D.m)
    (T : Pghr13Trapdoor F) (chunks : Nat) (hcs' : cs.swapABIfBeneficial = some cs') :
    ∃ (a0 : F) (a : Nat → F), ∀ iA : F, ∃ pk vk,
      adGenerate P D cs ⟨iA • P.one1⟩ T chunks = some (pk, vk) ∧
        vk.alphaAG2 = T.alphaA • P.one2 ∧ vk.alphaBG1 = T.alphaB • P.one1 ∧
        vk.alphaCG2 = T.alphaC • P.one2 ∧ vk.gammaG2 = T.gamma • P.one2 ∧
        vk.gammaBetaG1 = (T.gamma * T.beta) • P.one1 ∧
        vk.gammaBetaG2 = (T.gamma * T.beta) • P.one2 ∧
        vk.rCZG2 = (T.rA * T.rB * D.vanishing T.t) • P.one2 ∧
        vk.A0 = (T.rA * a0) • P.one1 ∧
        vk.Ain = (List.range cs.primaryInputSize).map (fun i => (T.rA * a i) • P.one1) ∧
        ∀ p w : List F, p.length = cs.primaryInputSize → w.length = cs.auxiliaryInputSize →
          cs.isSatisfied p w = some true → ∃ sA sB sC : F, ∀ d1 d2 d3 da, ∃ h : F,
            let A := sA + (d1 + da) * D.vanishing T.t
            let B := sB + d2 * D.vanishing T.t
            let C := sC + d3 * D.vanishing T.t
            let U := (∑ i ∈ range cs.primaryInputSize, p.getD i 0 * a i) + da * D.vanishing T.t
            A * B - C = h * D.vanishing T.t ∧
            ∀ (auth : List (AdAuthData F G2 Sig)), cs.primaryInputSize ≤ auth.length →
            adProve D pk p w auth d1 d2 d3 da = some
              ⟨((T.rA * (A - a0 - U)) • P.one1, (T.rA * T.alphaA * (A - a0 - U)) • P.one1),
               ((T.rB * B) • P.one2, (T.rB * T.alphaB * B) • P.one1),
               ((T.rA * T.rB * C) • P.one1, (T.rA * T.rB * T.alphaC * C) • P.one1),
               h • P.one1, (T.beta * (T.rA * A + T.rB * B + T.rA * T.rB * C)) • P.one1,
               ((T.rA * U) • P.one1, (T.rA * T.alphaA * U) • P.one1),
               (T.rA * (da * D.vanishing T.t * iA +
                 ∑ i ∈ range cs.primaryInputSize, (auth.map (·.mu)).getD i 0 * a i)) • P.one1⟩ := by
  obtain ⟨hp', hw', hr'⟩ := R1CS.swap_shape cs cs' hcs'
  obtain ⟨hsat', hni, hnv, hnc⟩ := C16_swap_preserves cs cs' hcs'
  have hm' : cs'.numConstraints + cs'.numInputs + 1 ≤ D.m := by rw [hnc, hni]; exact hm
  obtain ⟨qi, q, -, hq, -, n1, n2, n3, n4, lA, lB, lC, eH, eZ, dA, dB, dC⟩ :=
    R1CS.qapEval_spec hD cs' (hr' hr) hm' T.t
  set nv := cs'.numVariables with hnv0
  have hni0 : cs'.numInputs = cs.primaryInputSize := by rw [hni]; rfl
  set ni := cs.primaryInputSize with hni1
  have hle : ni ≤ nv := by
    have : ni = cs'.primaryInputSize := by rw [hp']
    simp [this, hnv0, R1CS.numVariables]
  refine ⟨q.At.getD 0 0, fun i => q.At.getD (1 + i) 0, fun iA => ?_⟩
  have hgen := adGenerate_eq P D cs cs' ⟨iA • P.one1⟩ T chunks hcs' q hq nv ni n1 (by rw [n3, hni0]) hle
    lA lB lC
  refine ⟨_, _, hgen, rfl, rfl, rfl, rfl, rfl, rfl, by simp only [eZ], rfl, rfl, ?_⟩
  intro p w hp hw hsat
  have hpl : p.length = cs'.primaryInputSize := by rw [hp, hp']
  have hwl : w.length = cs'.auxiliaryInputSize := by rw [hw, hw']
  have hfull : (p ++ w).length = nv := by simp [hpl, hwl, hnv0, R1CS.numVariables]
  have hsat2 : cs'.isSatisfied p w = some true := by rw [hsat', hsat]
  have hs := (C16_isSatisfied_iff cs' (hr' hr) p w
    (by rw [← List.length_append, hfull])).1.1 hsat2
  have hlen : p.length + w.length = nv := by rw [← List.length_append, hfull]
  refine ⟨dot q.At (envOf (p ++ w)), dot q.Bt (envOf (p ++ w)), dot q.Ct (envOf (p ++ w)),
    fun d1 d2 d3 da => ?_⟩
  obtain ⟨H, eW, lH, eqH, -⟩ :=
    R1CS.qapWitness_spec hD cs' (hr' hr) p w hpl hwl hm' hs (d1 + da) d2 d3
  rw [← hnv0, hni0] at eW
  have hH := eqH T.t
  rw [← dA, ← dB, ← dC] at hH
  refine ⟨evalPoly H T.t, hH, fun auth hauth => ?_⟩
  have gZ : ∀ l : List F, l.length = nv + 1 → (l ++ [q.Zt]).getD (nv + 1) 0 = q.Zt := by
    intro l hl
    rw [List.getD_append_right _ _ _ _ (by omega), hl]; simp
  have gl : ∀ (l : List F) i, l.length = nv + 1 → i < nv + 1 →
      (l ++ [q.Zt]).getD i 0 = l.getD i 0 := by
    intro l i hl hi
    rw [List.getD_append _ _ _ _ (by omega)]
  have lA' : (q.At ++ [q.Zt]).length = nv + 2 := by simp [lA]
  have lB' : (q.Bt ++ [q.Zt]).length = nv + 2 := by simp [lB]
  have lC' : (q.Ct ++ [q.Zt]).length = nv + 2 := by simp [lC]
  have side : ∀ {H1 H2 : Type} [AddCommGroup H1] [Module F H1] [AddCommGroup H2] [Module F H2]
      (g1 : H1) (g2 : H2) (c1 c2 : F) (v : List F) (lo hi : Nat) (sc : List F), v.length = nv + 2 →
      lo ≤ hi → hi ≤ nv + 2 → sc.length = hi - lo →
      kcMultiexp ⟨nv + 2, (List.range (nv + 2)).flatMap (kcEntry g1 g2 c1 c2 v)⟩ lo hi sc sc.length
        = some ((c1 * innerProduct sc (v.drop lo)) • g1, (c2 * innerProduct sc (v.drop lo)) • g2) := by
    intro H1 H2 _ _ _ _ g1 g2 c1 c2 v lo hi sc hv h1 h2 h3
    have := kcMultiexp_batch g1 g2 c1 c2 v 1 lo hi h1 (by omega) sc h3 sc.length le_rfl (by omega)
    rw [kcBatchExp_spec, Option.bind_some, hv] at this
    exact this
  have sp : slice (p ++ w) 0 ni = some p := by
    rw [slice_eq _ _ _ (by omega) (by omega)]; simp [hp]
  have sw : slice (p ++ w) ni nv = some w := by
    rw [slice_eq _ _ _ hle (by omega)]
    have : (p ++ w).drop ni = w := by rw [← hp]; simp
    rw [this, List.take_of_length_le (by omega)]
  have eA := side P.one1 P.one1 T.rA (T.rA * T.alphaA) (q.At ++ [q.Zt]) (1 + ni) (1 + nv) w lA'
    (by omega) (by omega) (by omega)
  have eAin := side P.one1 P.one1 T.rA (T.rA * T.alphaA) (q.At ++ [q.Zt]) 1 (1 + ni) p lA'
    (by omega) (by omega) (by omega)
  have eB := side P.one2 P.one1 T.rB (T.rB * T.alphaB) (q.Bt ++ [q.Zt]) 1 (1 + nv) (p ++ w) lB'
    (by omega) (by omega) (by omega)
  have eC := side P.one1 P.one1 (T.rA * T.rB) (T.rA * T.rB * T.alphaC) (q.Ct ++ [q.Zt]) 1 (1 + nv)
    (p ++ w) lC' (by omega) (by omega) (by omega)
  have getQ : ∀ {H1 H2 : Type} [AddCommGroup H1] [Module F H1] [AddCommGroup H2] [Module F H2]
      (g1 : H1) (g2 : H2) (c1 c2 : F) (v : List F) (i : Nat), v.length = nv + 2 → i < nv + 2 →
      (⟨nv + 2, (List.range (nv + 2)).flatMap (kcEntry g1 g2 c1 c2 v)⟩ : KcVec (H1 × H2)).get i
        = ((c1 * v.getD i 0) • g1, (c2 * v.getD i 0) • g2) := by
    intro H1 H2 _ _ _ _ g1 g2 c1 c2 v i hv hi
    have := kcBatch_get g1 g2 c1 c2 v i (by omega)
    rw [hv] at this
    exact this
  -- the sums
  have full : ∀ l : List F, l.length = nv + 1 →
      (l ++ [q.Zt]).getD 0 0 + innerProduct (p ++ w) ((l ++ [q.Zt]).drop 1)
        = dot l (envOf (p ++ w)) := by
    intro l hl
    rw [ip_split _ _ _ (by simp [hl]; omega), dot_split l p w (by omega), gl l 0 hl (by omega),
      ← add_assoc]
    congr 1
    · congr 1
      refine Finset.sum_congr rfl fun i hi => ?_
      rw [gl l _ hl (by have := Finset.mem_range.1 hi; omega)]
    · refine Finset.sum_congr rfl fun i hi => ?_
      rw [gl l _ hl (by have := Finset.mem_range.1 hi; omega)]
  have ipIn : innerProduct p ((q.At ++ [q.Zt]).drop 1)
      = ∑ i ∈ range ni, p.getD i 0 * q.At.getD (1 + i) 0 := by
    rw [innerProduct_eq_sum _ _ (by simp [lA]; omega), hp]
    refine Finset.sum_congr rfl fun i hi => ?_
    have := Finset.mem_range.1 hi
    rw [List.getD_eq_getElem?_getD (l := (q.At ++ [q.Zt]).drop 1), List.getElem?_drop,
      ← List.getD_eq_getElem?_getD, gl _ _ lA (by omega)]
  have ipAux : innerProduct w ((q.At ++ [q.Zt]).drop (1 + ni))
      = dot q.At (envOf (p ++ w)) - q.At.getD 0 0
        - ∑ i ∈ range ni, p.getD i 0 * q.At.getD (1 + i) 0 := by
    rw [dot_split q.At p w (by omega), innerProduct_eq_sum _ _ (by simp [lA]; omega), hp]
    have : ∑ i ∈ range w.length, w.getD i 0 * ((q.At ++ [q.Zt]).drop (1 + ni)).getD i 0
        = ∑ i ∈ range w.length, w.getD i 0 * q.At.getD (ni + 1 + i) 0 := by
      refine Finset.sum_congr rfl fun i hi => ?_
      have := Finset.mem_range.1 hi
      rw [List.getD_eq_getElem?_getD (l := (q.At ++ [q.Zt]).drop (1 + ni)), List.getElem?_drop,
        ← List.getD_eq_getElem?_getD, gl _ _ lA (by omega), add_comm 1 ni]
    rw [this]; ring
  -- the same-coefficient query
  set Kt := (List.range (nv + 1)).map (fun i => T.beta * (T.rA * q.At.getD i 0
      + T.rB * q.Bt.getD i 0 + T.rA * T.rB * q.Ct.getD i 0))
    ++ [T.beta * T.rA * q.Zt, T.beta * T.rB * q.Zt, T.beta * (T.rA * T.rB) * q.Zt] with hKt
  have lKt : Kt.length = nv + 4 := by simp [hKt]
  have gK : ∀ i < nv + 1, Kt.getD i 0 = T.beta * (T.rA * q.At.getD i 0
      + T.rB * q.Bt.getD i 0 + T.rA * T.rB * q.Ct.getD i 0) := by
    intro i hi
    rw [hKt, List.getD_append _ _ _ _ (by simpa using hi), List.getD_eq_getElem _ _ (by simpa using hi)]
    simp
  have k0 : (batchExp P.one1 Kt)[0]? = some ((T.beta * (T.rA * q.At.getD 0 0
      + T.rB * q.Bt.getD 0 0 + T.rA * T.rB * q.Ct.getD 0 0)) • P.one1) := by
    rw [batchExp, List.getElem?_map, List.getElem?_eq_getElem (by omega), Option.map_some,
      ← List.getD_eq_getElem _ 0, gK 0 (by omega)]
  have kz : ∀ j, j < 3 → (batchExp P.one1 Kt)[nv + 1 + j]? = some
      (([T.beta * T.rA * q.Zt, T.beta * T.rB * q.Zt, T.beta * (T.rA * T.rB) * q.Zt].getD j 0) •
        P.one1) := by
    intro j hj
    rw [batchExp, List.getElem?_map, hKt, List.getElem?_append_right (by simp),
      List.length_map, List.length_range, Nat.add_sub_cancel_left,
      List.getElem?_eq_getElem (by simpa using hj), Option.map_some, List.getD_eq_getElem]
  have slK : slice (batchExp P.one1 Kt) 1 (1 + nv) = some (batchExp P.one1 ((Kt.drop 1).take nv)) := by
    rw [slice_eq _ _ _ (by omega) (by simp [batchExp]; omega), batchExp, batchExp, List.map_take,
      List.map_drop, Nat.add_sub_cancel_left]
  have eK : multiexp (batchExp P.one1 ((Kt.drop 1).take nv)) (p ++ w)
      = some (innerProduct (p ++ w) (Kt.drop 1) • P.one1) := by
    rw [multiexp_batchExp _ _ _ (by rw [hfull]; simp [lKt])]
    have := innerProduct_take (p ++ w) (Kt.drop 1)
    rw [hfull] at this
    rw [this]
  have sumK : Kt.getD 0 0 + innerProduct (p ++ w) (Kt.drop 1)
      = T.beta * (T.rA * dot q.At (envOf (p ++ w)) + T.rB * dot q.Bt (envOf (p ++ w))
        + T.rA * T.rB * dot q.Ct (envOf (p ++ w))) := by
    rw [ip_split _ _ _ (by omega), dot_split q.At p w (by omega), dot_split q.Bt p w (by omega),
      dot_split q.Ct p w (by omega), gK 0 (by omega)]
    have e1 : ∀ (n : Nat) (x : Nat → F) (f : Nat → Nat), (∀ i < n, f i < nv + 1) →
        ∑ i ∈ range n, x i * Kt.getD (f i) 0
          = T.beta * (T.rA * (∑ i ∈ range n, x i * q.At.getD (f i) 0)
            + T.rB * (∑ i ∈ range n, x i * q.Bt.getD (f i) 0)
            + T.rA * T.rB * (∑ i ∈ range n, x i * q.Ct.getD (f i) 0)) := by
      intro n x f hf
      rw [Finset.mul_sum, Finset.mul_sum, Finset.mul_sum, ← Finset.sum_add_distrib,
        ← Finset.sum_add_distrib, Finset.mul_sum]
      refine Finset.sum_congr rfl fun i hi => ?_
      rw [gK _ (hf i (Finset.mem_range.1 hi))]
      ring
    rw [e1 p.length (fun i => p.getD i 0) (fun i => 1 + i) (fun i hi => by omega),
      e1 w.length (fun i => w.getD i 0) (fun i => p.length + 1 + i) (fun i hi => by omega)]
    ring
  have eHm : multiexp (batchExp P.one1 q.Ht) H = some (evalPoly H T.t • P.one1) := by
    rw [multiexp_batchExp _ _ _ (by rw [eH, length_powersFrom, lH])]
    rw [← innerProduct_powers T.t H (D.m + 1) lH, ← eH, innerProduct, innerProduct,
      List.zipWith_comm]
    simp only [mul_comm]
  have kz0 := kz 0 (by omega)
  have kz1 := kz 1 (by omega)
  have kz2 := kz 2 (by omega)
  simp only [Nat.add_zero, Nat.add_assoc, Nat.reduceAdd, List.getD_cons_zero,
    List.getD_cons_succ] at kz0 kz1 kz2
  rw [adProve_exec D _ p w auth d1 d2 d3 da nv D.m ni (p ++ w) H w p eW _ _ _ _ _ _ _ _ _ _ _ _ k0 kz0
    kz1 kz2 sw sp eA eAin eB eC (by simp [batchExp, eH, length_powersFrom]) lH eHm slK hfull eK
    (adMuA_eq _ ni auth da P.one1 (fun i => T.rA * q.At.getD (1 + i) 0) (fun i hi => by
      rw [getQ _ _ _ _ _ _ lA' (by omega), gl _ _ lA (by omega), add_comm i 1]) hauth)]
  dsimp only
  rw [getQ _ _ _ _ _ _ lA' (by omega), getQ _ _ _ _ _ _ lB' (by omega),
    getQ _ _ _ _ _ _ lB' (by omega), getQ _ _ _ _ _ _ lC' (by omega),
    getQ _ _ _ _ _ _ lC' (by omega), gZ _ lA, gZ _ lB, gZ _ lC, ipIn, ipAux]
  simp only [Prod.smul_mk, Prod.mk_add_mk, smul_smul, ← add_smul, eZ]
  congr 2
  · congr 2 <;> ring
  · congr 2 <;> (rw [← full _ lB, eZ]; ring)
  · congr 2 <;> (rw [← full _ lC, eZ]; ring)
  · rw [gK 0 (by omega)] at sumK
    congr 1
    linear_combination sumK
  · congr 2 <;> ring
  · congr 1
    rw [mul_add, Finset.mul_sum]
    congr 1
    · ring
    · refine Finset.sum_congr rfl fun i _ => ?_
      ring

end Crypto3Zk
