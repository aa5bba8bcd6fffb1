import Verif.Model.GM17
import Verif.Lemmas.Groth16
import Verif.Lemmas.SapSsp

/-! # Lemmas for the Groth–Maller argument -/

set_option linter.unusedSectionVars false

namespace Crypto3Zk

open Finset

variable {F : Type} [Field F] [DecidableEq F]
variable {G1 G2 GT : Type} [AddCommGroup G1] [Module F G1] [AddCommGroup G2] [Module F G2]
  [AddCommGroup GT] [Module F GT]

/-- `γ C_i + (α+β) A_i` -/
def psiVal (q : SapEval F) (alpha beta gamma : F) (i : Nat) : F :=
  gamma * q.Ct.getD i 0 + (alpha + beta) * q.At.getD i 0

theorem gm17Entry_eq (q : SapEval F) (n : Nat) (hA : q.At.length = n) (hC : q.Ct.length = n)
    (alpha beta gamma : F) (i : Nat) (hi : i < n) :
    gm17Entry q alpha beta gamma i = some (psiVal q alpha beta gamma i) := by
  have h1 : i < q.At.length := by omega
  have h3 : i < q.Ct.length := by omega
  simp only [gm17Entry, psiVal, List.getElem?_eq_getElem h1, List.getElem?_eq_getElem h3,
    List.getD_eq_getElem _ _ h1, List.getD_eq_getElem _ _ h3, Option.bind_eq_bind, Option.bind_some,
    Option.pure_def]

theorem gm17Generate_eq (D : EvalDomain F) (cs : R1CS F) (T : Gm17Trapdoor F G1 G2)
    (q : SapEval F) (hq : cs.sapEval D T.t = some q)
    (nv ni : Nat) (hnv : q.numVariables = nv) (hni : q.numInputs = ni) (hle : ni ≤ nv)
    (hA : q.At.length = nv + 1) (hC : q.Ct.length = nv + 1) :
    gm17Generate D cs T = some (
      { aQuery := batchExp T.g (q.At.map fun a => T.gamma * a)
        bQuery := batchExp (T.gamma • T.h) q.At
        cQuery1 := batchExp T.g ((List.range' (ni + 1) (nv - ni)).map fun i =>
          T.gamma * psiVal q T.alpha T.beta T.gamma i)
        cQuery2 := batchExp T.g ((List.range (nv + 1)).map fun i =>
          (T.gamma * T.gamma * q.Zt + T.gamma * T.gamma * q.Zt) * q.At.getD i 0)
        gGammaZ := q.Zt • T.gamma • T.g
        hGammaZ := q.Zt • T.gamma • T.h
        gAbGammaZ := (T.alpha + T.beta) • q.Zt • T.gamma • T.g
        gGamma2Z2 := (q.Zt * T.gamma) • q.Zt • T.gamma • T.g
        gGamma2Zt := batchExp T.g (powersFrom T.t (q.Zt * T.gamma ^ 2) (q.degree + 1))
        cs },
      { h := T.h, gAlpha := T.alpha • T.g, hBeta := T.beta • T.h, gGamma := T.gamma • T.g,
        hGamma := T.gamma • T.h,
        query := batchExp T.g ((List.range (ni + 1)).map (psiVal q T.alpha T.beta T.gamma)) }) := by
  have e1 := gm17Entry_eq q _ hA hC T.alpha T.beta T.gamma
  have m1 : (List.range (ni + 1)).mapM (gm17Entry q T.alpha T.beta T.gamma)
      = some ((List.range (ni + 1)).map (psiVal q T.alpha T.beta T.gamma)) :=
    mapM_eq_some_map _ _ _ fun i hi => e1 i (by rw [List.mem_range] at hi; omega)
  have m2 : (List.range' (ni + 1) (nv - ni)).mapM (fun i =>
        (gm17Entry q T.alpha T.beta T.gamma i).map fun x => T.gamma * x)
      = some ((List.range' (ni + 1) (nv - ni)).map fun i =>
          T.gamma * psiVal q T.alpha T.beta T.gamma i) :=
    mapM_eq_some_map _ _ _ fun i hi => by
      rw [e1 _ (by rw [List.mem_range'_1] at hi; omega)]; rfl
  have m3 : (List.range (nv + 1)).mapM (fun i => (q.At[i]?).map fun a =>
        (T.gamma * T.gamma * q.Zt + T.gamma * T.gamma * q.Zt) * a)
      = some ((List.range (nv + 1)).map fun i =>
          (T.gamma * T.gamma * q.Zt + T.gamma * T.gamma * q.Zt) * q.At.getD i 0) :=
    mapM_eq_some_map _ _ _ fun i hi => by
      have h1 : i < q.At.length := by rw [List.mem_range] at hi; omega
      rw [List.getElem?_eq_getElem h1, List.getD_eq_getElem _ _ h1]; rfl
  simp only [gm17Generate, hq, Option.bind_eq_bind, Option.bind_some, hni, hnv, m1, m2, m3,
    Option.pure_def]

theorem innerProduct_map_mul (c : F) (v xs : List F) :
    innerProduct xs (v.map fun x => c * x) = c * innerProduct xs v := by
  induction xs generalizing v with
  | nil => simp [innerProduct]
  | cons x xs ih =>
    cases v with
    | nil => simp [innerProduct]
    | cons a v =>
      have := ih v
      simp only [innerProduct] at this ⊢
      simp [this]; ring

theorem innerProduct_comm' (v xs : List F) : innerProduct xs v = innerProduct v xs := by
  induction xs generalizing v with
  | nil => simp [innerProduct]
  | cons x xs ih =>
    cases v with
    | nil => simp [innerProduct]
    | cons a v =>
      have := ih v
      simp only [innerProduct] at this ⊢
      simp [this]; ring

/-- element `0` plus a multi-exponentiation of the rest -/
theorem query_head_tail (g : G1) (v x : List F) (h : v.length = x.length + 1) :
    (batchExp g v)[0]? = some (v.getD 0 0 • g) ∧
      multiexp ((batchExp g v).drop 1) x = some (innerProduct x (v.drop 1) • g) ∧
      v.getD 0 0 + innerProduct x (v.drop 1) = dot v (envOf x) := by
  cases v with
  | nil => simp at h
  | cons a v =>
    have hl : v.length = x.length := by simpa using h
    refine ⟨rfl, ?_, ?_⟩
    · have : (batchExp g (a :: v)).drop 1 = batchExp g v := rfl
      rw [this, multiexp_batchExp _ _ _ hl]
      rfl
    · show a + innerProduct x v = _
      rw [← innerProduct_padded x (a :: v) h]
      simp [innerProduct]

theorem dot_map_mul (c : F) (v : List F) (x : Nat → F) :
    dot (v.map fun a => c * a) x = c * dot v x := by
  rw [dot_eq_sum, dot_eq_sum, Finset.mul_sum, List.length_map]
  refine Finset.sum_congr rfl fun i hi => ?_
  have hi' : i < v.length := by simpa using hi
  rw [List.getD_eq_getElem (List.map _ _) _ (by simpa using hi'), List.getD_eq_getElem _ _ hi']
  simp [mul_assoc]

theorem sum_psiVal (q : SapEval F) (alpha beta gamma : F) (n : Nat) (x : Nat → F) (g : Nat → Nat) :
    ∑ i ∈ range n, x i * psiVal q alpha beta gamma (g i)
      = gamma * (∑ i ∈ range n, x i * q.Ct.getD (g i) 0)
        + (alpha + beta) * (∑ i ∈ range n, x i * q.At.getD (g i) 0) := by
  rw [Finset.mul_sum, Finset.mul_sum, ← Finset.sum_add_distrib]
  refine Finset.sum_congr rfl fun i _ => ?_
  rw [psiVal]; ring

set_option maxHeartbeats 1000000 in
/-- the exponents of an honest proof -/
theorem gm17Prove_eq {D : EvalDomain F} (hD : D.Lawful) (cs : R1CS F)
    (hr : cs.WellRanged) (hm : cs.sapDomainSize ≤ D.m) (T : Gm17Trapdoor F G1 G2) :
    ∃ pk vk, gm17Generate D cs T = some (pk, vk) ∧
      ∃ kI : List F → F, (∀ p : List F, p.length = cs.primaryInputSize →
          ∃ q0 s, vk.query[0]? = some q0 ∧ multiexp (vk.query.drop 1) p = some s ∧
            q0 + s = kI p • T.g) ∧
        vk.query.length = cs.primaryInputSize + 1 ∧
        vk.gAlpha = T.alpha • T.g ∧ vk.hBeta = T.beta • T.h ∧ vk.gGamma = T.gamma • T.g ∧
        vk.hGamma = T.gamma • T.h ∧ vk.h = T.h ∧
        ∀ p w : List F, p.length = cs.primaryInputSize → w.length = cs.auxiliaryInputSize →
          cs.isSatisfied p w = some true → ∃ sA : F, ∀ d1 d2 r,
            gm17Prove D pk p w d1 d2 r = some
              ⟨(T.gamma * (sA + (d1 + r) * D.vanishing T.t)) • T.g,
                (T.gamma * (sA + (d1 + r) * D.vanishing T.t)) • T.h,
                ((T.gamma * (sA + (d1 + r) * D.vanishing T.t)) ^ 2
                  + (T.alpha + T.beta) * (T.gamma * (sA + (d1 + r) * D.vanishing T.t))
                  - T.gamma * kI p) • T.g⟩ := by
  obtain ⟨qi, q, -, hq, -, n1, n2, n3, n4, lA, lC, eH, eZ, dA, dC⟩ :=
    R1CS.sapEval_spec hD cs hr hm T.t
  set nv := cs.sapNumVariables with hnv0
  set ni := cs.numInputs with hni0
  have hle : ni ≤ nv := by
    simp [hni0, hnv0, R1CS.sapNumVariables]
  have hgen := gm17Generate_eq D cs T q hq nv ni n1 n3 hle lA lC
  have hquery : ∀ p : List F, p.length = ni →
      ∃ q0 s, (batchExp T.g ((List.range (ni + 1)).map (psiVal q T.alpha T.beta T.gamma)))[0]?
          = some q0 ∧
        multiexp ((batchExp T.g ((List.range (ni + 1)).map
          (psiVal q T.alpha T.beta T.gamma))).drop 1) p = some s ∧
        q0 + s = (psiVal q T.alpha T.beta T.gamma 0
          + ∑ i ∈ range ni, p.getD i 0 * psiVal q T.alpha T.beta T.gamma (1 + i)) • T.g := by
    intro p hp
    obtain ⟨h1, h2, h3⟩ := query_head_tail T.g
      ((List.range (ni + 1)).map (psiVal q T.alpha T.beta T.gamma)) p (by simp [hp])
    refine ⟨_, _, h1, h2, ?_⟩
    rw [← add_smul, h3]
    congr 1
    have := dot_split ((List.range (ni + 1)).map (psiVal q T.alpha T.beta T.gamma)) p []
      (by simp [hp])
    simp only [List.append_nil, List.length_nil, Finset.range_zero, Finset.sum_empty, add_zero] at this
    rw [this, hp]
    congr 1
    · simp
    · refine Finset.sum_congr rfl fun i hi => ?_
      have hi' : i < ni := by simpa using hi
      rw [List.getD_eq_getElem (List.map _ _) _ (by simp; omega)]
      simp
  refine ⟨_, _, hgen, fun p => psiVal q T.alpha T.beta T.gamma 0 +
    ∑ i ∈ range ni, p.getD i 0 * psiVal q T.alpha T.beta T.gamma (1 + i), ?_, ?_, rfl, rfl, rfl,
    rfl, rfl, ?_⟩
  · intro p hp
    exact hquery p hp
  · simp [batchExp, hni0, R1CS.numInputs]
  · intro p w hp hw hsat
    have hfull : (p ++ w).length = cs.numVariables := by simp [hp, hw, R1CS.numVariables]
    have hs := (C16_isSatisfied_iff cs hr p w (by rw [← List.length_append, hfull])).1.1 hsat
    have hfl := R1CS.length_sapFull cs (p ++ w) hfull
    rw [← hnv0] at hfl
    obtain ⟨ext, hext⟩ : ∃ ext, cs.sapFull (p ++ w) = p ++ ext := by
      simp only [R1CS.sapFull, List.append_assoc]
      exact ⟨_, rfl⟩
    refine ⟨dot q.At (envOf (cs.sapFull (p ++ w))), fun d1 d2 r => ?_⟩
    obtain ⟨H, eW, lH, eqH⟩ := R1CS.sapWitness_spec hD cs hr p w hp hw hm hs d1 d2
    have hH := eqH T.t
    rw [← dA, ← dC] at hH
    rw [← hnv0, ← hni0] at eW
    rw [← eZ] at hH ⊢
    clear eqH hquery dA dC
    rw [hext] at hH hfl eW ⊢
    have hpi : p.length = ni := hp
    have hxl : ext.length = nv - ni := by simp at hfl; omega
    have hdrop : (p ++ ext).drop ni = ext := by rw [← hpi, List.drop_left]
    set full := p ++ ext with hfulldef
    obtain ⟨a1, a2, a3⟩ := query_head_tail T.g (q.At.map fun a => T.gamma * a) full
      (by simp [lA, hfl])
    obtain ⟨b1, b2, b3⟩ := query_head_tail (T.gamma • T.h) q.At full (by simp [lA, hfl])
    obtain ⟨c1, c2, c3⟩ := query_head_tail T.g ((List.range (nv + 1)).map fun i =>
          (T.gamma * T.gamma * q.Zt + T.gamma * T.gamma * q.Zt) * q.At.getD i 0) full
      (by simp [hfl])
    have hmapA : ((List.range (nv + 1)).map fun i =>
          (T.gamma * T.gamma * q.Zt + T.gamma * T.gamma * q.Zt) * q.At.getD i 0)
        = q.At.map fun a => (T.gamma * T.gamma * q.Zt + T.gamma * T.gamma * q.Zt) * a := by
      apply List.ext_getElem
      · simp [lA]
      · intro i h1 h2
        simp only [List.length_map, List.length_range] at h1 h2
        simp [List.getElem?_eq_getElem h2]
    rw [dot_map_mul] at a3
    have c3 := c3.trans (by rw [hmapA, dot_map_mul])
    have hsl : slice full ni full.length = some ext := by
      rw [slice_eq _ _ _ (by omega) (le_refl _), hdrop, List.take_of_length_le (by omega)]
    have eC1 : multiexp (batchExp T.g ((List.range' (ni + 1) (nv - ni)).map fun i =>
          T.gamma * psiVal q T.alpha T.beta T.gamma i)) ext
        = some ((T.gamma * ∑ i ∈ range (nv - ni), ext.getD i 0 *
            psiVal q T.alpha T.beta T.gamma (ni + 1 + i)) • T.g) := by
      rw [multiexp_batchExp _ _ _ (by simp [hxl]), innerProduct_eq_sum _ _ (by simp [hxl]), hxl,
        Finset.mul_sum]
      congr 2
      refine Finset.sum_congr rfl fun i hi => ?_
      have hi' : i < nv - ni := by simpa using hi
      rw [List.getD_eq_getElem (List.map _ _) _ (by simpa using hi')]
      simp; ring
    have hz0 : (batchExp T.g (powersFrom T.t (q.Zt * T.gamma ^ 2) (q.degree + 1)))[0]?
        = some ((q.Zt * T.gamma ^ 2) • T.g) := by simp [batchExp, powersFrom]
    have ehz : multiexp (batchExp T.g (powersFrom T.t (q.Zt * T.gamma ^ 2) (q.degree + 1))) H
        = some ((q.Zt * T.gamma ^ 2 * evalPoly H T.t) • T.g) := by
      rw [multiexp_batchExp _ _ _ (by rw [length_powersFrom, n2, lH]), innerProduct_comm', n2, ← lH,
        innerProduct_powersFrom]
    have hsplit : T.gamma * dot q.Ct (envOf full) + (T.alpha + T.beta) * dot q.At (envOf full)
        = psiVal q T.alpha T.beta T.gamma 0
          + (∑ i ∈ range ni, p.getD i 0 * psiVal q T.alpha T.beta T.gamma (1 + i))
          + ∑ i ∈ range (nv - ni), ext.getD i 0 * psiVal q T.alpha T.beta T.gamma (ni + 1 + i) := by
      rw [hfulldef, dot_split q.At p ext (by rw [lA]; omega), dot_split q.Ct p ext (by rw [lC]; omega),
        hpi, hxl, sum_psiVal, sum_psiVal, psiVal]
      ring
    unfold gm17Prove
    simp only [eW, Option.bind_eq_bind, Option.bind_some, a1, a2, b1, b2, hsl, eC1, c1, c2, hz0, ehz,
      Option.pure_def]
    congr 2
    · simp only [smul_smul, ← add_smul]
      congr 1
      linear_combination a3
    · simp only [smul_smul, ← add_smul]
      congr 1
      linear_combination T.gamma * b3
    · simp only [smul_smul, ← add_smul]
      congr 1
      linear_combination r * c3 - T.gamma * hsplit - T.gamma ^ 2 * hH

end Crypto3Zk
