import Verif.Spec.Groth16Linear
import Verif.Lemmas.Groth16Linear
import Verif.Props.Groth16
import Mathlib.Tactic.Module
import Mathlib.Algebra.Field.ZMod
import Mathlib.Tactic.NormNum.Prime

/-!
# C88: Groth16 is sound against provers that compute with group elements
-/

set_option linter.unusedSectionVars false

namespace Crypto3Zk

open Finset

variable {F : Type} [Field F] [DecidableEq F] {D : EvalDomain F}
variable {G1 G2 GT : Type} [AddCommGroup G1] [Module F G1] [AddCommGroup G2] [Module F G2]
  [AddCommGroup GT] [Module F GT] [DecidableEq GT]

/-- a combination of elements at one evaluation point -/
def Groth16Coeffs1.at (c : Groth16Coeffs1 F) (q : QapEval F) (nv ni : Nat) : Lin1 F where
  alpha := c.alpha
  beta := c.beta
  delta := c.delta
  one := c.one + innerProduct c.a q.At + innerProduct c.b q.Bt
  u1 := c.input0 * q.At.getD 0 0 + ∑ i ∈ range ni, c.inputs.getD i 0 * q.At.getD (1 + i) 0
  v1 := c.input0 * q.Bt.getD 0 0 + ∑ i ∈ range ni, c.inputs.getD i 0 * q.Bt.getD (1 + i) 0
  w1 := c.input0 * q.Ct.getD 0 0 + ∑ i ∈ range ni, c.inputs.getD i 0 * q.Ct.getD (1 + i) 0
  u2 := ∑ i ∈ range (nv - ni), c.l.getD i 0 * q.At.getD (ni + 1 + i) 0
  v2 := ∑ i ∈ range (nv - ni), c.l.getD i 0 * q.Bt.getD (ni + 1 + i) 0
  w2 := (∑ i ∈ range (nv - ni), c.l.getD i 0 * q.Ct.getD (ni + 1 + i) 0) +
    q.Zt * innerProduct c.h (q.Ht.take (q.Ht.length - 2))

/-- a combination of elements of the second group at one evaluation point -/
def Groth16Coeffs2.at (c : Groth16Coeffs2 F) (q : QapEval F) : Lin2 F where
  beta := c.beta
  gamma := c.gamma
  delta := c.delta
  one := c.one + innerProduct c.b q.Bt

theorem innerProduct_kVal (q : QapEval F) (alpha beta k : F) (xs : List F) (n : Nat) (g : Nat → Nat)
    (l : List Nat) (hl : l.length = n) (hg : ∀ i (h : i < l.length), l[i] = g i) (hx : xs.length = n) :
    innerProduct xs (l.map fun i => kVal q alpha beta i * k) =
      (beta * (∑ i ∈ range n, xs.getD i 0 * q.At.getD (g i) 0)
        + alpha * (∑ i ∈ range n, xs.getD i 0 * q.Bt.getD (g i) 0)
        + ∑ i ∈ range n, xs.getD i 0 * q.Ct.getD (g i) 0) * k := by
  rw [← sum_kVal, innerProduct_eq_sum _ _ (by simp [hl, hx]), hx, Finset.sum_mul]
  refine Finset.sum_congr rfl fun i hi => ?_
  have hi' : i < l.length := by simpa [hl] using hi
  rw [List.getD_eq_getElem (List.map _ _) _ (by simpa using hi')]
  simp only [List.getElem_map, hg i hi']
  ring

theorem multiexp_length {G : Type} [AddCommGroup G] [Module F G] {gs : List G} {xs : List F} {g : G}
    (h : multiexp gs xs = some g) : gs.length = xs.length := by
  unfold multiexp at h
  split at h
  · assumption
  · simp at h

theorem kcMultiexp_all (g2 : G2) (g1 : G1) (v xs : List F) (h : xs.length = v.length) :
    kcMultiexp ⟨v.length, (List.range v.length).flatMap (kcEntry g2 g1 1 1 v)⟩ 0 v.length xs xs.length
      = some (innerProduct xs v • g2, innerProduct xs v • g1) := by
  have := kcMultiexp_batch g2 g1 1 1 v 1 0 v.length (by omega) (by omega) xs (by omega) _ (le_refl _)
    (by omega)
  rw [kcBatchExp_spec, Option.bind_some] at this
  rw [this, List.drop_zero, one_mul]

section Closed

variable (P : Pairing F G1 G2 GT) (cs cs' : R1CS F) (T : Groth16Trapdoor F G1 G2) (q : QapEval F)
  (nv ni : Nat) (pk : Groth16PK F G1 G2) (vk : Groth16VK G1 G2 GT)

theorem Groth16Coeffs1.combine_eq (hle : ni ≤ nv)
    (hkeys : some (pk, vk) = some (
      ({ alphaG1 := T.alpha • T.g1
         betaG1 := T.beta • T.g1
         betaG2 := T.beta • T.g2
         deltaG1 := T.delta • T.g1
         deltaG2 := T.delta • T.g2
         aQuery := batchExp T.g1 q.At
         bQuery := ⟨q.Bt.length, (List.range q.Bt.length).flatMap (kcEntry T.g2 T.g1 1 1 q.Bt)⟩
         hQuery := batchExpWithCoeff T.g1 (q.Zt * T.delta⁻¹) (q.Ht.take (q.Ht.length - 2))
         lQuery := batchExp T.g1 ((List.range (nv - ni)).map fun i =>
          kVal q T.alpha T.beta (ni + 1 + i) * T.delta⁻¹)
         cs := cs' } : Groth16PK F G1 G2),
      ({ alphaBeta := P.e (T.alpha • T.g1) (T.beta • T.g2)
         gammaG2 := T.gamma • T.g2
         deltaG2 := T.delta • T.g2
         gammaABC := ⟨(kVal q T.alpha T.beta 0 * T.gamma⁻¹) • T.g1,
          batchExp T.g1 ((List.range' 1 ni).map fun i => kVal q T.alpha T.beta i * T.gamma⁻¹)⟩ } :
          Groth16VK G1 G2 GT)))
    (c : Groth16Coeffs1 F) (g : G1) (h : c.combine T.g1 pk vk = some g) :
    g = (c.at q nv ni).value T.alpha T.beta T.gamma T.delta • T.g1 ∧
      c.l.length = nv - ni ∧ c.h.length = (q.Ht.take (q.Ht.length - 2)).length := by
  simp only [Option.some.injEq, Prod.mk.injEq] at hkeys
  obtain ⟨rfl, rfl⟩ := hkeys
  simp only [Groth16Coeffs1.combine, Option.bind_eq_bind, Option.bind_eq_some_iff] at h
  obtain ⟨a, ha, b, hb, hh, hhe, l, hl, i, hi, h⟩ := h
  have la := multiexp_length ha
  have lh := multiexp_length hhe
  have ll := multiexp_length hl
  have li := multiexp_length hi
  simp only [batchExp, batchExpWithCoeff, List.length_map, List.length_range, List.length_range'] at la lh ll li
  rw [kcCombine] at hb
  split at hb
  · rename_i lb
    rw [multiexp_batchExp _ _ _ la] at ha
    rw [multiexp_batchCoeff _ _ _ _ lh] at hhe
    have hr : ((List.range (nv - ni)).map fun i => kVal q T.alpha T.beta (ni + 1 + i) * T.delta⁻¹) =
        (((List.range (nv - ni)).map fun i => ni + 1 + i).map fun i => kVal q T.alpha T.beta i * T.delta⁻¹) := by
      rw [List.map_map]; rfl
    rw [multiexp_batchExp _ _ _ (by simpa using ll), hr,
      innerProduct_kVal q _ _ _ _ (nv - ni) (fun i => ni + 1 + i) _ (by simp) (by simp) ll.symm] at hl
    rw [multiexp_batchExp _ _ _ (by simpa using li),
      innerProduct_kVal q _ _ _ _ ni (fun i => 1 + i) _ (by simp) (by simp) li.symm] at hi
    rw [kcMultiexp_all _ _ _ _ lb] at hb
    simp only [Option.some.injEq] at ha hhe hl hi hb
    subst ha hhe hl hi hb
    refine ⟨?_, ll.symm, lh.symm⟩
    simp only [Option.pure_def, Option.some.injEq] at h
    rw [← h]
    simp only [smul_smul, ← add_smul]
    congr 1
    simp only [Lin1.value, Groth16Coeffs1.at, kVal]
    ring
  · simp at hb

theorem Groth16Coeffs2.combine_eq
    (hb : pk.bQuery = ⟨q.Bt.length, (List.range q.Bt.length).flatMap (kcEntry T.g2 T.g1 1 1 q.Bt)⟩)
    (h1 : pk.betaG2 = T.beta • T.g2) (h2 : vk.gammaG2 = T.gamma • T.g2) (h3 : pk.deltaG2 = T.delta • T.g2)
    (c : Groth16Coeffs2 F) (g : G2) (h : c.combine T.g2 pk vk = some g) :
    g = (c.at q).value T.beta T.gamma T.delta • T.g2 := by
  simp only [Groth16Coeffs2.combine, Option.bind_eq_bind, Option.bind_eq_some_iff, hb, h1, h2, h3] at h
  obtain ⟨b, hb, h⟩ := h
  rw [kcCombine] at hb
  split at hb
  · rename_i lb
    rw [kcMultiexp_all _ _ _ _ lb] at hb
    simp only [Option.some.injEq] at hb
    subst hb
    simp only [Option.pure_def, Option.some.injEq] at h
    rw [← h]
    simp only [smul_smul, ← add_smul]
    congr 1
    simp only [Lin2.value, Groth16Coeffs2.at]
    ring
  · simp at hb

end Closed

theorem product_of_parts {a a' b b' u1 u2 v1 v2 w1 w2 hz z : F} (k1 : a' * b' = 1)
    (k2 : a' * b = v1 + v2) (k3 : a * b' = u1 + u2) (k4 : a * b = w1 + (w2 + z * hz)) :
    (u1 + u2) * (v1 + v2) - (w1 + w2) = hz * z := by
  linear_combination (-(v1 + v2)) * k3 - a * b' * k2 + a * b * k1 + k4

/-- the contribution of the input at one evaluation point, times γ -/
def QapEval.inputK (q : QapEval F) (x : Fin 4 → F) (p : List F) : F :=
  x 1 * (q.At.getD 0 0 + ∑ i ∈ range p.length, p.getD i 0 * q.At.getD (1 + i) 0) +
    x 0 * (q.Bt.getD 0 0 + ∑ i ∈ range p.length, p.getD i 0 * q.Bt.getD (1 + i) 0) +
    (q.Ct.getD 0 0 + ∑ i ∈ range p.length, p.getD i 0 * q.Ct.getD (1 + i) 0)

/-- at one evaluation point: if the verification equation holds for many α, β, γ, δ, the arithmetic program is
satisfied -/
theorem groth16_equation [Fintype F] (cs' : R1CS F) (q : QapEval F) (hm0 : 0 < D.m) {t : F}
    (n1 : q.numVariables = cs'.numVariables) (n2 : q.degree = D.m) (n3 : q.numInputs = cs'.numInputs) (n4 : q.t = t)
    (lA : q.At.length = cs'.numVariables + 1) (lB : q.Bt.length = cs'.numVariables + 1)
    (lC : q.Ct.length = cs'.numVariables + 1) (eH : q.Ht = powersFrom t 1 (D.m + 1)) (eZ : q.Zt = D.vanishing t)
    (hle : cs'.numInputs ≤ cs'.numVariables) (p : List F) (hpi : p.length = cs'.numInputs)
    (A C : Groth16Coeffs1 F) (B : Groth16Coeffs2 F)
    (lL : C.l.length = cs'.numVariables - cs'.numInputs)
    (lHc : C.h.length = (q.Ht.take (q.Ht.length - 2)).length) (S : Finset (Fin 4 → F))
    (hcard : 4 * Fintype.card F ^ 3 < S.card)
    (hS : ∀ x ∈ S, x 2 ≠ 0 ∧ x 3 ≠ 0 ∧
      (A.at q cs'.numVariables cs'.numInputs).value (x 0) (x 1) (x 2) (x 3) * (B.at q).value (x 1) (x 2) (x 3) =
        x 0 * x 1 + q.inputK x p + (C.at q cs'.numVariables cs'.numInputs).value (x 0) (x 1) (x 2) (x 3) * x 3) :
    q.isSatisfied D ⟨cs'.numVariables, D.m, cs'.numInputs, 0, 0, 0, p ++ C.l, C.h ++ [0, 0]⟩ = true := by
  set nv := cs'.numVariables with hnv0
  set ni := cs'.numInputs with hni0
  have key := groth16_identity (A.at q nv ni) (C.at q nv ni) (B.at q)
    (q.At.getD 0 0 + ∑ i ∈ range ni, p.getD i 0 * q.At.getD (1 + i) 0)
    (q.Bt.getD 0 0 + ∑ i ∈ range ni, p.getD i 0 * q.Bt.getD (1 + i) 0)
    (q.Ct.getD 0 0 + ∑ i ∈ range ni, p.getD i 0 * q.Ct.getD (1 + i) 0) S hcard (fun x hx => by
      have := hS x hx
      rw [QapEval.inputK, hpi] at this
      exact this)
  obtain ⟨k1, k2, k3, k4⟩ := key
  have hw : (p ++ C.l).length = nv := by rw [List.length_append, hpi, lL]; omega
  have lHt : (q.Ht.take (q.Ht.length - 2)).length = D.m - 1 := by
    rw [eH]; simp [length_powersFrom]; omega
  rw [QapEval.isSatisfied_iff]
  refine ⟨n1, n2, n3, by rw [n1, hw], by simp [n2, lHc, lHt]; omega, by rw [n1, lA], by rw [n1, lB],
    by rw [n1, lC], by rw [eH, length_powersFrom, n2], by rw [eZ, n4], ?_⟩
  simp only
  rw [ansOf_eq _ _ _ _ (by rw [lA, hw]), ansOf_eq _ _ _ _ (by rw [lB, hw]),
    ansOf_eq _ _ _ _ (by rw [lC, hw]), dot_split _ p C.l (by rw [lA]; omega),
    dot_split _ p C.l (by rw [lB]; omega), dot_split _ p C.l (by rw [lC]; omega), hpi, lL]
  have hip : innerProduct q.Ht (C.h ++ [0, 0]) = innerProduct C.h (q.Ht.take (q.Ht.length - 2)) := by
    obtain ⟨k, hk⟩ : ∃ k, D.m = k + 1 := ⟨D.m - 1, by omega⟩
    have hl : C.h.length = k := by omega
    rw [innerProduct_eq_sum _ _ (by rw [eH, length_powersFrom]; simp [hl, hk]),
      innerProduct_eq_sum _ _ (by rw [lHc]), eH, length_powersFrom, hk, hl, Finset.sum_range_succ,
      Finset.sum_range_succ]
    have z1 : (C.h ++ [0, 0]).getD k 0 = 0 := by simp [hl]
    have z2 : (C.h ++ [0, 0]).getD (k + 1) 0 = 0 := by simp [hl]
    rw [z1, z2, mul_zero, mul_zero, add_zero, add_zero]
    refine Finset.sum_congr rfl fun i hi => ?_
    have hi' : i < k := by simpa using hi
    rw [List.getD_append _ _ _ _ (by omega), mul_comm]
    congr 1
    rw [List.getD_eq_getElem _ _ (by simp [length_powersFrom]; omega),
      List.getD_eq_getElem _ _ (by simp [length_powersFrom]; omega)]
    simp
  rw [hip]
  simp only [Groth16Coeffs1.at, Groth16Coeffs2.at] at k1 k2 k3 k4
  simp only [zero_mul, add_zero]
  exact product_of_parts k1 k2 k3 k4

/-- at one evaluation point: a strategy that is accepted for many α, β, γ, δ yields a satisfied
arithmetic program -/
theorem groth16_point [Fintype F] (P : Pairing F G1 G2 GT) (hD : D.Lawful) (cs cs' : R1CS F)
    (hs : cs.swapABIfBeneficial = some cs') (hr' : cs'.WellRanged)
    (hm' : cs'.numConstraints + cs'.numInputs + 1 ≤ D.m) (chunks : Nat)
    (g1 : G1) (g2 : G2) (hne : P.e g1 g2 ≠ 0) (p : List F) (hp : p.length = cs'.primaryInputSize)
    (A C : Groth16Coeffs1 F) (B : Groth16Coeffs2 F) (t : F) (S : Finset (Fin 4 → F))
    (hcard : 4 * Fintype.card F ^ 3 < S.card)
    (hS : ∀ x ∈ S, x 2 ≠ 0 ∧ x 3 ≠ 0 ∧ ∃ pk vk gA gB gC,
      groth16Generate P D cs ⟨t, x 0, x 1, x 2, x 3, g1, g2⟩ chunks = some (pk, vk) ∧
      A.combine g1 pk vk = some gA ∧ B.combine g2 pk vk = some gB ∧ C.combine g1 pk vk = some gC ∧
      groth16VerifyWeak P vk p ⟨gA, gB, gC⟩ = some true) :
    ∃ q, cs'.qapEval D t = some q ∧
      q.isSatisfied D ⟨cs'.numVariables, D.m, cs'.numInputs, 0, 0, 0, p ++ C.l, C.h ++ [0, 0]⟩ = true := by
  obtain ⟨qi, q, -, hq, -, n1, n2, n3, n4, lA, lB, lC, eH, eZ, dA, dB, dC⟩ :=
    R1CS.qapEval_spec hD cs' hr' hm' t
  refine ⟨q, hq, ?_⟩
  set nv := cs'.numVariables with hnv0
  set ni := cs'.numInputs with hni0
  have hle : ni ≤ nv := by simp [hni0, hnv0, R1CS.numInputs, R1CS.numVariables]
  have hpi : p.length = ni := by rw [hp]; rfl
  have hgen := fun x : Fin 4 → F =>
    groth16Generate_eq P D cs cs' ⟨t, x 0, x 1, x 2, x 3, g1, g2⟩ chunks hs q hq nv ni n1 n3 hle lA lB lC
  have hm0 : 0 < D.m := by omega
  obtain ⟨x0, hx0⟩ : S.Nonempty := Finset.card_pos.1 (by omega)
  -- the lengths
  have hlen : C.l.length = nv - ni ∧ C.h.length = (q.Ht.take (q.Ht.length - 2)).length := by
    obtain ⟨-, -, pk, vk, gA, gB, gC, hg, -, -, hC, -⟩ := hS x0 hx0
    exact (Groth16Coeffs1.combine_eq P cs' _ q nv ni pk vk hle (hg.symm.trans (hgen x0)) C gC hC).2
  obtain ⟨lL, lHc⟩ := hlen
  refine groth16_equation cs' q hm0 n1 n2 n3 n4 lA lB lC eH eZ hle p hpi A C B lL lHc S hcard ?_
  intro x hx
  obtain ⟨h2, h3, pk, vk, gA, gB, gC, hg, hA, hB, hC, hv⟩ := hS x hx
  refine ⟨h2, h3, ?_⟩
  have hkeys := hg.symm.trans (hgen x)
  obtain ⟨rA, -, -⟩ := Groth16Coeffs1.combine_eq P cs' _ q nv ni pk vk hle hkeys A gA hA
  obtain ⟨rC, -, -⟩ := Groth16Coeffs1.combine_eq P cs' _ q nv ni pk vk hle hkeys C gC hC
  simp only [Option.some.injEq, Prod.mk.injEq] at hkeys
  obtain ⟨rfl, rfl⟩ := hkeys
  have rB := Groth16Coeffs2.combine_eq ⟨t, x 0, x 1, x 2, x 3, g1, g2⟩ q _ _ rfl rfl rfl rfl B gB hB
  have hacc := ((C50_verifier_iff P _ p _ (by simp [batchExp, hpi])).1.1 hv).2.2.2
  simp only at hacc rA rB rC
  rw [rA, rB, rC, batchExp, zipWith_smul_batch,
    innerProduct_kVal q _ _ _ _ ni (fun i => 1 + i) _ (by simp) (by simp) hpi, ← add_smul] at hacc
  simp only [pair_smul, ← add_smul] at hacc
  have hz := smul_left_injective F hne hacc
  rw [hz, kVal, QapEval.inputK, hpi]
  field_simp
  ring

/-- **C88** (partial) A prover that computes with group elements: it chooses, for each element of the proof, one
coefficient for each group element of the two keys. If its proof for the input `p` is accepted for more than
`(2m + 4) · |F|^4` of the `|F|^5` secrets (`t`, α, β, γ, δ), then `p` together with the coefficients of the
third element for the auxiliary query satisfies the constraint system: the prover knows a witness.

What is missing: coefficients that depend on the keys (they may not, here), and provers that are not of this
kind. -/
theorem C88_knowledge_soundness_partial [Fintype F] (P : Pairing F G1 G2 GT) (hD : D.Lawful) (cs : R1CS F)
    (hr : cs.WellRanged) (hm : cs.numConstraints + cs.numInputs + 1 ≤ D.m) (chunks : Nat)
    (g1 : G1) (g2 : G2) (hne : P.e g1 g2 ≠ 0) (p : List F) (hp : p.length = cs.primaryInputSize)
    (A : Groth16Coeffs1 F) (B : Groth16Coeffs2 F) (C : Groth16Coeffs1 F)
    (accepting : Finset (F × (Fin 4 → F)))
    (hacc : ∀ z ∈ accepting, z.2 2 ≠ 0 ∧ z.2 3 ≠ 0 ∧ ∃ pk vk gA gB gC,
      groth16Generate P D cs { t := z.1, alpha := z.2 0, beta := z.2 1, gamma := z.2 2, delta := z.2 3,
                               g1 := g1, g2 := g2 } chunks = some (pk, vk) ∧
      A.combine g1 pk vk = some gA ∧ B.combine g2 pk vk = some gB ∧ C.combine g1 pk vk = some gC ∧
      groth16VerifyWeak P vk p ⟨gA, gB, gC⟩ = some true)
    (hcard : (2 * D.m + 4) * Fintype.card F ^ 4 < accepting.card) :
    cs.isSatisfied p C.l = some true := by
  obtain ⟨cs', hcs'⟩ := C16_swap_defined cs hr
  obtain ⟨hp', hw', hr'⟩ := R1CS.swap_shape cs cs' hcs'
  obtain ⟨hsat', hni, hnv, hnc⟩ := C16_swap_preserves cs cs' hcs'
  have hm' : cs'.numConstraints + cs'.numInputs + 1 ≤ D.m := by rw [hnc, hni]; exact hm
  obtain ⟨good, hgood, hslice⟩ := many_slices accepting (2 * D.m) (4 * Fintype.card F ^ 3) (by
    rw [Fintype.card_fun, Fintype.card_fin]
    calc _ = (2 * D.m + 4) * Fintype.card F ^ 4 := by ring
      _ < _ := hcard)
  have hpl : p.length = cs'.primaryInputSize := by rw [hp, hp']
  have := C18_qap_sound hD cs' (hr' hr) hm'
    ⟨cs'.numVariables, D.m, cs'.numInputs, 0, 0, 0, p ++ C.l, C.h ++ [0, 0]⟩ good hgood fun t ht =>
      groth16_point P hD cs cs' hcs' (hr' hr) hm' chunks g1 g2 hne p hpl A C B t _ (hslice t ht)
        fun x hx => hacc _ (Finset.mem_filter.1 hx).2
  rw [hsat', ← hpl] at this
  simpa using this

/-- C88, partial, in the other direction: if no auxiliary input satisfies the system, a strategy is
accepted for no more than `2m + 4` of every `|F|` choices of the secrets. -/
theorem C88_false_statements_rejected_partial [Fintype F] (P : Pairing F G1 G2 GT) (hD : D.Lawful)
    (cs : R1CS F) (hr : cs.WellRanged) (hm : cs.numConstraints + cs.numInputs + 1 ≤ D.m) (chunks : Nat)
    (g1 : G1) (g2 : G2) (hne : P.e g1 g2 ≠ 0) (p : List F) (hp : p.length = cs.primaryInputSize)
    (hfalse : ∀ w, cs.isSatisfied p w ≠ some true)
    (A : Groth16Coeffs1 F) (B : Groth16Coeffs2 F) (C : Groth16Coeffs1 F)
    (accepting : Finset (F × (Fin 4 → F)))
    (hacc : ∀ z ∈ accepting, z.2 2 ≠ 0 ∧ z.2 3 ≠ 0 ∧ ∃ pk vk gA gB gC,
      groth16Generate P D cs { t := z.1, alpha := z.2 0, beta := z.2 1, gamma := z.2 2, delta := z.2 3,
                               g1 := g1, g2 := g2 } chunks = some (pk, vk) ∧
      A.combine g1 pk vk = some gA ∧ B.combine g2 pk vk = some gB ∧ C.combine g1 pk vk = some gC ∧
      groth16VerifyWeak P vk p ⟨gA, gB, gC⟩ = some true) :
    accepting.card ≤ (2 * D.m + 4) * Fintype.card F ^ 4 := by
  by_contra hcon
  exact hfalse _ (C88_knowledge_soundness_partial P hD cs hr hm chunks g1 g2 hne p hp A B C accepting hacc
    (not_le.1 hcon))

/-- **C88** (partial), adaptive provers: the coefficients, and the input, may depend on the keys. Whenever such a proof
is accepted, the coefficients contain a witness, or else the secrets are in a set that is known from the input and the
coefficients alone, and that has no more than `2m + 4` of every `|F|` secrets: a prover without a witness has found out
about the secrets of the generator. -/
theorem C88_adaptive_provers_partial [Fintype F] (P : Pairing F G1 G2 GT) (hD : D.Lawful) (cs : R1CS F)
    (hr : cs.WellRanged) (hm : cs.numConstraints + cs.numInputs + 1 ≤ D.m) (chunks : Nat)
    (g1 : G1) (g2 : G2) (hne : P.e g1 g2 ≠ 0) :
    ∃ bad : List F → Groth16Coeffs1 F → Groth16Coeffs2 F → Groth16Coeffs1 F → Finset (F × (Fin 4 → F)),
      (∀ p A B C, (bad p A B C).card ≤ (2 * D.m + 4) * Fintype.card F ^ 4) ∧
      ∀ (t alpha beta gamma delta : F) pk vk p A B C gA gB gC, gamma ≠ 0 → delta ≠ 0 →
        p.length = cs.primaryInputSize →
        groth16Generate P D cs { t := t, alpha := alpha, beta := beta, gamma := gamma, delta := delta,
                                 g1 := g1, g2 := g2 } chunks = some (pk, vk) →
        A.combine g1 pk vk = some gA → B.combine g2 pk vk = some gB → C.combine g1 pk vk = some gC →
        groth16VerifyWeak P vk p ⟨gA, gB, gC⟩ = some true →
        cs.isSatisfied p C.l = some true ∨ (t, ![alpha, beta, gamma, delta]) ∈ bad p A B C := by
  classical
  refine ⟨fun p A B C => Finset.univ.filter fun z => p.length = cs.primaryInputSize ∧
    cs.isSatisfied p C.l ≠ some true ∧ z.2 2 ≠ 0 ∧ z.2 3 ≠ 0 ∧ ∃ pk vk gA gB gC,
      groth16Generate P D cs { t := z.1, alpha := z.2 0, beta := z.2 1, gamma := z.2 2, delta := z.2 3,
                               g1 := g1, g2 := g2 } chunks = some (pk, vk) ∧
      A.combine g1 pk vk = some gA ∧ B.combine g2 pk vk = some gB ∧ C.combine g1 pk vk = some gC ∧
      groth16VerifyWeak P vk p ⟨gA, gB, gC⟩ = some true, fun p A B C => ?_, ?_⟩
  · by_cases hp : p.length = cs.primaryInputSize ∧ cs.isSatisfied p C.l ≠ some true
    · by_contra hcon
      exact hp.2 (C88_knowledge_soundness_partial P hD cs hr hm chunks g1 g2 hne p hp.1 A B C _
        (fun z hz => (Finset.mem_filter.1 hz).2.2.2) (not_le.1 hcon))
    · exact le_trans (le_of_eq (Finset.card_eq_zero.2 (Finset.filter_eq_empty_iff.2
        fun z _ hz => hp ⟨hz.1, hz.2.1⟩))) (Nat.zero_le _)
  · intro t alpha beta gamma delta pk vk p A B C gA gB gC h2 h3 hp hg hA hB hC hv
    by_cases hs : cs.isSatisfied p C.l = some true
    · exact .inl hs
    · exact .inr (Finset.mem_filter.2 ⟨Finset.mem_univ _, hp, hs, h2, h3, pk, vk, gA, gB, gC, hg, hA, hB, hC, hv⟩)

/-- the coefficients of the honest prover for the first element -/
def honestA (p w : List F) (r : F) (m : Nat) : Groth16Coeffs1 F where
  one := 0
  alpha := 1
  beta := 0
  delta := r
  a := 1 :: (p ++ w)
  b := List.replicate (p.length + w.length + 1) 0
  h := List.replicate (m - 1) 0
  l := List.replicate w.length 0
  input0 := 0
  inputs := List.replicate p.length 0

/-- the coefficients of the honest prover for the second element -/
def honestB (p w : List F) (s : F) : Groth16Coeffs2 F where
  one := 0
  beta := 1
  gamma := 0
  delta := s
  b := 1 :: (p ++ w)

/-- the coefficients of the honest prover for the third element; `H` is the quotient -/
def honestC (p w H : List F) (r s : F) (m : Nat) : Groth16Coeffs1 F where
  one := 0
  alpha := s
  beta := r
  delta := r * s
  a := (1 :: (p ++ w)).map (s * ·)
  b := (1 :: (p ++ w)).map (r * ·)
  h := H.take (m - 1)
  l := w
  input0 := 0
  inputs := List.replicate p.length 0

theorem multiexp_zeros {G : Type} [AddCommGroup G] [Module F G] (gs : List G) (n : Nat) (h : gs.length = n) :
    multiexp gs (List.replicate n (0 : F)) = some 0 := by
  rw [multiexp, if_pos (by simp [h])]
  congr 1
  subst h
  induction gs with
  | nil => rfl
  | cons g gs ih => simp [List.replicate_succ, ih]

theorem multiexp_scaled {G : Type} [AddCommGroup G] [Module F G] (gs : List G) (xs : List F) (g : G) (c : F)
    (h : multiexp gs xs = some g) : multiexp gs (xs.map (c * ·)) = some (c • g) := by
  have hl := multiexp_length h
  rw [multiexp, if_pos hl] at h
  rw [multiexp, if_pos (by simp [hl]), ← Option.some.inj h]
  congr 1
  clear h hl
  induction gs generalizing xs with
  | nil => simp
  | cons g gs ih =>
    cases xs with
    | nil => simp
    | cons x xs => simp [ih, mul_smul]

theorem innerProduct_scaled_left (xs ys : List F) (c : F) :
    innerProduct (xs.map (c * ·)) ys = c * innerProduct xs ys := by
  induction xs generalizing ys with
  | nil => simp [innerProduct]
  | cons x xs ih =>
    cases ys with
    | nil => simp [innerProduct]
    | cons y ys =>
      have := ih ys
      simp only [innerProduct, List.map_cons, List.zipWith_cons_cons, List.sum_cons] at this ⊢
      rw [this]; ring

theorem innerProduct_zeros (ys : List F) (n : Nat) : innerProduct (List.replicate n (0 : F)) ys = 0 := by
  induction n generalizing ys with
  | zero => simp [innerProduct]
  | succ n ih =>
    cases ys with
    | nil => simp [innerProduct]
    | cons y ys =>
      have := ih ys
      simp only [innerProduct, List.replicate_succ, List.zipWith_cons_cons, List.sum_cons] at this ⊢
      rw [this]; simp

/-- **C88** (the honest prover is such a prover): with fixed coefficients it reproduces its proofs under all
keys, and the coefficients from which `C88_knowledge_soundness_partial` reads the witness are the
auxiliary input. -/
theorem C88_honest_prover_is_linear (P : Pairing F G1 G2 GT) (hD : D.Lawful) (cs : R1CS F)
    (hr : cs.WellRanged) (hm : cs.numConstraints + cs.numInputs + 1 ≤ D.m) (chunks : Nat)
    (p w : List F) (hp : p.length = cs.primaryInputSize) (hw : w.length = cs.auxiliaryInputSize)
    (hsat : cs.isSatisfied p w = some true) :
    ∃ H : List F, ∀ T pk vk r s π, groth16Generate P D cs T chunks = some (pk, vk) →
      groth16Prove D pk p w r s = some π →
      (honestA p w r D.m).combine T.g1 pk vk = some π.gA ∧
      (honestB p w s).combine T.g2 pk vk = some π.gB ∧
      (honestC p w H r s D.m).combine T.g1 pk vk = some π.gC := by
  obtain ⟨cs', hcs'⟩ := C16_swap_defined cs hr
  obtain ⟨hp', hw', hr'⟩ := R1CS.swap_shape cs cs' hcs'
  obtain ⟨hsat', hni, hnv, hnc⟩ := C16_swap_preserves cs cs' hcs'
  have hm' : cs'.numConstraints + cs'.numInputs + 1 ≤ D.m := by rw [hnc, hni]; exact hm
  have hpl : p.length = cs'.primaryInputSize := by rw [hp, hp']
  have hwl : w.length = cs'.auxiliaryInputSize := by rw [hw, hw']
  set nv := cs'.numVariables with hnv0
  set ni := cs'.numInputs with hni0
  have hfull : (p ++ w).length = nv := by simp [hpl, hwl, hnv0, R1CS.numVariables]
  have hsat2 : cs'.isSatisfied p w = some true := by rw [hsat', hsat]
  have hs := (C16_isSatisfied_iff cs' (hr' hr) p w (by rw [← List.length_append, hfull])).1.1 hsat2
  obtain ⟨H, eW, lH, -, -⟩ := R1CS.qapWitness_spec hD cs' (hr' hr) p w hpl hwl hm' hs 0 0 0
  rw [← hnv0, ← hni0] at eW
  refine ⟨H, fun T pk vk r s π hgen hprove => ?_⟩
  obtain ⟨qi, q, -, hq, -, n1, n2, n3, n4, lA, lB, lC, eH, eZ, dA, dB, dC⟩ :=
    R1CS.qapEval_spec hD cs' (hr' hr) hm' T.t
  have hle : ni ≤ nv := by simp [hni0, hnv0, R1CS.numInputs, R1CS.numVariables]
  rw [groth16Generate_eq P D cs cs' T chunks hcs' q hq nv ni n1 n3 hle lA lB lC] at hgen
  simp only [Option.some.injEq, Prod.mk.injEq] at hgen
  obtain ⟨rfl, rfl⟩ := hgen
  have hm0 : 0 < D.m := by omega
  have hpad : (1 :: (p ++ w)).length = nv + 1 := by simp [← hfull]
  have lHt : (q.Ht.take (q.Ht.length - 2)).length = D.m - 1 := by
    rw [eH]; simp [length_powersFrom]; omega
  have hwv : w.length = nv - ni := by
    simp [hnv0, hni0, R1CS.numVariables, R1CS.numInputs, hwl]
  have hpi : p.length = ni := by rw [hpl]; rfl
  have hslA : slice (batchExp T.g1 q.At) 0 (nv + 1) = some (batchExp T.g1 q.At) :=
    slice_all _ _ (by simp [batchExp, lA, ← hnv0])
  have hslH : slice (batchExpWithCoeff T.g1 (q.Zt * T.delta⁻¹) (q.Ht.take (q.Ht.length - 2))) 0
      (D.m - 1) = some (batchExpWithCoeff T.g1 (q.Zt * T.delta⁻¹) (q.Ht.take (q.Ht.length - 2))) :=
    slice_all _ _ (by rw [batchExpWithCoeff, List.length_map, lHt])
  have hslL : slice (1 :: (p ++ w)) (ni + 1) (nv + 1) = some w := by
    rw [slice_eq _ _ _ (by omega) (by rw [hpad]), List.drop_succ_cons, ← hpi, List.drop_left,
      List.take_of_length_le (by omega)]
  have hslh : slice H 0 (D.m - 1) = some (H.take (D.m - 1)) := by
    rw [slice_eq _ _ _ (by omega) (by omega)]; simp
  have eB : ∀ xs : List F, xs.length = nv + 1 → kcMultiexp
      ⟨q.Bt.length, (List.range q.Bt.length).flatMap (kcEntry T.g2 T.g1 1 1 q.Bt)⟩ 0 (nv + 1) xs xs.length
      = some (innerProduct xs q.Bt • T.g2, innerProduct xs q.Bt • T.g1) := by
    intro xs hx
    have := kcMultiexp_all T.g2 T.g1 q.Bt xs (by rw [hx, lB])
    rw [← lB]; exact this
  have eB' : ∀ xs : List F, xs.length = nv + 1 → kcCombine
      (⟨q.Bt.length, (List.range q.Bt.length).flatMap (kcEntry T.g2 T.g1 1 1 q.Bt)⟩ : KcVec (G2 × G1)) xs
      = some (innerProduct xs q.Bt • T.g2, innerProduct xs q.Bt • T.g1) := by
    intro xs hx
    rw [kcCombine, if_pos (by rw [hx, lB])]
    exact kcMultiexp_all T.g2 T.g1 q.Bt xs (by rw [hx, lB])
  simp only [groth16Prove, hsat2, eW, Option.bind_eq_bind, Option.bind_some, guard, if_true,
    Option.pure_def, hslA, slice_all _ _ hpad, eB _ hpad, hslH, hslh, hslL, Option.bind_eq_some_iff,
    Option.some.injEq] at hprove
  obtain ⟨-, -, -, -, -, -, -, -, evA, hA, evH, hH, evL, hL, rfl⟩ := hprove
  have z1 := multiexp_zeros (F := F) (batchExpWithCoeff T.g1 (q.Zt * T.delta⁻¹) (q.Ht.take (q.Ht.length - 2)))
    (D.m - 1) (by rw [batchExpWithCoeff, List.length_map, lHt])
  have z2 := multiexp_zeros (F := F) (batchExp T.g1 ((List.range (nv - ni)).map fun i =>
          kVal q T.alpha T.beta (ni + 1 + i) * T.delta⁻¹)) w.length (by simp [batchExp, hwv])
  have z3 := multiexp_zeros (F := F) (batchExp T.g1 ((List.range' 1 ni).map fun i =>
    kVal q T.alpha T.beta i * T.gamma⁻¹)) p.length (by simp [batchExp, hpi])
  refine ⟨?_, ?_, ?_⟩
  · simp only [Groth16Coeffs1.combine, honestA, hA, Option.bind_eq_bind, Option.bind_some,
      eB' (List.replicate (p.length + w.length + 1) 0) (by simp [← hfull]), z1, z2, z3, innerProduct_zeros,
      Option.pure_def]
    congr 1
    module
  · simp only [Groth16Coeffs2.combine, honestB, eB' _ hpad, Option.bind_eq_bind, Option.bind_some,
      Option.pure_def]
    congr 1
    module
  · simp only [Groth16Coeffs1.combine, honestC, multiexp_scaled _ _ _ s hA, Option.bind_eq_bind,
      Option.bind_some, eB' ((1 :: (p ++ w)).map (r * ·)) (by rw [List.length_map, hpad]), hH, hL, z3,
      innerProduct_scaled_left, Option.pure_def]
    congr 1
    module

section Examples

instance exFact97 : Fact (Nat.Prime 97) := ⟨by norm_num⟩

def exPairing97 : Pairing (ZMod 97) (ZMod 97) (ZMod 97) (ZMod 97) :=
  ⟨LinearMap.mul (ZMod 97) (ZMod 97), 1, 1, fun _ => true, fun _ => true⟩

theorem exDom97 : (EvalDomain.ofPoints 4 (fun i => ((i + 1 : Nat) : ZMod 97)) 10).Lawful := by
  apply EvalDomain.ofPoints_lawful
  · decide
  · decide
  · decide

/-- `x₂ · x₂ = x₁` with `x₁` public -/
def exRoot97 : R1CS (ZMod 97) := ⟨1, 1, [⟨[⟨2, 1⟩], [⟨2, 1⟩], [⟨1, 1⟩]⟩]⟩

theorem exRoot97_ok : exRoot97.WellRanged := by
  intro k hk
  simp only [exRoot97, List.mem_singleton] at hk
  subst hk
  refine ⟨?_, ?_, ?_⟩ <;> · intro t ht; simp at ht; subst ht; decide

set_option maxRecDepth 20000 in
/-- the hypotheses of `C88_knowledge_soundness_partial` are met: the honest prover for `3 · 3 = 9`, and all
secrets -/
example : ∃ (A : Groth16Coeffs1 (ZMod 97)) (B : Groth16Coeffs2 (ZMod 97)) (C : Groth16Coeffs1 (ZMod 97))
    (accepting : Finset (ZMod 97 × (Fin 4 → ZMod 97))),
    (∀ z ∈ accepting, z.2 2 ≠ 0 ∧ z.2 3 ≠ 0 ∧ ∃ pk vk gA gB gC,
      groth16Generate exPairing97 (EvalDomain.ofPoints 4 (fun i => ((i + 1 : Nat) : ZMod 97)) 10) exRoot97
        { t := z.1, alpha := z.2 0, beta := z.2 1, gamma := z.2 2, delta := z.2 3, g1 := 1, g2 := 1 } 3
        = some (pk, vk) ∧
      A.combine 1 pk vk = some gA ∧ B.combine 1 pk vk = some gB ∧ C.combine 1 pk vk = some gC ∧
      groth16VerifyWeak exPairing97 vk [9] ⟨gA, gB, gC⟩ = some true) ∧
    (2 * 4 + 4) * Fintype.card (ZMod 97) ^ 4 < accepting.card ∧ C.l = [3] := by
  obtain ⟨H, hH⟩ := C88_honest_prover_is_linear exPairing97 exDom97 exRoot97 exRoot97_ok (by decide) 3 [9] [3]
    rfl rfl (by decide +kernel)
  refine ⟨honestA [9] [3] 5 4, honestB [9] [3] 6, honestC [9] [3] H 5 6 4,
    Finset.univ ×ˢ Fintype.piFinset ![Finset.univ, Finset.univ, {0}ᶜ, {0}ᶜ], fun z hz => ?_, ?_, rfl⟩
  · simp only [Finset.mem_product, Finset.mem_univ, true_and, Fintype.mem_piFinset, Fin.forall_fin_succ] at hz
    have h2 : z.2 2 ≠ 0 := by simpa using hz.2.2.1
    have h3 : z.2 3 ≠ 0 := by simpa using hz.2.2.2
    refine ⟨h2, h3, ?_⟩
    obtain ⟨pk, vk, π, hg, hpr, -, hv⟩ := C50_groth16_complete exPairing97 exDom97 exRoot97 exRoot97_ok
      (by decide) ⟨z.1, z.2 0, z.2 1, z.2 2, z.2 3, 1, 1⟩ h2 h3 3 (fun _ => rfl) (fun _ => rfl) [9] [3] rfl rfl
      (by decide +kernel) 5 6
    obtain ⟨e1, e2, e3⟩ := hH _ pk vk 5 6 π hg hpr
    exact ⟨pk, vk, _, _, _, hg, e1, e2, e3, hv⟩
  · rw [Finset.card_product, Fintype.card_piFinset, Fin.prod_univ_four]
    simp only [Matrix.cons_val_zero, Matrix.cons_val_one, Matrix.cons_val, Finset.card_compl,
      Finset.card_singleton, Finset.card_univ, ZMod.card]
    norm_num

end Examples

end Crypto3Zk
