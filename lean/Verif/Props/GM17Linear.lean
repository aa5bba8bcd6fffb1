import Verif.Spec.GM17Linear
import Verif.Lemmas.GM17Linear
import Verif.Props.GM17
import Verif.Props.SapSsp
import Verif.Props.Groth16Linear

/-!
# C90: the Groth–Maller argument is sound against provers that compute with group elements
-/

set_option linter.unusedSectionVars false

namespace Crypto3Zk

open Finset Polynomial

variable {F : Type} [Field F] [DecidableEq F] {D : EvalDomain F}
variable {G1 G2 GT : Type} [AddCommGroup G1] [Module F G1] [AddCommGroup G2] [Module F G2]
  [AddCommGroup GT] [Module F GT] [DecidableEq GT]

/-- a combination of elements at one evaluation point -/
def Gm17Coeffs1.at (c : Gm17Coeffs1 F) (q : SapEval F) (nv ni : Nat) : GLin1 F where
  one := c.one
  al := c.alpha
  ab := ∑ i ∈ range (ni + 1), c.query.getD i 0 * q.At.getD i 0
  g := innerProduct c.a q.At + c.gammaZ * q.Zt + c.gamma +
    ∑ i ∈ range (ni + 1), c.query.getD i 0 * q.Ct.getD i 0
  gg := (∑ i ∈ range (nv - ni), c.c1.getD i 0 * q.Ct.getD (ni + 1 + i) 0) +
    q.Zt * (2 * innerProduct c.c2 q.At + c.gamma2Z2 * q.Zt + evalPoly c.gamma2Zt q.t)
  abg := (∑ i ∈ range (nv - ni), c.c1.getD i 0 * q.At.getD (ni + 1 + i) 0) + c.abGammaZ * q.Zt

/-- a combination of elements of the second group at one evaluation point -/
def Gm17Coeffs2.at (c : Gm17Coeffs2 F) (q : SapEval F) : GLin2 F where
  one := c.one
  be := c.beta
  g := innerProduct c.b q.At + c.gammaZ * q.Zt + c.gamma

theorem innerProduct_psiVal (q : SapEval F) (alpha beta gamma k : F) (xs : List F) (n : Nat) (g : Nat → Nat)
    (l : List Nat) (hl : l.length = n) (hg : ∀ i (h : i < l.length), l[i] = g i) (hx : xs.length = n) :
    innerProduct xs (l.map fun i => k * psiVal q alpha beta gamma i) =
      k * (gamma * (∑ i ∈ range n, xs.getD i 0 * q.Ct.getD (g i) 0)
        + (alpha + beta) * (∑ i ∈ range n, xs.getD i 0 * q.At.getD (g i) 0)) := by
  rw [← sum_psiVal, innerProduct_eq_sum _ _ (by simp [hl, hx]), hx, Finset.mul_sum]
  refine Finset.sum_congr rfl fun i hi => ?_
  have hi' : i < l.length := by simpa [hl] using hi
  rw [List.getD_eq_getElem (List.map _ _) _ (by simpa using hi')]
  simp only [List.getElem_map, hg i hi']
  ring

theorem gm17_c2_eq (q : SapEval F) (nv : Nat) (lA : q.At.length = nv + 1) (k : F) :
    ((List.range (nv + 1)).map fun i => k * q.At.getD i 0) = q.At.map fun a => k * a := by
  apply List.ext_getElem
  · simp [lA]
  · intro i h1 h2
    simp only [List.length_map, List.length_range] at h1 h2
    simp [List.getElem?_eq_getElem h2]

/-- the keys as multiples of the generators -/
def gm17Keys (cs : R1CS F) (T : Gm17Trapdoor F G1 G2) (q : SapEval F) (nv ni : Nat) :
    Gm17PK F G1 G2 × Gm17VK G1 G2 :=
  ({ aQuery := batchExp T.g (q.At.map fun a => T.gamma * a)
     bQuery := batchExp (T.gamma • T.h) q.At
     cQuery1 := batchExp T.g ((List.range' (ni + 1) (nv - ni)).map fun i =>
       T.gamma * psiVal q T.alpha T.beta T.gamma i)
     cQuery2 := batchExp T.g ((List.range (nv + 1)).map fun i =>
       (T.gamma * T.gamma * q.Zt + T.gamma * T.gamma * q.Zt) * q.At.getD i 0)
     gGammaZ := q.Zt • T.gamma • T.g
     hGammaZ := q.Zt • T.gamma • T.h
     gAbGammaZ := (T.alpha + T.beta) • q.Zt • T.gamma • T.g
     gGamma2Z2 := (q.Zt * T.gamma) • q.Zt • T.gamma • T.g
     gGamma2Zt := batchExp T.g (powersFrom T.t (q.Zt * T.gamma ^ 2) (q.degree + 1))
     cs },
   { h := T.h, gAlpha := T.alpha • T.g, hBeta := T.beta • T.h, gGamma := T.gamma • T.g,
     hGamma := T.gamma • T.h,
     query := batchExp T.g ((List.range (ni + 1)).map (psiVal q T.alpha T.beta T.gamma)) })

theorem Gm17Coeffs1.combine_eq (cs : R1CS F) (T : Gm17Trapdoor F G1 G2) (q : SapEval F) (nv ni : Nat)
    (lA : q.At.length = nv + 1) (ht : q.t = T.t)
    (c : Gm17Coeffs1 F) (g : G1)
    (h : c.combine T.g (gm17Keys cs T q nv ni).1 (gm17Keys cs T q nv ni).2 = some g) :
    g = (c.at q nv ni).value ![T.alpha, T.beta, T.gamma] • T.g ∧
      c.c1.length = nv - ni ∧ c.c2.length = nv + 1 ∧ c.gamma2Zt.length = q.degree + 1 := by
  simp only [Gm17Coeffs1.combine, Option.bind_eq_bind, Option.bind_eq_some_iff, gm17Keys] at h
  obtain ⟨a, ha, c1, hc1, c2, hc2, z, hz, s, hs, h⟩ := h
  have la := multiexp_length ha
  have l1 := multiexp_length hc1
  have l2 := multiexp_length hc2
  have lz := multiexp_length hz
  have ls := multiexp_length hs
  simp only [batchExp, List.length_map, List.length_range, List.length_range', length_powersFrom] at la l1 l2 lz ls
  refine ⟨?_, l1.symm, l2.symm, lz.symm⟩
  rw [multiexp_batchExp _ _ _ (by simpa using la), innerProduct_map_mul] at ha
  rw [multiexp_batchExp _ _ _ (by simpa using l1),
    innerProduct_psiVal q _ _ _ _ _ (nv - ni) (fun i => ni + 1 + i) _ (by simp) (by simp) l1.symm] at hc1
  rw [multiexp_batchExp _ _ _ (by simpa using l2), gm17_c2_eq q nv lA, innerProduct_map_mul] at hc2
  rw [multiexp_batchExp _ _ _ (by rw [length_powersFrom, lz]), innerProduct_comm', lz,
    innerProduct_powersFrom] at hz
  have hq1 : (List.range (ni + 1)).map (psiVal q T.alpha T.beta T.gamma) =
      (List.range (ni + 1)).map fun i => 1 * psiVal q T.alpha T.beta T.gamma i := by simp
  rw [multiexp_batchExp _ _ _ (by simpa using ls), hq1,
    innerProduct_psiVal q _ _ _ _ _ (ni + 1) (fun i => i) _ (by simp) (by simp) ls.symm] at hs
  simp only [Option.some.injEq] at ha hc1 hc2 hz hs
  subst ha hc1 hc2 hz hs
  simp only [Option.pure_def, Option.some.injEq] at h
  rw [← h]
  simp only [smul_smul, ← add_smul]
  congr 1
  simp only [GLin1.value, Gm17Coeffs1.at, ht, Matrix.cons_val_zero, Matrix.cons_val_one, Matrix.cons_val]
  ring

theorem Gm17Coeffs2.combine_eq (cs : R1CS F) (T : Gm17Trapdoor F G1 G2) (q : SapEval F) (nv ni : Nat)
    (c : Gm17Coeffs2 F) (g : G2)
    (h : c.combine (gm17Keys cs T q nv ni).1 (gm17Keys cs T q nv ni).2 = some g) :
    g = (c.at q).value ![T.alpha, T.beta, T.gamma] • T.h := by
  simp only [Gm17Coeffs2.combine, Option.bind_eq_bind, Option.bind_eq_some_iff, gm17Keys] at h
  obtain ⟨b, hb, h⟩ := h
  have lb := multiexp_length hb
  rw [multiexp_batchExp _ _ _ (by simpa [batchExp] using lb)] at hb
  simp only [Option.some.injEq] at hb
  subst hb
  simp only [Option.pure_def, Option.some.injEq] at h
  rw [← h]
  simp only [smul_smul, ← add_smul]
  congr 1
  simp only [GLin2.value, Gm17Coeffs2.at, Matrix.cons_val_zero, Matrix.cons_val_one, Matrix.cons_val]
  ring

/-- the coefficients of a polynomial as a list -/
theorem exists_coefficients (f : F[X]) (n : Nat) (h : f.natDegree ≤ n) :
    ∃ L : List F, L.length = n + 1 ∧ ∀ t, evalPoly L t = f.eval t := by
  refine ⟨(List.range (n + 1)).map f.coeff, by simp, fun t => ?_⟩
  rw [← eval_toPoly]
  congr 1
  ext i
  rw [coeff_toPoly]
  by_cases hi : i < n + 1
  · rw [List.getD_eq_getElem _ _ (by simpa using hi)]
    simp
  · rw [List.getD_eq_default _ _ (by simp; omega), coeff_eq_zero_of_natDegree_lt (by omega)]

/-- at one evaluation point: a strategy that is accepted for many α, β, γ satisfies the equation of
the square arithmetic program -/
theorem gm17_point [Fintype F] (P : Pairing F G1 G2 GT) (hD : D.Lawful) (cs : R1CS F)
    (hr : cs.WellRanged) (hm : cs.sapDomainSize ≤ D.m) (g : G1) (h : G2) (hne : P.e g h ≠ 0) (p : List F)
    (hp : p.length = cs.primaryInputSize) (A : Gm17Coeffs1 F) (B : Gm17Coeffs2 F) (C : Gm17Coeffs1 F) (t : F)
    (S : Finset (Fin 3 → F)) (hcard : 3 * Fintype.card F ^ 2 < S.card)
    (hS : ∀ x ∈ S, ∃ pk vk gA gB gC,
      gm17Generate D cs ⟨t, x 0, x 1, x 2, g, h⟩ = some (pk, vk) ∧
      A.combine g pk vk = some gA ∧ B.combine pk vk = some gB ∧ C.combine g pk vk = some gC ∧
      gm17VerifyWeak P vk p ⟨gA, gB, gC⟩ = some true) :
    C.c1.length = cs.sapNumVariables - cs.numInputs ∧ C.c2.length = cs.sapNumVariables + 1 ∧
      C.gamma2Zt.length = D.m + 1 ∧
      ∀ H : List F, H.length = D.m + 1 →
        evalPoly H t = 2 * dot (cs.sapARow D.m (fun i => C.c2.getD i 0)) (fun i => (D.lagrange t).getD i 0) +
          C.gamma2Z2 * D.vanishing t + evalPoly C.gamma2Zt t →
        ∃ q, cs.sapEval D t = some q ∧
          q.isSatisfied D ⟨cs.sapNumVariables, D.m, cs.numInputs, C.abGammaZ, 0, p ++ C.c1, H⟩ = true := by
  obtain ⟨qi, q, -, hq, -, n1, n2, n3, n4, lA, lC, eH, eZ, dA, dC⟩ := R1CS.sapEval_spec hD cs hr hm t
  set nv := cs.sapNumVariables with hnv0
  set ni := cs.numInputs with hni0
  have hle : ni ≤ nv := by simp [hni0, hnv0, R1CS.sapNumVariables]
  have hpi : p.length = ni := by rw [hp]; rfl
  have hgen : ∀ x : Fin 3 → F, gm17Generate D cs ⟨t, x 0, x 1, x 2, g, h⟩ =
      some (gm17Keys cs ⟨t, x 0, x 1, x 2, g, h⟩ q nv ni) := fun x =>
    gm17Generate_eq D cs ⟨t, x 0, x 1, x 2, g, h⟩ q hq nv ni n1 n3 hle lA lC
  obtain ⟨x0, hx0⟩ : S.Nonempty := Finset.card_pos.1 (by omega)
  have hlen : C.c1.length = nv - ni ∧ C.c2.length = nv + 1 ∧ C.gamma2Zt.length = D.m + 1 := by
    obtain ⟨pk, vk, gA, gB, gC, hg, -, -, hC, -⟩ := hS x0 hx0
    rw [hgen x0] at hg
    simp only [Option.some.injEq] at hg
    obtain ⟨rfl, rfl⟩ := Prod.ext_iff.1 hg
    have := (Gm17Coeffs1.combine_eq cs _ q nv ni lA n4 C gC hC).2
    rwa [n2] at this
  refine ⟨hlen.1, hlen.2.1, hlen.2.2, fun H lH hH => ⟨q, hq, ?_⟩⟩
  obtain ⟨l1, l2, l3⟩ := hlen
  have key := gm17_identity (A.at q nv ni) (B.at q) (C.at q nv ni)
    (q.At.getD 0 0 + ∑ i ∈ range ni, p.getD i 0 * q.At.getD (1 + i) 0)
    (q.Ct.getD 0 0 + ∑ i ∈ range ni, p.getD i 0 * q.Ct.getD (1 + i) 0) S hcard ?_ ?_
  · have hw : (p ++ C.c1).length = nv := by rw [List.length_append, hpi, l1]; omega
    rw [SapEval.isSatisfied_iff]
    refine ⟨n1, n2, n3, by rw [n1, hw], by rw [n2, lH], by rw [n1, lA],
      by rw [n1, lC], by rw [eH, length_powersFrom, n2], by rw [eZ, n4], ?_⟩
    simp only
    rw [ansOf_eq _ _ _ _ (by rw [lA, hw]), ansOf_eq _ _ _ _ (by rw [lC, hw]),
      dot_split _ p C.c1 (by rw [lA]; omega), dot_split _ p C.c1 (by rw [lC]; omega), hpi, l1, eH,
      innerProduct_powers _ _ _ lH, hH, ← dA, ← eZ]
    have hip : dot q.At (fun i => C.c2.getD i 0) = innerProduct C.c2 q.At := by
      rw [innerProduct_eq_sum _ _ (by rw [l2, lA]), dot_eq_sum, lA, l2]
      exact Finset.sum_congr rfl fun i _ => mul_comm _ _
    rw [hip]
    simp only [Gm17Coeffs1.at, n4] at key
    linear_combination key
  all_goals
    intro x hx
    obtain ⟨pk, vk, gA, gB, gC, hg, hA, hB, hC, hv⟩ := hS x hx
    rw [hgen x] at hg
    simp only [Option.some.injEq] at hg
    obtain ⟨rfl, rfl⟩ := Prod.ext_iff.1 hg
    obtain ⟨rA, -⟩ := Gm17Coeffs1.combine_eq cs _ q nv ni lA n4 A gA hA
    obtain ⟨rC, -⟩ := Gm17Coeffs1.combine_eq cs _ q nv ni lA n4 C gC hC
    have rB := Gm17Coeffs2.combine_eq cs _ q nv ni B gB hB
    have hx3 : ![x 0, x 1, x 2] = x := by ext i; fin_cases i <;> rfl
    simp only [hx3] at rA rB rC
    have hquery : (gm17Keys cs ⟨t, x 0, x 1, x 2, g, h⟩ q nv ni).2.query =
        (psiVal q (x 0) (x 1) (x 2) 0 • g) ::
          batchExp g ((List.range' 1 ni).map fun i => 1 * psiVal q (x 0) (x 1) (x 2) i) := by
      simp [gm17Keys, batchExp, List.range_eq_range', List.range'_succ]
    have hacc := ((C52_verifier_iff P _ _ _ hquery p (by simp [batchExp, hpi]) _).1.1 hv).2.2.2
    obtain ⟨e1, e2⟩ := hacc
    simp only [gm17Keys] at e1 e2
    rw [rA, rB] at e2
    rw [rA, rB, rC, batchExp, zipWith_smul_batch,
      innerProduct_psiVal q _ _ _ _ _ ni (fun i => 1 + i) _ (by simp) (by simp) hpi] at e1
    have hone : ∀ c : F, P.e (c • g) h = c • P.e g h := by
      intro c; rw [map_smul, LinearMap.smul_apply]
    simp only [← add_smul, pair_smul, hone] at e1 e2
    have h1 := smul_left_injective F hne e1
    have h2 := smul_left_injective F hne e2
    simp only [psiVal] at h1
    first
      | linear_combination h2
      | linear_combination h1

/-- **C90** (partial) A prover that computes with group elements: it chooses, for each element of the proof, one
coefficient for each group element of the two keys. If its proof for the input `p` is accepted for more than
`(2m + 3) · |F|^3` of the `|F|^4` secrets (`t`, α, β, γ), then `p` together with the first coefficients of the
third element for the query of the auxiliary input satisfies the constraint system.

What is missing: provers that are not of this kind. For coefficients that depend on the keys see
`C90_adaptive_provers_partial`, and for provers that have seen simulated proofs C114. -/
theorem C90_knowledge_soundness_partial [Fintype F] (P : Pairing F G1 G2 GT) (hD : D.Lawful)
    (h2 : (2 : F) ≠ 0) (cs : R1CS F) (hr : cs.WellRanged)
    (hm : 2 * cs.numConstraints + 2 * cs.numInputs + 1 ≤ D.m)
    (g : G1) (h : G2) (hne : P.e g h ≠ 0) (p : List F) (hp : p.length = cs.primaryInputSize)
    (A : Gm17Coeffs1 F) (B : Gm17Coeffs2 F) (C : Gm17Coeffs1 F)
    (accepting : Finset (F × (Fin 3 → F)))
    (hacc : ∀ z ∈ accepting, ∃ pk vk gA gB gC,
      gm17Generate D cs { t := z.1, alpha := z.2 0, beta := z.2 1, gamma := z.2 2, g := g, h := h }
        = some (pk, vk) ∧
      A.combine g pk vk = some gA ∧ B.combine pk vk = some gB ∧ C.combine g pk vk = some gC ∧
      gm17VerifyWeak P vk p ⟨gA, gB, gC⟩ = some true)
    (hcard : (2 * D.m + 3) * Fintype.card F ^ 3 < accepting.card) :
    cs.isSatisfied p (C.c1.take cs.auxiliaryInputSize) = some true := by
  obtain ⟨good, hgood, hslice⟩ := many_slices accepting (2 * D.m) (3 * Fintype.card F ^ 2) (by
    rw [Fintype.card_fun, Fintype.card_fin]
    calc _ = (2 * D.m + 3) * Fintype.card F ^ 3 := by ring
      _ < _ := hcard)
  have hpoint := fun t ht => gm17_point P hD cs hr hm g h hne p hp A B C t _ (hslice t ht)
    fun x hx => hacc _ (Finset.mem_filter.1 hx).2
  obtain ⟨t0, ht0⟩ : good.Nonempty := Finset.card_pos.1 (by omega)
  obtain ⟨l1, l2, l3, -⟩ := hpoint t0 ht0
  obtain ⟨H, lH, hH⟩ := exists_coefficients
    (Polynomial.C 2 * interp D (cs.sapARow D.m (fun i => C.c2.getD i 0)) + Polynomial.C C.gamma2Z2 * D.zPoly +
      toPoly C.gamma2Zt) D.m (by
    have hl := R1CS.length_sapARow D.m cs (fun i => C.c2.getD i 0) hm
    refine (natDegree_add_le _ _).trans (max_le ((natDegree_add_le _ _).trans (max_le ?_ ?_)) ?_)
    · refine natDegree_mul_le.trans ?_
      rw [natDegree_C, zero_add]
      exact natDegree_interp_le hD _ hl
    · refine natDegree_mul_le.trans ?_
      rw [natDegree_C, EvalDomain.zPoly_natDegree, zero_add]
    · have := degree_toPoly C.gamma2Zt
      rw [l3] at this
      by_cases h0 : toPoly C.gamma2Zt = 0
      · rw [h0]; simp
      · rw [degree_eq_natDegree h0] at this
        have : (toPoly C.gamma2Zt).natDegree < D.m + 1 := by exact_mod_cast this
        omega)
  have := C19_sap_sound hD h2 cs hr hm
    ⟨cs.sapNumVariables, D.m, cs.numInputs, C.abGammaZ, 0, p ++ C.c1, H⟩ good hgood fun t ht =>
      (hpoint t ht).2.2.2 H lH (by
        rw [hH t, eval_add, eval_add, eval_mul, eval_mul, eval_C, eval_C, hD.eval_zPoly, eval_toPoly,
          interp_eval hD _ (R1CS.length_sapARow D.m cs _ hm)])
  have e1 : (p ++ C.c1).take cs.primaryInputSize = p := by rw [← hp, List.take_left]
  have e2 : ((p ++ C.c1).take cs.numVariables).drop cs.primaryInputSize = C.c1.take cs.auxiliaryInputSize := by
    rw [R1CS.numVariables, ← hp, List.take_length_add_append, List.drop_left]
  rw [e1, e2] at this
  exact this

/-- C90, partial, in the other direction: if no auxiliary input satisfies the system, a strategy is
accepted for no more than `2m + 3` of every `|F|` choices of the secrets. -/
theorem C90_false_statements_rejected_partial [Fintype F] (P : Pairing F G1 G2 GT) (hD : D.Lawful)
    (h2 : (2 : F) ≠ 0) (cs : R1CS F) (hr : cs.WellRanged)
    (hm : 2 * cs.numConstraints + 2 * cs.numInputs + 1 ≤ D.m)
    (g : G1) (h : G2) (hne : P.e g h ≠ 0) (p : List F) (hp : p.length = cs.primaryInputSize)
    (hfalse : ∀ w, cs.isSatisfied p w ≠ some true)
    (A : Gm17Coeffs1 F) (B : Gm17Coeffs2 F) (C : Gm17Coeffs1 F)
    (accepting : Finset (F × (Fin 3 → F)))
    (hacc : ∀ z ∈ accepting, ∃ pk vk gA gB gC,
      gm17Generate D cs { t := z.1, alpha := z.2 0, beta := z.2 1, gamma := z.2 2, g := g, h := h }
        = some (pk, vk) ∧
      A.combine g pk vk = some gA ∧ B.combine pk vk = some gB ∧ C.combine g pk vk = some gC ∧
      gm17VerifyWeak P vk p ⟨gA, gB, gC⟩ = some true) :
    accepting.card ≤ (2 * D.m + 3) * Fintype.card F ^ 3 := by
  by_contra hcon
  exact hfalse _ (C90_knowledge_soundness_partial P hD h2 cs hr hm g h hne p hp A B C accepting hacc
    (not_le.1 hcon))

/-- **C90** (partial), adaptive provers: the coefficients, and the input, may depend on the keys. Whenever such a proof
is accepted, the coefficients contain a witness, or else the secrets are in a set that is known from the input and the
coefficients alone, and that has no more than `2m + 3` of every `|F|` secrets. -/
theorem C90_adaptive_provers_partial [Fintype F] (P : Pairing F G1 G2 GT) (hD : D.Lawful)
    (h2 : (2 : F) ≠ 0) (cs : R1CS F) (hr : cs.WellRanged)
    (hm : 2 * cs.numConstraints + 2 * cs.numInputs + 1 ≤ D.m)
    (g : G1) (h : G2) (hne : P.e g h ≠ 0) :
    ∃ bad : List F → Gm17Coeffs1 F → Gm17Coeffs2 F → Gm17Coeffs1 F → Finset (F × (Fin 3 → F)),
      (∀ p A B C, (bad p A B C).card ≤ (2 * D.m + 3) * Fintype.card F ^ 3) ∧
      ∀ (t alpha beta gamma : F) pk vk p A B C gA gB gC, p.length = cs.primaryInputSize →
        gm17Generate D cs { t := t, alpha := alpha, beta := beta, gamma := gamma, g := g, h := h }
          = some (pk, vk) →
        A.combine g pk vk = some gA → B.combine pk vk = some gB → C.combine g pk vk = some gC →
        gm17VerifyWeak P vk p ⟨gA, gB, gC⟩ = some true →
        cs.isSatisfied p (C.c1.take cs.auxiliaryInputSize) = some true ∨ (t, ![alpha, beta, gamma]) ∈ bad p A B C := by
  classical
  refine ⟨fun p A B C => Finset.univ.filter fun z => p.length = cs.primaryInputSize ∧
    cs.isSatisfied p (C.c1.take cs.auxiliaryInputSize) ≠ some true ∧ ∃ pk vk gA gB gC,
      gm17Generate D cs { t := z.1, alpha := z.2 0, beta := z.2 1, gamma := z.2 2, g := g, h := h }
        = some (pk, vk) ∧
      A.combine g pk vk = some gA ∧ B.combine pk vk = some gB ∧ C.combine g pk vk = some gC ∧
      gm17VerifyWeak P vk p ⟨gA, gB, gC⟩ = some true, fun p A B C => ?_, ?_⟩
  · by_cases hp : p.length = cs.primaryInputSize ∧ cs.isSatisfied p (C.c1.take cs.auxiliaryInputSize) ≠ some true
    · by_contra hcon
      exact hp.2 (C90_knowledge_soundness_partial P hD h2 cs hr hm g h hne p hp.1 A B C _
        (fun z hz => (Finset.mem_filter.1 hz).2.2.2) (not_le.1 hcon))
    · exact le_trans (le_of_eq (Finset.card_eq_zero.2 (Finset.filter_eq_empty_iff.2
        fun z _ hz => hp ⟨hz.1, hz.2.1⟩))) (Nat.zero_le _)
  · intro t alpha beta gamma pk vk p A B C gA gB gC hp hg hA hB hC hv
    by_cases hs : cs.isSatisfied p (C.c1.take cs.auxiliaryInputSize) = some true
    · exact .inl hs
    · exact .inr (Finset.mem_filter.2 ⟨Finset.mem_univ _, hp, hs, pk, vk, gA, gB, gC, hg, hA, hB, hC, hv⟩)

/-- **C90** (the honest prover is such a prover): for each of its random choices there are coefficients that
reproduce its proof under all keys, and the ones from which `C90_knowledge_soundness_partial` reads the
witness are the auxiliary input. -/
theorem C90_honest_prover_is_linear (hD : D.Lawful) (cs : R1CS F)
    (hr : cs.WellRanged) (hm : 2 * cs.numConstraints + 2 * cs.numInputs + 1 ≤ D.m)
    (p w : List F) (hp : p.length = cs.primaryInputSize) (hw : w.length = cs.auxiliaryInputSize)
    (hsat : cs.isSatisfied p w = some true) (d1 d2 r : F) :
    ∃ (A : Gm17Coeffs1 F) (B : Gm17Coeffs2 F) (C : Gm17Coeffs1 F), C.c1.take cs.auxiliaryInputSize = w ∧
      ∀ (T : Gm17Trapdoor F G1 G2) (pk : Gm17PK F G1 G2) (vk : Gm17VK G1 G2) (π : Gm17Proof G1 G2),
        gm17Generate D cs T = some (pk, vk) → gm17Prove D pk p w d1 d2 r = some π →
        A.combine T.g pk vk = some π.gA ∧ B.combine pk vk = some π.gB ∧ C.combine T.g pk vk = some π.gC := by
  have hfull : (p ++ w).length = cs.numVariables := by simp [hp, hw, R1CS.numVariables]
  have hs := (C16_isSatisfied_iff cs hr p w (by rw [← List.length_append, hfull])).1.1 hsat
  have hfl := R1CS.length_sapFull cs (p ++ w) hfull
  obtain ⟨ext, hext⟩ : ∃ ext, cs.sapFull (p ++ w) = p ++ (w ++ ext) := by
    simp only [R1CS.sapFull, List.append_assoc]
    exact ⟨_, rfl⟩
  obtain ⟨H, eW, lH, -⟩ := R1CS.sapWitness_spec hD cs hr p w hp hw hm hs d1 d2
  set nv := cs.sapNumVariables with hnv0
  set ni := cs.numInputs with hni0
  have hle : ni ≤ nv := by simp [hni0, hnv0, R1CS.sapNumVariables]
  have hpi : p.length = ni := hp
  rw [hext] at eW hfl
  have hxl : (w ++ ext).length = nv - ni := by rw [List.length_append, hpi] at hfl; omega
  obtain ⟨h0, hs', rfl⟩ : ∃ h0 hs', H = h0 :: hs' := by
    cases H with
    | nil => simp at lH
    | cons a b => exact ⟨a, b, rfl⟩
  refine ⟨⟨0, 1 :: (p ++ (w ++ ext)), List.replicate (nv - ni) 0, List.replicate (nv + 1) 0, r + d1, 0, 0,
      List.replicate (D.m + 1) 0, 0, 0, List.replicate (ni + 1) 0⟩,
    ⟨0, 1 :: (p ++ (w ++ ext)), r + d1, 0, 0⟩,
    ⟨0, List.replicate (nv + 1) 0, w ++ ext, (1 :: (p ++ (w ++ ext))).map (r * ·), 0, r + d1,
      r * r + (r + r) * d1, (d2 + h0) :: hs', 0, 0, List.replicate (ni + 1) 0⟩, ?_, ?_⟩
  · simp only
    rw [← hw, List.take_left]
  intro T pk vk π hgen hprove
  obtain ⟨qi, q, -, hq, -, n1, n2, n3, n4, lA, lC, eH, eZ, dA, dC⟩ := R1CS.sapEval_spec hD cs hr hm T.t
  rw [gm17Generate_eq D cs T q hq nv ni n1 n3 hle lA lC] at hgen
  simp only [Option.some.injEq, Prod.mk.injEq] at hgen
  obtain ⟨rfl, rfl⟩ := hgen
  rw [n2] at hprove ⊢
  have hsl : slice (p ++ (w ++ ext)) ni (p ++ (w ++ ext)).length = some (w ++ ext) := by
    rw [slice_eq _ _ _ (by omega) (le_refl _), ← hpi, List.drop_left,
      List.take_of_length_le (by simp)]
  simp only [gm17Prove, eW, Option.bind_eq_bind, Option.bind_some, Option.pure_def, hsl,
    Option.bind_eq_some_iff, Option.some.injEq] at hprove
  obtain ⟨a0, ha0, aS, haS, b0, hb0, bS, hbS, c1, hc1, c20, hc20, c2, hc2, z0, hz0, hz, hhz, rfl⟩ := hprove
  have hcons : ∀ {G : Type} [AddCommGroup G] [Module F G] (gs : List G) (x : F) (xs : List F) (u v : G),
      gs[0]? = some u → multiexp (gs.drop 1) xs = some v → multiexp gs (x :: xs) = some (x • u + v) := by
    intro G _ _ gs x xs u v hu hv
    cases gs with
    | nil => simp at hu
    | cons g gs =>
      simp only [List.getElem?_cons_zero, Option.some.injEq] at hu
      subst hu
      have hl := multiexp_length hv
      simp only [List.drop_succ_cons, List.drop_zero] at hv hl
      rw [multiexp, if_pos hl] at hv
      rw [multiexp, if_pos (by simp [hl]), ← Option.some.inj hv]
      simp
  have hA := hcons _ 1 _ _ _ ha0 haS
  have hB := hcons _ 1 _ _ _ hb0 hbS
  have hC2 := multiexp_scaled _ _ _ r (hcons _ 1 _ _ _ hc20 hc2)
  have hZ : multiexp (batchExp T.g (powersFrom T.t (q.Zt * T.gamma ^ 2) (D.m + 1))) ((d2 + h0) :: hs') =
      some (d2 • z0 + hz) := by
    simp only [batchExp, powersFrom, List.map_cons, List.getElem?_cons_zero, Option.some.injEq] at hz0 hhz ⊢
    have hl := multiexp_length hhz
    rw [multiexp, if_pos hl] at hhz
    rw [multiexp, if_pos (by simpa using hl), ← Option.some.inj hhz, ← hz0]
    simp only [List.zipWith_cons_cons, List.sum_cons, add_smul, add_assoc]
  have z1 := multiexp_zeros (F := F) (batchExp T.g (q.At.map fun a => T.gamma * a)) (nv + 1)
    (by rw [batchExp, List.length_map, List.length_map, lA])
  have z2 := multiexp_zeros (F := F) (batchExp T.g ((List.range' (ni + 1) (nv - ni)).map fun i =>
    T.gamma * psiVal q T.alpha T.beta T.gamma i)) (nv - ni) (by simp [batchExp])
  have z3 := multiexp_zeros (F := F) (batchExp T.g ((List.range (nv + 1)).map fun i =>
    (T.gamma * T.gamma * q.Zt + T.gamma * T.gamma * q.Zt) * q.At.getD i 0)) (nv + 1) (by simp [batchExp])
  have z4 := multiexp_zeros (F := F) (batchExp T.g (powersFrom T.t (q.Zt * T.gamma ^ 2) (D.m + 1))) (D.m + 1)
    (by rw [batchExp, List.length_map, length_powersFrom])
  have z5 := multiexp_zeros (F := F) (batchExp T.g ((List.range (ni + 1)).map
    (psiVal q T.alpha T.beta T.gamma))) (ni + 1) (by simp [batchExp])
  refine ⟨?_, ?_, ?_⟩
  · simp only [Gm17Coeffs1.combine, hA, z2, z3, z4, z5, Option.bind_eq_bind, Option.bind_some, Option.pure_def]
    congr 1
    module
  · simp only [Gm17Coeffs2.combine, hB, Option.bind_eq_bind, Option.bind_some, Option.pure_def]
    congr 1
    module
  · simp only [Gm17Coeffs1.combine, hC2, hc1, hZ, z1, z5, Option.bind_eq_bind, Option.bind_some, Option.pure_def]
    congr 1
    module

section Examples

theorem exDom97' : (EvalDomain.ofPoints 5 (fun i => ((i + 1 : Nat) : ZMod 97)) 10).Lawful := by
  apply EvalDomain.ofPoints_lawful
  · decide
  · decide
  · decide

set_option maxRecDepth 20000 in
/-- the hypotheses of `C90_knowledge_soundness_partial` are met: the honest prover for `3 · 3 = 9`, and all
secrets -/
example : ∃ (A : Gm17Coeffs1 (ZMod 97)) (B : Gm17Coeffs2 (ZMod 97)) (C : Gm17Coeffs1 (ZMod 97))
    (accepting : Finset (ZMod 97 × (Fin 3 → ZMod 97))),
    (∀ z ∈ accepting, ∃ pk vk gA gB gC,
      gm17Generate (EvalDomain.ofPoints 5 (fun i => ((i + 1 : Nat) : ZMod 97)) 10) exRoot97
        { t := z.1, alpha := z.2 0, beta := z.2 1, gamma := z.2 2, g := (1 : ZMod 97), h := (1 : ZMod 97) }
        = some (pk, vk) ∧
      A.combine 1 pk vk = some gA ∧ B.combine pk vk = some gB ∧ C.combine 1 pk vk = some gC ∧
      gm17VerifyWeak exPairing97 vk [9] ⟨gA, gB, gC⟩ = some true) ∧
    (2 * 5 + 3) * Fintype.card (ZMod 97) ^ 3 < accepting.card ∧ C.c1.take 1 = [3] ∧ (2 : ZMod 97) ≠ 0 := by
  obtain ⟨A, B, C, hw, hH⟩ := C90_honest_prover_is_linear (G1 := ZMod 97) (G2 := ZMod 97) exDom97' exRoot97
    exRoot97_ok (by decide) [9] [3] rfl rfl (by decide +kernel) 5 6 7
  refine ⟨A, B, C, Finset.univ, fun z _ => ?_, ?_, hw, by decide⟩
  · obtain ⟨pk, vk, π, hg, hpr, -, hv⟩ := C52_gm17_complete exPairing97 exDom97' exRoot97 exRoot97_ok
      (by decide) ⟨z.1, z.2 0, z.2 1, z.2 2, 1, 1⟩ (fun _ => rfl) (fun _ => rfl) [9] [3] rfl rfl
      (by decide +kernel) 5 6 7
    obtain ⟨e1, e2, e3⟩ := hH _ pk vk π hg hpr
    exact ⟨pk, vk, _, _, _, hg, e1, e2, e3, hv⟩
  · rw [Finset.card_univ, Fintype.card_prod, Fintype.card_fun, ZMod.card, Fintype.card_fin]
    norm_num

end Examples

end Crypto3Zk
