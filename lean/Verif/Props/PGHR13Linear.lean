import Verif.Spec.PGHR13Linear
import Verif.Lemmas.PGHR13Linear
import Verif.Props.PGHR13
import Verif.Props.Groth16Linear

/-!
# C89: PGHR13 is sound against provers that compute with group elements
-/

set_option linter.unusedSectionVars false

namespace Crypto3Zk

open Finset Polynomial

variable {F : Type} [Field F] [DecidableEq F] {D : EvalDomain F}
variable {G1 G2 GT : Type} [AddCommGroup G1] [Module F G1] [AddCommGroup G2] [Module F G2]
  [AddCommGroup GT] [Module F GT] [DecidableEq GT]

/-- values that agree at more than `m` points agree on the domain -/
theorem rows_eq_of_many (hD : D.Lawful) (a b : List F) (d1 d2 : F) (ha : a.length = D.m) (hb : b.length = D.m)
    (S : Finset F) (hS : D.m < S.card)
    (heq : ∀ t ∈ S, dot a (fun i => (D.lagrange t).getD i 0) + d1 * D.vanishing t =
      dot b (fun i => (D.lagrange t).getD i 0) + d2 * D.vanishing t) :
    ∀ i < D.m, a.getD i 0 = b.getD i 0 := by
  have hpoly : blinded D a d1 = blinded D b d2 := by
    apply eq_of_many_eval (n := D.m) _ _ S hS
    · intro t ht
      rw [eval_blinded hD a ha, eval_blinded hD b hb]
      exact heq t ht
    · exact natDegree_blinded_le hD a ha d1
    · exact natDegree_blinded_le hD b hb d2
  intro i hi
  have := congrArg (eval (D.point i)) hpoly
  simpa only [blinded, eval_add, eval_mul, eval_C, hD.eval_zPoly, hD.vanishing_point i hi, mul_zero, add_zero,
    interp_point hD a ha i hi, interp_point hD b hb i hi] using this

/-- the rows for the inputs hold the inputs -/
theorem R1CS.qapARow_input (cs : R1CS F) (m : Nat) (x : Nat → F) (i : Nat) (hi : i < cs.numInputs + 1) :
    (cs.qapARow m x).getD (cs.numConstraints + i) 0 = x i := by
  rw [R1CS.qapARow, padTo, List.getD_append _ _ _ _ (by simp [R1CS.sideVals, R1CS.numConstraints]; omega),
    List.getD_append_right _ _ _ _ (by simp [R1CS.sideVals, R1CS.numConstraints])]
  simp [R1CS.sideVals, R1CS.numConstraints, hi]

theorem kcCombine_spec (g1 : G1) (g2 : G2) (c1 c2 : F) (v xs : List F) (n : Nat) (hn : v.length = n)
    (h : G1 × G2) (hc : kcCombine ⟨n, (List.range n).flatMap (kcEntry g1 g2 c1 c2 v)⟩ xs = some h) :
    xs.length = n ∧ h = ((c1 * innerProduct xs v) • g1, (c2 * innerProduct xs v) • g2) := by
  subst hn
  rw [kcCombine] at hc
  split at hc
  · rename_i hl
    have := kcMultiexp_batch g1 g2 c1 c2 v 1 0 v.length (by omega) (by omega) xs (by simpa using hl) _ (le_refl _)
      (by simp at hl; omega)
    rw [kcBatchExp_spec, Option.bind_some] at this
    simp only at hl hc
    rw [this, List.drop_zero] at hc
    exact ⟨hl, (Option.some.inj hc).symm⟩
  · simp at hc

/-- the A query without the inputs -/
def pghr13At (q : QapEval F) (ni : Nat) : List F := List.replicate (ni + 1) 0 ++ (q.At ++ [q.Zt]).drop (ni + 1)

/-- a combination of elements at one evaluation point -/
def Pghr13Coeffs1.at (c : Pghr13Coeffs1 F) (q : QapEval F) (nv ni : Nat) : PLin1 F where
  one := innerProduct c.h q.Ht
  a := innerProduct c.aFst (pghr13At q ni) + (c.input0 * q.At.getD 0 0 +
    ∑ i ∈ range ni, c.inputs.getD i 0 * q.At.getD (1 + i) 0)
  aA := innerProduct c.aSnd (pghr13At q ni)
  bB := innerProduct c.bSnd (q.Bt ++ [q.Zt])
  c := innerProduct c.cFst (q.Ct ++ [q.Zt])
  cC := innerProduct c.cSnd (q.Ct ++ [q.Zt])
  ka := dot q.At (fun i => c.k.getD i 0) + c.k.getD (nv + 1) 0 * q.Zt
  kb := dot q.Bt (fun i => c.k.getD i 0) + c.k.getD (nv + 2) 0 * q.Zt
  kc := dot q.Ct (fun i => c.k.getD i 0) + c.k.getD (nv + 3) 0 * q.Zt
  alphaB := c.alphaB
  gb := c.gammaBeta

/-- a combination of elements of the second group at one evaluation point -/
def Pghr13Coeffs2.at (c : Pghr13Coeffs2 F) (q : QapEval F) : PLin2 F where
  one := c.one
  b := innerProduct c.b (q.Bt ++ [q.Zt])
  alphaA := c.alphaA
  alphaC := c.alphaC
  gamma := c.gamma
  gb := c.gammaBeta
  rc := c.rCZ * q.Zt

/-- the secrets of the generator as a function -/
def pghr13Secrets (t : F) (x : Fin 7 → F) : Pghr13Trapdoor F :=
  { t := t, alphaA := x 0, alphaB := x 1, alphaC := x 2, rA := x 3, rB := x 4, beta := x 5, gamma := x 6 }

theorem innerProduct_kQuery (q : QapEval F) (nv : Nat) (hA : q.At.length = nv + 1) (hB : q.Bt.length = nv + 1)
    (hC : q.Ct.length = nv + 1) (be ra rb : F) (xs : List F) (hx : xs.length = nv + 4) :
    innerProduct xs ((List.range (nv + 1)).map (fun i =>
            be * (ra * q.At.getD i 0 + rb * q.Bt.getD i 0 + ra * rb * q.Ct.getD i 0))
          ++ [be * ra * q.Zt, be * rb * q.Zt, be * (ra * rb) * q.Zt]) =
      (dot q.At (fun i => xs.getD i 0) + xs.getD (nv + 1) 0 * q.Zt) * (be * ra) +
      (dot q.Bt (fun i => xs.getD i 0) + xs.getD (nv + 2) 0 * q.Zt) * (be * rb) +
      (dot q.Ct (fun i => xs.getD i 0) + xs.getD (nv + 3) 0 * q.Zt) * (be * (ra * rb)) := by
  rw [innerProduct_eq_sum _ _ (by simp [hx]), hx, Finset.sum_range_succ, Finset.sum_range_succ,
    Finset.sum_range_succ]
  have e1 : ∀ k < 3, ∀ l : List F, l.length = nv + 1 → ∀ r : List F,
      (l ++ r).getD (nv + 1 + k) 0 = r.getD k 0 := by
    intro k _ l hl r
    rw [List.getD_append_right _ _ _ _ (by omega), hl, Nat.add_sub_cancel_left]
  rw [e1 0 (by omega) _ (by simp), e1 1 (by omega) _ (by simp), e1 2 (by omega) _ (by simp)]
  have e2 : ∑ i ∈ range (nv + 1), xs.getD i 0 * ((List.range (nv + 1)).map (fun i =>
            be * (ra * q.At.getD i 0 + rb * q.Bt.getD i 0 + ra * rb * q.Ct.getD i 0))
          ++ [be * ra * q.Zt, be * rb * q.Zt, be * (ra * rb) * q.Zt]).getD i 0 =
      dot q.At (fun i => xs.getD i 0) * (be * ra) + dot q.Bt (fun i => xs.getD i 0) * (be * rb) +
        dot q.Ct (fun i => xs.getD i 0) * (be * (ra * rb)) := by
    rw [dot_eq_sum, dot_eq_sum, dot_eq_sum, hA, hB, hC, Finset.sum_mul, Finset.sum_mul, Finset.sum_mul,
      ← Finset.sum_add_distrib, ← Finset.sum_add_distrib]
    refine Finset.sum_congr rfl fun i hi => ?_
    have hi' : i < nv + 1 := by simpa using hi
    rw [List.getD_append _ _ _ _ (by simpa using hi'), List.getD_eq_getElem (List.map _ _) _ (by simpa using hi')]
    simp only [List.getElem_map, List.getElem_range]
    ring
  rw [e2]
  simp
  ring

/-- the keys of the generator, at one evaluation point -/
structure Pghr13Keys (P : Pairing F G1 G2 GT) (T : Pghr13Trapdoor F) (q : QapEval F) (nv ni : Nat)
    (pk : Pghr13PK F G1 G2) (vk : Pghr13VK G1 G2) : Prop where
  a : pk.aQuery = ⟨nv + 2, (List.range (nv + 2)).flatMap (kcEntry P.one1 P.one1 T.rA (T.rA * T.alphaA)
    (pghr13At q ni))⟩
  b : pk.bQuery = ⟨nv + 2, (List.range (nv + 2)).flatMap (kcEntry P.one2 P.one1 T.rB (T.rB * T.alphaB)
    (q.Bt ++ [q.Zt]))⟩
  c : pk.cQuery = ⟨nv + 2, (List.range (nv + 2)).flatMap (kcEntry P.one1 P.one1 (T.rA * T.rB)
    (T.rA * T.rB * T.alphaC) (q.Ct ++ [q.Zt]))⟩
  h : pk.hQuery = batchExp P.one1 q.Ht
  k : pk.kQuery = batchExp P.one1 ((List.range (nv + 1)).map (fun i =>
            T.beta * (T.rA * q.At.getD i 0 + T.rB * q.Bt.getD i 0 + T.rA * T.rB * q.Ct.getD i 0))
          ++ [T.beta * T.rA * q.Zt, T.beta * T.rB * q.Zt, T.beta * (T.rA * T.rB) * q.Zt])
  alphaA : vk.alphaAG2 = T.alphaA • P.one2
  alphaB : vk.alphaBG1 = T.alphaB • P.one1
  alphaC : vk.alphaCG2 = T.alphaC • P.one2
  gamma : vk.gammaG2 = T.gamma • P.one2
  gb1 : vk.gammaBetaG1 = (T.gamma * T.beta) • P.one1
  gb2 : vk.gammaBetaG2 = (T.gamma * T.beta) • P.one2
  rcz : vk.rCZG2 = (T.rA * T.rB * q.Zt) • P.one2
  ic : vk.encodedIC = ⟨(T.rA * q.At.getD 0 0) • P.one1,
          batchExp P.one1 ((List.range' 1 ni).map fun i => T.rA * q.At.getD i 0)⟩

theorem pghr13Keys_of (P : Pairing F G1 G2 GT) (D : EvalDomain F) (cs cs' : R1CS F)
    (T : Pghr13Trapdoor F) (chunks : Nat) (hs : cs.swapABIfBeneficial = some cs')
    (q : QapEval F) (hq : cs'.qapEval D T.t = some q)
    (nv ni : Nat) (hnv : q.numVariables = nv) (hni : q.numInputs = ni) (hle : ni ≤ nv)
    (hA : q.At.length = nv + 1) (hB : q.Bt.length = nv + 1) (hC : q.Ct.length = nv + 1)
    (pk : Pghr13PK F G1 G2) (vk : Pghr13VK G1 G2)
    (hgen : pghr13Generate P D cs T chunks = some (pk, vk)) : Pghr13Keys P T q nv ni pk vk := by
  have hnz : ∀ i < ni + 1, q.At.getD i 0 ≠ 0 := by
    intro i hi h0
    rw [pghr13Generate_none P D cs cs' T chunks hs q hq i (by omega) (by omega) h0] at hgen
    simp at hgen
  rw [pghr13Generate_eq P D cs cs' T chunks hs q hq nv ni hnv hni hle hA hB hC hnz] at hgen
  simp only [Option.some.injEq, Prod.mk.injEq] at hgen
  obtain ⟨rfl, rfl⟩ := hgen
  exact ⟨rfl, rfl, rfl, rfl, rfl, rfl, rfl, rfl, rfl, rfl, rfl, rfl, rfl⟩

theorem innerProduct_ic (q : QapEval F) (ra : F) (ni : Nat) (xs : List F) (hx : xs.length = ni) :
    innerProduct xs ((List.range' 1 ni).map fun i => ra * q.At.getD i 0) =
      ra * ∑ i ∈ range ni, xs.getD i 0 * q.At.getD (1 + i) 0 := by
  rw [innerProduct_eq_sum _ _ (by simp [hx]), hx, Finset.mul_sum]
  refine Finset.sum_congr rfl fun i hi => ?_
  have hi' : i < ni := by simpa using hi
  rw [List.getD_eq_getElem (List.map _ _) _ (by simpa using hi')]
  simp only [List.getElem_map, List.getElem_range', one_mul]
  ring

theorem Pghr13Coeffs1.combine_eq (P : Pairing F G1 G2 GT) (t : F) (x : Fin 7 → F) (q : QapEval F) (nv ni : Nat)
    (hle : ni ≤ nv) (hA : q.At.length = nv + 1) (hB : q.Bt.length = nv + 1) (hC : q.Ct.length = nv + 1)
    (pk : Pghr13PK F G1 G2) (vk : Pghr13VK G1 G2) (hk : Pghr13Keys P (pghr13Secrets t x) q nv ni pk vk)
    (c : Pghr13Coeffs1 F) (g : G1) (h : c.combine pk vk = some g) :
    g = (c.at q nv ni).value x • P.one1 ∧ c.aSnd.length = nv + 2 ∧ c.h.length = q.Ht.length ∧
      c.k.length = nv + 4 := by
  have lAt : (pghr13At q ni).length = nv + 2 := by simp [pghr13At, hA]; omega
  simp only [Pghr13Coeffs1.combine, hk.a, hk.b, hk.c, hk.h, hk.k, hk.alphaB, hk.gb1, hk.ic, Option.bind_eq_bind,
    Option.bind_eq_some_iff, Option.pure_def, Option.some.injEq] at h
  obtain ⟨a1, h1, a2, h2, b, h3, c1, h4, c2, h5, hh, h6, k, h7, i, h8, h⟩ := h
  obtain ⟨l1, rfl⟩ := kcCombine_spec _ _ _ _ _ _ _ lAt _ h1
  obtain ⟨l2, rfl⟩ := kcCombine_spec _ _ _ _ _ _ _ lAt _ h2
  obtain ⟨l3, rfl⟩ := kcCombine_spec _ _ _ _ _ _ _ (by simp [hB]) _ h3
  obtain ⟨l4, rfl⟩ := kcCombine_spec _ _ _ _ _ _ _ (by simp [hC]) _ h4
  obtain ⟨l5, rfl⟩ := kcCombine_spec _ _ _ _ _ _ _ (by simp [hC]) _ h5
  have l6 := multiexp_length h6
  have l7 := multiexp_length h7
  have l8 := multiexp_length h8
  rw [multiexp_batchExp _ _ _ (by simpa [batchExp] using l6)] at h6
  rw [multiexp_batchExp _ _ _ (by simpa [batchExp] using l7),
    innerProduct_kQuery q nv hA hB hC _ _ _ _ (by simpa [batchExp] using l7.symm)] at h7
  rw [multiexp_batchExp _ _ _ (by simpa [batchExp] using l8),
    innerProduct_ic _ _ _ _ (by simpa [batchExp] using l8.symm)] at h8
  simp only [Option.some.injEq] at h6 h7 h8
  subst h6 h7 h8
  refine ⟨?_, l2, by simpa [batchExp] using l6.symm, by simpa [batchExp] using l7.symm⟩
  rw [← h]
  simp only [smul_smul, ← add_smul]
  congr 1
  simp only [PLin1.value, Pghr13Coeffs1.at, pghr13Secrets]
  ring

theorem Pghr13Coeffs2.combine_eq (P : Pairing F G1 G2 GT) (t : F) (x : Fin 7 → F) (q : QapEval F) (nv ni : Nat)
    (hB : q.Bt.length = nv + 1)
    (pk : Pghr13PK F G1 G2) (vk : Pghr13VK G1 G2) (hk : Pghr13Keys P (pghr13Secrets t x) q nv ni pk vk)
    (c : Pghr13Coeffs2 F) (g : G2) (h : c.combine P.one2 pk vk = some g) :
    g = (c.at q).value x • P.one2 := by
  simp only [Pghr13Coeffs2.combine, hk.b, hk.alphaA, hk.alphaC, hk.gamma, hk.gb2, hk.rcz, Option.bind_eq_bind,
    Option.bind_eq_some_iff, Option.pure_def, Option.some.injEq] at h
  obtain ⟨b, h3, h⟩ := h
  obtain ⟨l3, rfl⟩ := kcCombine_spec _ _ _ _ _ _ _ (by simp [hB]) _ h3
  rw [← h]
  simp only [smul_smul, ← add_smul]
  congr 1
  simp only [PLin2.value, Pghr13Coeffs2.at, pghr13Secrets]
  ring

/-- the auxiliary input in the coefficients for the K query -/
def Pghr13Strategy.witness (s : Pghr13Strategy F) (cs : R1CS F) : List F :=
  (s.K.k.drop (cs.numInputs + 1)).take cs.auxiliaryInputSize

/-- at one evaluation point: what a strategy satisfies that is accepted for many secrets -/
theorem pghr13_point [Fintype F] (P : Pairing F G1 G2 GT) (hD : D.Lawful) (cs cs' : R1CS F)
    (hs : cs.swapABIfBeneficial = some cs') (hr' : cs'.WellRanged)
    (hm' : cs'.numConstraints + cs'.numInputs + 1 ≤ D.m) (chunks : Nat)
    (hne : P.e P.one1 P.one2 ≠ 0) (p : List F) (hp : p.length = cs'.primaryInputSize)
    (s : Pghr13Strategy F) (t : F) (S : Finset (Fin 7 → F))
    (hcard : 5 * Fintype.card F ^ 6 < S.card)
    (hS : ∀ x ∈ S, ∃ pk vk π, pghr13Generate P D cs (pghr13Secrets t x) chunks = some (pk, vk) ∧
      s.prove P.one2 pk vk = some π ∧ pghr13VerifyWeak P vk p π = some true) :
    ∃ q, cs'.qapEval D t = some q ∧
      s.A'.aSnd.length = cs'.numVariables + 2 ∧ s.K.k.length = cs'.numVariables + 4 ∧ s.H.h.length = D.m + 1 ∧
      innerProduct s.A'.aSnd (pghr13At q cs'.numInputs) + (q.At.getD 0 0 +
        ∑ i ∈ range cs'.numInputs, p.getD i 0 * q.At.getD (1 + i) 0) = (s.K.at q cs'.numVariables cs'.numInputs).ka ∧
      (s.K.at q cs'.numVariables cs'.numInputs).ka * (s.K.at q cs'.numVariables cs'.numInputs).kb =
        innerProduct s.H.h q.Ht * q.Zt + (s.K.at q cs'.numVariables cs'.numInputs).kc := by
  obtain ⟨qi, q, -, hq, -, n1, n2, n3, n4, lA, lB, lC, eH, eZ, dA, dB, dC⟩ :=
    R1CS.qapEval_spec hD cs' hr' hm' t
  refine ⟨q, hq, ?_⟩
  set nv := cs'.numVariables with hnv0
  set ni := cs'.numInputs with hni0
  have hle : ni ≤ nv := by simp [hni0, hnv0, R1CS.numInputs, R1CS.numVariables]
  have hpi : p.length = ni := by rw [hp]; rfl
  obtain ⟨x0, hx0⟩ : S.Nonempty := Finset.card_pos.1 (by omega)
  have hkeys : ∀ x pk vk, pghr13Generate P D cs (pghr13Secrets t x) chunks = some (pk, vk) →
      Pghr13Keys P (pghr13Secrets t x) q nv ni pk vk := fun x pk vk h =>
    pghr13Keys_of P D cs cs' _ chunks hs q hq nv ni n1 n3 hle lA lB lC pk vk h
  have hprove : ∀ (pk : Pghr13PK F G1 G2) (vk : Pghr13VK G1 G2) π, s.prove P.one2 pk vk = some π →
      s.A.combine pk vk = some π.gA.1 ∧ s.A'.combine pk vk = some π.gA.2 ∧
      s.B.combine P.one2 pk vk = some π.gB.1 ∧ s.B'.combine pk vk = some π.gB.2 ∧
      s.C.combine pk vk = some π.gC.1 ∧ s.C'.combine pk vk = some π.gC.2 ∧
      s.H.combine pk vk = some π.gH ∧ s.K.combine pk vk = some π.gK := by
    intro pk vk π h
    simp only [Pghr13Strategy.prove, Option.bind_eq_bind, Option.bind_eq_some_iff, Option.pure_def,
      Option.some.injEq] at h
    obtain ⟨A, hA, A', hA', B, hB, B', hB', C, hC, C', hC', H, hH, K, hK, rfl⟩ := h
    exact ⟨hA, hA', hB, hB', hC, hC', hH, hK⟩
  have hlen : s.A'.aSnd.length = nv + 2 ∧ s.K.k.length = nv + 4 ∧ s.H.h.length = D.m + 1 := by
    obtain ⟨pk, vk, π, hg, hpr, -⟩ := hS x0 hx0
    obtain ⟨-, hA', -, -, -, -, hH, hK⟩ := hprove pk vk π hpr
    have k := hkeys x0 pk vk hg
    have r1 := (Pghr13Coeffs1.combine_eq P t x0 q nv ni hle lA lB lC pk vk k _ _ hA').2.1
    have r2 := (Pghr13Coeffs1.combine_eq P t x0 q nv ni hle lA lB lC pk vk k _ _ hK).2.2.2
    have r3 := (Pghr13Coeffs1.combine_eq P t x0 q nv ni hle lA lB lC pk vk k _ _ hH).2.2.1
    exact ⟨r1, r2, by rw [r3, eH, length_powersFrom]⟩
  refine ⟨hlen.1, hlen.2.1, hlen.2.2, ?_⟩
  refine pghr13_identity (s.A.at q nv ni) (s.A'.at q nv ni) (s.B.at q) (s.B'.at q nv ni) (s.C.at q nv ni)
    (s.C'.at q nv ni) (s.H.at q nv ni) (s.K.at q nv ni) _ q.Zt S hcard fun x hx => ?_
  obtain ⟨pk, vk, π, hg, hpr, hv⟩ := hS x hx
  obtain ⟨hA, hA', hB, hB', hC, hC', hH, hK⟩ := hprove pk vk π hpr
  have k := hkeys x pk vk hg
  have c1 := fun c g => fun h => (Pghr13Coeffs1.combine_eq P t x q nv ni hle lA lB lC pk vk k c g h).1
  have eA := c1 _ _ hA
  have eA' := c1 _ _ hA'
  have eB := Pghr13Coeffs2.combine_eq P t x q nv ni lB pk vk k _ _ hB
  have eB' := c1 _ _ hB'
  have eC := c1 _ _ hC
  have eC' := c1 _ _ hC'
  have eH := c1 _ _ hH
  have eK := c1 _ _ hK
  have hacc := (C51_verifier_iff P _ p _ (by rw [k.ic]; simp [batchExp, hpi])).1.1 hv
  obtain ⟨-, q1, q2, q3, q4, q5⟩ := hacc
  have inj := smul_left_injective F hne
  rw [eA, eA', k.alphaA, pair_smul] at q1
  rw [eB, eB', k.alphaB, pair_smul] at q2
  rw [eC, eC', k.alphaC, pair_smul] at q3
  rw [k.ic, batchExp, zipWith_smul_batch, innerProduct_ic _ _ _ _ hpi, ← add_smul] at q4 q5
  rw [eA, eB, eC, eH, k.rcz, ← add_smul, pair_smul, pair_smul] at q4
  rw [eA, eB, eC, eK, k.gamma, k.gb1, k.gb2, ← add_smul, ← add_smul, pair_smul, pair_smul, pair_smul,
    ← add_smul] at q5
  have hone : ∀ (a : F), P.e (a • P.one1) P.one2 = a • P.e P.one1 P.one2 := by
    intro a; rw [map_smul, LinearMap.smul_apply]
  rw [hone] at q1 q2 q3 q4
  rw [← add_smul] at q4
  have q1 := inj q1
  have q2 := inj q2
  have q3 := inj q3
  have q4 := inj q4
  have q5 := inj q5
  simp only [pghr13Secrets] at q1 q2 q3 q4 q5
  refine ⟨q1, q2, q3, ?_, ?_⟩
  · rw [← q4]; ring
  · rw [q5]; ring

theorem pghr13At_sum (q : QapEval F) (nv ni : Nat) (hle : ni ≤ nv) (hA : q.At.length = nv + 1) (p xs : List F)
    (hx : xs.length = nv + 2) (hp : p.length = ni) :
    innerProduct xs (pghr13At q ni) + (q.At.getD 0 0 + ∑ i ∈ range ni, p.getD i 0 * q.At.getD (1 + i) 0) =
      dot q.At (envOf (p ++ (xs.drop (ni + 1)).take (nv - ni))) + xs.getD (nv + 1) 0 * q.Zt := by
  have lw : ((xs.drop (ni + 1)).take (nv - ni)).length = nv - ni := by simp [hx]; omega
  have lAt : (pghr13At q ni).length = nv + 2 := by simp [pghr13At, hA]; omega
  rw [dot_split _ p _ (by rw [hA, lw, hp]; omega), lw, hp, innerProduct_eq_sum _ _ (by rw [hx, lAt]), hx,
    Finset.sum_range_succ, show nv + 1 = (ni + 1) + (nv - ni) by omega, Finset.sum_range_add]
  have z1 : ∑ i ∈ range (ni + 1), xs.getD i 0 * (pghr13At q ni).getD i 0 = 0 := by
    refine Finset.sum_eq_zero fun i hi => ?_
    have hi' : i < ni + 1 := by simpa using hi
    rw [pghr13At, List.getD_append _ _ _ _ (by simpa using hi')]
    simp [hi']
  have z2 : (pghr13At q ni).getD (ni + 1 + (nv - ni)) 0 = q.Zt := by
    rw [pghr13At, List.getD_append_right _ _ _ _ (by simp), List.getD_eq_getElem _ _ (by simp [hA]; omega)]
    simp [hA, show ni + 1 + (nv - ni) = nv + 1 by omega]
  have z3 : ∑ i ∈ range (nv - ni), xs.getD (ni + 1 + i) 0 * (pghr13At q ni).getD (ni + 1 + i) 0 =
      ∑ i ∈ range (nv - ni), ((xs.drop (ni + 1)).take (nv - ni)).getD i 0 * q.At.getD (ni + 1 + i) 0 := by
    refine Finset.sum_congr rfl fun i hi => ?_
    have hi' : i < nv - ni := by simpa using hi
    congr 1
    · rw [List.getD_eq_getElem _ _ (by omega), List.getD_eq_getElem _ _ (by rw [lw]; exact hi')]
      simp
    · rw [pghr13At, List.getD_append_right _ _ _ _ (by simp), List.getD_eq_getElem _ _ (by simp [hA]; omega),
        List.getD_eq_getElem _ _ (by omega)]
      simp only [List.length_replicate, List.getElem_drop, Nat.add_sub_cancel_left]
      rw [List.getElem_append_left (by omega)]
  rw [z1, z2, z3]
  ring

/-- **C89** (partial) A prover for PGHR13 that computes with group elements. If its proof for the input `p` is
accepted for more than `(2m + 5) · |F|^7` of the `|F|^8` secrets, then `p` together with its coefficients for
the K query satisfies the constraint system: the prover knows a witness.

What is missing: coefficients that depend on the keys (they may not, here), and provers that are not of this
kind. -/
theorem C89_knowledge_soundness_partial [Fintype F] (P : Pairing F G1 G2 GT) (hD : D.Lawful) (cs : R1CS F)
    (hr : cs.WellRanged) (hm : cs.numConstraints + cs.numInputs + 1 ≤ D.m) (chunks : Nat)
    (hne : P.e P.one1 P.one2 ≠ 0) (p : List F) (hp : p.length = cs.primaryInputSize)
    (s : Pghr13Strategy F) (accepting : Finset (F × (Fin 7 → F)))
    (hacc : ∀ z ∈ accepting, ∃ pk vk π,
      pghr13Generate P D cs { t := z.1, alphaA := z.2 0, alphaB := z.2 1, alphaC := z.2 2, rA := z.2 3,
                              rB := z.2 4, beta := z.2 5, gamma := z.2 6 } chunks = some (pk, vk) ∧
      s.prove P.one2 pk vk = some π ∧ pghr13VerifyWeak P vk p π = some true)
    (hcard : (2 * D.m + 5) * Fintype.card F ^ 7 < accepting.card) :
    cs.isSatisfied p (s.witness cs) = some true := by
  obtain ⟨cs', hcs'⟩ := C16_swap_defined cs hr
  obtain ⟨hp', hw', hr'⟩ := R1CS.swap_shape cs cs' hcs'
  obtain ⟨hsat', hni, hnv, hnc⟩ := C16_swap_preserves cs cs' hcs'
  have hm' : cs'.numConstraints + cs'.numInputs + 1 ≤ D.m := by rw [hnc, hni]; exact hm
  obtain ⟨good, hgood, hslice⟩ := many_slices accepting (2 * D.m) (5 * Fintype.card F ^ 6) (by
    rw [Fintype.card_fun, Fintype.card_fin]
    calc _ = (2 * D.m + 5) * Fintype.card F ^ 7 := by ring
      _ < _ := hcard)
  have hpl : p.length = cs'.primaryInputSize := by rw [hp, hp']
  have hpi : p.length = cs'.numInputs := by rw [hpl]; rfl
  have hle : cs'.numInputs ≤ cs'.numVariables := by simp [R1CS.numInputs, R1CS.numVariables]
  have hpt := fun t ht => pghr13_point P hD cs cs' hcs' (hr' hr) hm' chunks hne p hpl s t _ (hslice t ht)
    fun x hx => hacc _ (Finset.mem_filter.1 hx).2
  obtain ⟨t0, ht0⟩ : good.Nonempty := Finset.card_pos.1 (by omega)
  obtain ⟨lA', lK, lH⟩ : s.A'.aSnd.length = cs'.numVariables + 2 ∧ s.K.k.length = cs'.numVariables + 4 ∧
      s.H.h.length = D.m + 1 := by
    obtain ⟨q, -, h1, h2, h3, -⟩ := hpt t0 ht0
    exact ⟨h1, h2, h3⟩
  -- the inputs in the coefficients of the K query are the inputs
  have hin : ∀ i < cs'.numInputs + 1, s.K.k.getD i 0 =
      envOf (p ++ (s.A'.aSnd.drop (cs'.numInputs + 1)).take (cs'.numVariables - cs'.numInputs)) i := by
    intro i hi
    have hrow := rows_eq_of_many hD (cs'.qapARow D.m fun i => s.K.k.getD i 0)
      (cs'.qapARow D.m (envOf (p ++ (s.A'.aSnd.drop (cs'.numInputs + 1)).take
        (cs'.numVariables - cs'.numInputs))))
      (s.K.k.getD (cs'.numVariables + 1) 0) (s.A'.aSnd.getD (cs'.numVariables + 1) 0)
      (R1CS.length_qapARow cs' _ D.m hm') (R1CS.length_qapARow cs' _ D.m hm') good (by omega) (fun t ht => by
        obtain ⟨q, hq, -, -, -, h1, -⟩ := hpt t ht
        obtain ⟨qi, q', -, hq', -, n1, n2, n3, n4, lA, lB, lC, eH, eZ, dA, dB, dC⟩ :=
          R1CS.qapEval_spec hD cs' (hr' hr) hm' t
        obtain rfl : q = q' := Option.some.inj (hq.symm.trans hq')
        rw [pghr13At_sum q _ _ hle lA p _ lA' hpi] at h1
        simp only [Pghr13Coeffs1.at] at h1
        rw [← dA, ← dA, ← eZ]
        exact h1.symm) (cs'.numConstraints + i) (by omega)
    rw [R1CS.qapARow_input _ _ _ _ hi, R1CS.qapARow_input _ _ _ _ hi] at hrow
    exact hrow
  have haux : cs'.numVariables - cs'.numInputs = cs.auxiliaryInputSize := by
    rw [← hw']; simp [R1CS.numInputs, R1CS.numVariables]
  have hwit : s.witness cs = (s.K.k.drop (cs'.numInputs + 1)).take (cs'.numVariables - cs'.numInputs) := by
    rw [Pghr13Strategy.witness, haux, hni]
  have lW : (s.witness cs).length = cs'.numVariables - cs'.numInputs := by
    rw [hwit]; simp [lK]; omega
  have lx : (p ++ s.witness cs).length = cs'.numVariables := by
    rw [List.length_append, lW, hpi]; omega
  have henv : ∀ i < cs'.numVariables + 1, s.K.k.getD i 0 = envOf (p ++ s.witness cs) i := by
    intro i hi
    by_cases h : i < cs'.numInputs + 1
    · rw [hin i h]
      cases i with
      | zero => rfl
      | succ i =>
        show (p ++ _).getD i 0 = (p ++ _).getD i 0
        rw [List.getD_append _ _ _ _ (by omega), List.getD_append _ _ _ _ (by omega)]
    · obtain ⟨j, rfl⟩ : ∃ j, i = cs'.numInputs + 1 + j := ⟨i - (cs'.numInputs + 1), by omega⟩
      have e : envOf (p ++ s.witness cs) (cs'.numInputs + 1 + j) = (p ++ s.witness cs).getD (cs'.numInputs + j) 0 := by
        rw [show cs'.numInputs + 1 + j = (cs'.numInputs + j) + 1 by omega]; rfl
      rw [e, List.getD_append_right _ _ _ _ (by omega), hpi, Nat.add_sub_cancel_left, hwit,
        List.getD_eq_getElem _ _ (by omega), List.getD_eq_getElem _ _ (by simp [lK]; omega)]
      simp
  have hdot : ∀ l : List F, l.length = cs'.numVariables + 1 →
      dot l (fun i => s.K.k.getD i 0) = dot l (envOf (p ++ s.witness cs)) := by
    intro l hl
    rw [dot_eq_sum, dot_eq_sum, hl]
    exact Finset.sum_congr rfl fun i hi => by rw [henv i (by simpa using hi)]
  have := C18_qap_sound hD cs' (hr' hr) hm'
    ⟨cs'.numVariables, D.m, cs'.numInputs, s.K.k.getD (cs'.numVariables + 1) 0,
      s.K.k.getD (cs'.numVariables + 2) 0, s.K.k.getD (cs'.numVariables + 3) 0, p ++ s.witness cs, s.H.h⟩
    good hgood fun t ht => by
      obtain ⟨q, hq, -, -, -, -, h2⟩ := hpt t ht
      refine ⟨q, hq, ?_⟩
      obtain ⟨qi, q', -, hq', -, n1, n2, n3, n4, lA, lB, lC, eH, eZ, dA, dB, dC⟩ :=
        R1CS.qapEval_spec hD cs' (hr' hr) hm' t
      obtain rfl : q = q' := Option.some.inj (hq.symm.trans hq')
      rw [QapEval.isSatisfied_iff]
      refine ⟨n1, n2, n3, by rw [n1, lx], by rw [n2, lH], by rw [n1, lA], by rw [n1, lB],
        by rw [n1, lC], by rw [eH, length_powersFrom, n2], by rw [eZ, n4], ?_⟩
      simp only
      rw [ansOf_eq _ _ _ _ (by rw [lA, lx]), ansOf_eq _ _ _ _ (by rw [lB, lx]),
        ansOf_eq _ _ _ _ (by rw [lC, lx])]
      simp only [Pghr13Coeffs1.at] at h2
      rw [hdot _ lA, hdot _ lB, hdot _ lC] at h2
      have hcomm : innerProduct q.Ht s.H.h = innerProduct s.H.h q.Ht := by
        rw [innerProduct_eq_sum _ _ (by rw [eH, length_powersFrom, lH]),
          innerProduct_eq_sum _ _ (by rw [eH, length_powersFrom, lH]), eH, length_powersFrom, lH]
        exact Finset.sum_congr rfl fun i _ => mul_comm _ _
      rw [hcomm]
      linear_combination h2
  rw [hsat', ← hpl] at this
  simpa using this

/-- **C89** (partial) No linear prover is accepted for a false statement with more than
`(2m + 5) · |F|^7` of the `|F|^8` secrets. -/
theorem C89_false_statements_rejected_partial [Fintype F] (P : Pairing F G1 G2 GT) (hD : D.Lawful)
    (cs : R1CS F) (hr : cs.WellRanged) (hm : cs.numConstraints + cs.numInputs + 1 ≤ D.m) (chunks : Nat)
    (hne : P.e P.one1 P.one2 ≠ 0) (p : List F) (hp : p.length = cs.primaryInputSize)
    (hfalse : ∀ w, cs.isSatisfied p w ≠ some true)
    (s : Pghr13Strategy F) (accepting : Finset (F × (Fin 7 → F)))
    (hacc : ∀ z ∈ accepting, ∃ pk vk π,
      pghr13Generate P D cs { t := z.1, alphaA := z.2 0, alphaB := z.2 1, alphaC := z.2 2, rA := z.2 3,
                              rB := z.2 4, beta := z.2 5, gamma := z.2 6 } chunks = some (pk, vk) ∧
      s.prove P.one2 pk vk = some π ∧ pghr13VerifyWeak P vk p π = some true) :
    accepting.card ≤ (2 * D.m + 5) * Fintype.card F ^ 7 := by
  by_contra hcon
  exact hfalse _ (C89_knowledge_soundness_partial P hD cs hr hm chunks hne p hp s accepting hacc (not_le.1 hcon))

/-- **C89** (partial), adaptive provers: the coefficients, and the input, may depend on the keys. Whenever such a proof
is accepted, the coefficients contain a witness, or else the secrets are in a set that is known from the input and the
coefficients alone, and that has no more than `2m + 5` of every `|F|` secrets. -/
theorem C89_adaptive_provers_partial [Fintype F] (P : Pairing F G1 G2 GT) (hD : D.Lawful)
    (cs : R1CS F) (hr : cs.WellRanged) (hm : cs.numConstraints + cs.numInputs + 1 ≤ D.m) (chunks : Nat)
    (hne : P.e P.one1 P.one2 ≠ 0) :
    ∃ bad : List F → Pghr13Strategy F → Finset (F × (Fin 7 → F)),
      (∀ p s, (bad p s).card ≤ (2 * D.m + 5) * Fintype.card F ^ 7) ∧
      ∀ (t alphaA alphaB alphaC rA rB beta gamma : F) pk vk p s π, p.length = cs.primaryInputSize →
        pghr13Generate P D cs { t := t, alphaA := alphaA, alphaB := alphaB, alphaC := alphaC, rA := rA,
                                rB := rB, beta := beta, gamma := gamma } chunks = some (pk, vk) →
        s.prove P.one2 pk vk = some π → pghr13VerifyWeak P vk p π = some true →
        cs.isSatisfied p (s.witness cs) = some true ∨
          (t, ![alphaA, alphaB, alphaC, rA, rB, beta, gamma]) ∈ bad p s := by
  classical
  refine ⟨fun p s => Finset.univ.filter fun z => p.length = cs.primaryInputSize ∧
    cs.isSatisfied p (s.witness cs) ≠ some true ∧ ∃ pk vk π,
      pghr13Generate P D cs { t := z.1, alphaA := z.2 0, alphaB := z.2 1, alphaC := z.2 2, rA := z.2 3,
                              rB := z.2 4, beta := z.2 5, gamma := z.2 6 } chunks = some (pk, vk) ∧
      s.prove P.one2 pk vk = some π ∧ pghr13VerifyWeak P vk p π = some true, fun p s => ?_, ?_⟩
  · by_cases hp : p.length = cs.primaryInputSize ∧ cs.isSatisfied p (s.witness cs) ≠ some true
    · by_contra hcon
      exact hp.2 (C89_knowledge_soundness_partial P hD cs hr hm chunks hne p hp.1 s _
        (fun z hz => (Finset.mem_filter.1 hz).2.2.2) (not_le.1 hcon))
    · exact le_trans (le_of_eq (Finset.card_eq_zero.2 (Finset.filter_eq_empty_iff.2
        fun z _ hz => hp ⟨hz.1, hz.2.1⟩))) (Nat.zero_le _)
  · intro t alphaA alphaB alphaC rA rB beta gamma pk vk p s π hp hg hs hv
    by_cases hsat : cs.isSatisfied p (s.witness cs) = some true
    · exact .inl hsat
    · exact .inr (Finset.mem_filter.2 ⟨Finset.mem_univ _, hp, hsat, pk, vk, π, hg, hs, hv⟩)

/-- no element of the first group -/
def Pghr13Coeffs1.zero (nv ni m : Nat) : Pghr13Coeffs1 F where
  aFst := List.replicate (nv + 2) 0
  aSnd := List.replicate (nv + 2) 0
  bSnd := List.replicate (nv + 2) 0
  cFst := List.replicate (nv + 2) 0
  cSnd := List.replicate (nv + 2) 0
  h := List.replicate (m + 1) 0
  k := List.replicate (nv + 4) 0
  alphaB := 0
  gammaBeta := 0
  input0 := 0
  inputs := List.replicate ni 0

/-- the coefficients of the honest prover; `H` is the quotient -/
def pghr13Honest (p w H : List F) (m : Nat) (d1 d2 d3 : F) : Pghr13Strategy F :=
  let z := Pghr13Coeffs1.zero (p ++ w).length p.length m
  { A := { z with aFst := 1 :: (p ++ w ++ [d1]) }
    A' := { z with aSnd := 1 :: (p ++ w ++ [d1]) }
    B := { one := 0, alphaA := 0, alphaC := 0, gamma := 0, gammaBeta := 0, rCZ := 0,
           b := 1 :: (p ++ w ++ [d2]) }
    B' := { z with bSnd := 1 :: (p ++ w ++ [d2]) }
    C := { z with cFst := 1 :: (p ++ w ++ [d3]) }
    C' := { z with cSnd := 1 :: (p ++ w ++ [d3]) }
    H := { z with h := H }
    K := { z with k := 1 :: (p ++ w ++ [d1, d2, d3]) } }

theorem innerProduct_ends (x e v : List F) (hv : v.length = x.length + 1 + e.length) :
    innerProduct (1 :: (x ++ e)) v =
      v.getD 0 0 + innerProduct x (v.drop 1) + innerProduct e (v.drop (x.length + 1)) := by
  cases v with
  | nil => simp at hv; omega
  | cons y v =>
    have hl : v.length = x.length + e.length := by simpa [Nat.add_right_comm] using hv
    rw [innerProduct, List.zipWith_cons_cons, List.sum_cons]
    have : v = v.take x.length ++ v.drop x.length := (List.take_append_drop _ _).symm
    conv_lhs => rw [this, List.zipWith_append (by simp; omega), List.sum_append]
    have := innerProduct_take x v
    simp only [innerProduct] at this ⊢
    rw [this]
    simp [add_assoc]

theorem kcCombine_run (g1 : G1) (g2 : G2) (c1 c2 : F) (v xs : List F) (n : Nat) (hn : v.length = n)
    (hx : xs.length = n) :
    kcCombine ⟨n, (List.range n).flatMap (kcEntry g1 g2 c1 c2 v)⟩ xs =
      some ((c1 * innerProduct xs v) • g1, (c2 * innerProduct xs v) • g2) := by
  subst hn
  rw [kcCombine, if_pos hx]
  have := kcMultiexp_batch g1 g2 c1 c2 v 1 0 v.length (by omega) (by omega) xs (by simpa using hx) _ (le_refl _)
    (by omega)
  rw [kcBatchExp_spec, Option.bind_some] at this
  simp only
  rw [this, List.drop_zero]

/-- one coefficient for each element -/
def Pghr13Coeffs1.Fits (c : Pghr13Coeffs1 F) (nv ni m : Nat) : Prop :=
  c.aFst.length = nv + 2 ∧ c.aSnd.length = nv + 2 ∧ c.bSnd.length = nv + 2 ∧ c.cFst.length = nv + 2 ∧
    c.cSnd.length = nv + 2 ∧ c.h.length = m + 1 ∧ c.k.length = nv + 4 ∧ c.inputs = List.replicate ni 0

theorem pghr13Honest_fits (p w H : List F) (m : Nat) (d1 d2 d3 : F) (hH : H.length = m + 1) :
    let s := pghr13Honest p w H m d1 d2 d3
    ∀ c ∈ [s.A, s.A', s.B', s.C, s.C', s.H, s.K], c.Fits (p ++ w).length p.length m := by
  intro s c hc
  simp only [List.mem_cons, List.not_mem_nil, or_false] at hc
  rcases hc with rfl | rfl | rfl | rfl | rfl | rfl | rfl <;>
    simp [s, pghr13Honest, Pghr13Coeffs1.zero, Pghr13Coeffs1.Fits, hH, Nat.add_assoc]

theorem Pghr13Coeffs1.combine_run (P : Pairing F G1 G2 GT) (T : Pghr13Trapdoor F) (q : QapEval F) (nv ni m : Nat)
    (hle : ni ≤ nv) (hA : q.At.length = nv + 1) (hB : q.Bt.length = nv + 1) (hC : q.Ct.length = nv + 1)
    (hH : q.Ht.length = m + 1)
    (pk : Pghr13PK F G1 G2) (vk : Pghr13VK G1 G2) (hk : Pghr13Keys P T q nv ni pk vk)
    (c : Pghr13Coeffs1 F) (hc : c.Fits nv ni m) :
    c.combine pk vk = some ((T.rA * innerProduct c.aFst (pghr13At q ni)) • P.one1 +
      (T.rA * T.alphaA * innerProduct c.aSnd (pghr13At q ni)) • P.one1 +
      (T.rB * T.alphaB * innerProduct c.bSnd (q.Bt ++ [q.Zt])) • P.one1 +
      (T.rA * T.rB * innerProduct c.cFst (q.Ct ++ [q.Zt])) • P.one1 +
      (T.rA * T.rB * T.alphaC * innerProduct c.cSnd (q.Ct ++ [q.Zt])) • P.one1 +
      innerProduct c.h q.Ht • P.one1 +
      innerProduct c.k ((List.range (nv + 1)).map (fun i =>
            T.beta * (T.rA * q.At.getD i 0 + T.rB * q.Bt.getD i 0 + T.rA * T.rB * q.Ct.getD i 0))
          ++ [T.beta * T.rA * q.Zt, T.beta * T.rB * q.Zt, T.beta * (T.rA * T.rB) * q.Zt]) • P.one1 +
      c.alphaB • T.alphaB • P.one1 + c.gammaBeta • (T.gamma * T.beta) • P.one1 +
      c.input0 • (T.rA * q.At.getD 0 0) • P.one1) := by
  have lAt : (pghr13At q ni).length = nv + 2 := by simp [pghr13At, hA]; omega
  obtain ⟨l1, l2, l3, l4, l5, l6, l7, l8⟩ := hc
  simp only [Pghr13Coeffs1.combine, hk.a, hk.b, hk.c, hk.h, hk.k, hk.alphaB, hk.gb1, hk.ic,
    kcCombine_run _ _ _ _ _ _ _ lAt l1, kcCombine_run _ _ _ _ _ _ _ lAt l2,
    kcCombine_run P.one2 P.one1 T.rB (T.rB * T.alphaB) (q.Bt ++ [q.Zt]) _ (nv + 2) (by simp [hB]) l3,
    kcCombine_run P.one1 P.one1 (T.rA * T.rB) (T.rA * T.rB * T.alphaC) (q.Ct ++ [q.Zt]) _ (nv + 2) (by simp [hC]) l4,
    kcCombine_run P.one1 P.one1 (T.rA * T.rB) (T.rA * T.rB * T.alphaC) (q.Ct ++ [q.Zt]) _ (nv + 2) (by simp [hC]) l5,
    multiexp_batchExp _ q.Ht c.h (by rw [hH, l6]), multiexp_batchExp P.one1 ((List.range (nv + 1)).map (fun i =>
            T.beta * (T.rA * q.At.getD i 0 + T.rB * q.Bt.getD i 0 + T.rA * T.rB * q.Ct.getD i 0))
          ++ [T.beta * T.rA * q.Zt, T.beta * T.rB * q.Zt, T.beta * (T.rA * T.rB) * q.Zt]) c.k (by rw [l7]; simp),
    Option.bind_eq_bind, Option.bind_some, Option.pure_def, l8,
    multiexp_zeros (F := F) (batchExp P.one1 ((List.range' 1 ni).map fun i => T.rA * q.At.getD i 0)) ni
      (by simp [batchExp]), add_zero]

set_option maxHeartbeats 400000 in
/-- **C89** (the honest prover is such a prover): with fixed coefficients it reproduces its proofs under all
keys, and the witness read from its coefficients is the auxiliary input. -/
theorem C89_honest_prover_is_linear (P : Pairing F G1 G2 GT) (hD : D.Lawful) (cs : R1CS F)
    (hr : cs.WellRanged) (hm : cs.numConstraints + cs.numInputs + 1 ≤ D.m) (chunks : Nat)
    (p w : List F) (hp : p.length = cs.primaryInputSize) (hw : w.length = cs.auxiliaryInputSize)
    (hsat : cs.isSatisfied p w = some true) (d1 d2 d3 : F) :
    ∃ s : Pghr13Strategy F, s.witness cs = w ∧ ∀ T (pk : Pghr13PK F G1 G2) (vk : Pghr13VK G1 G2),
      pghr13Generate P D cs T chunks = some (pk, vk) →
      s.prove P.one2 pk vk = pghr13Prove D pk p w d1 d2 d3 ∧ (pghr13Prove D pk p w d1 d2 d3).isSome := by
  obtain ⟨cs', hcs'⟩ := C16_swap_defined cs hr
  obtain ⟨hp', hw', hr'⟩ := R1CS.swap_shape cs cs' hcs'
  obtain ⟨hsat', hni, hnv, hnc⟩ := C16_swap_preserves cs cs' hcs'
  have hm' : cs'.numConstraints + cs'.numInputs + 1 ≤ D.m := by rw [hnc, hni]; exact hm
  have hpl : p.length = cs'.primaryInputSize := by rw [hp, hp']
  have hwl : w.length = cs'.auxiliaryInputSize := by rw [hw, hw']
  have hpc : p.length = cs.numInputs := by rw [hp]; rfl
  set nv := cs'.numVariables with hnv0
  set ni := cs'.numInputs with hni0
  have hfull : (p ++ w).length = nv := by simp [hpl, hwl, hnv0, R1CS.numVariables]
  have hsat2 : cs'.isSatisfied p w = some true := by rw [hsat', hsat]
  have hs := (C16_isSatisfied_iff cs' (hr' hr) p w (by rw [← List.length_append, hfull])).1.1 hsat2
  obtain ⟨H, eW, lH, -, -⟩ := R1CS.qapWitness_spec hD cs' (hr' hr) p w hpl hwl hm' hs d1 d2 d3
  rw [← hnv0, ← hni0] at eW
  refine ⟨pghr13Honest p w H D.m d1 d2 d3, ?_, fun T pk vk hgen => ?_⟩
  · simp only [Pghr13Strategy.witness, pghr13Honest, ← hpc, ← hw]
    simp
  obtain ⟨qi, q, -, hq, -, n1, n2, n3, n4, lA, lB, lC, eH, eZ, dA, dB, dC⟩ :=
    R1CS.qapEval_spec hD cs' (hr' hr) hm' T.t
  have hle : ni ≤ nv := by simp [hni0, hnv0, R1CS.numInputs, R1CS.numVariables]
  have hpi : p.length = ni := by rw [hpl]; rfl
  have hk := pghr13Keys_of P D cs cs' T chunks hcs' q hq nv ni n1 n3 hle lA lB lC pk vk hgen
  have hcs : pk.cs = cs' := by
    have hnz : ∀ i < ni + 1, q.At.getD i 0 ≠ 0 := by
      intro i hi h0
      rw [pghr13Generate_none P D cs cs' T chunks hcs' q hq i (by omega) (by rw [lA]; omega) h0] at hgen
      simp at hgen
    rw [pghr13Generate_eq P D cs cs' T chunks hcs' q hq nv ni n1 n3 hle lA lB lC hnz] at hgen
    simp only [Option.some.injEq, Prod.mk.injEq] at hgen
    obtain ⟨rfl, rfl⟩ := hgen
    rfl
  have lHt : q.Ht.length = D.m + 1 := by rw [eH, length_powersFrom]
  have lAt : (pghr13At q ni).length = nv + 2 := by simp [pghr13At, lA]; omega
  have lB' : (q.Bt ++ [q.Zt]).length = nv + 2 := by rw [List.length_append, lB]; rfl
  have lC' : (q.Ct ++ [q.Zt]).length = nv + 2 := by rw [List.length_append, lC]; rfl
  obtain ⟨mA, eA, sA⟩ := pghr13_side P.one1 P.one1 T.rA (T.rA * T.alphaA) (pghr13At q ni) (p ++ w)
    (by rw [lAt, hfull]) d1 pk.aQuery (by rw [hk.a, lAt])
  obtain ⟨mB, eB, sB⟩ := pghr13_side P.one2 P.one1 T.rB (T.rB * T.alphaB) (q.Bt ++ [q.Zt]) (p ++ w)
    (by rw [lB', hfull]) d2 pk.bQuery (by rw [hk.b, lB'])
  obtain ⟨mC, eC, sC⟩ := pghr13_side P.one1 P.one1 (T.rA * T.rB) (T.rA * T.rB * T.alphaC)
    (q.Ct ++ [q.Zt]) (p ++ w) (by rw [lC', hfull]) d3 pk.cQuery (by rw [hk.c, lC'])
  rw [hfull] at eA sA eB sB eC sC
  have side : ∀ (v : List F) (d : F), v.length = nv + 2 → innerProduct (1 :: (p ++ w ++ [d])) v =
      v.getD 0 0 + d * v.getD (nv + 1) 0 + innerProduct (p ++ w) (v.drop 1) := by
    intro v d hv
    rw [innerProduct_ends _ _ _ (by rw [hv, hfull]; rfl), hfull, List.drop_eq_getElem_cons (i := nv + 1) (by omega),
      List.getD_eq_getElem _ _ (by omega : nv + 1 < v.length)]
    simp only [innerProduct, List.zipWith_cons_cons, List.sum_cons, List.zipWith_nil_left, List.sum_nil]
    ring
  set Kt := (List.range (nv + 1)).map (fun i => T.beta * (T.rA * q.At.getD i 0
        + T.rB * q.Bt.getD i 0 + T.rA * T.rB * q.Ct.getD i 0))
      ++ [T.beta * T.rA * q.Zt, T.beta * T.rB * q.Zt, T.beta * (T.rA * T.rB) * q.Zt] with hKt
  have lKt : Kt.length = nv + 4 := by simp [hKt]
  have hkq : pk.kQuery = batchExp P.one1 Kt := hk.k
  have kget : ∀ i < nv + 4, pk.kQuery[i]? = some (Kt.getD i 0 • P.one1) := by
    intro i hi
    rw [hkq, batchExp, List.getElem?_map, List.getElem?_eq_getElem (by omega), Option.map_some,
      ← List.getD_eq_getElem _ 0]
  have slK : slice pk.kQuery 1 (1 + nv) = some (batchExp P.one1 ((Kt.drop 1).take nv)) := by
    rw [hkq, slice_eq _ _ _ (by omega) (by simp [batchExp]; omega), batchExp, batchExp, List.map_take,
      List.map_drop, Nat.add_sub_cancel_left]
  have eK : multiexp (batchExp P.one1 ((Kt.drop 1).take nv)) (p ++ w)
      = some (innerProduct (p ++ w) (Kt.drop 1) • P.one1) := by
    rw [multiexp_batchExp _ _ _ (by rw [hfull]; simp [lKt])]
    have := innerProduct_take (p ++ w) (Kt.drop 1)
    rw [hfull] at this
    rw [this]
  have eHm : multiexp pk.hQuery H = some (innerProduct H q.Ht • P.one1) := by
    rw [hk.h, multiexp_batchExp _ _ _ (by rw [lHt, lH])]
  have sK : innerProduct (1 :: (p ++ w ++ [d1, d2, d3])) Kt = Kt.getD 0 0 + d1 * Kt.getD (nv + 1) 0 +
      d2 * Kt.getD (nv + 2) 0 + d3 * Kt.getD (nv + 3) 0 + innerProduct (p ++ w) (Kt.drop 1) := by
    rw [innerProduct_ends _ _ _ (by rw [lKt, hfull]; rfl), hfull, List.drop_eq_getElem_cons (i := nv + 1) (by omega),
      List.drop_eq_getElem_cons (i := nv + 1 + 1) (by omega),
      List.drop_eq_getElem_cons (i := nv + 1 + 1 + 1) (by omega),
      List.getD_eq_getElem _ _ (by omega : nv + 1 < Kt.length),
      List.getD_eq_getElem _ _ (by omega : nv + 2 < Kt.length),
      List.getD_eq_getElem _ _ (by omega : nv + 3 < Kt.length)]
    simp only [innerProduct, List.zipWith_cons_cons, List.sum_cons, List.zipWith_nil_left, List.sum_nil]
    ring
  have hprove := pghr13Prove_exec D pk p w d1 d2 d3 nv D.m ni (p ++ w) H (by rw [hcs, eW]) _ _ _ _ _ _ mA mC mB _
    (kget 0 (by omega)) (kget (nv + 1) (by omega)) (kget (nv + 2) (by omega)) (kget (nv + 3) (by omega))
    eA eB eC (by rw [hk.h]; simp [batchExp, lHt]) lH eHm slK hfull eK
  refine ⟨?_, by rw [hprove]; rfl⟩
  rw [hprove, sA, sB, sC]
  have fits := pghr13Honest_fits p w H D.m d1 d2 d3 lH
  rw [hfull, hpi] at fits
  have run := fun c hc => Pghr13Coeffs1.combine_run P T q nv ni D.m hle lA lB lC lHt pk vk hk c (fits c hc)
  have hlw : p.length + w.length = nv := by rw [← List.length_append, hfull]
  have cB : (pghr13Honest p w H D.m d1 d2 d3).B.combine P.one2 pk vk =
      some ((T.rB * innerProduct (1 :: (p ++ w ++ [d2])) (q.Bt ++ [q.Zt])) • P.one2) := by
    simp only [Pghr13Coeffs2.combine, pghr13Honest, hk.b,
      kcCombine_run P.one2 P.one1 T.rB (T.rB * T.alphaB) (q.Bt ++ [q.Zt]) (1 :: (p ++ w ++ [d2])) (nv + 2)
        lB' (by simp; omega),
      Option.bind_eq_bind, Option.bind_some, Option.pure_def, zero_smul, zero_add]
  simp only [Pghr13Strategy.prove, cB]
  rw [run (pghr13Honest p w H D.m d1 d2 d3).A (by simp), run (pghr13Honest p w H D.m d1 d2 d3).A' (by simp),
    run (pghr13Honest p w H D.m d1 d2 d3).B' (by simp), run (pghr13Honest p w H D.m d1 d2 d3).C (by simp),
    run (pghr13Honest p w H D.m d1 d2 d3).C' (by simp), run (pghr13Honest p w H D.m d1 d2 d3).H (by simp),
    run (pghr13Honest p w H D.m d1 d2 d3).K (by simp)]
  simp only [pghr13Honest, Pghr13Coeffs1.zero, innerProduct_zeros, Option.bind_eq_bind, Option.bind_some,
    Option.pure_def, zero_smul, mul_zero, zero_add, add_zero]
  rw [side _ _ lAt, side _ _ lB', side _ _ lC', ← hKt, sK]
  congr 2
  module

section Examples

set_option maxRecDepth 20000 in
/-- the hypotheses of `C89_knowledge_soundness_partial` are met: the honest prover for `3 · 3 = 9`, and all
secrets for which the generator runs -/
example : ∃ (s : Pghr13Strategy (ZMod 97)) (accepting : Finset (ZMod 97 × (Fin 7 → ZMod 97))),
    (∀ z ∈ accepting, ∃ pk vk π,
      pghr13Generate exPairing97 (EvalDomain.ofPoints 4 (fun i => ((i + 1 : Nat) : ZMod 97)) 10) exRoot97
        { t := z.1, alphaA := z.2 0, alphaB := z.2 1, alphaC := z.2 2, rA := z.2 3,
          rB := z.2 4, beta := z.2 5, gamma := z.2 6 } 3 = some (pk, vk) ∧
      s.prove exPairing97.one2 pk vk = some π ∧ pghr13VerifyWeak exPairing97 vk [9] π = some true) ∧
    (2 * 4 + 5) * Fintype.card (ZMod 97) ^ 7 < accepting.card ∧ s.witness exRoot97 = [3] := by
  classical
  obtain ⟨s, hw, hs⟩ := C89_honest_prover_is_linear exPairing97 exDom97 exRoot97 exRoot97_ok (by decide) 3 [9] [3]
    rfl rfl (by decide +kernel) 5 6 7
  -- the points at which the generator stops
  let bad : (Fin 7 → ZMod 97) → Finset (ZMod 97) := fun x => Finset.univ.filter fun t =>
    pghr13Generate exPairing97 (EvalDomain.ofPoints 4 (fun i => ((i + 1 : Nat) : ZMod 97)) 10) exRoot97
      { t := t, alphaA := x 0, alphaB := x 1, alphaC := x 2, rA := x 3, rB := x 4, beta := x 5, gamma := x 6 } 3 = none
  have hbad : ∀ x, (bad x).card ≤ 6 := fun x =>
    C51_generator_defined exPairing97 exDom97 exRoot97 exRoot97_ok (by decide)
      { t := 0, alphaA := x 0, alphaB := x 1, alphaC := x 2, rA := x 3, rB := x 4, beta := x 5, gamma := x 6 } 3
      (bad x) (fun t ht => (Finset.mem_filter.1 ht).2)
  refine ⟨s, Finset.univ.filter (fun z : ZMod 97 × (Fin 7 → ZMod 97) => z.1 ∉ bad z.2), fun z hz => ?_, ?_, hw⟩
  · have hz' : z.1 ∉ bad z.2 := (Finset.mem_filter.1 hz).2
    rw [Finset.mem_filter, not_and] at hz'
    obtain ⟨⟨pk, vk⟩, hg⟩ := Option.ne_none_iff_exists'.1 (hz' (Finset.mem_univ _))
    obtain ⟨π, hpr, -, hv⟩ := C51_pghr13_complete exPairing97 exDom97 exRoot97 exRoot97_ok (by decide) _ 3
      (fun _ => rfl) (fun _ => rfl) [9] [3] rfl rfl (by decide +kernel) 5 6 7 pk vk hg
    exact ⟨pk, vk, π, hg, by rw [(hs _ pk vk hg).1, hpr], hv⟩
  · have h1 : (Finset.univ.filter (fun z : ZMod 97 × (Fin 7 → ZMod 97) => z.1 ∉ bad z.2)).card =
        ∑ x : Fin 7 → ZMod 97, (97 - (bad x).card) := by
      rw [Finset.card_filter, Fintype.sum_prod_type_right]
      refine Finset.sum_congr rfl fun x _ => ?_
      rw [← Finset.card_filter]
      show (Finset.univ.filter fun i => ¬ i ∈ bad x).card = _
      rw [Finset.filter_not, Finset.filter_mem_eq_inter, Finset.univ_inter,
        ← Finset.compl_eq_univ_sdiff, Finset.card_compl, ZMod.card]
    rw [h1]
    calc (2 * 4 + 5) * Fintype.card (ZMod 97) ^ 7 < ∑ x : Fin 7 → ZMod 97, 91 := by
          rw [Finset.sum_const, Finset.card_univ, Fintype.card_fun, ZMod.card, Fintype.card_fin]
          norm_num
      _ ≤ _ := Finset.sum_le_sum fun x _ => by have := hbad x; omega

end Examples

end Crypto3Zk
