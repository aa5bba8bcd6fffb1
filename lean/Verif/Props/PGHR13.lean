import Verif.Lemmas.PGHR13
import Verif.Props.Groth16

/-!
# C51, C54, C62: the PGHR13 argument
-/

set_option linter.unusedSectionVars false

namespace Crypto3Zk

variable {F : Type} [Field F] [DecidableEq F] {D : EvalDomain F}
variable {G1 G2 GT : Type} [AddCommGroup G1] [Module F G1] [AddCommGroup G2] [Module F G2]
  [AddCommGroup GT] [Module F GT] [DecidableEq GT]

/-- what acceptance of a PGHR13 proof means: all elements are on the curves and the five pairing
equations hold, with `acc` the encoded input -/
def Pghr13Accepts (P : Pairing F G1 G2 GT) (vk : Pghr13VK G1 G2) (p : List F)
    (π : Pghr13Proof G1 G2) : Prop :=
  let acc := vk.encodedIC.first + (List.zipWith (fun g x => x • g) vk.encodedIC.rest p).sum
  (P.wf1 π.gA.1 = true ∧ P.wf1 π.gA.2 = true ∧ P.wf2 π.gB.1 = true ∧ P.wf1 π.gB.2 = true ∧
    P.wf1 π.gC.1 = true ∧ P.wf1 π.gC.2 = true ∧ P.wf1 π.gH = true ∧ P.wf1 π.gK = true) ∧
  P.e π.gA.1 vk.alphaAG2 = P.e π.gA.2 P.one2 ∧
  P.e vk.alphaBG1 π.gB.1 = P.e π.gB.2 P.one2 ∧
  P.e π.gC.1 vk.alphaCG2 = P.e π.gC.2 P.one2 ∧
  P.e (π.gA.1 + acc) π.gB.1 = P.e π.gH vk.rCZG2 + P.e π.gC.1 P.one2 ∧
  P.e π.gK vk.gammaG2 = P.e (π.gA.1 + acc + π.gC.1) vk.gammaBetaG2 + P.e vk.gammaBetaG1 π.gB.1

/-- **C51** (meaning of the verifier): on an input that is not too long the weak verifier returns
`true` exactly when all checks hold, and otherwise `false`. -/
theorem C51_verifier_iff (P : Pairing F G1 G2 GT) (vk : Pghr13VK G1 G2) (p : List F)
    (π : Pghr13Proof G1 G2) (hp : p.length ≤ vk.encodedIC.rest.length) :
    (pghr13VerifyWeak P vk p π = some true ↔ Pghr13Accepts P vk p π) ∧
      (pghr13VerifyWeak P vk p π = some false ↔ ¬ Pghr13Accepts P vk p π) := by
  have hb : ∃ b, pghr13VerifyWeak P vk p π = some b ∧ (b = true ↔ Pghr13Accepts P vk p π) := by
    simp only [pghr13VerifyWeak, AccVec.accumulate, AccVec.domainSize, hp, if_true,
      Option.bind_eq_bind, Option.bind_some, Option.pure_def, Option.some.injEq, Pghr13Accepts,
      Pghr13Proof.wellFormed, ne_eq, sub_eq_zero, ite_not]
    refine ⟨_, rfl, ?_⟩
    simp only [Bool.ite_eq_true_distrib, Bool.and_eq_true]
    constructor
    · intro h
      split at h <;> try contradiction
      split at h <;> try contradiction
      split at h <;> try contradiction
      split at h <;> try contradiction
      split at h <;> try contradiction
      rename_i h1 h2 h3 h4 h5
      refine ⟨by tauto, h5, h4, h3, h2, h1⟩
    · rintro ⟨hw, h1, h2, h3, h4, h5⟩
      rw [if_pos h5, if_pos h4, if_pos h3, if_pos h2, if_pos h1]
      tauto
  obtain ⟨b, hb, hi⟩ := hb
  rw [hb, ← hi]
  cases b <;> simp

/-- **C51** (completeness): whenever key generation succeeds, for every satisfying input, all
trapdoor values and all prover randomness, proving succeeds and the proof passes all five checks of
both verifiers. The curve checks are assumed to accept every element. -/
theorem C51_pghr13_complete (P : Pairing F G1 G2 GT) (hD : D.Lawful) (cs : R1CS F)
    (hr : cs.WellRanged) (hm : cs.numConstraints + cs.numInputs + 1 ≤ D.m)
    (T : Pghr13Trapdoor F) (chunks : Nat)
    (hwf1 : ∀ g, P.wf1 g = true) (hwf2 : ∀ g, P.wf2 g = true)
    (p w : List F) (hp : p.length = cs.primaryInputSize) (hw : w.length = cs.auxiliaryInputSize)
    (hsat : cs.isSatisfied p w = some true) (d1 d2 d3 : F)
    (pk : Pghr13PK F G1 G2) (vk : Pghr13VK G1 G2)
    (hgen : pghr13Generate P D cs T chunks = some (pk, vk)) :
    ∃ π, pghr13Prove D pk p w d1 d2 d3 = some π ∧
      pghr13VerifyStrong P vk p π = some true ∧ pghr13VerifyWeak P vk p π = some true := by
  obtain ⟨cs', hcs'⟩ := C16_swap_defined cs hr
  obtain ⟨hp', hw', hr'⟩ := R1CS.swap_shape cs cs' hcs'
  obtain ⟨hsat', hni, hnv, hnc⟩ := C16_swap_preserves cs cs' hcs'
  obtain ⟨qi, q, -, hq, -, n1, n2, n3, n4, lA, -⟩ :=
    R1CS.qapEval_spec hD cs' (hr' hr) (by rw [hnc, hni]; exact hm) T.t
  have hnz : ∀ i < cs.numInputs + 1, q.At.getD i 0 ≠ 0 := by
    intro i hi h0
    rw [pghr13Generate_none P D cs cs' T chunks hcs' q hq i (by omega)
      (by rw [lA]; simp only [R1CS.numInputs, R1CS.numVariables] at *; omega) h0] at hgen
    simp at hgen
  obtain ⟨pk', vk', hgen', a, hacc, hsz, e1, e2, e3, e4, e5, e6, e7, hprove⟩ :=
    pghr13Prove_eq P hD cs cs' hr hm T chunks hcs' q hq hnz
  obtain ⟨rfl, rfl⟩ := Prod.mk.inj (Option.some.inj (hgen.symm.trans hgen'))
  obtain ⟨sA, sB, sC, hd⟩ := hprove p w hp hw hsat
  obtain ⟨h, hH, hπ⟩ := hd d1 d2 d3
  have hweak : ∃ π, pghr13Prove D pk p w d1 d2 d3 = some π ∧
      pghr13VerifyWeak P vk p π = some true := by
    refine ⟨_, hπ, ?_⟩
    have hle : p.length ≤ vk.encodedIC.rest.length := by
      have : vk.encodedIC.rest.length = cs.primaryInputSize := hsz
      omega
    rw [(C51_verifier_iff P vk p _ hle).1]
    have hacc' := hacc p hp
    rw [AccVec.accumulate, if_pos (show p.length ≤ vk.encodedIC.domainSize from hle)] at hacc'
    have hacc'' := Option.some.inj hacc'
    simp only [Pghr13Accepts, hacc'', e1, e2, e3, e4, e5, e6, e7, hwf1, hwf2, true_and, pair_smul,
      ← add_smul]
    have one2 : ∀ g : G1, P.e g P.one2 = P.e g ((1 : F) • P.one2) := by intro g; rw [one_smul]
    simp only [one2, pair_smul, ← add_smul, and_self]
    refine ⟨?_, ?_, ?_, ?_, ?_⟩
    · congr 1; ring
    · congr 1; ring
    · congr 1; ring
    · congr 1
      linear_combination (T.rA * T.rB) * hH
    · congr 1
      ring
  obtain ⟨π, hπ, hv⟩ := hweak
  refine ⟨π, hπ, ?_, hv⟩
  rw [pghr13VerifyStrong, if_neg (by rw [hsz, hp]; simp)]
  exact hv

/-- **C51** (key generation): the assertion in the generator fails for few evaluation points only:
any set of points for which no key is produced has at most `(num_inputs + 1)·(m - 1)` elements. -/
theorem C51_generator_defined (P : Pairing F G1 G2 GT) (hD : D.Lawful) (cs : R1CS F)
    (hr : cs.WellRanged) (hm : cs.numConstraints + cs.numInputs + 1 ≤ D.m)
    (T : Pghr13Trapdoor F) (chunks : Nat) (S : Finset F)
    (hS : ∀ t ∈ S, pghr13Generate P D cs { T with t := t } chunks = none) :
    S.card ≤ (cs.numInputs + 1) * (D.m - 1) := by
  obtain ⟨cs', hcs'⟩ := C16_swap_defined cs hr
  obtain ⟨hp', hw', hr'⟩ := R1CS.swap_shape cs cs' hcs'
  obtain ⟨hsat', hni, hnv, hnc⟩ := C16_swap_preserves cs cs' hcs'
  have hm' : cs'.numConstraints + cs'.numInputs + 1 ≤ D.m := by rw [hnc, hni]; exact hm
  -- the polynomial of variable `i`
  let row : Nat → List F := fun i => cs'.qapARow D.m fun j => if j = i then 1 else 0
  have lrow : ∀ i, (row i).length = D.m := fun i => R1CS.length_qapARow cs' _ D.m hm'
  have hne : ∀ i < cs.numInputs + 1, interp D (row i) ≠ 0 := by
    intro i hi h0
    have h1 := interp_point hD (row i) (lrow i) (cs'.numConstraints + i) (by omega)
    rw [h0, Polynomial.eval_zero] at h1
    have : (row i).getD (cs'.numConstraints + i) 0 = 1 := by
      simp only [row, R1CS.qapARow, getD_padTo]
      rw [List.getD_append_right _ _ _ _ (by rw [R1CS.length_sideVals]; omega),
        R1CS.length_sideVals, Nat.add_sub_cancel_left,
        List.getD_eq_getElem _ _ (by simp; omega)]
      simp
    rw [this] at h1
    exact zero_ne_one h1
  have hsub : S ⊆ (Finset.range (cs.numInputs + 1)).biUnion fun i => (interp D (row i)).roots.toFinset := by
    intro t ht
    obtain ⟨qi, q, -, hq, -, n1, n2, n3, n4, lA, lB, lC, eH, eZ, dA, dB, dC⟩ :=
      R1CS.qapEval_spec hD cs' (hr' hr) hm' t
    by_contra hcon
    have hnz : ∀ i < cs.numInputs + 1, q.At.getD i 0 ≠ 0 := by
      intro i hi h0
      apply hcon
      simp only [Finset.mem_biUnion, Finset.mem_range, Multiset.mem_toFinset]
      refine ⟨i, hi, (Polynomial.mem_roots (hne i hi)).2 ?_⟩
      show (interp D (row i)).eval t = 0
      rw [interp_eval hD _ (lrow i), ← dA, dot_eq_sum, lA, Finset.sum_eq_single i]
      · rw [h0, zero_mul]
      · intro j _ hj; simp [hj]
      · intro h
        exfalso
        apply h
        simp only [Finset.mem_range]
        rw [← hni] at hi
        simp only [R1CS.numInputs, R1CS.numVariables] at hi ⊢
        omega
    obtain ⟨pk, vk, hg, -⟩ := pghr13Prove_eq P hD cs cs' hr hm { T with t := t } chunks hcs' q hq hnz
    rw [hS t ht] at hg
    simp at hg
  refine (Finset.card_le_card hsub).trans (Finset.card_biUnion_le.trans ?_)
  calc _ ≤ ∑ i ∈ Finset.range (cs.numInputs + 1), (D.m - 1) := by
        refine Finset.sum_le_sum fun i hi => ?_
        refine (Multiset.toFinset_card_le _).trans ((Polynomial.card_roots' _).trans ?_)
        have := natDegree_interp_lt hD (row i) (lrow i) (by omega)
        omega
    _ = _ := by simp

/-- **C62** (PGHR13, perfect witness indistinguishability): if the vanishing polynomial is nonzero
at the evaluation point then any satisfying witness yields, for suitable randomness, the same proof
as any other satisfying witness of the same input. -/
theorem C62_pghr13_witness_indistinguishable (P : Pairing F G1 G2 GT) (hD : D.Lawful) (cs : R1CS F)
    (hr : cs.WellRanged) (hm : cs.numConstraints + cs.numInputs + 1 ≤ D.m)
    (T : Pghr13Trapdoor F) (chunks : Nat) (hZ : D.vanishing T.t ≠ 0)
    (p w w' : List F) (hp : p.length = cs.primaryInputSize) (hw : w.length = cs.auxiliaryInputSize)
    (hw' : w'.length = cs.auxiliaryInputSize)
    (hsat : cs.isSatisfied p w = some true) (hsat' : cs.isSatisfied p w' = some true)
    (pk : Pghr13PK F G1 G2) (vk : Pghr13VK G1 G2)
    (hgen : pghr13Generate P D cs T chunks = some (pk, vk)) :
    ∃ f : F × F × F → F × F × F, Function.Bijective f ∧ ∀ d1 d2 d3, ∃ π,
      pghr13Prove D pk p w d1 d2 d3 = some π ∧
      pghr13Prove D pk p w' (f (d1, d2, d3)).1 (f (d1, d2, d3)).2.1 (f (d1, d2, d3)).2.2 = some π := by
  obtain ⟨cs', hcs'⟩ := C16_swap_defined cs hr
  obtain ⟨-, -, hr'⟩ := R1CS.swap_shape cs cs' hcs'
  obtain ⟨-, hni, hnv, hnc⟩ := C16_swap_preserves cs cs' hcs'
  obtain ⟨qi, q, -, hq, -, n1, n2, n3, n4, lA, -⟩ :=
    R1CS.qapEval_spec hD cs' (hr' hr) (by rw [hnc, hni]; exact hm) T.t
  have hnz : ∀ i < cs.numInputs + 1, q.At.getD i 0 ≠ 0 := by
    intro i hi h0
    rw [pghr13Generate_none P D cs cs' T chunks hcs' q hq i (by omega)
      (by rw [lA]; simp only [R1CS.numInputs, R1CS.numVariables] at *; omega) h0] at hgen
    simp at hgen
  obtain ⟨pk', vk', hgen', a, -, -, -, -, -, -, -, -, -, hprove⟩ :=
    pghr13Prove_eq P hD cs cs' hr hm T chunks hcs' q hq hnz
  obtain ⟨rfl, rfl⟩ := Prod.mk.inj (Option.some.inj (hgen.symm.trans hgen'))
  obtain ⟨sA, sB, sC, h1⟩ := hprove p w hp hw hsat
  obtain ⟨sA', sB', sC', h2⟩ := hprove p w' hp hw' hsat'
  set Z := D.vanishing T.t
  refine ⟨fun x => (x.1 + (sA - sA') / Z, x.2.1 + (sB - sB') / Z, x.2.2 + (sC - sC') / Z), ?_, ?_⟩
  · refine ⟨fun x y h => ?_, fun y => ⟨(y.1 - (sA - sA') / Z, y.2.1 - (sB - sB') / Z,
      y.2.2 - (sC - sC') / Z), ?_⟩⟩
    · simp only [Prod.mk.injEq, add_left_inj] at h
      exact Prod.ext h.1 (Prod.ext h.2.1 h.2.2)
    · simp
  · intro d1 d2 d3
    obtain ⟨k, hk, e⟩ := h1 d1 d2 d3
    refine ⟨_, e, ?_⟩
    obtain ⟨k', hk', e'⟩ := h2 (d1 + (sA - sA') / Z) (d2 + (sB - sB') / Z) (d3 + (sC - sC') / Z)
    have q1 : sA' + (d1 + (sA - sA') / Z) * Z = sA + d1 * Z := by field_simp; ring
    have q2 : sB' + (d2 + (sB - sB') / Z) * Z = sB + d2 * Z := by field_simp; ring
    have q3 : sC' + (d3 + (sC - sC') / Z) * Z = sC + d3 * Z := by field_simp; ring
    have hkk : k' = k := by
      simp only [q1, q2, q3] at hk'
      exact mul_right_cancel₀ hZ (hk'.symm.trans hk)
    simp only [q1, q2, q3, hkk] at e'
    exact e'

/-- **C54** (PGHR13, strong verification) -/
theorem C54_pghr13_strong (P : Pairing F G1 G2 GT) (vk : Pghr13VK G1 G2) (p : List F)
    (π : Pghr13Proof G1 G2) :
    (p.length ≠ vk.encodedIC.rest.length → pghr13VerifyStrong P vk p π = some false) ∧
      (p.length = vk.encodedIC.rest.length →
        pghr13VerifyStrong P vk p π = pghr13VerifyWeak P vk p π) := by
  constructor
  · intro h
    rw [pghr13VerifyStrong, if_pos (by simpa [AccVec.domainSize] using fun e => h e.symm)]
  · intro h
    rw [pghr13VerifyStrong, if_neg (by simp [AccVec.domainSize, h])]

/-- **C54** (PGHR13, weak verification): missing inputs count as zero. -/
theorem C54_pghr13_weak (P : Pairing F G1 G2 GT) (vk : Pghr13VK G1 G2) (p : List F) (k : Nat)
    (h : p.length + k ≤ vk.encodedIC.rest.length) (π : Pghr13Proof G1 G2) :
    pghr13VerifyWeak P vk (p ++ List.replicate k 0) π = pghr13VerifyWeak P vk p π := by
  rw [pghr13VerifyWeak, pghr13VerifyWeak, accumulate_zero_extend _ _ _ h]

section Examples

/-- key generation succeeds for the square-root system at `t = 7` -/
example : (pghr13Generate exPairing (EvalDomain.ofPoints 4 (fun i => (i + 1 : ℚ)) 10) exRoot
    ⟨7, 2, 3, 5, 7, 11, 13, 17⟩ 2).isSome = true := by
  decide +kernel

example (pk vk) (hgen : pghr13Generate exPairing (EvalDomain.ofPoints 4 (fun i => (i + 1 : ℚ)) 10)
    exRoot ⟨7, 2, 3, 5, 7, 11, 13, 17⟩ 2 = some (pk, vk)) (d1 d2 d3 : ℚ) :=
  C51_pghr13_complete exPairing exDom4 exRoot exRoot_ok (by decide) _ 2 (fun _ => rfl) (fun _ => rfl)
    [9] [3] rfl rfl (by decide +kernel) d1 d2 d3 pk vk hgen

/-- at a point of the domain the assertion does fail -/
example : (pghr13Generate exPairing (EvalDomain.ofPoints 4 (fun i => (i + 1 : ℚ)) 10) exRoot
    ⟨1, 2, 3, 5, 7, 11, 13, 17⟩ 2).isSome = false := by
  decide +kernel

end Examples

end Crypto3Zk
