import Verif.Lemmas.ArithmeticPrograms
import Verif.Props.LinearCombination
import Mathlib.Data.Fintype.Basic

/-!
# C17, C18: the reduction from R1CS to QAP

`D` is the evaluation domain returned by the external library for the requested size
(`D.Lawful` is the library's contract, `num_constraints + num_inputs + 1 ≤ D.m` is what
`make_evaluation_domain` is asked for).
-/

set_option linter.unusedSectionVars false

namespace Crypto3Zk

variable {F : Type*} [Field F] [DecidableEq F] {D : EvalDomain F}

/-- **C17**: if the constraint system accepts the assignment then, for every point `t` and all
blinding values `d1, d2, d3`, the evaluated QAP instance accepts the witness computed by the
witness map, which carries the assignment unchanged; no out-of-bounds access happens on the way. -/
theorem C17_qap_complete (hD : D.Lawful) (cs : R1CS F) (hr : cs.WellRanged) (p w : List F)
    (hp : p.length = cs.primaryInputSize) (hw : w.length = cs.auxiliaryInputSize)
    (hm : cs.numConstraints + cs.numInputs + 1 ≤ D.m)
    (hsat : cs.isSatisfied p w = some true) (t d1 d2 d3 : F) :
    ∃ q wit, cs.qapEval D t = some q ∧ cs.qapWitness D p w d1 d2 d3 = some wit ∧
      wit.coefficientsForABCs = p ++ w ∧ wit.d1 = d1 ∧ wit.d2 = d2 ∧ wit.d3 = d3 ∧
      q.isSatisfied D wit = true := by
  have hlen : (p ++ w).length = cs.numVariables := by simp [hp, hw, R1CS.numVariables]
  have hs := (C16_isSatisfied_iff cs hr p w (by rw [← List.length_append, hlen])).1.1 hsat
  obtain ⟨qi, q, -, e2, -, n1, n2, n3, n4, lA, lB, lC, eH, eZ, dA, dB, dC⟩ :=
    R1CS.qapEval_spec hD cs hr hm t
  obtain ⟨H, eW, lH, eqH, -⟩ := R1CS.qapWitness_spec hD cs hr p w hp hw hm hs d1 d2 d3
  refine ⟨q, _, e2, eW, rfl, rfl, rfl, rfl, ?_⟩
  rw [QapEval.isSatisfied_iff]
  refine ⟨n1, n2, n3, by rw [n1, hlen], by rw [n2, lH], by rw [n1, lA], by rw [n1, lB],
    by rw [n1, lC], by rw [eH, length_powersFrom, n2], by rw [eZ, n4], ?_⟩
  simp only
  rw [ansOf_eq _ _ _ _ (by rw [lA, hlen]), ansOf_eq _ _ _ _ (by rw [lB, hlen]),
    ansOf_eq _ _ _ _ (by rw [lC, hlen]), dA, dB, dC, eZ, eH, innerProduct_powers _ _ _ lH]
  exact eqH t

/-- **C18** (soundness): whatever the witness is, if it is accepted at more than `2·m` points then
its assignment satisfies the constraint system. In particular a witness accepted at a random point
with probability above `2m/|F|` comes from a satisfying assignment. -/
theorem C18_qap_sound (hD : D.Lawful) (cs : R1CS F) (hr : cs.WellRanged)
    (hm : cs.numConstraints + cs.numInputs + 1 ≤ D.m) (wit : QapWitness F)
    (S : Finset F) (hS : 2 * D.m < S.card)
    (hacc : ∀ t ∈ S, ∃ q, cs.qapEval D t = some q ∧ q.isSatisfied D wit = true) :
    cs.isSatisfied (wit.coefficientsForABCs.take cs.primaryInputSize)
      (wit.coefficientsForABCs.drop cs.primaryInputSize) = some true := by
  obtain ⟨t0, ht0⟩ : S.Nonempty := Finset.card_pos.1 (by omega)
  -- the sizes, from any accepted point
  have key : ∀ t ∈ S, wit.coefficientsForABCs.length = cs.numVariables ∧
      wit.coefficientsForH.length = D.m + 1 ∧
      (dot (cs.qapARow D.m (envOf wit.coefficientsForABCs)) (fun i => (D.lagrange t).getD i 0)
          + wit.d1 * D.vanishing t) *
        (dot (cs.qapRow R1CSConstraint.b D.m (envOf wit.coefficientsForABCs))
          (fun i => (D.lagrange t).getD i 0) + wit.d2 * D.vanishing t) -
        (dot (cs.qapRow R1CSConstraint.c D.m (envOf wit.coefficientsForABCs))
          (fun i => (D.lagrange t).getD i 0) + wit.d3 * D.vanishing t)
        = evalPoly wit.coefficientsForH t * D.vanishing t := by
    intro t ht
    obtain ⟨q, e1, hq⟩ := hacc t ht
    obtain ⟨qi, q', -, e2, -, n1, n2, n3, n4, lA, lB, lC, eH, eZ, dA, dB, dC⟩ :=
      R1CS.qapEval_spec hD cs hr hm t
    obtain rfl : q = q' := Option.some.inj (e1.symm.trans e2)
    rw [QapEval.isSatisfied_iff] at hq
    obtain ⟨h1, h2, h3, h4, h5, -, -, -, -, -, heq⟩ := hq
    have hl : wit.coefficientsForABCs.length = cs.numVariables := by rw [← h4, n1]
    have hh : wit.coefficientsForH.length = D.m + 1 := by rw [← h5, n2]
    refine ⟨hl, hh, ?_⟩
    rw [ansOf_eq _ _ _ _ (by rw [lA, hl]), ansOf_eq _ _ _ _ (by rw [lB, hl]),
      ansOf_eq _ _ _ _ (by rw [lC, hl]), dA, dB, dC, eZ, eH, innerProduct_powers _ _ _ hh] at heq
    exact heq
  obtain ⟨hl, hh, -⟩ := key t0 ht0
  have hrows := rows_of_many hD _ _ _ _ _ _ _
    (R1CS.length_qapARow cs (envOf wit.coefficientsForABCs) D.m hm)
    (R1CS.length_qapRow R1CSConstraint.b cs (envOf wit.coefficientsForABCs) D.m hm)
    (R1CS.length_qapRow R1CSConstraint.c cs (envOf wit.coefficientsForABCs) D.m hm)
    hh S hS (fun t ht => (key t ht).2.2)
  have hcat : wit.coefficientsForABCs.take cs.primaryInputSize ++
      wit.coefficientsForABCs.drop cs.primaryInputSize = wit.coefficientsForABCs :=
    List.take_append_drop _ _
  rw [(C16_isSatisfied_iff cs hr _ _ (by rw [← List.length_append, hcat, hl])).1, ← R1CS.qap_rows_iff cs _ _ D.m hm, hcat]
  exact hrows

/-- **C18** (counting form): over a finite field, a witness whose assignment does not satisfy the
system is accepted at no more than `2·m` points. -/
theorem C18_qap_few_accepting_points [Fintype F] (hD : D.Lawful) (cs : R1CS F) (hr : cs.WellRanged)
    (hm : cs.numConstraints + cs.numInputs + 1 ≤ D.m) (wit : QapWitness F)
    (hbad : cs.isSatisfied (wit.coefficientsForABCs.take cs.primaryInputSize)
      (wit.coefficientsForABCs.drop cs.primaryInputSize) ≠ some true) :
    (Finset.univ.filter fun t => ((cs.qapEval D t).map fun q => q.isSatisfied D wit) = some true).card
      ≤ 2 * D.m := by
  by_contra hcon
  apply hbad
  refine C18_qap_sound hD cs hr hm wit _ (not_le.1 hcon) (fun t ht => ?_)
  simp only [Finset.mem_filter, Finset.mem_univ, true_and, Option.map_eq_some_iff] at ht
  exact ht

/-- **C18** (soundness at the domain points): acceptance at every point of the domain already
forces the constraint system to hold. -/
theorem C18_qap_sound_on_domain (hD : D.Lawful) (cs : R1CS F) (hr : cs.WellRanged)
    (hm : cs.numConstraints + cs.numInputs + 1 ≤ D.m) (wit : QapWitness F)
    (hacc : ∀ i < D.m, ∃ q, cs.qapEval D (D.point i) = some q ∧ q.isSatisfied D wit = true) :
    cs.isSatisfied (wit.coefficientsForABCs.take cs.primaryInputSize)
      (wit.coefficientsForABCs.drop cs.primaryInputSize) = some true := by
  have key : ∀ j < D.m, wit.coefficientsForABCs.length = cs.numVariables ∧
      (cs.qapARow D.m (envOf wit.coefficientsForABCs)).getD j 0 *
        (cs.qapRow R1CSConstraint.b D.m (envOf wit.coefficientsForABCs)).getD j 0
        = (cs.qapRow R1CSConstraint.c D.m (envOf wit.coefficientsForABCs)).getD j 0 := by
    intro j hj
    obtain ⟨q, e1, hq⟩ := hacc j hj
    obtain ⟨qi, q', -, e2, -, n1, n2, n3, n4, lA, lB, lC, eH, eZ, dA, dB, dC⟩ :=
      R1CS.qapEval_spec hD cs hr hm (D.point j)
    obtain rfl : q = q' := Option.some.inj (e1.symm.trans e2)
    rw [QapEval.isSatisfied_iff] at hq
    obtain ⟨h1, h2, h3, h4, h5, -, -, -, -, -, heq⟩ := hq
    have hl : wit.coefficientsForABCs.length = cs.numVariables := by rw [← h4, n1]
    refine ⟨hl, ?_⟩
    have hv : ∀ l : List F, l.length = D.m →
        dot l (fun i => (D.lagrange (D.point j)).getD i 0) = l.getD j 0 := by
      intro l hl
      rw [dot_comm _ _ (by rw [hl, hD.length_lagrange])]
      exact hD.lagrange_point j hj _
    rw [ansOf_eq _ _ _ _ (by rw [lA, hl]), ansOf_eq _ _ _ _ (by rw [lB, hl]),
      ansOf_eq _ _ _ _ (by rw [lC, hl]), dA, dB, dC, eZ, hD.vanishing_point j hj,
      hv _ (R1CS.length_qapARow cs _ D.m hm), hv _ (R1CS.length_qapRow _ cs _ D.m hm),
      hv _ (R1CS.length_qapRow _ cs _ D.m hm)] at heq
    simpa [sub_eq_zero] using heq
  have hl := (key 0 (by omega)).1
  have hcat : wit.coefficientsForABCs.take cs.primaryInputSize ++
      wit.coefficientsForABCs.drop cs.primaryInputSize = wit.coefficientsForABCs :=
    List.take_append_drop _ _
  rw [(C16_isSatisfied_iff cs hr _ _ (by rw [← List.length_append, hcat, hl])).1, ← R1CS.qap_rows_iff cs _ _ D.m hm, hcat]
  exact fun j hj => (key j hj).2

/-- **C18** (agreement): evaluating the polynomials of the QAP instance at `t` gives exactly the
instance that is computed directly at `t`. -/
theorem C18_qap_instance_agrees (hD : D.Lawful) (cs : R1CS F) (hr : cs.WellRanged)
    (hm : cs.numConstraints + cs.numInputs + 1 ≤ D.m) (t : F) :
    ∃ qi q, cs.qapInstance D = some qi ∧ qi.evalAt D t = some q ∧ cs.qapEval D t = some q := by
  obtain ⟨qi, q, e1, e2, e3, -⟩ := R1CS.qapEval_spec hD cs hr hm t
  exact ⟨qi, q, e1, e3, e2⟩

section Examples

/-- `x₁ · x₁ = x₂` with `x₁` public -/
def exSq : R1CS ℚ := ⟨1, 1, [⟨[⟨1, 1⟩], [⟨1, 1⟩], [⟨2, 1⟩]⟩]⟩

/-- a four-point domain -/
theorem exDom4 : (EvalDomain.ofPoints 4 (fun i => (i + 1 : ℚ)) 10).Lawful := by
  apply EvalDomain.ofPoints_lawful
  · norm_num
  · intro i _ j _ h; exact_mod_cast (add_right_cancel h)
  · intro i hi j hj
    interval_cases i <;> interval_cases j <;> norm_num

theorem exSq_ok : exSq.WellRanged := by
  intro k hk
  simp only [exSq, List.mem_singleton] at hk
  subst hk
  refine ⟨?_, ?_, ?_⟩ <;> · intro t ht; simp at ht; subst ht; decide

example : exSq.numConstraints + exSq.numInputs + 1 ≤ 4 ∧
    exSq.isSatisfied [3] [9] = some true ∧ exSq.isSatisfied [3] [8] = some false := by
  refine ⟨by decide, by decide +kernel, by decide +kernel⟩

/-- C17 applied to `3 · 3 = 9` -/
example (t d1 d2 d3 : ℚ) := C17_qap_complete exDom4 exSq exSq_ok [3] [9] rfl rfl (by decide)
  (by decide +kernel) t d1 d2 d3

end Examples

end Crypto3Zk
