import Verif.Lemmas.USCSArg
import Verif.Props.SapSsp
import Verif.Props.Groth16

/-!
# C53, C54, C62: the argument for unitary-square constraint systems

All randomness is universally quantified.
-/

set_option linter.unusedSectionVars false

namespace Crypto3Zk

variable {F : Type} [Field F] [DecidableEq F] {D : EvalDomain F}
variable {G1 G2 GT : Type} [AddCommGroup G1] [Module F G1] [AddCommGroup G2] [Module F G2]
  [AddCommGroup GT] [Module F GT] [DecidableEq GT]

/-- what acceptance means: the elements are on the curves and the three pairing equations hold -/
def UscsAccepts (P : Pairing F G1 G2 GT) (vk : UscsVK G1 G2) (p : List F)
    (π : UscsProof G1 G2) : Prop :=
  let acc := vk.encodedIC.first + (List.zipWith (fun g x => x • g) vk.encodedIC.rest p).sum
  (P.wf1 π.vG1 = true ∧ P.wf1 π.alphaVG1 = true ∧ P.wf1 π.hG1 = true ∧ P.wf2 π.vG2 = true) ∧
    P.e (π.vG1 + acc) P.one2 = P.e P.one1 π.vG2 ∧
    P.e (π.vG1 + acc) π.vG2 = P.e π.hG1 vk.zG2 + P.e P.one1 P.one2 ∧
    P.e π.vG1 vk.alphaTildeG2 = P.e π.alphaVG1 vk.tildeG2

/-- **C53** (meaning of the verifier) -/
theorem C53_verifier_iff (P : Pairing F G1 G2 GT) (vk : UscsVK G1 G2) (p : List F)
    (π : UscsProof G1 G2) (hp : p.length ≤ vk.encodedIC.rest.length) :
    (uscsVerifyWeak P vk p π = some true ↔ UscsAccepts P vk p π) ∧
      (uscsVerifyWeak P vk p π = some false ↔ ¬ UscsAccepts P vk p π) := by
  simp only [uscsVerifyWeak, AccVec.accumulate, AccVec.domainSize, hp, if_true,
    Option.bind_eq_bind, Option.bind_some, Option.pure_def, Option.some.injEq, UscsAccepts,
    UscsProof.wellFormed]
  generalize vk.encodedIC.first + (List.zipWith (fun g x => x • g) vk.encodedIC.rest p).sum = acc
  have h2 : -(P.e (π.vG1 + acc) π.vG2) + P.e π.hG1 vk.zG2 + P.e P.one1 P.one2 = 0 ↔
      P.e (π.vG1 + acc) π.vG2 = P.e π.hG1 vk.zG2 + P.e P.one1 P.one2 := by
    rw [add_assoc, neg_add_eq_zero]
  rw [← h2, ← add_neg_eq_zero (a := P.e (π.vG1 + acc) P.one2),
    ← add_neg_eq_zero (a := P.e π.vG1 vk.alphaTildeG2)]
  generalize P.e (π.vG1 + acc) P.one2 + -(P.e P.one1 π.vG2) = x
  generalize -(P.e (π.vG1 + acc) π.vG2) + P.e π.hG1 vk.zG2 + P.e P.one1 P.one2 = y
  generalize P.e π.vG1 vk.alphaTildeG2 + -(P.e π.alphaVG1 vk.tildeG2) = z
  by_cases hx : x = 0 <;> by_cases hy : y = 0 <;> by_cases hz : z = 0 <;>
    cases P.wf1 π.vG1 <;> cases P.wf1 π.alphaVG1 <;> cases P.wf1 π.hG1 <;> cases P.wf2 π.vG2 <;>
    simp [hx, hy, hz]

/-- **C53** (completeness): with keys that the generator produced, every proof made from a
satisfying assignment is accepted by both verifiers; no assertion of the prover fails. The curve
checks are assumed to accept every element. -/
theorem C53_uscs_complete (P : Pairing F G1 G2 GT) (hD : D.Lawful) (cs : USCS F)
    (hr : cs.WellRanged) (hm : cs.numConstraints ≤ D.m) (hm0 : 0 < D.m) (t alpha tilde : F)
    (hwf1 : ∀ g, P.wf1 g = true) (hwf2 : ∀ g, P.wf2 g = true)
    (pk : UscsPK F G1 G2) (vk : UscsVK G1 G2)
    (hgen : uscsGenerate P D cs t alpha tilde = some (pk, vk))
    (p w : List F) (hp : p.length = cs.primaryInputSize) (hw : w.length = cs.auxiliaryInputSize)
    (hsat : cs.isSatisfied p w = some true) (d : F) :
    ∃ π, uscsProve D pk p w d = some π ∧
      uscsVerifyStrong P vk p π = some true ∧ uscsVerifyWeak P vk p π = some true := by
  obtain ⟨kI, hacc, hsz, e1, e2, e3, hprove⟩ := uscsProve_eq P hD cs hr hm hm0 t alpha tilde pk vk hgen
  obtain ⟨sV, hπ⟩ := hprove p w hp hw hsat
  obtain ⟨hv, hh, hpr⟩ := hπ d
  have hone : ∀ c : F, P.e (c • P.one1) P.one2 = c • P.e P.one1 P.one2 := by
    intro c; rw [map_smul, LinearMap.smul_apply]
  have hone' : ∀ c : F, P.e P.one1 (c • P.one2) = c • P.e P.one1 P.one2 := by
    intro c; rw [map_smul]
  have hweak : uscsVerifyWeak P vk p ⟨(sV + d * D.vanishing t - kI p) • P.one1,
      (alpha * (sV + d * D.vanishing t - kI p)) • P.one1, hv • P.one1,
      (sV + d * D.vanishing t) • P.one2⟩ = some true := by
    simp only [uscsVerifyWeak, hacc p hp, Option.bind_eq_bind, Option.bind_some, Option.pure_def,
      UscsProof.wellFormed, hwf1, hwf2, e1, e2, e3, ← add_smul, pair_smul, hone, hone', Bool.and_self,
      ← neg_smul, Option.some.injEq]
    rw [if_neg, if_neg, if_neg]
    · rw [not_not]
      have : sV + d * D.vanishing t - kI p + kI p + -(sV + d * D.vanishing t) = 0 := by ring
      rw [this, zero_smul]
    · rw [not_not, ← one_smul F (P.e P.one1 P.one2), smul_smul, ← add_smul]
      have : (-((sV + d * D.vanishing t - kI p + kI p) * (sV + d * D.vanishing t))
          + hv * D.vanishing t) * 1 + 1 = 0 := by linear_combination -hh
      rw [this, zero_smul]
    · rw [not_not]
      have : (sV + d * D.vanishing t - kI p) * (alpha * tilde)
          + -(alpha * (sV + d * D.vanishing t - kI p) * tilde) = 0 := by ring
      rw [this, zero_smul]
  refine ⟨_, hpr, ?_, hweak⟩
  rw [uscsVerifyStrong, if_neg (by rw [hsz, hp]; simp)]
  exact hweak

/-- the coefficient of variable `i` (`0` is the constant) in a constraint -/
def uscsCoeff (k : List (LinearTerm F)) (i : Nat) : F := formalValue k fun j => if j = i then 1 else 0

theorem uscs_generate_none_iff (P : Pairing F G1 G2 GT) (hD : D.Lawful) (cs : USCS F)
    (hr : cs.WellRanged) (hm : cs.numConstraints ≤ D.m) (t alpha tilde : F) :
    (uscsGenerate P D cs t alpha tilde = none ↔ ∃ i < cs.numInputs + 1,
      (interp D (cs.sspRow D.m fun j => if j = i then 1 else 0)).eval t = 0) := by
  obtain ⟨qi, q, -, hq, -, n1, n2, n3, n4, lV, eH, eZ, dV⟩ := USCS.sspEval_spec hD cs hr hm t
  have hle : cs.numInputs ≤ cs.numVariables := by simp [USCS.numVariables, USCS.numInputs]
  have lHt : q.Ht.length = q.degree + 1 := by rw [eH, length_powersFrom, n2]
  rw [uscsGenerate_eq P D cs t alpha tilde q hq _ _ n1 n3 hle lV lHt]
  have hval : ∀ i < cs.numInputs + 1,
      (interp D (cs.sspRow D.m fun j => if j = i then 1 else 0)).eval t = q.Vt.getD i 0 := by
    intro i hi
    rw [interp_eval hD _ (USCS.length_sspRow _ _ _ hm), ← dV, dot_eq_sum, Finset.sum_eq_single i]
    · simp
    · intro j _ hj; simp [hj]
    · intro h; simp at h; omega
  have hall : ((q.Vt.take (cs.numInputs + 1)).all (fun x => x ≠ 0) = true) ↔
      ∀ i < cs.numInputs + 1, q.Vt.getD i 0 ≠ 0 := by
    simp only [List.all_eq_true, decide_eq_true_eq]
    constructor
    · intro h i hi
      apply h
      rw [List.getD_eq_getElem _ _ (by omega), ← List.getElem_take (j := cs.numInputs + 1)
        (h := by simp; omega)]
      exact List.getElem_mem _
    · intro h x hx
      obtain ⟨i, hi, rfl⟩ := List.getElem_of_mem hx
      simp only [List.length_take] at hi
      have := h i (by omega)
      rw [List.getD_eq_getElem _ _ (by omega)] at this
      simpa using this
  constructor
  · intro h
    split at h
    · simp at h
    · rename_i hc
      rw [hall] at hc
      push Not at hc
      obtain ⟨i, hi, h0⟩ := hc
      exact ⟨i, hi, by rw [hval i hi, h0]⟩
  · rintro ⟨i, hi, h0⟩
    rw [hval i hi] at h0
    rw [if_neg]
    rw [hall]
    intro h
    exact h i hi h0

/-- **C53** (key generation, finding): if some public input occurs in no constraint then the
generator's assertion fails at every point `t`: no key can be generated for that system. -/
theorem C53_unused_input_no_key (P : Pairing F G1 G2 GT) (hD : D.Lawful) (cs : USCS F)
    (hr : cs.WellRanged) (hm : cs.numConstraints ≤ D.m) (i : Nat) (h1 : 1 ≤ i)
    (hi : i ≤ cs.numInputs) (hunused : ∀ k ∈ cs.constraints, ∀ lt ∈ k, lt.index ≠ i)
    (t alpha tilde : F) : uscsGenerate P D cs t alpha tilde = none := by
  rw [uscs_generate_none_iff P hD cs hr hm]
  refine ⟨i, by omega, ?_⟩
  have hz : cs.sspRow D.m (fun j => if j = i then (1 : F) else 0) = List.replicate D.m 0 := by
    rw [List.eq_replicate_iff]
    refine ⟨USCS.length_sspRow _ _ _ hm, ?_⟩
    intro x hx
    simp only [USCS.sspRow, List.mem_append, List.mem_map, List.mem_replicate] at hx
    rcases hx with ⟨k, hk, rfl⟩ | ⟨-, rfl⟩
    · unfold formalValue
      apply List.sum_eq_zero
      intro y hy
      simp only [List.mem_map] at hy
      obtain ⟨lt, hlt, rfl⟩ := hy
      rw [if_neg (hunused k hk lt hlt), mul_zero]
    · rw [if_neg (by omega)]
  rw [hz, interp_eval hD _ (by simp), USCS.dot_replicate]
  simp

/-- **C53** (key generation): if every public input has a nonzero coefficient in some constraint and
the constant does or the domain is larger than the system, key generation fails for at most
`(num_inputs + 1)·(m - 1)` points. -/
theorem C53_generator_defined (P : Pairing F G1 G2 GT) (hD : D.Lawful) (cs : USCS F)
    (hr : cs.WellRanged) (hm : cs.numConstraints ≤ D.m) (hm0 : 0 < D.m)
    (hused : ∀ i < cs.numInputs + 1, (∃ k ∈ cs.constraints, uscsCoeff k i ≠ 0) ∨
      (i = 0 ∧ cs.numConstraints < D.m))
    (alpha tilde : F) (S : Finset F)
    (hS : ∀ t ∈ S, uscsGenerate P D cs t alpha tilde = none) :
    S.card ≤ (cs.numInputs + 1) * (D.m - 1) := by
  let row : Nat → List F := fun i => cs.sspRow D.m fun j => if j = i then 1 else 0
  have lrow : ∀ i, (row i).length = D.m := fun i => USCS.length_sspRow _ _ _ hm
  have hne : ∀ i < cs.numInputs + 1, interp D (row i) ≠ 0 := by
    intro i hi h0
    have hz : ∀ x ∈ row i, x = 0 := by
      intro x hx
      obtain ⟨j, hj, rfl⟩ := List.getElem_of_mem hx
      rw [lrow] at hj
      have h1 := interp_point hD (row i) (lrow i) j hj
      rw [h0, Polynomial.eval_zero, List.getD_eq_getElem _ _ (by rw [lrow]; exact hj)] at h1
      exact h1.symm
    rcases hused i hi with ⟨k, hk, hc⟩ | ⟨rfl, hlt⟩
    · apply hc
      apply hz
      simp only [row, USCS.sspRow, List.mem_append, List.mem_map]
      exact Or.inl ⟨k, hk, rfl⟩
    · have : (1 : F) = 0 := by
        apply hz
        simp only [row, USCS.sspRow, List.mem_append, List.mem_replicate, if_true]
        exact Or.inr ⟨by omega, trivial⟩
      exact one_ne_zero this
  have hsub : S ⊆ (Finset.range (cs.numInputs + 1)).biUnion fun i =>
      (interp D (row i)).roots.toFinset := by
    intro t ht
    obtain ⟨i, hi, h0⟩ := (uscs_generate_none_iff P hD cs hr hm t alpha tilde).1 (hS t ht)
    simp only [Finset.mem_biUnion, Finset.mem_range, Multiset.mem_toFinset]
    exact ⟨i, hi, (Polynomial.mem_roots (hne i hi)).2 h0⟩
  refine (Finset.card_le_card hsub).trans (Finset.card_biUnion_le.trans ?_)
  calc _ ≤ ∑ i ∈ Finset.range (cs.numInputs + 1), (D.m - 1) := by
        refine Finset.sum_le_sum fun i hi => ?_
        refine (Multiset.toFinset_card_le _).trans ((Polynomial.card_roots' _).trans ?_)
        have := natDegree_interp_lt hD (row i) (lrow i) hm0
        omega
    _ = _ := by simp

/-- **C62** (witness indistinguishability): when the evaluation point is outside the domain, shifting
the blinding value `d` turns one witness's proof into another's. -/
theorem C62_uscs_witness_indistinguishable (P : Pairing F G1 G2 GT) (hD : D.Lawful) (cs : USCS F)
    (hr : cs.WellRanged) (hm : cs.numConstraints ≤ D.m) (hm0 : 0 < D.m) (t alpha tilde : F)
    (hZ : D.vanishing t ≠ 0) (pk : UscsPK F G1 G2) (vk : UscsVK G1 G2)
    (hgen : uscsGenerate P D cs t alpha tilde = some (pk, vk))
    (p w w' : List F) (hp : p.length = cs.primaryInputSize) (hw : w.length = cs.auxiliaryInputSize)
    (hw' : w'.length = cs.auxiliaryInputSize)
    (hsat : cs.isSatisfied p w = some true) (hsat' : cs.isSatisfied p w' = some true) :
    ∃ f : F → F, Function.Bijective f ∧ ∀ d, ∃ π,
      uscsProve D pk p w d = some π ∧ uscsProve D pk p w' (f d) = some π := by
  obtain ⟨kI, -, -, -, -, -, hprove⟩ := uscsProve_eq P hD cs hr hm hm0 t alpha tilde pk vk hgen
  obtain ⟨sV, hπ⟩ := hprove p w hp hw hsat
  obtain ⟨sV', hπ'⟩ := hprove p w' hp hw' hsat'
  refine ⟨fun d => d + (sV - sV') / D.vanishing t,
    ⟨fun x y h => add_right_cancel h, fun y => ⟨y - (sV - sV') / D.vanishing t, by simp⟩⟩, ?_⟩
  intro d
  obtain ⟨hv, h1, h2⟩ := hπ d
  obtain ⟨hv', h1', h2'⟩ := hπ' (d + (sV - sV') / D.vanishing t)
  have hx : sV' + (d + (sV - sV') / D.vanishing t) * D.vanishing t = sV + d * D.vanishing t := by
    field_simp; ring
  rw [hx] at h1' h2'
  have : hv = hv' := mul_right_cancel₀ hZ (h1.symm.trans h1')
  exact ⟨_, h2, by rw [h2', this]⟩

/-- **C54** (strong verification) -/
theorem C54_uscs_strong (P : Pairing F G1 G2 GT) (vk : UscsVK G1 G2) (p : List F)
    (π : UscsProof G1 G2) :
    (p.length ≠ vk.encodedIC.rest.length → uscsVerifyStrong P vk p π = some false) ∧
      (p.length = vk.encodedIC.rest.length →
        uscsVerifyStrong P vk p π = uscsVerifyWeak P vk p π) := by
  constructor
  · intro h
    rw [uscsVerifyStrong, if_pos (by simpa [AccVec.domainSize] using fun e => h e.symm)]
  · intro h
    rw [uscsVerifyStrong, if_neg (by simp [AccVec.domainSize, h])]

/-- **C54** (weak verification): missing inputs count as zero. -/
theorem C54_uscs_weak (P : Pairing F G1 G2 GT) (vk : UscsVK G1 G2) (p : List F) (k : Nat)
    (h : p.length + k ≤ vk.encodedIC.rest.length) (π : UscsProof G1 G2) :
    uscsVerifyWeak P vk (p ++ List.replicate k 0) π = uscsVerifyWeak P vk p π := by
  rw [uscsVerifyWeak, uscsVerifyWeak, accumulate_zero_extend _ _ _ h]

section Examples

/-- `2·x₁ − 1 = ±1` and `2·x₂ − 1 = ±1` with `x₁` public -/
def exBits : USCS ℚ := ⟨1, 1, [[⟨0, -1⟩, ⟨1, 2⟩], [⟨0, -1⟩, ⟨2, 2⟩]]⟩

theorem exBits_ok : exBits.WellRanged := by
  intro k hk
  simp only [exBits, List.mem_cons, List.not_mem_nil, or_false] at hk
  rcases hk with rfl | rfl <;>
  · intro t ht
    simp only [List.mem_cons, List.not_mem_nil, or_false] at ht
    rcases ht with rfl | rfl <;> decide

/-- the generator succeeds at `t = 7` -/
theorem exBits_gen : ∃ k, uscsGenerate exPairing (EvalDomain.ofPoints 5 (fun i => (i + 1 : ℚ)) 10)
    exBits 7 3 2 = some k := by
  rw [← Option.isSome_iff_exists]
  decide +kernel

example (d : ℚ) := fun pk vk h => C53_uscs_complete exPairing exDom5 exBits exBits_ok (by decide)
  (by decide) 7 3 2 (fun _ => rfl) (fun _ => rfl) pk vk h [1] [0] rfl rfl (by decide +kernel) d

/-- both bits are witnesses for the public bit `1` -/
example := fun pk vk h => C62_uscs_witness_indistinguishable exPairing exDom5 exBits exBits_ok
  (by decide) (by decide) 7 3 2 (by decide +kernel) pk vk h [1] [0] [1] rfl rfl rfl
  (by decide +kernel) (by decide +kernel)

example (S : Finset ℚ) (hS) := C53_generator_defined exPairing exDom5 exBits exBits_ok (by decide)
  (by decide) (by
    intro i hi
    have : i = 0 ∨ i = 1 := by simp [exBits, USCS.numInputs] at hi; omega
    rcases this with rfl | rfl
    · exact Or.inr ⟨rfl, by decide⟩
    · exact Or.inl ⟨[⟨0, -1⟩, ⟨1, 2⟩], by simp [exBits], by decide +kernel⟩) 3 2 S hS

/-- a system with an unused public input has no keys -/
example (t : ℚ) := C53_unused_input_no_key exPairing exDom5 ⟨2, 0, [[⟨0, -1⟩, ⟨1, 2⟩]]⟩
  (by
    intro k hk
    simp only [List.mem_singleton] at hk
    subst hk
    intro t ht
    simp only [List.mem_cons, List.not_mem_nil, or_false] at ht
    rcases ht with rfl | rfl <;> decide) (by decide) 2 (by decide) (by decide)
  (by decide +kernel) t 3 2

/-- a verdict of each kind -/
example : uscsVerifyWeak exPairing ⟨1, 1, 1, ⟨1, [1, 1]⟩⟩ [1] ⟨1, 1, 8, (3 : ℚ)⟩ = some true ∧
    uscsVerifyWeak exPairing ⟨1, 1, 1, ⟨1, [1, 1]⟩⟩ [1] ⟨1, 1, 7, (3 : ℚ)⟩ = some false ∧
    uscsVerifyStrong exPairing ⟨1, 1, 1, ⟨1, [1, 1]⟩⟩ [1] ⟨1, 1, 8, (3 : ℚ)⟩ = some false := by
  refine ⟨by decide +kernel, by decide +kernel, by decide +kernel⟩

end Examples

end Crypto3Zk
