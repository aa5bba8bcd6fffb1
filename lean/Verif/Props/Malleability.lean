import Verif.Spec.Malleability
import Verif.Props.ZeroKnowledge
import Mathlib.Tactic.Module

/-!
# C113: accepted proofs can be changed into other accepted proofs of the same input

One would like to know that a new accepted proof shows that whoever made it knew a witness. For
Groth16, PGHR13 and the argument for unitary-square systems this is false once a first proof is
known: anyone turns it into others. (For the Groth–Maller argument see `C114_simulation_extractable_partial`.)
-/

set_option linter.unusedSectionVars false

namespace Crypto3Zk

open Finset

variable {F : Type} [Field F] [DecidableEq F] {D : EvalDomain F}
variable {G1 G2 GT : Type} [AddCommGroup G1] [Module F G1] [AddCommGroup G2] [Module F G2]
  [AddCommGroup GT] [Module F GT] [DecidableEq GT]

/-- **C113** (Groth16): every accepted proof, under any verification key, can be changed into others
that are accepted for the same input, and they are different ones. -/
theorem C113_groth16_malleable (P : Pairing F G1 G2 GT)
    (hwf1 : ∀ g, P.wf1 g = true) (hwf2 : ∀ g, P.wf2 g = true)
    (vk : Groth16VK G1 G2 GT) (p : List F) (π : Groth16Proof G1 G2)
    (hacc : groth16VerifyStrong P vk p π = some true) (x t : F) (hx : x ≠ 0) :
    groth16VerifyStrong P vk p (groth16Change vk x t π) = some true ∧
      (x ≠ 1 → π.gA ≠ 0 → groth16Change vk x t π ≠ π) ∧
      (t ≠ 0 → π.gA ≠ 0 → groth16Change vk x t π ≠ π) := by
  refine ⟨?_, fun h1 hA h => ?_, fun ht hA h => ?_⟩
  · rw [groth16VerifyStrong] at hacc ⊢
    split at hacc
    · simp at hacc
    rename_i hs
    rw [if_neg hs]
    have hp : p.length ≤ vk.gammaABC.rest.length := by
      rw [AccVec.domainSize] at hs; omega
    obtain ⟨-, -, -, he⟩ := (C50_verifier_iff P vk p π hp).1.1 hacc
    refine (C50_verifier_iff P vk p _ hp).1.2 ⟨hwf1 _, hwf2 _, hwf1 _, ?_⟩
    simp only [groth16Change]
    generalize vk.gammaABC.first + (List.zipWith (fun g x => x • g) vk.gammaABC.rest p).sum = acc at *
    rw [pair_smul, mul_inv_cancel₀ hx, one_smul, map_add, he, map_smul, map_add P.e, LinearMap.add_apply,
      map_smul P.e, LinearMap.smul_apply]
    abel
  · have := congrArg Groth16Proof.gA h
    simp only [groth16Change] at this
    have h0 : (x - 1) • π.gA = 0 := by rw [sub_smul, one_smul, this, sub_self]
    exact (smul_ne_zero (sub_ne_zero.2 h1) hA) h0
  · have := congrArg Groth16Proof.gC h
    simp only [groth16Change, add_eq_left] at this
    exact smul_ne_zero ht hA this

/-- **C113** (Groth16, all proofs from one): from any simulated proof whose first element is not zero
one gets every other such proof of the same input, so a changed proof cannot be told from a fresh
one. (By C111 the proofs of the prover are distributed as the simulated ones.) -/
theorem C113_groth16_every_proof (P : Pairing F G1 G2 GT) (hD : D.Lawful) (cs : R1CS F)
    (hr : cs.WellRanged) (hm : cs.numConstraints + cs.numInputs + 1 ≤ D.m)
    (T : Groth16Trapdoor F G1 G2) (hδ : T.delta ≠ 0) (chunks : Nat)
    (pk : Groth16PK F G1 G2) (vk : Groth16VK G1 G2 GT)
    (hgen : groth16Generate P D cs T chunks = some (pk, vk))
    (p : List F) (hp : p.length = cs.primaryInputSize) (a b a' b' : F) (ha : a ≠ 0) (ha' : a' ≠ 0) :
    ∃ (x t : F) (π : Groth16Proof G1 G2), x ≠ 0 ∧ groth16Simulate T vk p a b = some π ∧
      groth16Simulate T vk p a' b' = some (groth16Change vk x t π) := by
  obtain ⟨pk', vk', hgen', kI, hacc, hsz, hab, hg, hd, -⟩ := groth16Prove_eq P hD cs hr hm T chunks
  obtain ⟨rfl, rfl⟩ := Prod.mk.inj (Option.some.inj (hgen.symm.trans hgen'))
  refine ⟨a' / a, (a' / a * b' - b) / T.delta, _, div_ne_zero ha' ha,
    by rw [groth16Simulate, hacc p hp]; rfl, ?_⟩
  rw [groth16Simulate, hacc p hp]
  simp only [Option.bind_eq_bind, Option.bind_some, Option.pure_def, groth16Change, hd, smul_smul,
    ← sub_smul, ← add_smul]
  refine congrArg some ((Groth16Proof.mk.injEq ..).mpr ⟨?_, ?_, ?_⟩)
  all_goals
    refine congrArg (fun x => x • _) ?_
    field_simp
    try ring

/-- **C113** (PGHR13): under keys of the generator every accepted proof can be changed into others
that are accepted for the same input. -/
theorem C113_pghr13_malleable (P : Pairing F G1 G2 GT) (hD : D.Lawful) (cs : R1CS F)
    (hr : cs.WellRanged) (hm : cs.numConstraints + cs.numInputs + 1 ≤ D.m)
    (T : Pghr13Trapdoor F) (chunks : Nat)
    (hwf1 : ∀ g, P.wf1 g = true) (hwf2 : ∀ g, P.wf2 g = true) (hone : P.one1 ≠ 0)
    (pk : Pghr13PK F G1 G2) (vk : Pghr13VK G1 G2)
    (hgen : pghr13Generate P D cs T chunks = some (pk, vk)) (p : List F) (π : Pghr13Proof G1 G2)
    (hacc : pghr13VerifyStrong P vk p π = some true) (d : F) :
    ∃ π', pghr13Change pk d π = some π' ∧ pghr13VerifyStrong P vk p π' = some true ∧
      (d ≠ 0 → π' ≠ π) := by
  obtain ⟨cs', hcs'⟩ := C16_swap_defined cs hr
  obtain ⟨q', hq', hnz⟩ := pghr13_nonzero P hD cs cs' hr hm T chunks hcs' _ hgen
  obtain ⟨hp', hw', hr'⟩ := R1CS.swap_shape cs cs' hcs'
  obtain ⟨hsat', hni, hnv, hnc⟩ := C16_swap_preserves cs cs' hcs'
  have hm' : cs'.numConstraints + cs'.numInputs + 1 ≤ D.m := by rw [hnc, hni]; exact hm
  obtain ⟨qi, q, -, hq, -, n1, n2, n3, n4, lA, lB, lC, eH, eZ, -⟩ :=
    R1CS.qapEval_spec hD cs' (hr' hr) hm' T.t
  obtain rfl : q = q' := Option.some.inj (hq.symm.trans hq')
  rw [← hni] at hnz
  have hle : cs'.numInputs ≤ cs'.numVariables := by simp [R1CS.numInputs, R1CS.numVariables]
  have hgen' := pghr13Generate_eq P D cs cs' T chunks hcs' q hq _ _ n1 n3 hle lA lB lC hnz
  obtain ⟨hpk, hvk⟩ := Prod.mk.inj (Option.some.inj (hgen.symm.trans hgen'))
  have hcs : pk.cs = cs' := by rw [hpk]
  have hk : pk.kQuery[cs'.numVariables + 3]? = some ((T.beta * (T.rA * T.rB) * q.Zt) • P.one1) := by
    rw [hpk]
    simp only [batchExp, List.map_append, List.map_map]
    rw [List.getElem?_append_right (by simp)]
    simp
  have hh : pk.hQuery[0]? = some P.one1 := by
    rw [hpk]
    simp only [batchExp, eH]
    simp [powersFrom]
  have hc : pk.cQuery.get (cs'.numVariables + 1) =
      ((T.rA * T.rB * q.Zt) • P.one1, (T.rA * T.rB * T.alphaC * q.Zt) • P.one1) := by
    rw [hpk]
    simp only
    have hl : cs'.numVariables + 2 = (q.Ct ++ [q.Zt]).length := by simp [lC]
    rw [hl, kcBatch_get _ _ _ _ _ _ (by omega), List.getD_append_right _ _ _ _ (by omega), lC]
    simp
  refine ⟨_, by rw [pghr13Change, hcs, hk, hh, hc]; rfl, ?_, fun hd h => ?_⟩
  · rw [pghr13VerifyStrong] at hacc ⊢
    split at hacc
    · simp at hacc
    rename_i hs
    rw [if_neg hs]
    have hp : p.length ≤ vk.encodedIC.rest.length := by
      rw [AccVec.domainSize] at hs; omega
    obtain ⟨-, h1, h2, h3, h4, h5⟩ := (C51_verifier_iff P vk p π hp).1.1 hacc
    refine (C51_verifier_iff P vk p _ hp).1.2 ⟨⟨hwf1 _, hwf1 _, hwf2 _, hwf1 _, hwf1 _, hwf1 _, hwf1 _,
      hwf1 _⟩, h1, h2, ?_, ?_, ?_⟩ <;>
    generalize vk.encodedIC.first + (List.zipWith (fun g x => x • g) vk.encodedIC.rest p).sum = acc at *
    · simp only [Prod.fst_add, Prod.snd_add, Prod.smul_fst, Prod.smul_snd, map_add, LinearMap.add_apply, h3]
      rw [hvk]
      simp only [map_smul, LinearMap.smul_apply, smul_smul]
      congr 2
      ring
    · have e : P.e (d • P.one1) vk.rCZG2 = P.e (d • (T.rA * T.rB * q.Zt) • P.one1) P.one2 := by
        rw [hvk]
        simp only [map_smul, LinearMap.smul_apply]
        rw [smul_comm]
      simp only [Prod.fst_add, Prod.smul_fst]
      rw [h4, map_sub P.e, LinearMap.sub_apply, map_add P.e, LinearMap.add_apply, e]
      abel
    · simp only [Prod.fst_add, Prod.smul_fst, map_add P.e, LinearMap.add_apply] at h5 ⊢
      rw [h5]
      have e : P.e (d • (T.beta * (T.rA * T.rB) * q.Zt) • P.one1) vk.gammaG2 =
          P.e (d • (T.rA * T.rB * q.Zt) • P.one1) vk.gammaBetaG2 := by
        rw [hvk]
        simp only [map_smul, LinearMap.smul_apply, smul_smul]
        congr 1
        ring
      rw [e]
      abel
  · have := congrArg Pghr13Proof.gH h
    simp only [sub_eq_self] at this
    exact smul_ne_zero hd hone this

/-- **C113** (unitary-square systems) -/
theorem C113_uscs_malleable (P : Pairing F G1 G2 GT) (hD : D.Lawful) (cs : USCS F)
    (hr : cs.WellRanged) (hm : cs.numConstraints ≤ D.m) (t alpha tilde : F)
    (hZ : D.vanishing t ≠ 0)
    (hwf1 : ∀ g, P.wf1 g = true) (hwf2 : ∀ g, P.wf2 g = true) (hone : P.one2 ≠ 0)
    (pk : UscsPK F G1 G2) (vk : UscsVK G1 G2)
    (hgen : uscsGenerate P D cs t alpha tilde = some (pk, vk)) (p : List F) (π : UscsProof G1 G2)
    (hacc : uscsVerifyStrong P vk p π = some true) (d : F) :
    ∃ π', uscsChange pk vk p d π = some π' ∧ uscsVerifyStrong P vk p π' = some true ∧
      (d ≠ 0 → π' ≠ π) := by
  obtain ⟨qi, q, -, hq, -, n1, n2, n3, n4, lV, eH, eZ, dV⟩ := USCS.sspEval_spec hD cs hr hm t
  have hle : cs.numInputs ≤ cs.numVariables := by simp [USCS.numVariables, USCS.numInputs]
  have lHt : q.Ht.length = q.degree + 1 := by rw [eH, length_powersFrom, n2]
  rw [uscsGenerate_eq P D cs t alpha tilde q hq _ _ n1 n3 hle lV lHt] at hgen
  split at hgen
  swap
  · simp at hgen
  obtain ⟨hpk, hvk⟩ := Prod.mk.inj (Option.some.inj hgen)
  have z1 : pk.vG1Query.getLast? = some (q.Zt • P.one1) := by rw [← hpk]; simp [batchExp]
  have a1 : pk.alphaVG1Query.getLast? = some ((alpha * q.Zt) • P.one1) := by
    rw [← hpk]; simp [batchExpWithCoeff]
  have z2 : pk.vG2Query.getLast? = some (q.Zt • P.one2) := by rw [← hpk]; simp [batchExp]
  rw [uscsVerifyStrong] at hacc
  split at hacc
  · simp at hacc
  rename_i hs
  have hp : p.length ≤ vk.encodedIC.rest.length := by
    rw [AccVec.domainSize] at hs; omega
  have hac : vk.encodedIC.accumulate p =
      some (vk.encodedIC.first + (List.zipWith (fun g x => x • g) vk.encodedIC.rest p).sum) := by
    rw [AccVec.accumulate, AccVec.domainSize, if_pos hp]
  refine ⟨_, by rw [uscsChange, hac, z1, a1, z2]; rfl, ?_, fun hd h => ?_⟩
  · rw [uscsVerifyStrong, if_neg hs]
    obtain ⟨-, h1, h2, h3⟩ := (C53_verifier_iff P vk p π hp).1.1 hacc
    refine (C53_verifier_iff P vk p _ hp).1.2 ⟨⟨hwf1 _, hwf1 _, hwf1 _, hwf2 _⟩, ?_⟩
    generalize vk.encodedIC.first + (List.zipWith (fun g x => x • g) vk.encodedIC.rest p).sum = acc at *
    have hz : vk.zG2 = q.Zt • P.one2 := by rw [← hvk]
    have ht : vk.tildeG2 = tilde • P.one2 := by rw [← hvk]
    have hat : vk.alphaTildeG2 = (alpha * tilde) • P.one2 := by rw [← hvk]
    simp only [map_add, LinearMap.add_apply, map_smul, LinearMap.smul_apply, hz, hat, ht] at h1 h2 h3 ⊢
    refine ⟨?_, ?_, ?_⟩
    · rw [← h1]; abel
    · rw [← h1]
      linear_combination (norm := module) h2
    · linear_combination (norm := module) h3
  · have := congrArg UscsProof.vG2 h
    simp only [add_eq_left] at this
    exact smul_ne_zero hd (smul_ne_zero (by rw [eZ]; exact hZ) hone) this

section Examples

/-- the proof that `9` has a root, changed without the root: accepted, and another proof. The secrets are
those for which `A` is not zero; here the proof is a simulated one with `A = a`. -/
example (alpha beta a b x t : ℚ) (ha : a ≠ 0) (hx : x ≠ 0) (h1 : x ≠ 1) : ∃ pk vk π,
    groth16Generate exPairing (EvalDomain.ofPoints 4 (fun i => (i + 1 : ℚ)) 10) exRoot
      ⟨7, alpha, beta, 5, 7, 1, 1⟩ 2 = some (pk, vk) ∧
    groth16VerifyStrong exPairing vk [9] π = some true ∧ π.gA ≠ 0 ∧
    groth16VerifyStrong exPairing vk [9] (groth16Change vk x t π) = some true ∧
    groth16Change vk x t π ≠ π := by
  obtain ⟨pk, vk, hgen, -⟩ := groth16Prove_eq exPairing exDom4 exRoot exRoot_ok (by decide)
    ⟨7, alpha, beta, 5, 7, 1, 1⟩ 2
  obtain ⟨π, h2, h3⟩ := C111_groth16_simulator_accepted exPairing exDom4 exRoot exRoot_ok (by decide) _
    (by norm_num) 2 (fun _ => rfl) (fun _ => rfl) pk vk hgen [9] rfl a b
  have hA : π.gA ≠ 0 := by
    obtain ⟨acc, -, h⟩ := Option.bind_eq_some_iff.1 h2
    rw [← Option.some.inj h]
    simpa using ha
  obtain ⟨h4, h5, -⟩ := C113_groth16_malleable exPairing (fun _ => rfl) (fun _ => rfl) vk [9] π h3 x t hx
  exact ⟨pk, vk, π, hgen, h3, hA, h4, h5 h1 hA⟩

example (alpha beta a b a' b' : ℚ) (pk vk) (h) (ha) (ha') := C113_groth16_every_proof exPairing exDom4 exRoot
  exRoot_ok (by decide) ⟨7, alpha, beta, 5, 7, 1, 1⟩ (by norm_num) 2 pk vk h [9] rfl a b a' b' ha ha'

/-- the keys at this point exist (`Props/PGHR13.lean`), and the honest proof is accepted -/
example (pk vk) (h : pghr13Generate exPairing (EvalDomain.ofPoints 4 (fun i => (i + 1 : ℚ)) 10)
    exRoot ⟨7, 2, 3, 5, 7, 11, 13, 17⟩ 2 = some (pk, vk)) (d1 d2 d3 d : ℚ) :
    ∃ π π', pghr13Prove (EvalDomain.ofPoints 4 (fun i => (i + 1 : ℚ)) 10) pk [9] [3] d1 d2 d3 = some π ∧
      pghr13Change pk d π = some π' ∧ pghr13VerifyStrong exPairing vk [9] π' = some true ∧
      (d ≠ 0 → π' ≠ π) := by
  obtain ⟨π, h1, h2, -⟩ := C51_pghr13_complete exPairing exDom4 exRoot exRoot_ok (by decide) _ 2
    (fun _ => rfl) (fun _ => rfl) [9] [3] rfl rfl (by decide +kernel) d1 d2 d3 pk vk h
  obtain ⟨π', h3⟩ := C113_pghr13_malleable exPairing exDom4 exRoot exRoot_ok (by decide) _ 2
    (fun _ => rfl) (fun _ => rfl) one_ne_zero pk vk h [9] π h2 d
  exact ⟨π, π', h1, h3⟩

/-- a proof about a bit, changed; the keys exist (`exBits_gen`) -/
example (pk vk) (h : uscsGenerate exPairing (EvalDomain.ofPoints 5 (fun i => (i + 1 : ℚ)) 10)
    exBits 7 3 2 = some (pk, vk)) (d0 d : ℚ) :
    ∃ π π', uscsProve (EvalDomain.ofPoints 5 (fun i => (i + 1 : ℚ)) 10) pk [1] [0] d0 = some π ∧
      uscsChange pk vk [1] d π = some π' ∧ uscsVerifyStrong exPairing vk [1] π' = some true ∧
      (d ≠ 0 → π' ≠ π) := by
  obtain ⟨π, h1, h2, -⟩ := C53_uscs_complete exPairing exDom5 exBits exBits_ok (by decide)
    (by decide) 7 3 2 (fun _ => rfl) (fun _ => rfl) pk vk h [1] [0] rfl rfl (by decide +kernel) d0
  obtain ⟨π', h3⟩ := C113_uscs_malleable exPairing exDom5 exBits exBits_ok (by decide) 7 3 2
    (by decide +kernel) (fun _ => rfl) (fun _ => rfl) one_ne_zero pk vk h [1] π h2 d
  exact ⟨π, π', h1, h3⟩

end Examples

end Crypto3Zk
