import Verif.Spec.Simulation
import Verif.Props.Groth16
import Verif.Props.GM17
import Verif.Props.PGHR13
import Verif.Props.USCSArg
import Verif.Props.EncryptedInput
import Verif.Props.AdSnarkForgery
import Mathlib.SetTheory.Cardinal.Finite

/-!
# C111: proofs show nothing but that the statement holds

For each argument: the proofs of an honest prover are distributed exactly as those of a simulator that
is given no witness, and the simulator's proofs are accepted for every public input. (Perfect zero
knowledge with honestly generated keys.)
-/

set_option linter.unusedSectionVars false

namespace Crypto3Zk

variable {F : Type} [Field F] [DecidableEq F] {D : EvalDomain F}
variable {G1 G2 GT : Type} [AddCommGroup G1] [Module F G1] [AddCommGroup G2] [Module F G2]
  [AddCommGroup GT] [Module F GT] [DecidableEq GT]

/-- what equal distribution means: every proof is the outcome for equally many values of the
randomness -/
theorem C111_same_count {R S Q : Type} (prover : R → Option Q) (simulator : S → Option Q)
    (h : SameDistribution prover simulator) (π : Q) :
    Nat.card {r // prover r = some π} = Nat.card {s // simulator s = some π} := by
  obtain ⟨f, hf, he⟩ := h
  refine Nat.card_congr (Equiv.subtypeEquiv (Equiv.ofBijective f hf) fun r => ?_)
  rw [(he r).2]
  rfl

/-- two provers that are distributed as one simulator are distributed alike -/
theorem C111_indistinguishable {R S Q : Type} (prover prover' : R → Option Q)
    (simulator : S → Option Q) (h : SameDistribution prover simulator)
    (h' : SameDistribution prover' simulator) : SameDistribution prover prover' := by
  obtain ⟨f, hf, he⟩ := h
  obtain ⟨f', hf', he'⟩ := h'
  set g := (Equiv.ofBijective f hf).trans (Equiv.ofBijective f' hf').symm with hg
  refine ⟨g, g.bijective, fun r => ⟨(he r).1, ?_⟩⟩
  have : f' (g r) = f r := by
    exact (Equiv.ofBijective f' hf').apply_symm_apply (f r)
  rw [(he r).2, (he' (g r)).2, this]

theorem affine_bijective {z : F} (hz : z ≠ 0) (s : F) : Function.Bijective fun x : F => s + x * z := by
  refine ⟨fun x y h => ?_, fun y => ⟨(y - s) / z, ?_⟩⟩
  · exact mul_right_cancel₀ hz (add_left_cancel h)
  · show s + (y - s) / z * z = y
    field_simp
    ring

/-- **C111** (Groth16, the simulator is accepted): for every input of the right length, with or
without a witness. -/
theorem C111_groth16_simulator_accepted (P : Pairing F G1 G2 GT) (hD : D.Lawful) (cs : R1CS F)
    (hr : cs.WellRanged) (hm : cs.numConstraints + cs.numInputs + 1 ≤ D.m)
    (T : Groth16Trapdoor F G1 G2) (hδ : T.delta ≠ 0) (chunks : Nat)
    (hwf1 : ∀ g, P.wf1 g = true) (hwf2 : ∀ g, P.wf2 g = true)
    (pk : Groth16PK F G1 G2) (vk : Groth16VK G1 G2 GT)
    (hgen : groth16Generate P D cs T chunks = some (pk, vk))
    (p : List F) (hp : p.length = cs.primaryInputSize) (a b : F) :
    ∃ π, groth16Simulate T vk p a b = some π ∧ groth16VerifyStrong P vk p π = some true := by
  obtain ⟨pk', vk', hgen', kI, hacc, hsz, hab, hg, hd, -⟩ := groth16Prove_eq P hD cs hr hm T chunks
  obtain ⟨rfl, rfl⟩ := Prod.mk.inj (Option.some.inj (hgen.symm.trans hgen'))
  refine ⟨_, by rw [groth16Simulate, hacc p hp]; rfl, ?_⟩
  rw [groth16VerifyStrong, if_neg (by rw [hsz, hp]; simp)]
  simp only [groth16VerifyWeak, hacc p hp, Option.bind_eq_bind, Option.bind_some, Option.pure_def,
    Groth16Proof.wellFormed, hwf1, hwf2, hab, hg, hd, smul_smul, ← sub_smul, pair_smul, Bool.and_self]
  rw [if_neg]
  rw [not_not, ← add_smul, ← sub_smul]
  congr 1
  field_simp
  ring

/-- **C111** (Groth16): the proofs of the prover, for any witness, are distributed as the
simulator's. -/
theorem C111_groth16_zero_knowledge (P : Pairing F G1 G2 GT) (hD : D.Lawful) (cs : R1CS F)
    (hr : cs.WellRanged) (hm : cs.numConstraints + cs.numInputs + 1 ≤ D.m)
    (T : Groth16Trapdoor F G1 G2) (hγ : T.gamma ≠ 0) (hδ : T.delta ≠ 0) (chunks : Nat)
    (pk : Groth16PK F G1 G2) (vk : Groth16VK G1 G2 GT)
    (hgen : groth16Generate P D cs T chunks = some (pk, vk))
    (p w : List F) (hp : p.length = cs.primaryInputSize) (hw : w.length = cs.auxiliaryInputSize)
    (hsat : cs.isSatisfied p w = some true) :
    SameDistribution (fun x : F × F => groth16Prove D pk p w x.1 x.2)
      (fun y : F × F => groth16Simulate T vk p y.1 y.2) := by
  obtain ⟨pk', vk', hgen', kI, hacc, -, -, -, -, hprove⟩ := groth16Prove_eq P hD cs hr hm T chunks
  obtain ⟨rfl, rfl⟩ := Prod.mk.inj (Option.some.inj (hgen.symm.trans hgen'))
  obtain ⟨sA, sB, hπ⟩ := hprove p w hp hw hsat
  refine ⟨Prod.map (fun r => T.alpha + sA + r * T.delta) (fun s => T.beta + sB + s * T.delta),
    (affine_bijective hδ _).prodMap (affine_bijective hδ _), fun x => ⟨by simp [hπ], ?_⟩⟩
  simp only [hπ, groth16Simulate, hacc p hp, Option.bind_eq_bind, Option.bind_some, Option.pure_def,
    Prod.map_fst, Prod.map_snd, smul_smul, ← sub_smul]
  congr 3
  field_simp
  ring

/-- **C111** (Groth–Maller, the simulator is accepted) -/
theorem C111_gm17_simulator_accepted (P : Pairing F G1 G2 GT) (hD : D.Lawful) (cs : R1CS F)
    (hr : cs.WellRanged) (hm : 2 * cs.numConstraints + 2 * cs.numInputs + 1 ≤ D.m)
    (T : Gm17Trapdoor F G1 G2)
    (hwf1 : ∀ g, P.wf1 g = true) (hwf2 : ∀ g, P.wf2 g = true)
    (pk : Gm17PK F G1 G2) (vk : Gm17VK G1 G2) (hgen : gm17Generate D cs T = some (pk, vk))
    (p : List F) (hp : p.length = cs.primaryInputSize) (x : F) :
    ∃ π, gm17Simulate T vk p x = some π ∧ gm17VerifyStrong P vk p π = some true := by
  obtain ⟨pk', vk', hgen', kI, hq, hlen, ha, hb, hg, hgh, hh, -⟩ := gm17Prove_eq hD cs hr hm T
  obtain ⟨rfl, rfl⟩ := Prod.mk.inj (Option.some.inj (hgen.symm.trans hgen'))
  obtain ⟨q0, s, h0, hs, hqs⟩ := hq p hp
  refine ⟨⟨x • T.g, x • T.h, (x ^ 2 + (T.alpha + T.beta) * x - T.gamma * kI p) • T.g⟩, ?_, ?_⟩
  · simp only [gm17Simulate, h0, hs, Option.bind_eq_bind, Option.bind_some, Option.pure_def, hqs,
      smul_smul, ← sub_smul]
  · rw [gm17VerifyStrong, if_neg (by rw [hlen, hp]; simp)]
    exact gm17_accepts_exponents P vk T p (kI p) x hwf1 hwf2 (hq p hp) ha hb hg hgh hh

/-- **C111** (Groth–Maller): for any witness and any `d1`, `d2`; only `r` need be random. -/
theorem C111_gm17_zero_knowledge (hD : D.Lawful) (cs : R1CS F)
    (hr : cs.WellRanged) (hm : 2 * cs.numConstraints + 2 * cs.numInputs + 1 ≤ D.m)
    (T : Gm17Trapdoor F G1 G2) (hγ : T.gamma ≠ 0) (hZ : D.vanishing T.t ≠ 0)
    (pk : Gm17PK F G1 G2) (vk : Gm17VK G1 G2) (hgen : gm17Generate D cs T = some (pk, vk))
    (p w : List F) (hp : p.length = cs.primaryInputSize) (hw : w.length = cs.auxiliaryInputSize)
    (hsat : cs.isSatisfied p w = some true) (d1 d2 : F) :
    SameDistribution (fun r : F => gm17Prove D pk p w d1 d2 r) (fun x : F => gm17Simulate T vk p x) := by
  obtain ⟨pk', vk', hgen', kI, hq, -, -, -, -, -, -, hprove⟩ := gm17Prove_eq hD cs hr hm T
  obtain ⟨rfl, rfl⟩ := Prod.mk.inj (Option.some.inj (hgen.symm.trans hgen'))
  obtain ⟨q0, s, h0, hs, hqs⟩ := hq p hp
  obtain ⟨sA, hπ⟩ := hprove p w hp hw hsat
  refine ⟨fun r => T.gamma * (sA + d1 * D.vanishing T.t) + r * (T.gamma * D.vanishing T.t),
    affine_bijective (mul_ne_zero hγ hZ) _, fun r => ⟨by simp [hπ], ?_⟩⟩
  have hx : T.gamma * (sA + (d1 + r) * D.vanishing T.t)
      = T.gamma * (sA + d1 * D.vanishing T.t) + r * (T.gamma * D.vanishing T.t) := by ring
  simp only [gm17Simulate, h0, hs, Option.bind_eq_bind, Option.bind_some, Option.pure_def, hqs,
    smul_smul, ← sub_smul, hπ, hx]

/-- the keys of PGHR13 when the generator returns some -/
theorem pghr13_nonzero (P : Pairing F G1 G2 GT) (hD : D.Lawful) (cs cs' : R1CS F)
    (hr : cs.WellRanged) (hm : cs.numConstraints + cs.numInputs + 1 ≤ D.m)
    (T : Pghr13Trapdoor F) (chunks : Nat) (hcs' : cs.swapABIfBeneficial = some cs')
    (keys : Pghr13PK F G1 G2 × Pghr13VK G1 G2)
    (hgen : pghr13Generate P D cs T chunks = some keys) :
    ∃ q, cs'.qapEval D T.t = some q ∧ ∀ i < cs.numInputs + 1, q.At.getD i 0 ≠ 0 := by
  obtain ⟨-, -, hr'⟩ := R1CS.swap_shape cs cs' hcs'
  obtain ⟨-, hni, hnv, hnc⟩ := C16_swap_preserves cs cs' hcs'
  obtain ⟨qi, q, -, hq, -, n1, n2, n3, n4, lA, -⟩ :=
    R1CS.qapEval_spec hD cs' (hr' hr) (by rw [hnc, hni]; exact hm) T.t
  refine ⟨q, hq, fun i hi h0 => ?_⟩
  rw [pghr13Generate_none P D cs cs' T chunks hcs' q hq i (by omega)
    (by rw [lA]; simp only [R1CS.numInputs, R1CS.numVariables] at *; omega) h0] at hgen
  simp at hgen

/-- **C111** (PGHR13, the simulator is accepted) -/
theorem C111_pghr13_simulator_accepted (P : Pairing F G1 G2 GT) (hD : D.Lawful) (cs : R1CS F)
    (hr : cs.WellRanged) (hm : cs.numConstraints + cs.numInputs + 1 ≤ D.m)
    (T : Pghr13Trapdoor F) (chunks : Nat) (hZ : D.vanishing T.t ≠ 0)
    (hwf1 : ∀ g, P.wf1 g = true) (hwf2 : ∀ g, P.wf2 g = true)
    (pk : Pghr13PK F G1 G2) (vk : Pghr13VK G1 G2)
    (hgen : pghr13Generate P D cs T chunks = some (pk, vk))
    (p : List F) (hp : p.length = cs.primaryInputSize) (a b c : F) :
    ∃ π, pghr13Simulate P (D.vanishing T.t) T vk p a b c = some π ∧
      pghr13VerifyStrong P vk p π = some true := by
  obtain ⟨cs', hcs'⟩ := C16_swap_defined cs hr
  obtain ⟨q, hq, hnz⟩ := pghr13_nonzero P hD cs cs' hr hm T chunks hcs' _ hgen
  obtain ⟨pk', vk', hgen', ic, hacc, hsz, e1, e2, e3, e4, e5, e6, e7, -⟩ :=
    pghr13Prove_eq P hD cs cs' hr hm T chunks hcs' q hq hnz
  obtain ⟨rfl, rfl⟩ := Prod.mk.inj (Option.some.inj (hgen.symm.trans hgen'))
  refine ⟨_, by rw [pghr13Simulate, hacc p hp]; rfl, ?_⟩
  rw [pghr13VerifyStrong, if_neg (by rw [hsz, hp]; simp)]
  have one2 : ∀ g : G1, P.e g P.one2 = P.e g ((1 : F) • P.one2) := by intro g; rw [one_smul]
  have k1 : P.e ((T.rA * a) • P.one1 - (T.rA * ic p) • P.one1) vk.alphaAG2
      - P.e (T.alphaA • ((T.rA * a) • P.one1 - (T.rA * ic p) • P.one1)) P.one2 = 0 := by
    simp only [e1, one2, smul_smul, ← sub_smul, pair_smul]
    exact smul_eq_zero_of_left (by ring) _
  have k2 : P.e vk.alphaBG1 ((T.rB * b) • P.one2) - P.e ((T.alphaB * (T.rB * b)) • P.one1) P.one2
      = 0 := by
    simp only [e2, one2, pair_smul]
    rw [← sub_smul]
    exact smul_eq_zero_of_left (by ring) _
  have k3 : P.e ((T.rA * T.rB * c) • P.one1) vk.alphaCG2
      - P.e ((T.alphaC * (T.rA * T.rB * c)) • P.one1) P.one2 = 0 := by
    simp only [e3, one2, pair_smul]
    rw [← sub_smul]
    exact smul_eq_zero_of_left (by ring) _
  have k4 : P.e ((T.rA * a) • P.one1 - (T.rA * ic p) • P.one1 + (T.rA * ic p) • P.one1)
      ((T.rB * b) • P.one2) - (P.e (((a * b - c) / D.vanishing T.t) • P.one1) vk.rCZG2
        + P.e ((T.rA * T.rB * c) • P.one1) P.one2) = 0 := by
    simp only [e7, one2, sub_add_cancel, pair_smul]
    rw [← add_smul, ← sub_smul]
    exact smul_eq_zero_of_left (by field_simp; ring) _
  have k5 : P.e ((T.beta * (T.rA * a + T.rB * b + T.rA * T.rB * c)) • P.one1) vk.gammaG2
      - (P.e ((T.rA * a) • P.one1 - (T.rA * ic p) • P.one1 + (T.rA * ic p) • P.one1
        + (T.rA * T.rB * c) • P.one1) vk.gammaBetaG2
        + P.e vk.gammaBetaG1 ((T.rB * b) • P.one2)) = 0 := by
    simp only [e4, e5, e6, sub_add_cancel, ← add_smul, pair_smul]
    rw [← sub_smul]
    exact smul_eq_zero_of_left (by ring) _
  simp only [pghr13VerifyWeak, hacc p hp, Option.bind_eq_bind, Option.bind_some, Option.pure_def,
    Pghr13Proof.wellFormed, hwf1, hwf2, Bool.and_self, k1, k2, k3, k4, k5, ne_eq, not_true_eq_false,
    if_false]

/-- **C111** (PGHR13) -/
theorem C111_pghr13_zero_knowledge (P : Pairing F G1 G2 GT) (hD : D.Lawful) (cs : R1CS F)
    (hr : cs.WellRanged) (hm : cs.numConstraints + cs.numInputs + 1 ≤ D.m)
    (T : Pghr13Trapdoor F) (chunks : Nat) (hZ : D.vanishing T.t ≠ 0)
    (pk : Pghr13PK F G1 G2) (vk : Pghr13VK G1 G2)
    (hgen : pghr13Generate P D cs T chunks = some (pk, vk))
    (p w : List F) (hp : p.length = cs.primaryInputSize) (hw : w.length = cs.auxiliaryInputSize)
    (hsat : cs.isSatisfied p w = some true) :
    SameDistribution (fun x : F × F × F => pghr13Prove D pk p w x.1 x.2.1 x.2.2)
      (fun y : F × F × F => pghr13Simulate P (D.vanishing T.t) T vk p y.1 y.2.1 y.2.2) := by
  obtain ⟨cs', hcs'⟩ := C16_swap_defined cs hr
  obtain ⟨q, hq, hnz⟩ := pghr13_nonzero P hD cs cs' hr hm T chunks hcs' _ hgen
  obtain ⟨pk', vk', hgen', ic, hacc, -, -, -, -, -, -, -, -, hprove⟩ :=
    pghr13Prove_eq P hD cs cs' hr hm T chunks hcs' q hq hnz
  obtain ⟨rfl, rfl⟩ := Prod.mk.inj (Option.some.inj (hgen.symm.trans hgen'))
  obtain ⟨sA, sB, sC, h1⟩ := hprove p w hp hw hsat
  refine ⟨Prod.map (fun d => sA + d * D.vanishing T.t)
    (Prod.map (fun d => sB + d * D.vanishing T.t) (fun d => sC + d * D.vanishing T.t)),
    (affine_bijective hZ _).prodMap ((affine_bijective hZ _).prodMap (affine_bijective hZ _)),
    fun x => ?_⟩
  obtain ⟨h, hH, hπ⟩ := h1 x.1 x.2.1 x.2.2
  refine ⟨by simp [hπ], ?_⟩
  have hh : ((sA + x.1 * D.vanishing T.t) * (sB + x.2.1 * D.vanishing T.t)
      - (sC + x.2.2 * D.vanishing T.t)) / D.vanishing T.t = h := by
    rw [hH]; field_simp
  simp only [hπ, pghr13Simulate, hacc p hp, Option.bind_eq_bind, Option.bind_some, Option.pure_def,
    Prod.map_fst, Prod.map_snd, hh, smul_smul, ← sub_smul]
  refine congrArg some ((Pghr13Proof.mk.injEq ..).mpr ⟨Prod.ext ?_ ?_, Prod.ext ?_ ?_, Prod.ext ?_ ?_,
    rfl, rfl⟩)
  all_goals
    refine congrArg (fun x => x • _) ?_
    ring

/-- **C111** (unitary-square systems, the simulator is accepted) -/
theorem C111_uscs_simulator_accepted (P : Pairing F G1 G2 GT) (hD : D.Lawful) (cs : USCS F)
    (hr : cs.WellRanged) (hm : cs.numConstraints ≤ D.m) (hm0 : 0 < D.m) (t alpha tilde : F)
    (hZ : D.vanishing t ≠ 0)
    (hwf1 : ∀ g, P.wf1 g = true) (hwf2 : ∀ g, P.wf2 g = true)
    (pk : UscsPK F G1 G2) (vk : UscsVK G1 G2)
    (hgen : uscsGenerate P D cs t alpha tilde = some (pk, vk))
    (p : List F) (hp : p.length = cs.primaryInputSize) (v : F) :
    ∃ π, uscsSimulate P (D.vanishing t) alpha vk p v = some π ∧
      uscsVerifyStrong P vk p π = some true := by
  obtain ⟨kI, hacc, hsz, e1, e2, e3, -⟩ := uscsProve_eq P hD cs hr hm hm0 t alpha tilde pk vk hgen
  refine ⟨_, by rw [uscsSimulate, hacc p hp]; rfl, ?_⟩
  rw [uscsVerifyStrong, if_neg (by rw [hsz, hp]; simp)]
  have one2 : ∀ g : G1, P.e g P.one2 = P.e g ((1 : F) • P.one2) := by intro g; rw [one_smul]
  have one1 : ∀ h : G2, P.e P.one1 h = P.e ((1 : F) • P.one1) h := by intro g; rw [one_smul]
  have k1 : P.e (v • P.one1 - kI p • P.one1 + kI p • P.one1) P.one2 + -(P.e P.one1 (v • P.one2))
      = 0 := by
    rw [sub_add_cancel, one2, one1, pair_smul, pair_smul, ← sub_eq_add_neg, ← sub_smul]
    exact smul_eq_zero_of_left (by ring) _
  have k2 : -(P.e (v • P.one1 - kI p • P.one1 + kI p • P.one1) (v • P.one2))
      + P.e (((v ^ 2 - 1) / D.vanishing t) • P.one1) vk.zG2 + P.e P.one1 P.one2 = 0 := by
    rw [sub_add_cancel, e3, pair_smul, pair_smul, ← neg_smul, ← add_smul]
    nth_rewrite 2 [← one_smul F (P.e P.one1 P.one2)]
    rw [← add_smul]
    exact smul_eq_zero_of_left (by field_simp; ring) _
  have k3 : P.e (v • P.one1 - kI p • P.one1) vk.alphaTildeG2
      + -(P.e (alpha • (v • P.one1 - kI p • P.one1)) vk.tildeG2) = 0 := by
    rw [e1, e2, ← sub_smul, smul_smul, pair_smul, pair_smul, ← sub_eq_add_neg, ← sub_smul]
    exact smul_eq_zero_of_left (by ring) _
  simp only [uscsVerifyWeak, hacc p hp, Option.bind_eq_bind, Option.bind_some, Option.pure_def,
    UscsProof.wellFormed, hwf1, hwf2, Bool.and_self, k1, k2, k3, ne_eq, not_true_eq_false, if_false]

/-- **C111** (unitary-square systems) -/
theorem C111_uscs_zero_knowledge (P : Pairing F G1 G2 GT) (hD : D.Lawful) (cs : USCS F)
    (hr : cs.WellRanged) (hm : cs.numConstraints ≤ D.m) (hm0 : 0 < D.m) (t alpha tilde : F)
    (hZ : D.vanishing t ≠ 0) (pk : UscsPK F G1 G2) (vk : UscsVK G1 G2)
    (hgen : uscsGenerate P D cs t alpha tilde = some (pk, vk))
    (p w : List F) (hp : p.length = cs.primaryInputSize) (hw : w.length = cs.auxiliaryInputSize)
    (hsat : cs.isSatisfied p w = some true) :
    SameDistribution (fun d : F => uscsProve D pk p w d)
      (fun v : F => uscsSimulate P (D.vanishing t) alpha vk p v) := by
  obtain ⟨kI, hacc, -, -, -, -, hprove⟩ := uscsProve_eq P hD cs hr hm hm0 t alpha tilde pk vk hgen
  obtain ⟨sV, hπ⟩ := hprove p w hp hw hsat
  refine ⟨_, affine_bijective hZ sV, fun d => ?_⟩
  obtain ⟨hv, h1, h2⟩ := hπ d
  refine ⟨by simp [h2], ?_⟩
  have hh : ((sV + d * D.vanishing t) ^ 2 - 1) / D.vanishing t = hv := by rw [h1]; field_simp
  simp only [h2, uscsSimulate, hacc p hp, Option.bind_eq_bind, Option.bind_some, Option.pure_def, hh,
    smul_smul, ← sub_smul]

/-! ## Encrypted inputs -/

/-- the input the verifier of encrypted inputs accumulates: that of the plain verifier and the mask -/
theorem enc_accumulated (P : Pairing F G1 G2 GT) (vk : Groth16ExtVK G1 G2 GT) (σ : SaverSecret F)
    (m un : List F) (hs : σ.s.length = m.length)
    (hlen : vk.gammaABC.rest.length = m.length + un.length) (r : F) (acc : G1)
    (hacc : vk.gammaABC.accumulate (m ++ un) = some acc) :
    vk.gammaABC.first + (saverEncrypt vk (saverKey P vk σ) m r).dropLast.sum
      + (List.zipWith (fun x g => x • g) un
          (vk.gammaABC.rest.drop ((saverEncrypt vk (saverKey P vk σ) m r).length - 2))).sum
      = acc + (r * (1 + σ.s.sum)) • vk.deltaG1 := by
  have hcl : (List.zipWith (· + ·) ((σ.s.map (· • vk.deltaG1)).map (r • ·))
      (List.zipWith (· • ·) m vk.gammaABC.rest)).length = m.length := by
    simp [hs]; omega
  have h1 := sum_sub_smul (r • vk.deltaG1) _ σ.s (by rw [hcl, hs])
  have h2 := saver_decrypts P vk σ m hs (by omega) r
  rw [SaverDecrypts] at h2
  rw [h2] at h1
  have h3 : (saverEncrypt vk (saverKey P vk σ) m r).length - 2 = m.length := by
    rw [saverEncrypt, List.length_cons, List.length_append]
    simp only [saverKey] at hcl ⊢
    rw [hcl]
    simp
  have h4 : (saverEncrypt vk (saverKey P vk σ) m r).dropLast.sum
      = r • vk.deltaG1 + (List.zipWith (· + ·) ((σ.s.map (· • vk.deltaG1)).map (r • ·))
          (List.zipWith (· • ·) m vk.gammaABC.rest)).sum := by
    rw [saverEncrypt, ← List.cons_append, List.dropLast_concat, List.sum_cons]
    rfl
  rw [h3, h4]
  have h5 : acc = vk.gammaABC.first + ((List.zipWith (fun a g => a • g) m vk.gammaABC.rest).sum
      + (List.zipWith (fun a g => a • g) un (vk.gammaABC.rest.drop m.length)).sum) := by
    rw [AccVec.accumulate, if_pos (by simp [AccVec.domainSize]; omega)] at hacc
    rw [← zipWith_smul_append m un _ (by omega), List.zipWith_comm]
    exact (Option.some.inj hacc).symm
  have h6 : (List.zipWith (fun a g => a • g) m vk.gammaABC.rest).sum
      = (List.zipWith (· + ·) ((σ.s.map (· • vk.deltaG1)).map (r • ·))
          (List.zipWith (· • ·) m vk.gammaABC.rest)).sum - σ.s.sum • (r • vk.deltaG1) := h1
  rw [h5, h6]
  module

/-- **C111** (encrypted inputs): once the ciphertext is published the proof adds nothing to it. For
every encryption randomness, every witness and every key of the encryption scheme the proofs of the
prover are distributed as those of a simulator that knows the ciphertext and the inputs in the clear,
but neither the encrypted inputs, nor the witness, nor the randomness of the encryption. -/
theorem C111_encrypted_zero_knowledge (P : Pairing F G1 G2 GT) (hD : D.Lawful) (cs : R1CS F)
    (hr : cs.WellRanged) (hm : cs.numConstraints + cs.numInputs + 1 ≤ D.m)
    (T : Groth16Trapdoor F G1 G2) (hγ : T.gamma ≠ 0) (hδ : T.delta ≠ 0) (chunks : Nat)
    (pk : Groth16PK F G1 G2) (vk : Groth16ExtVK G1 G2 GT)
    (hgen : groth16GenerateExtended P D cs T chunks = some (pk, vk))
    (m un w : List F) (hp : (m ++ un).length = cs.primaryInputSize)
    (hw : w.length = cs.auxiliaryInputSize) (hsat : cs.isSatisfied (m ++ un) w = some true)
    (σ : SaverSecret F) (hs : σ.s.length = m.length) (r : F) :
    SameDistribution (fun x : F × F => encProve D pk (saverKey P vk σ) (m ++ un) w r x.1 x.2)
      (fun y : F × F => some (encSimulate T vk (saverEncrypt vk (saverKey P vk σ) m r) un y.1 y.2)) := by
  obtain ⟨pk', vk', hgen', kI, hacc, hsz, -, -, -, -⟩ := groth16Prove_eq P hD cs hr hm T chunks
  obtain ⟨f, hf, he⟩ := C111_groth16_zero_knowledge P hD cs hr hm T hγ hδ chunks pk' vk' hgen' (m ++ un) w
    hp hw hsat
  obtain ⟨hd1, -, -⟩ := groth16Generate_fields P D cs T chunks pk' vk' hgen'
  rw [groth16GenerateExtended, hgen'] at hgen
  obtain ⟨rfl, rfl⟩ := Prod.mk.inj (Option.some.inj hgen)
  have hac := hacc (m ++ un) hp
  have hlen : vk'.gammaABC.rest.length = m.length + un.length := by
    have h : vk'.gammaABC.rest.length = cs.primaryInputSize := hsz
    rw [h, ← hp, List.length_append]
  refine ⟨f, hf, fun x => ?_⟩
  obtain ⟨hsome, hx⟩ := he x
  simp only at hx hsome
  have hx' : groth16Prove D pk' (m ++ un) w x.1 x.2 = some ⟨(f x).1 • T.g1, (f x).2 • T.g2, T.delta⁻¹ •
      (((f x).1 * (f x).2 - T.alpha * T.beta) • T.g1
        - T.gamma • ((kI (m ++ un) * T.gamma⁻¹) • T.g1))⟩ := by
    rw [hx, groth16Simulate, hac]
    rfl
  refine ⟨by simp [encProve, hx'], ?_⟩
  simp only [encProve, hx', Option.bind_eq_bind, Option.bind_some, Option.pure_def]
  refine congrArg some ((Groth16Proof.mk.injEq ..).mpr ⟨rfl, rfl, ?_⟩)
  rw [enc_accumulated P { vk' with deltaG1 := pk'.deltaG1, gammaG1 := T.gamma • T.g1 } σ m un hs hlen r
    _ hac]
  simp only [saverKey, hd1]
  match_scalars
  field_simp
  ring

/-- **C111** (encrypted inputs, the simulator is accepted): with a ciphertext of any inputs, whether or
not there is a witness. -/
theorem C111_encrypted_simulator_accepted (P : Pairing F G1 G2 GT) (hD : D.Lawful) (cs : R1CS F)
    (hr : cs.WellRanged) (hm : cs.numConstraints + cs.numInputs + 1 ≤ D.m)
    (T : Groth16Trapdoor F G1 G2) (hδ : T.delta ≠ 0) (chunks : Nat)
    (hwf1 : ∀ g, P.wf1 g = true) (hwf2 : ∀ g, P.wf2 g = true)
    (pk : Groth16PK F G1 G2) (vk : Groth16ExtVK G1 G2 GT)
    (hgen : groth16GenerateExtended P D cs T chunks = some (pk, vk))
    (m un : List F) (hp : (m ++ un).length = cs.primaryInputSize)
    (hlen : (m ++ un).length + 2 < 2 ^ 64) (h2 : 2 ≤ un.length)
    (σ : SaverSecret F) (hs : σ.s.length = m.length) (ht : σ.t.length = m.length) (r a b : F) :
    encVerify P (saverEncrypt vk (saverKey P vk σ) m r) vk (saverKey P vk σ) un
      (encSimulate T vk (saverEncrypt vk (saverKey P vk σ) m r) un a b) = some true := by
  obtain ⟨pk', vk', hgen', kI, hacc, hsz, hab, hg2, hd2, -⟩ := groth16Prove_eq P hD cs hr hm T chunks
  obtain ⟨hd1, -, -⟩ := groth16Generate_fields P D cs T chunks pk' vk' hgen'
  obtain ⟨π, hπ, hv⟩ := C111_groth16_simulator_accepted P hD cs hr hm T hδ chunks hwf1 hwf2 pk' vk' hgen'
    (m ++ un) hp a b
  rw [groth16GenerateExtended, hgen'] at hgen
  obtain ⟨rfl, rfl⟩ := Prod.mk.inj (Option.some.inj hgen)
  have hac := hacc (m ++ un) hp
  have hl : vk'.gammaABC.rest.length = m.length + un.length := by
    have h : vk'.gammaABC.rest.length = cs.primaryInputSize := hsz
    rw [h, ← hp, List.length_append]
  have hea := enc_accumulated P { vk' with deltaG1 := pk'.deltaG1, gammaG1 := T.gamma • T.g1 } σ m un hs
    hl r _ hac
  rw [groth16VerifyStrong, if_neg (by rw [hsz, hp]; simp)] at hv
  have heq := (((C50_verifier_iff P vk' (m ++ un) π (by rw [List.length_append]; omega)).1).mp hv).2.2.2
  rw [groth16Simulate, hac] at hπ
  obtain rfl := Option.some.inj hπ
  rw [List.length_append] at hlen
  set xvk : Groth16ExtVK G1 G2 GT := { vk' with deltaG1 := pk'.deltaG1, gammaG1 := T.gamma • T.g1 }
    with hxvk
  have hcl : (List.zipWith (· + ·) ((σ.s.map (· • xvk.deltaG1)).map (r • ·))
      (List.zipWith (· • ·) m xvk.gammaABC.rest)).length = m.length := by
    simp [hs, xvk]; omega
  refine (C72_accepted_iff P xvk σ T.gamma T.delta T.g2 hδ hg2 hd2 _ _ _ m un _ (by simp [xvk]; omega)
    (by rw [hcl, hs]) (by rw [hcl, ht]) hcl.symm (by rw [hcl]; exact hl) h2
    (saver_decrypts P xvk σ m hs (by simp only [xvk]; omega) r)).mpr ⟨?_, ?_⟩
  · rw [sum_encrypted xvk.deltaG1 r σ.s σ.t m _ (by omega) (by omega) (by simp only [xvk]; omega)]
    congr 2
    simp only [saverKey]
    module
  · rw [Groth16Equation]
    have hc : (encSimulate T xvk (saverEncrypt xvk (saverKey P xvk σ) m r) un a b).gC
        + (T.gamma * T.delta⁻¹ * (1 + σ.s.sum)) • (r • xvk.deltaG1)
        = T.delta⁻¹ • ((a * b - T.alpha * T.beta) • T.g1
          - T.gamma • ((kI (m ++ un) * T.gamma⁻¹) • T.g1)) := by
      simp only [encSimulate, hea]
      module
    have hcc : ∀ c0 : G1, c0 = r • xvk.deltaG1 →
        (encSimulate T xvk (saverEncrypt xvk (saverKey P xvk σ) m r) un a b).gC
        + (T.gamma * T.delta⁻¹ * (1 + σ.s.sum)) • c0
        = T.delta⁻¹ • ((a * b - T.alpha * T.beta) • T.g1
          - T.gamma • ((kI (m ++ un) * T.gamma⁻¹) • T.g1)) := by
      rintro _ rfl
      exact hc
    rw [hcc _ rfl, List.zipWith_comm]
    exact heq

/-! ## Authenticated data -/

section Authenticated

variable {Label Seed SK VK Sig : Type}

/-- **C111** (authenticated data): a proof shows neither the witness nor the signed data. For every
satisfying assignment whose inputs were signed under the labels, the proofs are distributed as those of
a simulator that knows the labels only. -/
theorem C111_adsnark_zero_knowledge (A : AdPrimitives F G2 Label Seed SK VK Sig)
    (P : Pairing F G1 G2 GT) (hD : D.Lawful)
    (cs : R1CS F) (hr : cs.WellRanged) (hm : cs.numConstraints + cs.numInputs + 1 ≤ D.m)
    (T : Pghr13Trapdoor F) (chunks : Nat) (hZ : D.vanishing T.t ≠ 0)
    (skp : SK) (vkp : VK) (S : Seed) (i : F)
    (pk : AdPK F G1 G2) (vk : AdVK G1 G2)
    (hgen : adGenerate P D cs (adAuthGenerate P skp vkp S i).1 T chunks = some (pk, vk))
    (p w : List F) (hp : p.length = cs.primaryInputSize) (hw : w.length = cs.auxiliaryInputSize)
    (hsat : cs.isSatisfied p w = some true) (labels : List Label)
    (auth : List (AdAuthData F G2 Sig))
    (hauth : adSign A P p (adAuthGenerate P skp vkp S i).2.2 labels = some auth) :
    SameDistribution (fun x : F × F × F × F => adProve D pk p w auth x.1 x.2.1 x.2.2.1 x.2.2.2)
      (fun y : F × F × F × F => some (adSimulate A P (D.vanishing T.t) T
        (adAuthGenerate P skp vkp S i).2.2 vk labels y.1 y.2.1 y.2.2.1 y.2.2.2)) := by
  obtain ⟨cs', hcs'⟩ := C16_swap_defined cs hr
  obtain ⟨a0, a, hg⟩ := adProve_eq (Sig := Sig) P hD cs cs' hr hm T chunks hcs'
  obtain ⟨pk', vk', hg', e1, e2, e3, e4, e5, e6, e7, e8, e9, hprove⟩ := hg i
  obtain ⟨rfl, rfl⟩ := Prod.mk.inj (Option.some.inj (hgen.symm.trans hg'))
  obtain ⟨sA, sB, sC, h1⟩ := hprove p w hp hw hsat
  have hl : labels.length = p.length := by
    by_contra h
    rw [adSign, if_neg h] at hauth
    simp at hauth
  rw [adSign, if_pos hl] at hauth
  have hau := Option.some.inj hauth
  have la : auth.length = cs.primaryInputSize := by simp [← hau, hp, hl]
  set ni := cs.primaryInputSize
  set z := D.vanishing T.t
  set u0 := ∑ k ∈ Finset.range ni, p.getD k 0 * a k with hu0
  refine ⟨fun x => (sA + (x.1 + x.2.2.2) * z, sB + x.2.1 * z, sC + x.2.2.1 * z, u0 + x.2.2.2 * z), ?_,
    fun x => ?_⟩
  · refine Function.bijective_iff_has_inverse.mpr ⟨fun y => ((y.1 - sA) / z - (y.2.2.2 - u0) / z,
      (y.2.1 - sB) / z, (y.2.2.1 - sC) / z, (y.2.2.2 - u0) / z), fun x => ?_, fun y => ?_⟩
    · refine Prod.ext ?_ (Prod.ext ?_ (Prod.ext ?_ ?_))
      all_goals
        simp only
        field_simp
        ring
    · refine Prod.ext ?_ (Prod.ext ?_ (Prod.ext ?_ ?_))
      all_goals
        simp only
        field_simp
        ring
  · obtain ⟨h, hH, hπ⟩ := h1 x.1 x.2.1 x.2.2.1 x.2.2.2
    have hpr := hπ auth la.ge
    refine ⟨by simp [hpr], hpr.trans (congrArg some ?_)⟩
    have hh : ((sA + (x.1 + x.2.2.2) * z) * (sB + x.2.1 * z) - (sC + x.2.2.1 * z)) / z = h := by
      rw [hH]; field_simp
    simp only [adSimulate, hh, e8, smul_smul, ← sub_smul]
    refine (AdProof.mk.injEq ..).mpr ⟨Prod.ext ?_ ?_, Prod.ext rfl ?_, Prod.ext rfl ?_, rfl, rfl,
      Prod.ext rfl ?_, ?_⟩
    rotate_right
    · have hmu := adAuthentic_of A P skp S i ni vk T.rA z x.2.2.2 a e9 p labels hp (by omega)
        ⟨(0, 0), (0, 0), (0, 0), 0, 0, ((T.rA * (u0 + x.2.2.2 * z)) • P.one1, 0),
          (T.rA * (x.2.2.2 * z * i + ∑ k ∈ Finset.range ni,
            (auth.map (·.mu)).getD k 0 * a k)) • P.one1⟩ rfl (by rw [← hau]; rfl)
      rw [AdAuthentic] at hmu
      simp only [smul_smul] at hmu
      exact hmu
    all_goals
      refine congrArg (fun x => x • _) ?_
      ring

/-- the simulator's proofs satisfy all equations -/
theorem adSimulated (A : AdPrimitives F G2 Label Seed SK VK Sig)
    (P : Pairing F G1 G2 GT) (hD : D.Lawful)
    (cs : R1CS F) (hr : cs.WellRanged) (hm : cs.numConstraints + cs.numInputs + 1 ≤ D.m)
    (T : Pghr13Trapdoor F) (chunks : Nat) (hZ : D.vanishing T.t ≠ 0)
    (hwf1 : ∀ g, P.wf1 g = true) (hwf2 : ∀ g, P.wf2 g = true)
    (skp : SK) (vkp : VK) (S : Seed) (i : F)
    (pk : AdPK F G1 G2) (vk : AdVK G1 G2)
    (hgen : adGenerate P D cs (adAuthGenerate P skp vkp S i).1 T chunks = some (pk, vk))
    (labels : List Label) (a b c u : F) :
    let π := adSimulate A P (D.vanishing T.t) T (adAuthGenerate P skp vkp S i).2.2 vk labels a b c u
    vk.Ain.length = cs.primaryInputSize ∧ AdEquations P vk π ∧
      AdAuthentic A vk π (adAuthGenerate P skp vkp S i).2.2 labels := by
  intro π
  obtain ⟨cs', hcs'⟩ := C16_swap_defined cs hr
  obtain ⟨a0, ai, hg⟩ := adProve_eq (Sig := Sig) P hD cs cs' hr hm T chunks hcs'
  obtain ⟨pk', vk', hg', e1, e2, e3, e4, e5, e6, e7, e8, e9, -⟩ := hg i
  obtain ⟨rfl, rfl⟩ := Prod.mk.inj (Option.some.inj (hgen.symm.trans hg'))
  refine ⟨by rw [e9]; simp, ?_, rfl⟩
  have one2 : ∀ g : G1, P.e g P.one2 = P.e g ((1 : F) • P.one2) := by intro g; rw [one_smul]
  refine ⟨fun g _ => hwf1 g, hwf2 _, ?_, ?_, ?_, ?_, ?_, ?_⟩
  all_goals
    simp only [π, adSimulate, e1, e2, e3, e4, e5, e6, e7, e8, smul_smul, ← add_smul, ← sub_smul, one2,
      pair_smul]
    refine congrArg (fun x => x • _) ?_
    try field_simp
    try ring

/-- **C111** (authenticated data, the simulator is accepted): by the holder of the secret key, for
whatever data were signed under the labels. -/
theorem C111_adsnark_simulator_accepted [DecidableEq G1] (A : AdPrimitives F G2 Label Seed SK VK Sig)
    (P : Pairing F G1 G2 GT) (hD : D.Lawful)
    (cs : R1CS F) (hr : cs.WellRanged) (hm : cs.numConstraints + cs.numInputs + 1 ≤ D.m)
    (T : Pghr13Trapdoor F) (chunks : Nat) (hZ : D.vanishing T.t ≠ 0)
    (hwf1 : ∀ g, P.wf1 g = true) (hwf2 : ∀ g, P.wf2 g = true)
    (skp : SK) (vkp : VK) (S : Seed) (i : F)
    (pk : AdPK F G1 G2) (vk : AdVK G1 G2)
    (hgen : adGenerate P D cs (adAuthGenerate P skp vkp S i).1 T chunks = some (pk, vk))
    (labels : List Label) (hl : labels.length = cs.primaryInputSize) (a b c u : F) :
    adVerifierSym A P vk (adSimulate A P (D.vanishing T.t) T (adAuthGenerate P skp vkp S i).2.2 vk labels
      a b c u) (adAuthGenerate P skp vkp S i).2.2 labels = some true := by
  obtain ⟨hA, heq, hau⟩ := adSimulated A P hD cs hr hm T chunks hZ hwf1 hwf2 skp vkp S i pk vk hgen labels
    a b c u
  obtain ⟨v, hv, hi⟩ := adVerifierSym_eq A P vk _ (adAuthGenerate P skp vkp S i).2.2 labels (by omega)
  rw [hv, hi.2 ⟨heq, hau⟩]

/-- **C111** (authenticated data, public verification): the same when the number of inputs is even,
with the signed part of the authentication data of any data `x`. -/
theorem C111_adsnark_simulator_accepted_public (A : AdPrimitives F G2 Label Seed SK VK Sig)
    (P : Pairing F G1 G2 GT) (gtDefault : Option GT) (hD : D.Lawful)
    (cs : R1CS F) (hr : cs.WellRanged) (hm : cs.numConstraints + cs.numInputs + 1 ≤ D.m)
    (heven : cs.primaryInputSize % 2 = 0)
    (T : Pghr13Trapdoor F) (chunks : Nat) (hZ : D.vanishing T.t ≠ 0)
    (hwf1 : ∀ g, P.wf1 g = true) (hwf2 : ∀ g, P.wf2 g = true)
    (skp : SK) (vkp : VK) (hA : A.Signs skp vkp) (S : Seed) (i : F)
    (pk : AdPK F G1 G2) (vk : AdVK G1 G2)
    (hgen : adGenerate P D cs (adAuthGenerate P skp vkp S i).1 T chunks = some (pk, vk))
    (x : List F) (labels : List Label) (hl : labels.length = cs.primaryInputSize)
    (auth : List (AdAuthData F G2 Sig))
    (hauth : adSign A P x (adAuthGenerate P skp vkp S i).2.2 labels = some auth) (a b c u : F) :
    adVerifierPub A P gtDefault vk auth (adSimulate A P (D.vanishing T.t) T
      (adAuthGenerate P skp vkp S i).2.2 vk labels a b c u) (adAuthGenerate P skp vkp S i).2.1 labels
      = some true := by
  obtain ⟨hAin, heq, hau⟩ := adSimulated A P hD cs hr hm T chunks hZ hwf1 hwf2 skp vkp S i pk vk hgen
    labels a b c u
  exact adPublic_of_equations A P gtDefault skp vkp hA S i _ heven x labels hl vk hAin auth hauth _ heq hau

end Authenticated

section Examples

/-- `3` and `-3` are roots of `9`: the proofs with either are distributed as the simulator's, and so as
one another -/
example (alpha beta : ℚ) (pk vk) (h : groth16Generate exPairing (EvalDomain.ofPoints 4
    (fun i => (i + 1 : ℚ)) 10) exRoot ⟨7, alpha, beta, 5, 7, 1, 1⟩ 2 = some (pk, vk)) :=
  C111_indistinguishable _ _ _
    (C111_groth16_zero_knowledge exPairing exDom4 exRoot exRoot_ok (by decide) _ (by norm_num)
      (by norm_num) 2 pk vk h [9] [3] rfl rfl (by decide +kernel))
    (C111_groth16_zero_knowledge exPairing exDom4 exRoot exRoot_ok (by decide) _ (by norm_num)
      (by norm_num) 2 pk vk h [9] [-3] rfl rfl (by decide +kernel))

/-- keys exist, and the simulator makes accepted proofs for `2`, which has no root -/
example (alpha beta a b : ℚ) : ∃ pk vk π, groth16Generate exPairing (EvalDomain.ofPoints 4
    (fun i => (i + 1 : ℚ)) 10) exRoot ⟨7, alpha, beta, 5, 7, 1, 1⟩ 2 = some (pk, vk) ∧
    groth16Simulate ⟨7, alpha, beta, 5, 7, 1, 1⟩ vk [2] a b = some π ∧
    groth16VerifyStrong exPairing vk [2] π = some true := by
  obtain ⟨pk, vk, hgen, -⟩ := groth16Prove_eq exPairing exDom4 exRoot exRoot_ok (by decide)
    ⟨7, alpha, beta, 5, 7, 1, 1⟩ 2
  obtain ⟨π, h1, h2⟩ := C111_groth16_simulator_accepted exPairing exDom4 exRoot exRoot_ok (by decide) _
    (by norm_num) 2 (fun _ => rfl) (fun _ => rfl) pk vk hgen [2] rfl a b
  exact ⟨pk, vk, π, hgen, h1, h2⟩

example (alpha beta : ℚ) (pk vk) (h) (d1 d2 : ℚ) := C111_gm17_zero_knowledge (G1 := ℚ) (G2 := ℚ) exDom5
  exRoot exRoot_ok (by decide) ⟨7, alpha, beta, 3, 1, 1⟩ (by norm_num)
  (show (EvalDomain.ofPoints 5 (fun i => (i + 1 : ℚ)) 10).vanishing 7 ≠ 0 by decide +kernel)
  pk vk h [9] [3] rfl rfl (by decide +kernel) d1 d2

example (alpha beta : ℚ) (pk vk) (h) (x : ℚ) := C111_gm17_simulator_accepted exPairing exDom5
  exRoot exRoot_ok (by decide) ⟨7, alpha, beta, 3, 1, 1⟩ (fun _ => rfl) (fun _ => rfl) pk vk h [2] rfl x

/-- the keys at this point exist (`Props/PGHR13.lean`) -/
example (pk vk) (h : pghr13Generate exPairing (EvalDomain.ofPoints 4 (fun i => (i + 1 : ℚ)) 10)
    exRoot ⟨7, 2, 3, 5, 7, 11, 13, 17⟩ 2 = some (pk, vk)) :=
  C111_pghr13_zero_knowledge exPairing exDom4 exRoot exRoot_ok (by decide) _ 2 (by decide +kernel)
    pk vk h [9] [3] rfl rfl (by decide +kernel)

example (pk vk) (h : pghr13Generate exPairing (EvalDomain.ofPoints 4 (fun i => (i + 1 : ℚ)) 10)
    exRoot ⟨7, 2, 3, 5, 7, 11, 13, 17⟩ 2 = some (pk, vk)) (a b c : ℚ) :=
  C111_pghr13_simulator_accepted exPairing exDom4 exRoot exRoot_ok (by decide) _ 2 (by decide +kernel)
    (fun _ => rfl) (fun _ => rfl) pk vk h [2] rfl a b c

example (pk vk) (h) := C111_uscs_zero_knowledge exPairing exDom5 exBits exBits_ok
  (by decide) (by decide) 7 3 2 (by decide +kernel) pk vk h [1] [0] rfl rfl (by decide +kernel)

/-- an input that is not a bit -/
example (pk vk) (h) (v : ℚ) := C111_uscs_simulator_accepted exPairing exDom5 exBits exBits_ok
  (by decide) (by decide) 7 3 2 (by decide +kernel) (fun _ => rfl) (fun _ => rfl) pk vk h [5] rfl v

example (alpha beta s t0 t1 r : ℚ) (pk vk) (h) := C111_encrypted_zero_knowledge exPairing exDom5 exSumRoot
  exSumRoot_ok (by decide) ⟨7, alpha, beta, 5, 7, 1, 1⟩ (by norm_num) (by norm_num) 3 pk vk h
  [2] [3, 4] [3] rfl rfl (by decide +kernel) ⟨[s], t0, [t1]⟩ rfl r

example (alpha beta s t0 t1 r a b : ℚ) (pk vk) (h) := C111_encrypted_simulator_accepted exPairing exDom5
  exSumRoot exSumRoot_ok (by decide) ⟨7, alpha, beta, 5, 7, 1, 1⟩ (by norm_num) 3 (fun _ => rfl)
  (fun _ => rfl) pk vk h [2] [3, 3] rfl (by norm_num) (by decide) ⟨[s], t0, [t1]⟩ rfl rfl r a b

/-- `3` and `6` are signed, and their sum has the root `3`; then any data under two labels -/
example (pk vk) (S i : ℚ) (h : adGenerate exPairing (EvalDomain.ofPoints 4 (fun i => (i + 1 : ℚ)) 10)
    exSum (adAuthGenerate exPairing () () S i).1 ⟨7, 2, 3, 5, 7, 11, 13, 17⟩ 2 = some (pk, vk)) (auth)
    (hauth : adSign (exAd ℚ) exPairing [3, 6] (adAuthGenerate exPairing () () S i).2.2 [8, 9]
      = some auth) :=
  C111_adsnark_zero_knowledge (exAd ℚ) exPairing exDom4 exSum exSum_ok (by decide) _ 2
    (by decide +kernel) () () S i pk vk h [3, 6] [3] rfl rfl (by decide +kernel) [8, 9] auth hauth

example (pk vk) (S i a b c u : ℚ) (h : adGenerate exPairing (EvalDomain.ofPoints 4
    (fun i => (i + 1 : ℚ)) 10) exSum (adAuthGenerate exPairing () () S i).1
      ⟨7, 2, 3, 5, 7, 11, 13, 17⟩ 2 = some (pk, vk)) :=
  C111_adsnark_simulator_accepted (exAd ℚ) exPairing exDom4 exSum exSum_ok (by decide) _ 2
    (by decide +kernel) (fun _ => rfl) (fun _ => rfl) () () S i pk vk h [8, 9] rfl a b c u

example (pk vk) (S i a b c u : ℚ) (h : adGenerate exPairing (EvalDomain.ofPoints 4
    (fun i => (i + 1 : ℚ)) 10) exSum (adAuthGenerate exPairing () () S i).1
      ⟨7, 2, 3, 5, 7, 11, 13, 17⟩ 2 = some (pk, vk)) (auth)
    (hauth : adSign (exAd ℚ) exPairing [1, 1] (adAuthGenerate exPairing () () S i).2.2 [8, 9]
      = some auth) :=
  C111_adsnark_simulator_accepted_public (exAd ℚ) exPairing none exDom4 exSum exSum_ok (by decide) rfl
    _ 2 (by decide +kernel) (fun _ => rfl) (fun _ => rfl) () () (exAd_signs ℚ) S i pk vk h [1, 1] [8, 9]
    rfl auth hauth a b c u

end Examples

end Crypto3Zk
