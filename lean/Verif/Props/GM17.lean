import Verif.Lemmas.GM17
import Verif.Props.SapSsp
import Verif.Props.Groth16

/-!
# C52, C54, C62: the Groth–Maller argument

All randomness is universally quantified.
-/

set_option linter.unusedSectionVars false

namespace Crypto3Zk

variable {F : Type} [Field F] [DecidableEq F] {D : EvalDomain F}
variable {G1 G2 GT : Type} [AddCommGroup G1] [Module F G1] [AddCommGroup G2] [Module F G2]
  [AddCommGroup GT] [Module F GT] [DecidableEq GT]

/-- what acceptance means: the elements are on the curves and both pairing equations hold -/
def Gm17Accepts (P : Pairing F G1 G2 GT) (vk : Gm17VK G1 G2) (q0 : G1) (qs : List G1) (p : List F)
    (π : Gm17Proof G1 G2) : Prop :=
  P.wf1 π.gA = true ∧ P.wf2 π.gB = true ∧ P.wf1 π.gC = true ∧
    P.e (π.gA + vk.gAlpha) (π.gB + vk.hBeta) = P.e vk.gAlpha vk.hBeta
      + P.e (q0 + (List.zipWith (fun g x => x • g) qs p).sum) vk.hGamma + P.e π.gC vk.h ∧
    P.e π.gA vk.hGamma = P.e vk.gGamma π.gB

/-- **C52** (meaning of the verifier): on an input with as many entries as the key expects, the
verifier's verdict is the conjunction of the curve checks and of the two pairing equations. -/
theorem C52_verifier_iff (P : Pairing F G1 G2 GT) (vk : Gm17VK G1 G2) (q0 : G1) (qs : List G1)
    (hq : vk.query = q0 :: qs) (p : List F) (hp : p.length = qs.length) (π : Gm17Proof G1 G2) :
    (gm17VerifyWeak P vk p π = some true ↔ Gm17Accepts P vk q0 qs p π) ∧
      (gm17VerifyWeak P vk p π = some false ↔ ¬ Gm17Accepts P vk q0 qs p π) := by
  simp only [gm17VerifyWeak, gm17Process, hq, List.drop_succ_cons, List.drop_zero, multiexp, hp,
    if_true, List.getElem?_cons_zero,
    Option.bind_eq_bind, Option.bind_some, Option.pure_def, Option.some.injEq, Gm17Accepts,
    Gm17Proof.wellFormed]
  have h1 : -(P.e (π.gA + vk.gAlpha) (π.gB + vk.hBeta)) + P.e vk.gAlpha vk.hBeta
      + P.e (q0 + (List.zipWith (fun g x => x • g) qs p).sum) vk.hGamma + P.e π.gC vk.h = 0 ↔
      P.e (π.gA + vk.gAlpha) (π.gB + vk.hBeta) = P.e vk.gAlpha vk.hBeta
      + P.e (q0 + (List.zipWith (fun g x => x • g) qs p).sum) vk.hGamma + P.e π.gC vk.h := by
    rw [add_assoc, add_assoc, neg_add_eq_zero, ← add_assoc]
  have h2 : P.e π.gA vk.hGamma + -(P.e vk.gGamma π.gB) = 0 ↔
      P.e π.gA vk.hGamma = P.e vk.gGamma π.gB := by rw [add_neg_eq_zero]
  rw [← h1, ← h2]
  generalize -(P.e (π.gA + vk.gAlpha) (π.gB + vk.hBeta)) + P.e vk.gAlpha vk.hBeta
      + P.e (q0 + (List.zipWith (fun g x => x • g) qs p).sum) vk.hGamma + P.e π.gC vk.h = x
  generalize P.e π.gA vk.hGamma + -(P.e vk.gGamma π.gB) = y
  by_cases hx : x = 0 <;> by_cases hy : y = 0 <;>
    cases P.wf1 π.gA <;> cases P.wf2 π.gB <;> cases P.wf1 π.gC <;> simp [hx, hy]

theorem gm17_accepts_exponents (P : Pairing F G1 G2 GT) (vk : Gm17VK G1 G2)
    (T : Gm17Trapdoor F G1 G2) (p : List F) (k x : F)
    (hwf1 : ∀ g, P.wf1 g = true) (hwf2 : ∀ g, P.wf2 g = true)
    (hq : ∃ q0 s, vk.query[0]? = some q0 ∧ multiexp (vk.query.drop 1) p = some s ∧ q0 + s = k • T.g)
    (ha : vk.gAlpha = T.alpha • T.g) (hb : vk.hBeta = T.beta • T.h)
    (hg : vk.gGamma = T.gamma • T.g) (hgh : vk.hGamma = T.gamma • T.h) (hh : vk.h = T.h) :
    gm17VerifyWeak P vk p ⟨x • T.g, x • T.h,
      (x ^ 2 + (T.alpha + T.beta) * x - T.gamma * k) • T.g⟩ = some true := by
  obtain ⟨q0, s, e1, e2, e3⟩ := hq
  have hone : ∀ c : F, P.e (c • T.g) T.h = c • P.e T.g T.h := by
    intro c; rw [map_smul, LinearMap.smul_apply]
  simp only [gm17VerifyWeak, gm17Process, e1, e2, Option.bind_eq_bind, Option.bind_some,
    Option.pure_def, Gm17Proof.wellFormed, hwf1, hwf2, Bool.and_self, e3, ha, hb, hg, hgh, hh,
    ← add_smul, pair_smul, hone, ← neg_smul, Option.some.injEq]
  rw [if_neg, if_neg]
  · rw [not_not]
    have : -((x + T.alpha) * (x + T.beta)) + T.alpha * T.beta + k * T.gamma
        + (x ^ 2 + (T.alpha + T.beta) * x - T.gamma * k) = 0 := by ring
    rw [this, zero_smul]
  · rw [not_not]
    have : x * T.gamma + -(T.gamma * x) = 0 := by ring
    rw [this, zero_smul]

/-- **C52** (completeness): for every constraint system and satisfying input, all toxic waste, all
generators and all prover randomness, key generation and proving succeed and the proof is accepted
by both verifiers. The curve checks are assumed to accept every element. -/
theorem C52_gm17_complete (P : Pairing F G1 G2 GT) (hD : D.Lawful) (cs : R1CS F)
    (hr : cs.WellRanged) (hm : 2 * cs.numConstraints + 2 * cs.numInputs + 1 ≤ D.m)
    (T : Gm17Trapdoor F G1 G2)
    (hwf1 : ∀ g, P.wf1 g = true) (hwf2 : ∀ g, P.wf2 g = true)
    (p w : List F) (hp : p.length = cs.primaryInputSize) (hw : w.length = cs.auxiliaryInputSize)
    (hsat : cs.isSatisfied p w = some true) (d1 d2 r : F) :
    ∃ pk vk π, gm17Generate D cs T = some (pk, vk) ∧
      gm17Prove D pk p w d1 d2 r = some π ∧
      gm17VerifyStrong P vk p π = some true ∧ gm17VerifyWeak P vk p π = some true := by
  obtain ⟨pk, vk, hgen, kI, hq, hlen, ha, hb, hg, hgh, hh, hprove⟩ := gm17Prove_eq hD cs hr hm T
  obtain ⟨sA, hπ⟩ := hprove p w hp hw hsat
  have hweak := gm17_accepts_exponents P vk T p (kI p)
    (T.gamma * (sA + (d1 + r) * D.vanishing T.t)) hwf1 hwf2 (hq p hp) ha hb hg hgh hh
  refine ⟨pk, vk, _, hgen, hπ d1 d2 r, ?_, hweak⟩
  rw [gm17VerifyStrong, if_neg (by rw [hlen, hp]; simp)]
  exact hweak

/-- **C62** (Groth–Maller, witness indistinguishability): with keys generated at a point outside the
domain (which the generator ensures), changing the witness and shifting `r` leaves the proof
unchanged. -/
theorem C62_gm17_witness_indistinguishable (hD : D.Lawful) (cs : R1CS F)
    (hr : cs.WellRanged) (hm : 2 * cs.numConstraints + 2 * cs.numInputs + 1 ≤ D.m)
    (T : Gm17Trapdoor F G1 G2) (hZ : D.vanishing T.t ≠ 0)
    (p w w' : List F) (hp : p.length = cs.primaryInputSize) (hw : w.length = cs.auxiliaryInputSize)
    (hw' : w'.length = cs.auxiliaryInputSize)
    (hsat : cs.isSatisfied p w = some true) (hsat' : cs.isSatisfied p w' = some true) :
    ∃ pk vk, gm17Generate D cs T = some (pk, vk) ∧
      ∃ f : F → F, Function.Bijective f ∧ ∀ d1 d2 r, ∃ π,
        gm17Prove D pk p w d1 d2 r = some π ∧ gm17Prove D pk p w' d1 d2 (f r) = some π := by
  obtain ⟨pk, vk, hgen, kI, -, -, -, -, -, -, -, hprove⟩ := gm17Prove_eq hD cs hr hm T
  obtain ⟨sA, hπ⟩ := hprove p w hp hw hsat
  obtain ⟨sA', hπ'⟩ := hprove p w' hp hw' hsat'
  refine ⟨pk, vk, hgen, fun r => r + (sA - sA') / D.vanishing T.t,
    ⟨fun x y h => add_right_cancel h, fun y => ⟨y - (sA - sA') / D.vanishing T.t, by simp⟩⟩, ?_⟩
  intro d1 d2 r
  refine ⟨_, hπ d1 d2 r, ?_⟩
  have hx : sA' + (d1 + (r + (sA - sA') / D.vanishing T.t)) * D.vanishing T.t
      = sA + (d1 + r) * D.vanishing T.t := by field_simp; ring
  rw [hπ' d1 d2, hx]

/-- **C62** (Groth–Maller, simulation): the holder of the toxic waste can make accepted proofs for
any input without a witness. -/
theorem C62_gm17_simulation (P : Pairing F G1 G2 GT) (hD : D.Lawful) (cs : R1CS F)
    (hr : cs.WellRanged) (hm : 2 * cs.numConstraints + 2 * cs.numInputs + 1 ≤ D.m)
    (T : Gm17Trapdoor F G1 G2)
    (hwf1 : ∀ g, P.wf1 g = true) (hwf2 : ∀ g, P.wf2 g = true) (x : F) :
    ∃ pk vk, gm17Generate D cs T = some (pk, vk) ∧
      ∃ kI : List F → F, ∀ p : List F, p.length = cs.primaryInputSize →
        gm17VerifyStrong P vk p ⟨x • T.g, x • T.h,
          (x ^ 2 + (T.alpha + T.beta) * x - T.gamma * kI p) • T.g⟩ = some true := by
  obtain ⟨pk, vk, hgen, kI, hq, hlen, ha, hb, hg, hgh, hh, -⟩ := gm17Prove_eq hD cs hr hm T
  refine ⟨pk, vk, hgen, kI, fun p hp => ?_⟩
  rw [gm17VerifyStrong, if_neg (by rw [hlen, hp]; simp)]
  exact gm17_accepts_exponents P vk T p (kI p) x hwf1 hwf2 (hq p hp) ha hb hg hgh hh

/-- **C54** (Groth–Maller, strong verification) -/
theorem C54_gm17_strong_partial (P : Pairing F G1 G2 GT) (vk : Gm17VK G1 G2) (p : List F)
    (π : Gm17Proof G1 G2) :
    (p.length + 1 ≠ vk.query.length → gm17VerifyStrong P vk p π = some false) ∧
      (p.length + 1 = vk.query.length →
        gm17VerifyStrong P vk p π = gm17VerifyWeak P vk p π ∧
        (gm17VerifyStrong P vk p π).isSome) := by
  constructor
  · intro h
    rw [gm17VerifyStrong, if_pos (fun e => h e.symm)]
  · intro h
    have h1 : gm17VerifyStrong P vk p π = gm17VerifyWeak P vk p π := by
      rw [gm17VerifyStrong, if_neg (by simp [h])]
    refine ⟨h1, ?_⟩
    rw [h1]
    cases hv : vk.query with
    | nil => simp [hv] at h
    | cons q0 qs =>
      have hl : p.length = qs.length := by simpa [hv] using h
      obtain ⟨ht, hf⟩ := C52_verifier_iff P vk q0 qs hv p hl π
      by_cases ha : Gm17Accepts P vk q0 qs p π
      · rw [ht.2 ha]; rfl
      · rw [hf.2 ha]; rfl

/-- **C54** (Groth–Maller, weak verification fails): the header comment promises that a short input
is padded with zeros (verifier.hpp:85-88), but on any input shorter than the key's query the weak
verifier hands `multiexp` two ranges of different length, which its contract excludes. There is no
check before the call. -/
theorem C54_gm17_weak_short_undefined (P : Pairing F G1 G2 GT) (vk : Gm17VK G1 G2) (p : List F)
    (h : p.length + 1 < vk.query.length) (π : Gm17Proof G1 G2) :
    gm17VerifyWeak P vk p π = none := by
  cases hv : vk.query with
  | nil => simp [hv] at h
  | cons q0 qs =>
    have : qs.length ≠ p.length := by simp [hv] at h; omega
    simp [gm17VerifyWeak, gm17Process, hv, multiexp, this]

section Examples

/-- completeness at `3 · 3 = 9` -/
example (t alpha beta gamma d1 d2 r : ℚ) := C52_gm17_complete exPairing exDom5 exSqr exSqr_ok
  (by decide) ⟨t, alpha, beta, gamma, 1, 1⟩ (fun _ => rfl) (fun _ => rfl) [3] [9] rfl rfl
  (by decide +kernel) d1 d2 r

/-- two square roots of nine -/
example (alpha beta gamma : ℚ) := C62_gm17_witness_indistinguishable (G1 := ℚ) (G2 := ℚ) exDom5
  exRoot exRoot_ok (by decide) ⟨7, alpha, beta, gamma, 1, 1⟩
  (show (EvalDomain.ofPoints 5 (fun i => (i + 1 : ℚ)) 10).vanishing 7 ≠ 0 by decide +kernel)
  [9] [3] [-3] rfl rfl rfl (by decide +kernel) (by decide +kernel)

example (t alpha beta gamma x : ℚ) := C62_gm17_simulation exPairing exDom5 exRoot exRoot_ok
  (by decide) ⟨t, alpha, beta, gamma, 1, 1⟩ (fun _ => rfl) (fun _ => rfl) x

/-- a verdict of each kind: `(2+1)(2+1) = 1·1 + (1+2·1)·1 + 5` -/
example : gm17VerifyWeak exPairing ⟨1, 1, 1, 1, 1, [1, 2]⟩ [1] ⟨2, 2, (5 : ℚ)⟩ = some true ∧
    gm17VerifyWeak exPairing ⟨1, 1, 1, 1, 1, [1, 2]⟩ [1] ⟨2, 2, (6 : ℚ)⟩ = some false ∧
    gm17VerifyWeak exPairing ⟨1, 1, 1, 1, 1, [1, 2]⟩ [1] ⟨2, 3, (8 : ℚ)⟩ = some false ∧
    gm17VerifyStrong exPairing ⟨1, 1, 1, 1, 1, [1, 2]⟩ [] ⟨2, 2, (5 : ℚ)⟩ = some false := by
  refine ⟨by decide +kernel, by decide +kernel, by decide +kernel, by decide +kernel⟩

end Examples

end Crypto3Zk
