import Verif.Lemmas.Groth16
import Verif.Props.QAP

/-!
# C50, C54, C62: the Groth16 argument

`D` is the evaluation domain for the constraint system, `P` the pairing. All randomness is
universally quantified.
-/

set_option linter.unusedSectionVars false

namespace Crypto3Zk

variable {F : Type} [Field F] [DecidableEq F] {D : EvalDomain F}
variable {G1 G2 GT : Type} [AddCommGroup G1] [Module F G1] [AddCommGroup G2] [Module F G2]
  [AddCommGroup GT] [Module F GT] [DecidableEq GT]

/-- what acceptance of a Groth16 proof means: the elements are on the curves and the pairing
equation `e(A,B) = e(α,β) + e(Σ inputs, γ) + e(C, δ)` holds -/
def Groth16Accepts (P : Pairing F G1 G2 GT) (vk : Groth16VK G1 G2 GT) (p : List F)
    (π : Groth16Proof G1 G2) : Prop :=
  P.wf1 π.gA = true ∧ P.wf2 π.gB = true ∧ P.wf1 π.gC = true ∧
    P.e π.gA π.gB = vk.alphaBeta
      + P.e (vk.gammaABC.first + (List.zipWith (fun g x => x • g) vk.gammaABC.rest p).sum) vk.gammaG2
      + P.e π.gC vk.deltaG2

/-- **C50** (meaning of the verifier): on an input that is not too long the weak verifier returns a
verdict, and it is `true` exactly when the pairing equation holds for well-formed elements. -/
theorem C50_verifier_iff (P : Pairing F G1 G2 GT) (vk : Groth16VK G1 G2 GT) (p : List F)
    (π : Groth16Proof G1 G2) (hp : p.length ≤ vk.gammaABC.rest.length) :
    (groth16VerifyWeak P vk p π = some true ↔ Groth16Accepts P vk p π) ∧
      (groth16VerifyWeak P vk p π = some false ↔ ¬ Groth16Accepts P vk p π) := by
  simp only [groth16VerifyWeak, AccVec.accumulate, AccVec.domainSize, hp, if_true,
    Option.bind_eq_bind, Option.bind_some, Option.pure_def, Option.some.injEq, Groth16Accepts,
    Groth16Proof.wellFormed]
  have heq : P.e π.gA π.gB - (P.e (vk.gammaABC.first + (List.zipWith (fun g x => x • g)
      vk.gammaABC.rest p).sum) vk.gammaG2 + P.e π.gC vk.deltaG2) = vk.alphaBeta ↔
      P.e π.gA π.gB = vk.alphaBeta
      + P.e (vk.gammaABC.first + (List.zipWith (fun g x => x • g) vk.gammaABC.rest p).sum) vk.gammaG2
      + P.e π.gC vk.deltaG2 := by
    rw [sub_eq_iff_eq_add, add_assoc]
  rw [← heq]
  generalize P.e π.gA π.gB - (P.e (vk.gammaABC.first + (List.zipWith (fun g x => x • g)
      vk.gammaABC.rest p).sum) vk.gammaG2 + P.e π.gC vk.deltaG2) = x
  by_cases h : x = vk.alphaBeta
  · cases P.wf1 π.gA <;> cases P.wf2 π.gB <;> cases P.wf1 π.gC <;> simp [h]
  · simp [h]

/-- **C50** (completeness): for every constraint system and satisfying input, all toxic waste with
invertible `γ` and `δ`, all generators, every number of chunks and all prover randomness, key
generation and proving succeed (no assertion fails, nothing is read out of bounds) and the proof is
accepted by both verifiers. The curve checks are assumed to accept every element. -/
theorem C50_groth16_complete (P : Pairing F G1 G2 GT) (hD : D.Lawful) (cs : R1CS F)
    (hr : cs.WellRanged) (hm : cs.numConstraints + cs.numInputs + 1 ≤ D.m)
    (T : Groth16Trapdoor F G1 G2) (hγ : T.gamma ≠ 0) (hδ : T.delta ≠ 0) (chunks : Nat)
    (hwf1 : ∀ g, P.wf1 g = true) (hwf2 : ∀ g, P.wf2 g = true)
    (p w : List F) (hp : p.length = cs.primaryInputSize) (hw : w.length = cs.auxiliaryInputSize)
    (hsat : cs.isSatisfied p w = some true) (r s : F) :
    ∃ pk vk π, groth16Generate P D cs T chunks = some (pk, vk) ∧
      groth16Prove D pk p w r s = some π ∧
      groth16VerifyStrong P vk p π = some true ∧ groth16VerifyWeak P vk p π = some true := by
  obtain ⟨pk, vk, hgen, kI, hacc, hsz, hab, hg, hd, hprove⟩ :=
    groth16Prove_eq P hD cs hr hm T chunks
  obtain ⟨sA, sB, hπ⟩ := hprove p w hp hw hsat
  have hweak : groth16VerifyWeak P vk p ⟨(T.alpha + sA + r * T.delta) • T.g1,
      (T.beta + sB + s * T.delta) • T.g2,
      ((sA * sB + T.beta * sA + T.alpha * sB - kI p) * T.delta⁻¹
        + s * (T.alpha + sA + r * T.delta) + r * (T.beta + sB + s * T.delta)
        - r * s * T.delta) • T.g1⟩ = some true := by
    simp only [groth16VerifyWeak, hacc p hp, Option.bind_eq_bind, Option.bind_some, Option.pure_def,
      Groth16Proof.wellFormed, hwf1, hwf2, hab, hg, hd, pair_smul, Bool.and_self]
    rw [if_neg]
    rw [not_not, ← add_smul, ← sub_smul]
    congr 1
    field_simp
    ring
  refine ⟨pk, vk, _, hgen, hπ r s, ?_, hweak⟩
  rw [groth16VerifyStrong, if_neg (by rw [hsz, hp]; simp)]
  exact hweak

/-- **C62** (perfect witness indistinguishability): with honestly generated keys, whatever proof one
satisfying witness yields under some randomness, every other satisfying witness of the same input
yields the very same proof under some other randomness; so a proof carries no information about the
witness beyond its existence. -/
theorem C62_groth16_witness_indistinguishable (P : Pairing F G1 G2 GT) (hD : D.Lawful) (cs : R1CS F)
    (hr : cs.WellRanged) (hm : cs.numConstraints + cs.numInputs + 1 ≤ D.m)
    (T : Groth16Trapdoor F G1 G2) (hδ : T.delta ≠ 0) (chunks : Nat)
    (p w w' : List F) (hp : p.length = cs.primaryInputSize) (hw : w.length = cs.auxiliaryInputSize)
    (hw' : w'.length = cs.auxiliaryInputSize)
    (hsat : cs.isSatisfied p w = some true) (hsat' : cs.isSatisfied p w' = some true) :
    ∃ pk vk, groth16Generate P D cs T chunks = some (pk, vk) ∧
      ∃ f : F × F → F × F, Function.Bijective f ∧ ∀ r s, ∃ π,
        groth16Prove D pk p w r s = some π ∧
        groth16Prove D pk p w' (f (r, s)).1 (f (r, s)).2 = some π := by
  obtain ⟨pk, vk, hgen, kI, -, -, -, -, -, hprove⟩ := groth16Prove_eq P hD cs hr hm T chunks
  obtain ⟨sA, sB, hπ⟩ := hprove p w hp hw hsat
  obtain ⟨sA', sB', hπ'⟩ := hprove p w' hp hw' hsat'
  refine ⟨pk, vk, hgen, fun x => (x.1 + (sA - sA') / T.delta, x.2 + (sB - sB') / T.delta), ?_, ?_⟩
  · refine ⟨fun x y h => ?_, fun y => ⟨(y.1 - (sA - sA') / T.delta, y.2 - (sB - sB') / T.delta), ?_⟩⟩
    · simp only [Prod.mk.injEq, add_left_inj] at h
      exact Prod.ext h.1 h.2
    · simp
  · intro r s
    refine ⟨_, hπ r s, ?_⟩
    rw [hπ']
    congr 2
    · congr 1; field_simp; ring
    · congr 1; field_simp; ring
    · congr 1; field_simp; ring

/-- **C62** (simulation): the holder of the toxic waste can produce, without a witness, an accepted
proof for any input of the right length. (The argument's zero knowledge; it also means that a
leaked `δ` destroys soundness.) -/
theorem C62_groth16_simulation (P : Pairing F G1 G2 GT) (hD : D.Lawful) (cs : R1CS F)
    (hr : cs.WellRanged) (hm : cs.numConstraints + cs.numInputs + 1 ≤ D.m)
    (T : Groth16Trapdoor F G1 G2) (hγ : T.gamma ≠ 0) (hδ : T.delta ≠ 0) (chunks : Nat)
    (hwf1 : ∀ g, P.wf1 g = true) (hwf2 : ∀ g, P.wf2 g = true) (a b : F) :
    ∃ pk vk, groth16Generate P D cs T chunks = some (pk, vk) ∧
      ∃ kI : List F → F, ∀ p : List F, p.length = cs.primaryInputSize →
        groth16VerifyStrong P vk p ⟨a • T.g1, b • T.g2,
          ((a * b - T.alpha * T.beta - kI p) * T.delta⁻¹) • T.g1⟩ = some true := by
  obtain ⟨pk, vk, hgen, kI, hacc, hsz, hab, hg, hd, -⟩ := groth16Prove_eq P hD cs hr hm T chunks
  refine ⟨pk, vk, hgen, kI, fun p hp => ?_⟩
  rw [groth16VerifyStrong, if_neg (by rw [hsz, hp]; simp)]
  simp only [groth16VerifyWeak, hacc p hp, Option.bind_eq_bind, Option.bind_some, Option.pure_def,
    Groth16Proof.wellFormed, hwf1, hwf2, hab, hg, hd, pair_smul, Bool.and_self]
  rw [if_neg]
  rw [not_not, ← add_smul, ← sub_smul]
  congr 1
  field_simp
  ring

/-- **C62** (the third element is determined): two accepted proofs for one input that share the
first two elements share the third, if pairing with `δ` is injective. -/
theorem C62_groth16_unique_C (P : Pairing F G1 G2 GT) (vk : Groth16VK G1 G2 GT) (p : List F)
    (A : G1) (B : G2) (C C' : G1) (hinj : Function.Injective fun g => P.e g vk.deltaG2)
    (h : groth16VerifyWeak P vk p ⟨A, B, C⟩ = some true)
    (h' : groth16VerifyWeak P vk p ⟨A, B, C'⟩ = some true) : C = C' := by
  simp only [groth16VerifyWeak, Option.bind_eq_bind, Option.bind_eq_some_iff, Option.pure_def,
    Option.some.injEq] at h h'
  obtain ⟨acc, ha, h⟩ := h
  obtain ⟨acc', ha', h'⟩ := h'
  obtain rfl : acc = acc' := Option.some.inj (ha.symm.trans ha')
  split at h
  · simp at h
  split at h'
  · simp at h'
  rename_i h1 h2
  rw [not_not] at h1 h2
  apply hinj
  have := h1.trans h2.symm
  simpa using this

/-- **C54** (Groth16, strong verification): an input of the wrong length is rejected whatever the
proof, and on inputs of the right length both verifiers agree. -/
theorem C54_groth16_strong (P : Pairing F G1 G2 GT) (vk : Groth16VK G1 G2 GT) (p : List F)
    (π : Groth16Proof G1 G2) :
    (p.length ≠ vk.gammaABC.rest.length → groth16VerifyStrong P vk p π = some false) ∧
      (p.length = vk.gammaABC.rest.length →
        groth16VerifyStrong P vk p π = groth16VerifyWeak P vk p π) := by
  constructor
  · intro h
    rw [groth16VerifyStrong, if_pos (by simpa [AccVec.domainSize] using fun e => h e.symm)]
  · intro h
    rw [groth16VerifyStrong, if_neg (by simp [AccVec.domainSize, h])]

theorem accumulate_zero_extend {G : Type} [AddCommGroup G] [Module F G] (v : AccVec G) (p : List F)
    (k : Nat) (h : p.length + k ≤ v.domainSize) :
    v.accumulate (p ++ List.replicate k 0) = v.accumulate p := by
  have h1 : p.length ≤ v.domainSize := by omega
  simp only [AccVec.accumulate, List.length_append, List.length_replicate, h, h1, if_true,
    Option.some.injEq, add_right_inj]
  generalize v.rest = l
  induction p generalizing l with
  | nil =>
    simp only [List.nil_append, List.zipWith_nil_right, List.sum_nil]
    induction k generalizing l with
    | zero => simp
    | succ k ih =>
      cases l with
      | nil => simp
      | cons a l =>
        have := ih (by simp at h ⊢; omega) l
        simp [List.replicate_succ, this]
  | cons x p ih =>
    cases l with
    | nil => simp
    | cons a l => simp [ih (by simp at h ⊢; omega) (by simp at h1 ⊢; omega) l]

/-- **C54** (Groth16, weak verification): missing inputs count as zero. -/
theorem C54_groth16_weak (P : Pairing F G1 G2 GT) (vk : Groth16VK G1 G2 GT) (p : List F) (k : Nat)
    (h : p.length + k ≤ vk.gammaABC.rest.length) (π : Groth16Proof G1 G2) :
    groth16VerifyWeak P vk (p ++ List.replicate k 0) π = groth16VerifyWeak P vk p π := by
  rw [groth16VerifyWeak, groth16VerifyWeak, accumulate_zero_extend _ _ _ h]

section Examples

/-- multiplication of rationals as a pairing -/
def exPairing : Pairing ℚ ℚ ℚ ℚ := ⟨LinearMap.mul ℚ ℚ, 1, 1, fun _ => true, fun _ => true⟩

/-- `x₂ · x₂ = x₁` with `x₁` public -/
def exRoot : R1CS ℚ := ⟨1, 1, [⟨[⟨2, 1⟩], [⟨2, 1⟩], [⟨1, 1⟩]⟩]⟩

theorem exRoot_ok : exRoot.WellRanged := by
  intro k hk
  simp only [exRoot, List.mem_singleton] at hk
  subst hk
  refine ⟨?_, ?_, ?_⟩ <;> · intro t ht; simp at ht; subst ht; decide

/-- completeness at `3 · 3 = 9` -/
example (t alpha beta r s : ℚ) := C50_groth16_complete exPairing exDom4 exRoot exRoot_ok (by decide)
  ⟨t, alpha, beta, 5, 7, 1, 1⟩ (by norm_num) (by norm_num) 3 (fun _ => rfl) (fun _ => rfl)
  [9] [3] rfl rfl (by decide +kernel) r s

/-- the two square roots of `9` give the same proofs -/
example (t alpha beta : ℚ) := C62_groth16_witness_indistinguishable exPairing exDom4 exRoot exRoot_ok
  (by decide) ⟨t, alpha, beta, 5, 7, 1, 1⟩ (by norm_num) 3 [9] [3] [-3] rfl rfl rfl
  (by decide +kernel) (by decide +kernel)

/-- the simulator works on the false statement "`8` is a square" -/
example (t alpha beta : ℚ) := C62_groth16_simulation exPairing exDom4 exRoot exRoot_ok
  (by decide) ⟨t, alpha, beta, 5, 7, 1, 1⟩ (by norm_num) (by norm_num) 3 (fun _ => rfl) (fun _ => rfl)

/-- a verdict of each kind -/
example : groth16VerifyWeak exPairing ⟨2, 1, 1, ⟨1, [1, 1]⟩⟩ [3] ⟨3, 4, (6 : ℚ)⟩ = some true ∧
    groth16VerifyWeak exPairing ⟨2, 1, 1, ⟨1, [1, 1]⟩⟩ [3] ⟨3, 4, (5 : ℚ)⟩ = some false ∧
    groth16VerifyStrong exPairing ⟨2, 1, 1, ⟨1, [1, 1]⟩⟩ [3] ⟨3, 4, (6 : ℚ)⟩ = some false ∧
    groth16VerifyWeak exPairing ⟨2, 1, 1, ⟨1, [1, 1]⟩⟩ [3, 0, 0] ⟨3, 4, (6 : ℚ)⟩ = none := by
  refine ⟨by decide +kernel, by decide +kernel, by decide +kernel, by decide +kernel⟩

example : Function.Injective fun g : ℚ => exPairing.e g (1 : ℚ) := by
  intro a b h; simpa [exPairing] using h

end Examples

end Crypto3Zk
