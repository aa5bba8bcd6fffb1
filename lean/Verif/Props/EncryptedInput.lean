import Verif.Lemmas.EncryptedInput
import Verif.Props.Groth16
import Verif.Props.SapSsp

/-!
# C71, C72: Groth16 with encrypted inputs

The encryption scheme is the one of `Spec/EncryptedInput.lean` (external). All keys, messages and
randomness are universally quantified. Vectors have fewer than `2 ^ 64 - 2` elements.
-/

set_option linter.unusedSectionVars false

namespace Crypto3Zk

variable {F : Type} [Field F] [DecidableEq F] {D : EvalDomain F}
variable {G1 G2 GT : Type} [AddCommGroup G1] [Module F G1] [AddCommGroup G2] [Module F G2]
  [AddCommGroup GT] [Module F GT] [DecidableEq GT]

/-- **C72** (meaning of acceptance): with the public key of a secret key `s, t`, a ciphertext
`c_0, c_1, …, c_n, ψ` and a proof `(A, B, C)` are accepted if and only if `ψ` is the consistency
element `Σ t_i c_i` (as seen by the pairing) and the plain Groth16 equation holds for the decrypted
inputs `m_i`, followed by the inputs given in the clear, and the proof `(A, B, C')` whose last
element has the encryption's mask removed. -/
theorem C72_accepted_iff (P : Pairing F G1 G2 GT) (vk : Groth16ExtVK G1 G2 GT) (σ : SaverSecret F)
    (γ δ : F) (g2 : G2) (hδ : δ ≠ 0) (hg : vk.gammaG2 = γ • g2) (hd : vk.deltaG2 = δ • g2)
    (c0 : G1) (cs : List G1) (ψ : G1) (m un : List F) (π : Groth16Proof G1 G2)
    (hlen : vk.gammaABC.rest.length + 2 < 2 ^ 64)
    (hs : σ.s.length = cs.length) (ht : σ.t.length = cs.length) (hm : m.length = cs.length)
    (hun : vk.gammaABC.rest.length = cs.length + un.length) (h2 : 2 ≤ un.length)
    (hdec : SaverDecrypts vk σ c0 cs m) :
    encVerify P (c0 :: (cs ++ [ψ])) vk (saverKey P vk σ) un π = some true ↔
      P.e (σ.t0 • c0 + (List.zipWith (· • ·) σ.t cs).sum) P.one2 = P.e ψ P.one2 ∧
      Groth16Equation P vk.toGroth16VK (m ++ un) π.gA π.gB
        (π.gC + (γ * δ⁻¹ * (1 + σ.s.sum)) • c0) := by
  rw [encVerify_verdict P c0 cs ψ vk (saverKey P vk σ) un π hlen hun (Or.inl h2) (by simp [saverKey, hs])
    (by simp [saverKey, ht]; omega) (by simp [saverKey, ht])]
  rw [Option.some.injEq, decide_eq_true_iff]
  refine and_congr ?_ ?_
  · have := sum_pair_smul P P.one2 (c0 :: cs) (σ.t0 :: σ.t)
    simp only [saverKey]
    rw [this]
    simp
  · have h1 := sum_sub_smul c0 cs σ.s hs
    rw [hdec] at h1
    rw [Groth16Equation, zipWith_smul_append m un _ (by omega)]
    have h3 : (List.zipWith (fun a g => a • g) m vk.gammaABC.rest).sum = cs.sum - σ.s.sum • c0 := h1
    rw [h3, hm, hg, hd]
    refine Eq.congr rfl ?_
    simp only [map_add, map_sub, map_smul, LinearMap.add_apply, LinearMap.sub_apply,
      LinearMap.smul_apply]
    match_scalars <;> field_simp <;> ring

/-- **C71** (completeness): for every constraint system, satisfying input and split of the public
input into an encrypted beginning and at least two inputs in the clear, all toxic waste with
invertible `γ`, `δ`, every secret key, and all randomness of the prover and of the encryption, the
verifier accepts the encryption of the first inputs together with the proof made with the same
encryption randomness. -/
theorem C71_encrypted_complete (P : Pairing F G1 G2 GT) (hD : D.Lawful) (cs : R1CS F)
    (hr : cs.WellRanged) (hm : cs.numConstraints + cs.numInputs + 1 ≤ D.m)
    (T : Groth16Trapdoor F G1 G2) (hγ : T.gamma ≠ 0) (hδ : T.delta ≠ 0) (chunks : Nat)
    (hwf1 : ∀ g, P.wf1 g = true) (hwf2 : ∀ g, P.wf2 g = true)
    (m un w : List F) (hp : (m ++ un).length = cs.primaryInputSize)
    (hw : w.length = cs.auxiliaryInputSize) (hlen : (m ++ un).length + 2 < 2 ^ 64)
    (h2 : 2 ≤ un.length) (hsat : cs.isSatisfied (m ++ un) w = some true)
    (σ : SaverSecret F) (hs : σ.s.length = m.length) (ht : σ.t.length = m.length) (r r' s' : F) :
    ∃ pk vk π, groth16GenerateExtended P D cs T chunks = some (pk, vk) ∧
      encProve D pk (saverKey P vk σ) (m ++ un) w r r' s' = some π ∧
      encVerify P (saverEncrypt vk (saverKey P vk σ) m r) vk (saverKey P vk σ) un π = some true := by
  obtain ⟨pk, vk, π, hgen, hprove, hstrong, hweak⟩ := C50_groth16_complete P hD cs hr hm T hγ hδ chunks
    hwf1 hwf2 (m ++ un) w hp hw hsat r' s'
  obtain ⟨hd1, hg2, hd2⟩ := groth16Generate_fields P D cs T chunks pk vk hgen
  have hsz : vk.gammaABC.rest.length = (m ++ un).length := by
    rw [groth16VerifyStrong] at hstrong
    by_contra hne
    rw [if_pos (show vk.gammaABC.domainSize ≠ (m ++ un).length from hne)] at hstrong
    simp at hstrong
  have heq := (((C50_verifier_iff P vk (m ++ un) π (by omega)).1).mp hweak).2.2.2
  rw [List.length_append] at hsz hlen
  refine ⟨pk, { vk with deltaG1 := pk.deltaG1, gammaG1 := T.gamma • T.g1 },
    ⟨π.gA, π.gB, r • (saverKey P { vk with deltaG1 := pk.deltaG1, gammaG1 := T.gamma • T.g1 }
      σ).gammaInverseSumSG1 + π.gC⟩, ?_, ?_, ?_⟩
  · rw [groth16GenerateExtended, hgen]; rfl
  · rw [encProve, hprove]; rfl
  · set xvk : Groth16ExtVK G1 G2 GT := { vk with deltaG1 := pk.deltaG1, gammaG1 := T.gamma • T.g1 }
    have hcl : (List.zipWith (· + ·) ((σ.s.map (· • xvk.deltaG1)).map (r • ·))
        (List.zipWith (· • ·) m xvk.gammaABC.rest)).length = m.length := by
      simp [hs, xvk]; omega
    refine (C72_accepted_iff P xvk σ T.gamma T.delta T.g2 hδ hg2 hd2 _ _ _ m un _ (by simp [xvk]; omega)
      (by rw [hcl, hs]) (by rw [hcl, ht]) hcl.symm (by rw [hcl]; exact hsz) h2
      (saver_decrypts P xvk σ m hs (by simp only [xvk]; omega) r)).mpr ⟨?_, ?_⟩
    · rw [sum_encrypted xvk.deltaG1 r σ.s σ.t m _ (by omega) (by omega) (by simp only [xvk]; omega)]
      congr 2
      simp only [saverKey]
      module
    · rw [Groth16Equation]
      have hc : r • (saverKey P xvk σ).gammaInverseSumSG1 + π.gC +
          (T.gamma * T.delta⁻¹ * (1 + σ.s.sum)) • (r • xvk.deltaG1) = π.gC := by
        simp only [saverKey, xvk, hd1]
        match_scalars <;> field_simp <;> ring
      simp only [hc]
      rw [List.zipWith_comm]
      exact heq

/-- **C71** (when there is a verdict): the verifier runs through exactly when the sizes fit: `n + 2`
ciphertext elements, `n` and `n + 1` elements in the vectors of the public key, the clear inputs make
up the rest of the public input, and at least two inputs are in the clear (or there are no inputs at
all). So a call with all inputs, or all but one, encrypted never returns. -/
theorem C71_defined_iff (P : Pairing F G1 G2 GT) (vk : Groth16ExtVK G1 G2 GT)
    (pub : EncPublicKey G1 G2) (ct : List G1) (un : List F) (π : Groth16Proof G1 G2)
    (h1 : ct.length < 2 ^ 63) (h2 : un.length < 2 ^ 63) (h3 : vk.gammaABC.rest.length < 2 ^ 63)
    (h4 : pub.deltaSG1.length < 2 ^ 63) (h5 : pub.tG2.length < 2 ^ 63) :
    (encVerify P ct vk pub un π).isSome ↔ ∃ n, ct.length = n + 2 ∧
      vk.gammaABC.rest.length = n + un.length ∧ (2 ≤ un.length ∨ vk.gammaABC.rest.length = 0) ∧
      pub.deltaSG1.length = n ∧ pub.tG1.length = n ∧ pub.tG2.length = n + 1 := by
  constructor
  · intro h
    obtain ⟨b, hb⟩ := Option.isSome_iff_exists.mp h
    simp only [encVerify, Option.bind_eq_bind, Option.bind_eq_some_iff, guard_eq_some', exists_and_left,
      exists_const] at hb
    obtain ⟨g1, g2, g3, g4, g5, _⟩ := hb
    have hct : 2 ≤ ct.length := by
      by_contra hlt
      rw [subSize_of_lt (by omega) (by omega)] at g3
      omega
    rw [subSize_of_le hct (by omega)] at g1 g2 g3 g4 g5
    rw [Nat.mod_eq_of_lt (by omega)] at g2
    have ht : 1 ≤ pub.tG2.length := by
      by_contra hlt
      rw [subSize_of_lt (by omega) (by omega)] at g5
      omega
    rw [subSize_of_le ht (by omega)] at g5
    refine ⟨ct.length - 2, by omega, by omega, ?_, by omega, by omega, by omega⟩
    by_cases h0 : vk.gammaABC.rest.length = 0
    · exact Or.inr h0
    · rw [subSize_of_le (by omega) (by omega)] at g1
      omega
  · rintro ⟨n, hct, hr, h0, hs, ht1, ht2⟩
    obtain ⟨c0, tl, rfl⟩ := List.exists_cons_of_length_eq_add_one hct
    have htl : tl.length = n + 1 := by simpa using hct
    have hne : tl ≠ [] := by rintro rfl; simp at htl
    have hd : tl.dropLast.length = n := by simp [htl]
    rw [show c0 :: tl = c0 :: (tl.dropLast ++ [tl.getLast hne]) by rw [List.dropLast_append_getLast],
      encVerify_verdict P c0 tl.dropLast (tl.getLast hne) vk pub un π (by omega) (by omega) h0
      (by omega) (by omega) (by omega)]
    rfl

/-- **C72** (the encryption randomness must be the prover's): if a proof is accepted with a
ciphertext and the proof's mask is exchanged for that of other randomness `r'`, it is rejected,
provided the mask is not trivial: the secret `s` does not sum to `-1` and pairing `gamma_g1` with
`delta_g2` is not zero. -/
theorem C72_wrong_randomness_rejected (P : Pairing F G1 G2 GT) (vk : Groth16ExtVK G1 G2 GT)
    (σ : SaverSecret F) (c0 : G1) (cs : List G1) (ψ : G1) (un : List F) (π : Groth16Proof G1 G2)
    (hlen : vk.gammaABC.rest.length + 2 < 2 ^ 64)
    (hs : σ.s.length = cs.length) (ht : σ.t.length = cs.length)
    (hun : vk.gammaABC.rest.length = cs.length + un.length) (h2 : 2 ≤ un.length)
    (hsum : 1 + σ.s.sum ≠ 0) (hpair : P.e vk.gammaG1 vk.deltaG2 ≠ 0) (r r' : F) (hr : r ≠ r')
    (A : G1) (B : G2) (C : G1)
    (hacc : encVerify P (c0 :: (cs ++ [ψ])) vk (saverKey P vk σ) un
      ⟨A, B, r • (saverKey P vk σ).gammaInverseSumSG1 + C⟩ = some true) :
    encVerify P (c0 :: (cs ++ [ψ])) vk (saverKey P vk σ) un
      ⟨A, B, r' • (saverKey P vk σ).gammaInverseSumSG1 + C⟩ = some false := by
  rw [encVerify_verdict P c0 cs ψ vk (saverKey P vk σ) un _ hlen hun (Or.inl h2) (by simp [saverKey, hs])
    (by simp [saverKey, ht]; omega) (by simp [saverKey, ht]), Option.some.injEq] at hacc ⊢
  rw [decide_eq_true_iff] at hacc
  rw [decide_eq_false_iff_not]
  rintro ⟨-, h⟩
  have h' := hacc.2
  simp only at h h'
  rw [h, add_right_inj, map_add, map_add, LinearMap.add_apply, LinearMap.add_apply, add_left_inj] at h'
  simp only [saverKey, map_smul, map_neg, LinearMap.smul_apply, LinearMap.neg_apply] at h'
  have h3 : ((r' - r) * (1 + σ.s.sum)) • P.e vk.gammaG1 vk.deltaG2 = 0 := by
    rw [mul_smul, sub_smul, ← neg_inj, neg_sub, neg_zero, sub_eq_zero]
    rw [smul_neg, smul_neg, neg_inj] at h'
    exact h'.symm
  rcases smul_eq_zero.mp h3 with h3 | h3
  · rcases mul_eq_zero.mp h3 with h3 | h3
    · exact hr (sub_eq_zero.mp h3).symm
    · exact hsum h3
  · exact hpair h3

/-- **C72** (tampering): if a ciphertext is accepted (with any proof) and exactly one of the elements
`c_0, …, c_n` is replaced by another one, the verifier rejects, whatever the proof; here position `i`
has a nonzero secret `t_i`, and pairing with the generator of `G2` is injective. -/
theorem C72_tampering_rejected (P : Pairing F G1 G2 GT) (vk : Groth16ExtVK G1 G2 GT)
    (σ : SaverSecret F) (c c' : List G1) (ψ : G1) (un : List F) (π π' : Groth16Proof G1 G2)
    (hlen : vk.gammaABC.rest.length + 2 < 2 ^ 64)
    (hc : c.length = σ.s.length + 1) (ht : σ.t.length = σ.s.length)
    (hun : vk.gammaABC.rest.length = σ.s.length + un.length) (h2 : 2 ≤ un.length)
    (hinj : Function.Injective fun g => P.e g P.one2)
    (hacc : encVerify P (c ++ [ψ]) vk (saverKey P vk σ) un π = some true)
    (i : Nat) (hi : i < c.length) (hti : (σ.t0 :: σ.t).getD i 0 ≠ 0) (x : G1) (hx : x ≠ c[i])
    (hc' : c' = c.set i x) :
    encVerify P (c' ++ [ψ]) vk (saverKey P vk σ) un π' = some false := by
  subst hc'
  obtain ⟨c0, cs, rfl⟩ := List.exists_cons_of_length_eq_add_one hc
  obtain ⟨d0, ds, hd⟩ := List.exists_cons_of_length_eq_add_one
    (show ((c0 :: cs).set i x).length = σ.s.length + 1 by simpa using hc)
  have hcs : cs.length = σ.s.length := by simpa using hc
  have hds : ds.length = σ.s.length := by
    have := congrArg List.length hd
    simp only [List.length_set, List.length_cons] at this
    omega
  rw [hd]
  rw [List.cons_append, encVerify_verdict P _ _ ψ vk (saverKey P vk σ) un _ hlen (by omega) (Or.inl h2)
    (by simp [saverKey, hcs]) (by simp [saverKey, ht]; omega) (by simp [saverKey, ht, hcs]),
    Option.some.injEq, decide_eq_true_iff] at hacc
  rw [List.cons_append, encVerify_verdict P _ _ ψ vk (saverKey P vk σ) un _ hlen (by omega) (Or.inl h2)
    (by simp [saverKey, hds]) (by simp [saverKey, ht]; omega) (by simp [saverKey, ht, hds]),
    Option.some.injEq, decide_eq_false_iff_not, ← hd]
  rintro ⟨h, -⟩
  have h' := hacc.1
  simp only [saverKey] at h h'
  rw [sum_pair_smul] at h h'
  have h3 := hinj (h.trans h'.symm)
  rw [zipWith_smul_set _ _ _ _ hi (by simp; omega)] at h3
  rw [add_eq_left, smul_eq_zero] at h3
  rcases h3 with h3 | h3
  · exact hti h3
  · exact hx (sub_eq_zero.mp h3)

section Examples

/-- `x₄ · x₄ = x₁ + x₂ + x₃` with `x₁, x₂, x₃` public -/
def exSumRoot : R1CS ℚ := ⟨3, 1, [⟨[⟨4, 1⟩], [⟨4, 1⟩], [⟨1, 1⟩, ⟨2, 1⟩, ⟨3, 1⟩]⟩]⟩

theorem exSumRoot_ok : exSumRoot.WellRanged := by
  intro k hk
  simp only [exSumRoot, List.mem_singleton] at hk
  subst hk
  refine ⟨?_, ?_, ?_⟩ <;> · intro t ht; simp at ht; rcases ht with rfl | rfl | rfl <;> decide

/-- completeness at `3 · 3 = 2 + 3 + 4`, the first input encrypted -/
example (t alpha beta s t0 t1 r r' s' : ℚ) := C71_encrypted_complete exPairing exDom5 exSumRoot
  exSumRoot_ok (by decide) ⟨t, alpha, beta, 5, 7, 1, 1⟩ (by norm_num) (by norm_num) 3 (fun _ => rfl)
  (fun _ => rfl) [2] [3, 4] [3] rfl rfl (by norm_num) (by decide) (by decide +kernel)
  ⟨[s], t0, [t1]⟩ rfl rfl r r' s'

/-- a small extended verification key: `α β = 2`, `γ = 3`, `δ = 5`, public input elements `1, 1, 1` -/
def exExtVK : Groth16ExtVK ℚ ℚ ℚ := ⟨⟨2, 3, 5, ⟨1, [1, 1, 1]⟩⟩, 5, 3⟩

/-- the secret key `s = 2`, `t_0 = 3`, `t_1 = 4` -/
def exSaver : SaverSecret ℚ := ⟨[2], 3, [4]⟩

/-- runs of the verifier: the encryption of `2` with randomness `7` and a proof masked with `7` for
the inputs `2, 3, 4` are accepted; other randomness, another message, a changed ciphertext element and
a changed proof are rejected; with only one input in the clear the assertion fails -/
example :
    let pub := saverKey exPairing exExtVK exSaver
    let mask : ℚ := pub.gammaInverseSumSG1
    -- `A B = 8 · 5 = 40 = 2 + 3 · (1 + 2 + 3 + 4) + 5 · (8 / 5)`
    saverEncrypt exExtVK pub [(2 : ℚ)] 7 = [35, 72, 393] ∧
    encVerify exPairing [35, 72, 393] exExtVK pub [3, 4] ⟨8, 5, 7 * mask + 8 / 5⟩ = some true ∧
    encVerify exPairing [35, 72, 393] exExtVK pub [3, 4] ⟨8, 5, 6 * mask + 8 / 5⟩ = some false ∧
    encVerify exPairing [35, 71, 393] exExtVK pub [3, 4] ⟨8, 5, 7 * mask + 8 / 5⟩ = some false ∧
    encVerify exPairing (saverEncrypt exExtVK pub [(1 : ℚ)] 7) exExtVK pub [3, 4]
      ⟨8, 5, 7 * mask + 8 / 5⟩ = some false ∧
    encVerify exPairing [35, 72, 393] exExtVK pub [3, 4] ⟨8, 6, 7 * mask + 8 / 5⟩ = some false ∧
    encVerify exPairing [35, 72, 72, 393] exExtVK pub [4] ⟨8, 5, 0⟩ = none := by
  decide +kernel

/-- the hypotheses of the acceptance theorem at this run -/
example : SaverDecrypts exExtVK exSaver 35 [72] [2] ∧ exExtVK.gammaG2 = (3 : ℚ) • (1 : ℚ) ∧
    exExtVK.deltaG2 = (5 : ℚ) • (1 : ℚ) := by
  refine ⟨?_, ?_, ?_⟩ <;> norm_num [SaverDecrypts, exSaver, exExtVK]

example (h) := C72_accepted_iff exPairing exExtVK exSaver 3 5 1 (by norm_num) (by norm_num [exExtVK])
  (by norm_num [exExtVK]) 35 [72] 393 [2] [3, 4] ⟨8, 5, 0⟩ (by decide) rfl rfl rfl rfl (by decide) h

example := C72_wrong_randomness_rejected exPairing exExtVK exSaver 35 [72] 393 [3, 4] ⟨8, 5, 0⟩
  (by decide) rfl rfl rfl (by decide) (by norm_num [exSaver]) (by norm_num [exExtVK, exPairing]) 7 6
  (by norm_num) 8 5 (8 / 5) (by decide +kernel)

example (π' : Groth16Proof ℚ ℚ) := C72_tampering_rejected exPairing exExtVK exSaver [35, 72] _ 393 [3, 4]
  ⟨8, 5, 7 * (saverKey exPairing exExtVK exSaver).gammaInverseSumSG1 + 8 / 5⟩ π' (by decide) rfl rfl rfl
  (by decide) (fun a b h => by simpa [exPairing] using h) (by decide +kernel) 1 (by decide)
  (by norm_num [exSaver]) 71 (by norm_num) rfl

end Examples

end Crypto3Zk
