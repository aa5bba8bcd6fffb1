import Verif.Lemmas.EncryptedCombine
import Verif.Props.EncryptedInput
import Mathlib.Combinatorics.Pigeonhole

/-!
# How often a fixed strategy is accepted with encrypted inputs
-/

set_option linter.unusedSectionVars false

namespace Crypto3Zk

open Finset

variable {F : Type} [Field F] [DecidableEq F] {D : EvalDomain F}
variable {G1 G2 GT : Type} [AddCommGroup G1] [Module F G1] [AddCommGroup G2] [Module F G2]
  [AddCommGroup GT] [Module F GT] [DecidableEq GT]

/-- the secrets: `t`; α, β, γ, δ; `s_1, …, s_n`; `t_0, …, t_n` -/
abbrev EncSecrets (F : Type) (n : Nat) := ((F × (Fin 4 → F)) × (Fin n → F)) × (Fin (n + 1) → F)

/-- the strategy is accepted with keys made from these secrets -/
structure EncRun (P : Pairing F G1 G2 GT) (D : EvalDomain F) (cs : R1CS F) (chunks : Nat) (g1 : G1) (g2 : G2)
    {n : Nat} (S : EncStrategy F) (un : List F) (z : EncSecrets F n) (pk : Groth16PK F G1 G2)
    (vk : Groth16ExtVK G1 G2 GT) (ct : List G1) (π : Groth16Proof G1 G2) : Prop where
  gamma : z.1.1.2 2 ≠ 0
  delta : z.1.1.2 3 ≠ 0
  keys : groth16GenerateExtended P D cs ⟨z.1.1.1, z.1.1.2 0, z.1.1.2 1, z.1.1.2 2, z.1.1.2 3, g1, g2⟩ chunks =
    some (pk, vk)
  ciphertext : S.ciphertext g1 pk vk (saverKey P vk (saverSecretOf z.1.2 z.2)) = some ct
  proof : S.prove g1 g2 pk vk (saverKey P vk (saverSecretOf z.1.2 z.2)) = some π
  accepted : encVerify P ct vk (saverKey P vk (saverSecretOf z.1.2 z.2)) un π = some true

/-- what the generator has put into the keys -/
theorem enc_keys (P : Pairing F G1 G2 GT) (hD : D.Lawful) (cs cs' : R1CS F) (hs : cs.swapABIfBeneficial = some cs')
    (hr' : cs'.WellRanged) (hm' : cs'.numConstraints + cs'.numInputs + 1 ≤ D.m) (chunks : Nat)
    (T : Groth16Trapdoor F G1 G2) (pk : Groth16PK F G1 G2) (vk : Groth16ExtVK G1 G2 GT)
    (h : groth16GenerateExtended P D cs T chunks = some (pk, vk)) :
    ∃ q, cs'.qapEval D T.t = some q ∧ groth16Generate P D cs T chunks = some (pk, vk.toGroth16VK) ∧
      vk.deltaG1 = T.delta • T.g1 ∧ pk.deltaG1 = T.delta • T.g1 ∧ vk.gammaG1 = T.gamma • T.g1 ∧
      vk.gammaG2 = T.gamma • T.g2 ∧ vk.deltaG2 = T.delta • T.g2 ∧
      vk.gammaABC.rest = batchExp T.g1
        ((List.range' 1 cs'.numInputs).map fun i => kVal q T.alpha T.beta i * T.gamma⁻¹) ∧
      ∀ (c : Groth16Coeffs1 F) g, c.combine T.g1 pk vk.toGroth16VK = some g →
        g = (c.at q cs'.numVariables cs'.numInputs).value T.alpha T.beta T.gamma T.delta • T.g1 := by
  obtain ⟨qi, q, -, hq, -, n1, n2, n3, n4, lA, lB, lC, eH, eZ, dA, dB, dC⟩ := R1CS.qapEval_spec hD cs' hr' hm' T.t
  have hle : cs'.numInputs ≤ cs'.numVariables := by simp [R1CS.numInputs, R1CS.numVariables]
  have hgen := groth16Generate_eq P D cs cs' T chunks hs q hq _ _ n1 n3 hle lA lB lC
  simp only [groth16GenerateExtended, Option.bind_eq_bind, Option.bind_eq_some_iff, Option.pure_def,
    Option.some.injEq, Prod.mk.injEq] at h
  obtain ⟨⟨pk', vk'⟩, hg, rfl, rfl⟩ := h
  have hk := hg.symm.trans hgen
  refine ⟨q, hq, hg, ?_⟩
  have hcomb := fun c g h => (Groth16Coeffs1.combine_eq P cs' T q _ _ pk' vk' hle hk c g h).1
  simp only [Option.some.injEq, Prod.mk.injEq] at hk
  obtain ⟨rfl, rfl⟩ := hk
  exact ⟨rfl, rfl, rfl, rfl, rfl, rfl, hcomb⟩

theorem ciphertext_parts (S : EncStrategy F) (f : EncCoeffs1 F → Option G1) (ct : List G1)
    (h : (S.head :: (S.body ++ [S.tag])).mapM f = some ct) :
    ∃ c0 cs ψ, ct = c0 :: (cs ++ [ψ]) ∧ f S.head = some c0 ∧ S.body.mapM f = some cs ∧ f S.tag = some ψ := by
  simp only [List.mapM_cons, List.mapM_append, List.mapM_nil, Option.bind_eq_bind, Option.bind_eq_some_iff,
    Option.pure_def, Option.some.injEq] at h
  obtain ⟨c0, h0, _, ⟨cs, h1, _, ⟨ψ, h2, _, rfl, rfl⟩, rfl⟩, rfl⟩ := h
  exact ⟨c0, cs, ψ, rfl, h0, h1, h2⟩

theorem mapM_values {α β : Type} (f : α → Option β) (v : α → β) (l : List α) (r : List β) (h : l.mapM f = some r)
    (hv : ∀ a b, f a = some b → b = v a) : r = l.map v := by
  induction l generalizing r with
  | nil => simpa using h.symm
  | cons a l ih =>
    simp only [List.mapM_cons, Option.bind_eq_bind, Option.bind_eq_some_iff, Option.pure_def,
      Option.some.injEq] at h
    obtain ⟨b, h0, r, h1, rfl⟩ := h
    rw [ih r h1, hv a b h0, List.map_cons]

/-- what the ciphertext is at given secrets, and what the consistency check says -/
theorem enc_consistency (P : Pairing F G1 G2 GT) (hD : D.Lawful) (cs cs' : R1CS F)
    (hs : cs.swapABIfBeneficial = some cs') (hr' : cs'.WellRanged)
    (hm' : cs'.numConstraints + cs'.numInputs + 1 ≤ D.m) (chunks : Nat)
    (g1 : G1) (g2 : G2) (hne : P.e g1 g2 ≠ 0) (κ : F) (hκ : κ ≠ 0) (hone : P.one2 = κ • g2) {n : Nat}
    (S : EncStrategy F) (hbody : S.body.length = n) (un : List F) (hun : n + un.length = cs'.numInputs)
    (h2 : 2 ≤ un.length) (hlen : cs'.numInputs + 2 < 2 ^ 64) (z : EncSecrets F n) (pk : Groth16PK F G1 G2)
    (vk : Groth16ExtVK G1 G2 GT) (ct : List G1) (π : Groth16Proof G1 G2)
    (hrun : EncRun P D cs chunks g1 g2 S un z pk vk ct π) :
    ∃ q, cs'.qapEval D z.1.1.1 = some q ∧ S.tag.tG1.length = n ∧
      ∃ (fixed : EncCoeffs1 F → F) (val : EncCoeffs1 F → F),
        (∀ c, fixed c = (c.base.at q cs'.numVariables cs'.numInputs).value (z.1.1.2 0) (z.1.1.2 1) (z.1.1.2 2)
          (z.1.1.2 3) + c.rest (z.1.1.2 2) (z.1.1.2 3) z.1.2) ∧
        (∀ c, val c = fixed c + ∑ j, encSlope (fun j : Fin n => c.tG1.getD j 0) c.deltaSum
          (fun j => kVal q (z.1.1.2 0) (z.1.1.2 1) (1 + j) * (z.1.1.2 2)⁻¹) (z.1.1.2 3) z.1.2 j * z.2 j) ∧
        ct = val S.head • g1 :: (S.body.map (fun c => val c • g1) ++ [val S.tag • g1]) ∧
        ∑ i : Fin (n + 1), z.2 i * val ((S.head :: S.body)[i]'(by have := i.2; simp [hbody]; omega)) = val S.tag := by
  obtain ⟨h2', h3', hk, hct, hpi, hacc⟩ := hrun
  obtain ⟨q, hq, -, d1, -, g1', -, -, hrest, hcomb⟩ := enc_keys P hD cs cs' hs hr' hm' chunks _ pk vk hk
  simp only at hq d1 g1' hrest hcomb
  set k := (List.range' 1 cs'.numInputs).map fun i => kVal q (z.1.1.2 0) (z.1.1.2 1) i * (z.1.1.2 2)⁻¹ with hkdef
  have hkl : k.length = cs'.numInputs := by simp [hkdef]
  have hn : n ≤ k.length := by omega
  have hkj : ∀ j : Fin n, k.getD j 0 = kVal q (z.1.1.2 0) (z.1.1.2 1) (1 + j) * (z.1.1.2 2)⁻¹ := by
    intro j
    have := j.2
    rw [List.getD_eq_getElem _ _ (by omega)]
    simp [hkdef]
  let fixed : EncCoeffs1 F → F := fun c => (c.base.at q cs'.numVariables cs'.numInputs).value (z.1.1.2 0)
    (z.1.1.2 1) (z.1.1.2 2) (z.1.1.2 3) + c.rest (z.1.1.2 2) (z.1.1.2 3) z.1.2
  let val : EncCoeffs1 F → F := fun c => fixed c + ∑ j, encSlope (fun j : Fin n => c.tG1.getD j 0) c.deltaSum
          (fun j => kVal q (z.1.1.2 0) (z.1.1.2 1) (1 + j) * (z.1.1.2 2)⁻¹) (z.1.1.2 3) z.1.2 j * z.2 j
  have hval : ∀ c g, c.combine g1 pk vk (saverKey P vk (saverSecretOf z.1.2 z.2)) = some g → g = val c • g1 := by
    intro c g h
    obtain ⟨-, -, g0, h0, rfl⟩ := EncCoeffs1.combine_eq P c g1 pk vk z.1.2 z.2 _ _ k hrest d1 g1' hn g h
    rw [hcomb _ _ h0, ← add_smul]
    simp only [val, fixed, hkj, add_assoc]
  obtain ⟨c0, cts, ψ, rfl, e0, e1, e2⟩ := ciphertext_parts S _ ct hct
  have t1 := (EncCoeffs1.combine_eq P S.tag g1 pk vk z.1.2 z.2 _ _ k hrest d1 g1' hn ψ e2).2.1
  have f0 := hval _ _ e0
  have f1 := mapM_values _ (fun c => val c • g1) _ _ e1 hval
  have f2 := hval _ _ e2
  refine ⟨q, hq, t1, fixed, val, fun _ => rfl, fun _ => rfl, by rw [f0, f1, f2], ?_⟩
  have hcl : cts.length = n := by rw [f1, List.length_map, hbody]
  have hrl : vk.gammaABC.rest.length = cs'.numInputs := by rw [hrest]; simp [batchExp, hkl]
  rw [encVerify_verdict P c0 cts ψ vk _ un π (by omega) (by omega) (Or.inl h2)
    (by simp [saverKey, saverSecretOf, hcl]) (by simp [saverKey, saverSecretOf]; omega)
    (by simp [saverKey, saverSecretOf, hcl]), Option.some_inj, decide_eq_true_iff] at hacc
  have hc := hacc.1
  simp only [saverKey] at hc
  rw [sum_pair_smul, List.zipWith_comm, show c0 :: cts = batchExp g1 ((S.head :: S.body).map val) by
    rw [f0, f1]; simp [batchExp], batchExp, zipWith_smul_batch, f2, hone] at hc
  simp only [pair_smul] at hc
  have := mul_right_cancel₀ hκ (smul_left_injective F hne hc)
  rw [innerProduct_fin (n + 1) _ _ (by simp [saverSecretOf]) (by simp [hbody])] at this
  rw [← this]
  refine Finset.sum_congr rfl fun i _ => ?_
  have hi := i.2
  congr 1
  · have : (saverSecretOf z.1.2 z.2).t0 :: (saverSecretOf z.1.2 z.2).t = List.ofFn z.2 := by
      rw [List.ofFn_succ]; rfl
    rw [this, List.getD_eq_getElem _ _ (by rw [List.length_ofFn]; exact hi), List.getElem_ofFn]
  · rw [List.getD_eq_getElem _ _ (by simp [hbody]; omega), List.getElem_map]
    rfl

/-- a ciphertext whose coefficients agree with those of the tag is an encryption -/
theorem encryption_of_values (P : Pairing F G1 G2 GT) (g1 : G1) (vk : Groth16ExtVK G1 G2 GT) {n : Nat}
    (s : Fin n → F) (τ : Fin (n + 1) → F) (delta : F) (k : List F) (hrest : vk.gammaABC.rest = batchExp g1 k)
    (hd : vk.deltaG1 = delta • g1) (hn : n ≤ k.length) (m : List F) (hml : m.length = n) (r : F) (v0 vt : F)
    (vs : List F) (hvl : vs.length = n) (h0 : v0 = r * delta)
    (h1 : ∀ j : Fin n, vs.getD j 0 = m.getD j 0 * k.getD j 0 + r * s j * delta)
    (h2 : vt = ∑ j, encSlope (fun j : Fin n => m.getD j 0) r (fun j => k.getD j 0) delta s j * τ j) :
    v0 • g1 :: (vs.map (· • g1) ++ [vt • g1]) = saverEncrypt vk (saverKey P vk (saverSecretOf s τ)) m r := by
  rw [saverEncrypt, saverKey_deltaS P g1 vk s τ delta hd, saverKey_t P g1 vk s τ k hrest,
    saverKey_sum P g1 vk s τ delta hd]
  have e0 : v0 • g1 = r • (saverKey P vk (saverSecretOf s τ)).deltaG1 := by
    rw [h0, show (saverKey P vk (saverSecretOf s τ)).deltaG1 = vk.deltaG1 from rfl, hd, smul_smul]
  have e1 : vs.map (· • g1) = List.zipWith (· + ·) ((batchExp g1 (List.ofFn fun j => s j * delta)).map (r • ·))
      (List.zipWith (· • ·) m vk.gammaABC.rest) := by
    rw [hrest]
    refine List.ext_getElem (by simp [batchExp]; omega) fun j a b => ?_
    have hj : j < n := by simpa [hvl] using a
    have := h1 ⟨j, hj⟩
    rw [List.getD_eq_getElem _ _ (by simpa using a), List.getD_eq_getElem _ _ (by omega),
      List.getD_eq_getElem _ _ (by simp; omega)] at this
    simp only [List.getElem_map, List.getElem_zipWith, batchExp, List.getElem_ofFn, this, smul_smul, add_smul]
    rw [add_comm, mul_assoc]
  have e2 : vt • g1 = r • (((τ 0 + ∑ j, s j * τ j.succ) * delta) • g1) + (List.zipWith (· • ·) m
      (batchExp g1 (List.zipWith (· * ·) (List.ofFn fun j : Fin n => τ j.succ) k))).sum := by
    rw [List.zipWith_comm, batchExp, zipWith_smul_batch, sum_t m k τ hml hn, smul_smul, ← add_smul, h2, sum_slope]
    congr 1
    ring
  rw [e0, e1, e2]

/-- what follows at fixed `t, α, β, γ, δ, s` from acceptance for many `t_0, …, t_n` -/
theorem enc_slopes [Fintype F] (P : Pairing F G1 G2 GT) (hD : D.Lawful) (cs cs' : R1CS F)
    (hs : cs.swapABIfBeneficial = some cs') (hr' : cs'.WellRanged)
    (hm' : cs'.numConstraints + cs'.numInputs + 1 ≤ D.m) (chunks : Nat)
    (g1 : G1) (g2 : G2) (hne : P.e g1 g2 ≠ 0) (κ : F) (hκ : κ ≠ 0) (hone : P.one2 = κ • g2) {n : Nat}
    (S : EncStrategy F) (hbody : S.body.length = n) (un : List F) (hun : n + un.length = cs'.numInputs)
    (h2 : 2 ≤ un.length) (hlen : cs'.numInputs + 2 < 2 ^ 64) (ω : (F × (Fin 4 → F)) × (Fin n → F))
    (T : Finset (Fin (n + 1) → F)) (hcard : 2 * Fintype.card F ^ n < T.card)
    (hT : ∀ τ ∈ T, ∃ pk vk ct π, EncRun P D cs chunks g1 g2 S un (ω, τ) pk vk ct π) :
    ∃ q, cs'.qapEval D ω.1.1 = some q ∧
      (let fixed : EncCoeffs1 F → F := fun c => (c.base.at q cs'.numVariables cs'.numInputs).value (ω.1.2 0)
          (ω.1.2 1) (ω.1.2 2) (ω.1.2 3) + c.rest (ω.1.2 2) (ω.1.2 3) ω.2
       let slope : EncCoeffs1 F → Fin (n + 1) → F := fun c => encSlope (fun j : Fin n => c.tG1.getD j 0) c.deltaSum
          (fun j => kVal q (ω.1.2 0) (ω.1.2 1) (1 + j) * (ω.1.2 2)⁻¹) (ω.1.2 3) ω.2
       fixed S.tag = 0 ∧ (∀ i : Fin (n + 1), fixed ((S.head :: S.body).getD i S.head) = slope S.tag i) ∧
        SlopesCancel fun i : Fin (n + 1) => slope ((S.head :: S.body).getD i S.head)) := by
  obtain ⟨τ0, hτ0⟩ : T.Nonempty := Finset.card_pos.1 (by omega)
  obtain ⟨pk, vk, ct, π, hrun⟩ := hT τ0 hτ0
  obtain ⟨q, hq, -⟩ := enc_consistency P hD cs cs' hs hr' hm' chunks g1 g2 hne κ hκ hone S hbody un hun h2 hlen _
    pk vk ct π hrun
  refine ⟨q, hq, ?_⟩
  intro fixed slope
  obtain ⟨w0, up, v1, v2⟩ := quadratic_of_many n (fixed S.tag) (slope S.tag)
    (fun i => fixed ((S.head :: S.body).getD i S.head)) (fun i => slope ((S.head :: S.body).getD i S.head)) T
    (fun τ hτ => by
      obtain ⟨pk, vk, ct, π, hrun⟩ := hT τ hτ
      obtain ⟨q', hq', -, fx, val, hfx, hval, -, hsum⟩ := enc_consistency P hD cs cs' hs hr' hm' chunks g1 g2 hne κ hκ
        hone S hbody un hun h2 hlen _ pk vk ct π hrun
      obtain rfl : q = q' := Option.some.inj (hq.symm.trans hq')
      have hv : ∀ c, val c = fixed c + ∑ j, slope c j * τ j := fun c => by rw [hval, hfx]
      rw [← hv, ← hsum]
      refine Finset.sum_congr rfl fun i _ => ?_
      have hi : (i : Nat) < (S.head :: S.body).length := by have := i.2; simp [hbody]; omega
      rw [← hv, List.getD_eq_getElem _ _ hi]
      rfl) hcard
  exact ⟨w0, up, v1, v2⟩

/-- few secrets at which a strategy is accepted although its ciphertext is not the encryption, of the inputs and with
the randomness that the coefficients of the tag say -/
theorem enc_not_encryption_few [Fintype F] (P : Pairing F G1 G2 GT) (hD : D.Lawful) (cs cs' : R1CS F)
    (hs : cs.swapABIfBeneficial = some cs') (hr' : cs'.WellRanged)
    (hm' : cs'.numConstraints + cs'.numInputs + 1 ≤ D.m) (chunks : Nat)
    (g1 : G1) (g2 : G2) (hne : P.e g1 g2 ≠ 0) (κ : F) (hκ : κ ≠ 0) (hone : P.one2 = κ • g2) {n : Nat}
    (S : EncStrategy F) (hbody : S.body.length = n) (un : List F) (hun : n + un.length = cs'.numInputs)
    (h2 : 2 ≤ un.length) (hlen : cs'.numInputs + 2 < 2 ^ 64) (Z : Finset (EncSecrets F n))
    (hZ : ∀ z ∈ Z, ∃ pk vk ct π, EncRun P D cs chunks g1 g2 S un z pk vk ct π ∧
      ct ≠ saverEncrypt vk (saverKey P vk (saverSecretOf z.1.2 z.2)) S.tag.tG1 S.tag.deltaSum) :
    Z.card ≤ (D.m + 4) * Fintype.card F ^ (2 * n + 5) := by
  classical
  by_contra hcon
  set K := Fintype.card F with hK
  obtain ⟨good, hgood, hslice⟩ := many_slices Z ((D.m + 2) * K ^ (n + 4)) (2 * K ^ n) (by
    simp only [Fintype.card_prod, Fintype.card_fun, Fintype.card_fin, ← hK]
    calc _ = (D.m + 4) * K ^ (2 * n + 5) := by ring
      _ < _ := not_le.1 hcon)
  have hsl := fun ω hω => enc_slopes P hD cs cs' hs hr' hm' chunks g1 g2 hne κ hκ hone S hbody un hun h2 hlen ω _
    (hslice ω hω) fun τ hτ => by
      have hτ' : (ω, τ) ∈ Z := by simpa using hτ
      obtain ⟨pk, vk, ct, π, h, -⟩ := hZ _ hτ'
      exact ⟨pk, vk, ct, π, h⟩
  have hrunω : ∀ ω ∈ good, ∃ τ pk vk ct π, EncRun P D cs chunks g1 g2 S un (ω, τ) pk vk ct π ∧
      ct ≠ saverEncrypt vk (saverKey P vk (saverSecretOf ω.2 τ)) S.tag.tG1 S.tag.deltaSum := by
    intro ω hω
    obtain ⟨τ, hτ⟩ := Finset.card_pos.1 (lt_of_le_of_lt (Nat.zero_le _) (hslice ω hω))
    have hτ' : (ω, τ) ∈ Z := by simpa using hτ
    exact ⟨τ, hZ _ hτ'⟩
  obtain ⟨ω, hω⟩ : good.Nonempty := Finset.card_pos.1 (by omega)
  rcases slopes_relation (fun (i : Fin (n + 1)) (j : Fin n) => ((S.head :: S.body).getD i S.head).tG1.getD j 0)
    (fun i : Fin (n + 1) => ((S.head :: S.body).getD i S.head).deltaSum) with ⟨ha, hb⟩ | ⟨e, b, he, hrel⟩ | hno
  · obtain ⟨τ, pk, vk, ct, π, hrun, hct⟩ := hrunω ω hω
    refine hct ?_
    obtain ⟨q, hq, w0, up, -⟩ := hsl ω hω
    dsimp only at w0 up
    obtain ⟨q', hq', tl, fx, val, hfx, hval, rfl, -⟩ := enc_consistency P hD cs cs' hs hr' hm' chunks g1 g2 hne κ hκ
      hone S hbody un hun h2 hlen _ pk vk ct π hrun
    obtain rfl : q = q' := Option.some.inj (hq.symm.trans hq')
    obtain ⟨q', hq', -, d1, -, -, -, -, hrest, -⟩ := enc_keys P hD cs cs' hs hr' hm' chunks _ pk vk hrun.keys
    obtain rfl : q = q' := Option.some.inj (hq.symm.trans hq')
    simp only at hq d1 hrest hfx hval
    set k := (List.range' 1 cs'.numInputs).map fun i => kVal q (ω.1.2 0) (ω.1.2 1) i * (ω.1.2 2)⁻¹ with hkdef
    have hkl : k.length = cs'.numInputs := by simp [hkdef]
    have hkj : ∀ j : Fin n, k.getD j 0 = kVal q (ω.1.2 0) (ω.1.2 1) (1 + j) * (ω.1.2 2)⁻¹ := by
      intro j
      have := j.2
      rw [List.getD_eq_getElem _ _ (by omega)]
      simp [hkdef]
    have hflat : ∀ i : Fin (n + 1), val ((S.head :: S.body).getD i S.head) =
        encSlope (fun j : Fin n => S.tag.tG1.getD j 0) S.tag.deltaSum
          (fun j => kVal q (ω.1.2 0) (ω.1.2 1) (1 + j) * (ω.1.2 2)⁻¹) (ω.1.2 3) ω.2 i := by
      intro i
      rw [hval, hfx, ← up i]
      have : ∀ j, encSlope (fun j : Fin n => ((S.head :: S.body).getD i S.head).tG1.getD j 0)
          ((S.head :: S.body).getD i S.head).deltaSum
          (fun j => kVal q (ω.1.2 0) (ω.1.2 1) (1 + j) * (ω.1.2 2)⁻¹) (ω.1.2 3) ω.2 j = 0 := by
        intro j
        refine Fin.cases ?_ (fun j => ?_) j
        · simp only [encSlope, Fin.cons_zero, hb i, zero_mul]
        · simp only [encSlope, Fin.cons_succ, hb i, ha i j, zero_mul, add_zero]
      simp only [this, zero_mul, Finset.sum_const_zero, add_zero]
    have := encryption_of_values P g1 vk ω.2 τ (ω.1.2 3) k hrest d1 (by omega) S.tag.tG1 tl S.tag.deltaSum
      (val S.head) (val S.tag) (S.body.map val) (by simp [hbody]) (by simpa [encSlope] using hflat 0)
      (fun j => by
        have h := hflat j.succ
        have hj : (j : Nat) < S.body.length := by rw [hbody]; exact j.2
        rw [List.getD_eq_getElem _ _ (by simpa using hj), List.getElem_map, hkj]
        simp only [Fin.val_succ, List.getD_cons_succ, encSlope, Fin.cons_succ] at h
        rw [List.getD_eq_getElem _ _ hj] at h
        exact h)
      (by
        rw [hval, hfx, w0, zero_add]
        simp only [hkj])
    rw [← this]
    simp [List.map_map, Function.comp_def]
  · have hR := relation_few hD cs' hr' hm' n (by omega) e b he (good.image Prod.fst) (by
      intro tx htx
      obtain ⟨ω, hω, rfl⟩ := Finset.mem_image.1 htx
      obtain ⟨τ, pk, vk, ct, π, hrun, -⟩ := hrunω ω hω
      refine ⟨hrun.gamma, fun q hq => ?_⟩
      obtain ⟨q', hq', -, -, hc⟩ := hsl ω hω
      obtain rfl : q = q' := Option.some.inj (hq.symm.trans hq')
      exact hrel _ _ _ hrun.delta hc)
    have hsub : good ⊆ (good.image Prod.fst) ×ˢ Finset.univ := fun ω hω =>
      Finset.mem_product.2 ⟨Finset.mem_image_of_mem _ hω, Finset.mem_univ _⟩
    have := Finset.card_le_card hsub
    rw [Finset.card_product, Finset.card_univ, Fintype.card_fun, Fintype.card_fin, ← hK] at this
    rw [← hK] at hR
    have h3 : (good.image Prod.fst).card * K ^ n ≤ (D.m + 2) * K ^ 4 * K ^ n := Nat.mul_le_mul_right _ hR
    have h4 : (D.m + 2) * K ^ 4 * K ^ n = (D.m + 2) * K ^ (n + 4) := by ring
    omega
  · obtain ⟨τ, pk, vk, ct, π, hrun, -⟩ := hrunω ω hω
    obtain ⟨q, -, -, -, hc⟩ := hsl ω hω
    exact hno _ _ _ hrun.delta hc

/-- few secrets at which a strategy is accepted with an encryption of inputs for which it contains no witness -/
theorem enc_not_satisfied_few [Fintype F] (P : Pairing F G1 G2 GT) (hD : D.Lawful) (cs : R1CS F)
    (hr : cs.WellRanged) (hm : cs.numConstraints + cs.numInputs + 1 ≤ D.m) (chunks : Nat)
    (g1 : G1) (g2 : G2) (hne : P.e g1 g2 ≠ 0) (κ : F) (hone : P.one2 = κ • g2) {n : Nat}
    (S : EncStrategy F) (un m : List F) (r : F) (hml : m.length = n) (hun : n + un.length = cs.numInputs)
    (h2 : 2 ≤ un.length) (hlen : cs.numInputs + 2 < 2 ^ 64) (Z : Finset (EncSecrets F n))
    (hZ : ∀ z ∈ Z, ∃ pk vk ct π, EncRun P D cs chunks g1 g2 S un z pk vk ct π ∧
      ct = saverEncrypt vk (saverKey P vk (saverSecretOf z.1.2 z.2)) m r)
    (hcard : (2 * D.m + 4) * Fintype.card F ^ (2 * n + 5) < Z.card) :
    cs.isSatisfied (m ++ un) S.C.base.l = some true := by
  classical
  set K := Fintype.card F with hK
  obtain ⟨⟨s, τ⟩, -, hfib⟩ := Finset.exists_lt_card_fiber_of_mul_lt_card_of_maps_to
    (s := Z) (t := (Finset.univ : Finset ((Fin n → F) × (Fin (n + 1) → F)))) (f := fun z => (z.1.2, z.2))
    (n := (2 * D.m + 4) * K ^ 4) (fun _ _ => Finset.mem_univ _) (by
      simp only [Finset.card_univ, Fintype.card_prod, Fintype.card_fun, Fintype.card_fin, ← hK]
      calc _ = (2 * D.m + 4) * K ^ (2 * n + 5) := by ring
        _ < _ := hcard)
  set X := (Z.filter fun z => (z.1.2, z.2) = (s, τ)).image fun z => z.1.1 with hX
  have hXc : (2 * D.m + 4) * K ^ 4 < X.card := by
    rw [hX, Finset.card_image_of_injOn]
    · exact hfib
    · intro a ha b hb hab
      have ha := (Finset.mem_filter.1 ha).2
      have hb := (Finset.mem_filter.1 hb).2
      obtain ⟨⟨a1, a2⟩, a3⟩ := a
      obtain ⟨⟨b1, b2⟩, b3⟩ := b
      simp only [Prod.mk.injEq] at ha hb hab ⊢
      exact ⟨⟨hab, ha.1.trans hb.1.symm⟩, ha.2.trans hb.2.symm⟩
  have hXm : ∀ x ∈ X, ((x, s), τ) ∈ Z := by
    intro x hx
    obtain ⟨⟨⟨a1, a2⟩, a3⟩, ha, rfl⟩ := Finset.mem_image.1 hx
    obtain ⟨ha, he⟩ := Finset.mem_filter.1 ha
    simp only [Prod.mk.injEq] at he
    rw [← he.1, ← he.2]
    exact ha
  obtain ⟨cs', hcs'⟩ := C16_swap_defined cs hr
  obtain ⟨hp', hw', hr'⟩ := R1CS.swap_shape cs cs' hcs'
  obtain ⟨hsat', hni, hnv, hnc⟩ := C16_swap_preserves cs cs' hcs'
  have hm' : cs'.numConstraints + cs'.numInputs + 1 ≤ D.m := by rw [hnc, hni]; exact hm
  obtain ⟨good, hgood, hslice⟩ := many_slices X (2 * D.m) (4 * K ^ 3) (by
    rw [Fintype.card_fun, Fintype.card_fin, ← hK]
    calc _ = (2 * D.m + 4) * K ^ 4 := by ring
      _ < _ := hXc)
  have hpl : (m ++ un).length = cs'.primaryInputSize := by
    rw [List.length_append, hml, hun, ← hni]; rfl
  have := C18_qap_sound hD cs' (hr' hr) hm'
    ⟨cs'.numVariables, D.m, cs'.numInputs, 0, 0, 0, (m ++ un) ++ S.C.base.l, S.C.base.h ++ [0, 0]⟩ good hgood
    fun t ht => enc_point P hD cs cs' hcs' (hr' hr) hm' chunks g1 g2 hne (m ++ un) hpl
      (S.A.gamma - S.A.gammaInverse * (1 + ∑ j, s j))
      (S.C.gamma - S.C.gammaInverse * (1 + ∑ j, s j) + r * (1 + ∑ j, s j))
      (S.A.collapse cs'.numInputs s τ) (S.C.collapse cs'.numInputs s τ) (S.B.collapse κ τ) t _ (hslice t ht)
      fun x hx => by
        obtain ⟨pk, vk, ct, π, hrun, hct⟩ := hZ _ (hXm _ (Finset.mem_filter.1 hx).2)
        obtain ⟨hγ, hδ, hkeys, -, hpi, hacc⟩ := hrun
        obtain ⟨q, hq, hgen, d1, d2, g1', g2', d2', hrest, -⟩ :=
          enc_keys P hD cs cs' hcs' (hr' hr) hm' chunks _ pk vk hkeys
        simp only at hγ hδ hgen d1 d2 g1' g2' d2' hrest hpi hacc hct
        set k := (List.range' 1 cs'.numInputs).map fun i => kVal q (x 0) (x 1) i * (x 2)⁻¹ with hkdef
        have hkl : k.length = cs'.numInputs := by simp [hkdef]
        have hnk : n ≤ k.length := by omega
        have hrl : vk.gammaABC.rest.length = cs'.numInputs := by rw [hrest]; simp [batchExp, hkl]
        simp only [EncStrategy.prove, Option.bind_eq_bind, Option.bind_eq_some_iff, Option.pure_def,
          Option.some.injEq] at hpi
        obtain ⟨gA, hA, gB, hB, gC, hC, rfl⟩ := hpi
        obtain ⟨a0, hA0, rfl⟩ := EncCoeffs1.collapse_combine P S.A g1 pk vk s τ _ _ k hrest d1 d2 g1' hnk gA hA
        obtain ⟨c0, hC0, rfl⟩ := EncCoeffs1.collapse_combine P S.C g1 pk vk s τ _ _ k hrest d1 d2 g1' hnk gC hC
        have hB0 := EncCoeffs2.collapse_combine P S.B g2 pk vk s τ κ hone gB hB
        rw [hkl] at hA0 hC0
        refine ⟨hγ, hδ, pk, vk.toGroth16VK, a0, gB, c0, hgen, hA0, hB0, hC0, ?_⟩
        rw [hct, saverEncrypt] at hacc
        have hdec := saver_decrypts P vk (saverSecretOf s τ) m (by simp [saverSecretOf, hml]) (by omega) r
        have hbl : (List.zipWith (· + ·) (((saverSecretOf s τ).s.map (· • vk.deltaG1)).map (r • ·))
            (List.zipWith (· • ·) m vk.gammaABC.rest)).length = n := by
          simp [saverSecretOf, hml]; omega
        have heq := ((C72_accepted_iff P vk (saverSecretOf s τ) (x 2) (x 3) g2 hδ g2' d2' _ _ _ m un _ (by omega)
          (by rw [hbl]; simp [saverSecretOf]) (by rw [hbl]; simp [saverSecretOf]) (by rw [hbl, hml])
          (by rw [hbl]; omega) h2 hdec).1 hacc).2
        have hmask : (x 2 * (x 3)⁻¹ * (1 + (saverSecretOf s τ).s.sum)) • (r • vk.deltaG1) =
            (r * (1 + ∑ j, s j) * x 2) • g1 := by
          have hsum : (saverSecretOf s τ).s.sum = ∑ j, s j := by simp only [saverSecretOf, List.sum_ofFn]
          rw [d1, smul_smul, smul_smul, hsum]
          refine congrArg (fun a => a • g1) ?_
          calc _ = r * (1 + ∑ j, s j) * x 2 * ((x 3)⁻¹ * x 3) := by ring
            _ = _ := by rw [inv_mul_cancel₀ hδ, mul_one]
        rw [hmask, add_assoc, ← add_smul, ← add_mul] at heq
        exact heq
  rw [hsat', ← hpl, List.take_left', List.drop_left'] at this
  · exact this
  · rfl
  · rfl

end Crypto3Zk
