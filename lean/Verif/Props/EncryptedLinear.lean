import Verif.Lemmas.EncryptedCount

/-!
# C109: what a prover with encrypted inputs knows
-/

set_option linter.unusedSectionVars false

namespace Crypto3Zk

open Finset

variable {F : Type} [Field F] [DecidableEq F] {D : EvalDomain F}
variable {G1 G2 GT : Type} [AddCommGroup G1] [Module F G1] [AddCommGroup G2] [Module F G2]
  [AddCommGroup GT] [Module F GT] [DecidableEq GT]

/-- **C109** (partial: for provers that compute with group elements). The prover sees all three keys, and chooses the
coefficients of the ciphertext and of the proof, and the clear inputs, as it likes. Whenever the verifier accepts, the
ciphertext is the encryption of inputs `m` with randomness `r`, both of which stand in the prover's coefficients, and
these coefficients also contain a witness for `m` followed by the clear inputs; or else the secrets of the two key
generations are in a set that is known from the coefficients and the clear inputs alone and that has no more than
`3m + 8` of every `|F|` secrets. Missing: provers that do not compute with group elements. -/
theorem C109_knowledge_partial [Fintype F] (P : Pairing F G1 G2 GT) (hD : D.Lawful) (cs : R1CS F)
    (hr : cs.WellRanged) (hm : cs.numConstraints + cs.numInputs + 1 ≤ D.m) (chunks : Nat)
    (g1 : G1) (g2 : G2) (hne : P.e g1 g2 ≠ 0) (κ : F) (hκ : κ ≠ 0) (hone : P.one2 = κ • g2) (n : Nat)
    (hlen : cs.numInputs + 2 < 2 ^ 64) :
    ∃ bad : EncStrategy F → List F → Finset (((F × (Fin 4 → F)) × (Fin n → F)) × (Fin (n + 1) → F)),
      (∀ S un, (bad S un).card ≤ (3 * D.m + 8) * Fintype.card F ^ (2 * n + 5)) ∧
      ∀ (t alpha beta gamma delta : F) (s : Fin n → F) (τ : Fin (n + 1) → F) pk vk S un ct π,
        gamma ≠ 0 → delta ≠ 0 → S.body.length = n → n + un.length = cs.primaryInputSize → 2 ≤ un.length →
        groth16GenerateExtended P D cs { t := t, alpha := alpha, beta := beta, gamma := gamma, delta := delta,
                                         g1 := g1, g2 := g2 } chunks = some (pk, vk) →
        S.ciphertext g1 pk vk (saverKey P vk (saverSecretOf s τ)) = some ct →
        S.prove g1 g2 pk vk (saverKey P vk (saverSecretOf s τ)) = some π →
        encVerify P ct vk (saverKey P vk (saverSecretOf s τ)) un π = some true →
        (ct = saverEncrypt vk (saverKey P vk (saverSecretOf s τ)) S.tag.tG1 S.tag.deltaSum ∧
          cs.isSatisfied (S.tag.tG1 ++ un) S.C.base.l = some true) ∨
        (((t, ![alpha, beta, gamma, delta]), s), τ) ∈ bad S un := by
  classical
  obtain ⟨cs', hcs'⟩ := C16_swap_defined cs hr
  obtain ⟨hp', hw', hr'⟩ := R1CS.swap_shape cs cs' hcs'
  obtain ⟨hsat', hni, hnv, hnc⟩ := C16_swap_preserves cs cs' hcs'
  have hm' : cs'.numConstraints + cs'.numInputs + 1 ≤ D.m := by rw [hnc, hni]; exact hm
  have hlen' : cs'.numInputs + 2 < 2 ^ 64 := by rw [hni]; exact hlen
  let bad1 : EncStrategy F → List F → Finset (EncSecrets F n) := fun S un => Finset.univ.filter fun z =>
    (S.body.length = n ∧ n + un.length = cs'.numInputs ∧ 2 ≤ un.length) ∧
    ∃ pk vk ct π, EncRun P D cs chunks g1 g2 S un z pk vk ct π ∧
      ct ≠ saverEncrypt vk (saverKey P vk (saverSecretOf z.1.2 z.2)) S.tag.tG1 S.tag.deltaSum
  let bad2 : EncStrategy F → List F → Finset (EncSecrets F n) := fun S un => Finset.univ.filter fun z =>
    (S.tag.tG1.length = n ∧ n + un.length = cs.numInputs ∧ 2 ≤ un.length ∧
      cs.isSatisfied (S.tag.tG1 ++ un) S.C.base.l ≠ some true) ∧
    ∃ pk vk ct π, EncRun P D cs chunks g1 g2 S un z pk vk ct π ∧
      ct = saverEncrypt vk (saverKey P vk (saverSecretOf z.1.2 z.2)) S.tag.tG1 S.tag.deltaSum
  refine ⟨fun S un => bad1 S un ∪ bad2 S un, fun S un => ?_, ?_⟩
  · have c1 : (bad1 S un).card ≤ (D.m + 4) * Fintype.card F ^ (2 * n + 5) := by
      by_cases h : S.body.length = n ∧ n + un.length = cs'.numInputs ∧ 2 ≤ un.length
      · exact enc_not_encryption_few P hD cs cs' hcs' (hr' hr) hm' chunks g1 g2 hne κ hκ hone S h.1 un h.2.1 h.2.2
          hlen' _ fun z hz => (Finset.mem_filter.1 hz).2.2
      · exact le_trans (le_of_eq (Finset.card_eq_zero.2 (Finset.filter_eq_empty_iff.2
          fun z _ hz => h hz.1))) (Nat.zero_le _)
    have c2 : (bad2 S un).card ≤ (2 * D.m + 4) * Fintype.card F ^ (2 * n + 5) := by
      by_cases h : S.tag.tG1.length = n ∧ n + un.length = cs.numInputs ∧ 2 ≤ un.length ∧
          cs.isSatisfied (S.tag.tG1 ++ un) S.C.base.l ≠ some true
      · by_contra hcon
        exact h.2.2.2 (enc_not_satisfied_few P hD cs hr hm chunks g1 g2 hne κ hone S un _ _ h.1 h.2.1 h.2.2.1 hlen _
          (fun z hz => (Finset.mem_filter.1 hz).2.2) (not_le.1 hcon))
      · exact le_trans (le_of_eq (Finset.card_eq_zero.2 (Finset.filter_eq_empty_iff.2
          fun z _ hz => h hz.1))) (Nat.zero_le _)
    calc _ ≤ (bad1 S un).card + (bad2 S un).card := Finset.card_union_le _ _
      _ ≤ (D.m + 4) * Fintype.card F ^ (2 * n + 5) + (2 * D.m + 4) * Fintype.card F ^ (2 * n + 5) :=
        Nat.add_le_add c1 c2
      _ = _ := by ring
  · intro t alpha beta gamma delta s τ pk vk S un ct π h2 h3 hb hun hun2 hk hct hpi hv
    have hun' : n + un.length = cs'.numInputs := by rw [hun, hni]; rfl
    have hrun : EncRun P D cs chunks g1 g2 S un (((t, ![alpha, beta, gamma, delta]), s), τ) pk vk ct π :=
      ⟨h2, h3, hk, hct, hpi, hv⟩
    obtain ⟨-, -, tl, -⟩ := enc_consistency P hD cs cs' hcs' (hr' hr) hm' chunks g1 g2 hne κ hκ hone S hb un hun'
      hun2 hlen' _ pk vk ct π hrun
    by_cases he : ct = saverEncrypt vk (saverKey P vk (saverSecretOf s τ)) S.tag.tG1 S.tag.deltaSum
    · by_cases hs : cs.isSatisfied (S.tag.tG1 ++ un) S.C.base.l = some true
      · exact .inl ⟨he, hs⟩
      · exact .inr (Finset.mem_union_right _ (Finset.mem_filter.2 ⟨Finset.mem_univ _, ⟨tl, hun, hun2, hs⟩,
          pk, vk, ct, π, hrun, he⟩))
    · exact .inr (Finset.mem_union_left _ (Finset.mem_filter.2 ⟨Finset.mem_univ _, ⟨hb, hun', hun2⟩,
        pk, vk, ct, π, hrun, he⟩))

/-- coefficients for `delta_g1` and the input elements only -/
def plainCoeffs (d : F) (inputs : List F) (aux m : Nat) : Groth16Coeffs1 F where
  one := 0
  alpha := 0
  beta := 0
  delta := d
  a := List.replicate (inputs.length + aux + 1) 0
  b := List.replicate (inputs.length + aux + 1) 0
  h := List.replicate (m - 1) 0
  l := List.replicate aux 0
  input0 := 0
  inputs := inputs

/-- coefficients of an element of a proof, which do not involve the public key of the encryption scheme except for
`gamma_inverse_sum_s_g1` -/
def proofCoeffs (c : Groth16Coeffs1 F) (n : Nat) (mask : F) : EncCoeffs1 F :=
  ⟨c, 0, List.replicate n 0, List.replicate n 0, 0, mask⟩

/-- the coefficients of the honest prover, who encrypts `e` with randomness `r` and proves with `r'`, `s'` -/
def honestEnc (e un w H : List F) (r r' s' : F) (m : Nat) : EncStrategy F where
  head := proofCoeffs (plainCoeffs r (List.replicate (e ++ un).length 0) w.length m) e.length 0
  body := (List.range e.length).map fun i =>
    ⟨plainCoeffs 0 ((List.replicate (e ++ un).length 0).set i (e.getD i 0)) w.length m, 0,
      (List.replicate e.length 0).set i r, List.replicate e.length 0, 0, 0⟩
  tag := ⟨plainCoeffs 0 (List.replicate (e ++ un).length 0) w.length m, 0, List.replicate e.length 0, e, r, 0⟩
  A := proofCoeffs (honestA (e ++ un) w r' m) e.length 0
  B := ⟨honestB (e ++ un) w s', List.replicate (e.length + 1) 0⟩
  C := proofCoeffs (honestC (e ++ un) w H r' s' m) e.length r

theorem multiexp_single {G : Type} [AddCommGroup G] [Module F G] (gs : List G) (n i : Nat) (c : F)
    (h : gs.length = n) (hi : i < n) :
    multiexp gs ((List.replicate n (0 : F)).set i c) = some (c • gs[i]'(h ▸ hi)) := by
  subst h
  rw [multiexp, if_pos (by simp)]
  congr 1
  induction gs generalizing i with
  | nil => simp at hi
  | cons g gs ih =>
    have z : ∀ gs : List G, (List.zipWith (fun g x => x • g) gs (List.replicate gs.length (0 : F))).sum = 0 := by
      intro gs
      induction gs with
      | nil => rfl
      | cons g gs ih => simp [List.replicate_succ, ih]
    cases i with
    | zero => simp [List.replicate_succ, z]
    | succ i =>
      have := ih i (by simpa using hi)
      simp [List.replicate_succ, this]

theorem plainCoeffs_combine (P : Pairing F G1 G2 GT) (hD : D.Lawful) (cs : R1CS F)
    (hr : cs.WellRanged) (hm : cs.numConstraints + cs.numInputs + 1 ≤ D.m) (chunks : Nat)
    (T : Groth16Trapdoor F G1 G2) (pk : Groth16PK F G1 G2) (vk : Groth16VK G1 G2 GT)
    (hgen : groth16Generate P D cs T chunks = some (pk, vk)) (d : F) (inputs : List F) (g : G1)
    (hg : multiexp vk.gammaABC.rest inputs = some g) :
    vk.gammaABC.rest.length = cs.primaryInputSize ∧
    (plainCoeffs d inputs cs.auxiliaryInputSize D.m).combine T.g1 pk vk = some (d • pk.deltaG1 + g) := by
  obtain ⟨cs', hcs'⟩ := C16_swap_defined cs hr
  obtain ⟨hp', hw', hr'⟩ := R1CS.swap_shape cs cs' hcs'
  obtain ⟨hsat', hni, hnv, hnc⟩ := C16_swap_preserves cs cs' hcs'
  have hm' : cs'.numConstraints + cs'.numInputs + 1 ≤ D.m := by rw [hnc, hni]; exact hm
  obtain ⟨qi, q, -, hq, -, n1, n2, n3, n4, lA, lB, lC, eH, eZ, dA, dB, dC⟩ :=
    R1CS.qapEval_spec hD cs' (hr' hr) hm' T.t
  have hle : cs'.numInputs ≤ cs'.numVariables := by simp [R1CS.numInputs, R1CS.numVariables]
  rw [groth16Generate_eq P D cs cs' T chunks hcs' q hq _ _ n1 n3 hle lA lB lC] at hgen
  simp only [Option.some.injEq, Prod.mk.injEq] at hgen
  obtain ⟨rfl, rfl⟩ := hgen
  have hil := multiexp_length hg
  simp only [batchExp, List.length_map, List.length_range'] at hil
  have hm0 : 0 < D.m := by omega
  have lHt : (q.Ht.take (q.Ht.length - 2)).length = D.m - 1 := by
    rw [eH]; simp [length_powersFrom]; omega
  have hnvv : inputs.length + cs.auxiliaryInputSize = cs'.numVariables := by
    rw [← hil, ← hw']; rfl
  have z0 := multiexp_zeros (F := F) (batchExp T.g1 q.At) (inputs.length + cs.auxiliaryInputSize + 1)
    (by simp [batchExp, lA, hnvv])
  have zb : kcCombine (⟨q.Bt.length, (List.range q.Bt.length).flatMap (kcEntry T.g2 T.g1 1 1 q.Bt)⟩ :
      KcVec (G2 × G1)) (List.replicate (inputs.length + cs.auxiliaryInputSize + 1) (0 : F)) = some (0, 0) := by
    rw [kcCombine, if_pos (by simp [lB, hnvv])]
    have := kcMultiexp_all T.g2 T.g1 q.Bt (List.replicate (inputs.length + cs.auxiliaryInputSize + 1) (0 : F))
      (by simp [lB, hnvv])
    rw [innerProduct_zeros, zero_smul, zero_smul] at this
    exact this
  have z1 := multiexp_zeros (F := F) (batchExpWithCoeff T.g1 (q.Zt * T.delta⁻¹) (q.Ht.take (q.Ht.length - 2)))
    (D.m - 1) (by rw [batchExpWithCoeff, List.length_map, lHt])
  have z2 := multiexp_zeros (F := F) (batchExp T.g1 ((List.range (cs'.numVariables - cs'.numInputs)).map fun i =>
          kVal q T.alpha T.beta (cs'.numInputs + 1 + i) * T.delta⁻¹)) cs.auxiliaryInputSize
    (by simp [batchExp, ← hw', R1CS.numVariables, R1CS.numInputs])
  refine ⟨by simp only [batchExp, List.length_map, List.length_range']; rw [hni]; rfl, ?_⟩
  simp only [Groth16Coeffs1.combine, plainCoeffs, z0, zb, z1, z2, hg, Option.bind_eq_bind, Option.bind_some,
    Option.pure_def]
  congr 1
  module

/-- **C109** (the honest prover is such a prover): fixed coefficients give the honest ciphertext and proof under all
keys, and what `C109_knowledge_partial` reads from them are the encrypted inputs, the randomness and the witness. -/
theorem C109_honest_prover (P : Pairing F G1 G2 GT) (hD : D.Lawful) (cs : R1CS F)
    (hr : cs.WellRanged) (hm : cs.numConstraints + cs.numInputs + 1 ≤ D.m) (chunks : Nat)
    (e un w : List F) (hp : (e ++ un).length = cs.primaryInputSize) (hw : w.length = cs.auxiliaryInputSize)
    (hsat : cs.isSatisfied (e ++ un) w = some true) :
    ∃ H : List F, ∀ (T : Groth16Trapdoor F G1 G2) pk (vk : Groth16ExtVK G1 G2 GT) (s : Fin e.length → F)
        (τ : Fin (e.length + 1) → F) r r' s' π,
      groth16GenerateExtended P D cs T chunks = some (pk, vk) →
      encProve D pk (saverKey P vk (saverSecretOf s τ)) (e ++ un) w r r' s' = some π →
      let S := honestEnc e un w H r r' s' D.m
      S.ciphertext T.g1 pk vk (saverKey P vk (saverSecretOf s τ)) =
        some (saverEncrypt vk (saverKey P vk (saverSecretOf s τ)) e r) ∧
      S.prove T.g1 T.g2 pk vk (saverKey P vk (saverSecretOf s τ)) = some π ∧
      S.body.length = e.length ∧ S.tag.tG1 = e ∧ S.tag.deltaSum = r ∧ S.C.base.l = w := by
  obtain ⟨H, hH⟩ := C88_honest_prover_is_linear P hD cs hr hm chunks (e ++ un) w hp hw hsat
  refine ⟨H, fun T pk vk s τ r r' s' π hk hprove => ?_⟩
  simp only [groth16GenerateExtended, Option.bind_eq_bind, Option.bind_eq_some_iff, Option.pure_def,
    Option.some.injEq, Prod.mk.injEq] at hk
  obtain ⟨⟨pk', vk'⟩, hgen, rfl, rfl⟩ := hk
  simp only [encProve, Option.bind_eq_bind, Option.bind_eq_some_iff, Option.pure_def, Option.some.injEq] at hprove
  obtain ⟨π0, h0, rfl⟩ := hprove
  obtain ⟨hA, hB, hC⟩ := hH T pk' vk' r' s' π0 hgen h0
  set xvk : Groth16ExtVK G1 G2 GT := { vk' with deltaG1 := pk'.deltaG1, gammaG1 := T.gamma • T.g1 } with hx
  set pub := saverKey P xvk (saverSecretOf s τ) with hpub
  have hrl : vk'.gammaABC.rest.length = (e ++ un).length := by
    simp only [Groth16Coeffs1.combine, Option.bind_eq_bind, Option.bind_eq_some_iff] at hA
    obtain ⟨_, -, _, -, _, -, _, -, _, hi, -⟩ := hA
    simpa [honestA] using multiexp_length hi
  have l1 : pub.deltaSG1.length = e.length := by simp [hpub, saverKey, saverSecretOf]
  have l2 : pub.tG1.length = e.length := by
    simp only [hpub, saverKey, saverSecretOf, List.length_zipWith, List.length_ofFn, hx, hrl, List.length_append]
    omega
  have l3 : pub.tG2.length = e.length + 1 := by simp [hpub, saverKey, saverSecretOf]
  have zs := multiexp_zeros (F := F) pub.deltaSG1 e.length l1
  have zt := multiexp_zeros (F := F) pub.tG1 e.length l2
  have zi := multiexp_zeros (F := F) vk'.gammaABC.rest (e ++ un).length hrl
  have hplain := fun d inputs g hg =>
    (plainCoeffs_combine P hD cs hr hm chunks T pk' vk' hgen d inputs g hg).2
  have hbase : ∀ (c : Groth16Coeffs1 F) g mask, c.combine T.g1 pk' vk' = some g →
      (proofCoeffs c e.length mask).combine T.g1 pk' xvk pub = some (g + mask • pub.gammaInverseSumSG1) := by
    intro c g mask h
    simp only [EncCoeffs1.combine, proofCoeffs, hx, h, zs, zt, Option.bind_eq_bind, Option.bind_some, Option.pure_def]
    congr 1
    module
  refine ⟨?_, ?_, by simp [honestEnc], rfl, rfl, rfl⟩
  · have eh : (honestEnc e un w H r r' s' D.m).head.combine T.g1 pk' xvk pub = some (r • pub.deltaG1) := by
      have := hbase _ _ 0 (hplain r _ _ zi)
      rw [← hw] at this
      simp only [honestEnc, this, zero_smul, add_zero]
      rfl
    have et : (honestEnc e un w H r r' s' D.m).tag.combine T.g1 pk' xvk pub =
        some (r • pub.deltaSumSG1 + (List.zipWith (· • ·) e pub.tG1).sum) := by
      have hb := hplain 0 _ _ zi
      rw [← hw] at hb
      have ht : multiexp pub.tG1 e = some (List.zipWith (· • ·) e pub.tG1).sum := by
        rw [multiexp, if_pos l2, List.zipWith_comm]
      simp only [EncCoeffs1.combine, honestEnc, hx, hb, zs, ht, Option.bind_eq_bind, Option.bind_some,
        Option.pure_def]
      congr 1
      module
    have eb : (honestEnc e un w H r r' s' D.m).body.mapM (fun c => c.combine T.g1 pk' xvk pub) =
        some (List.zipWith (· + ·) (pub.deltaSG1.map (r • ·)) (List.zipWith (· • ·) e xvk.gammaABC.rest)) := by
      have hl : (List.zipWith (· + ·) (pub.deltaSG1.map (r • ·))
          (List.zipWith (· • ·) e xvk.gammaABC.rest)).length = e.length := by
        simp only [List.length_zipWith, List.length_map, l1, hx, hrl, List.length_append]; omega
      have key : ∀ i (hi : i < e.length), (⟨plainCoeffs 0 ((List.replicate (e ++ un).length 0).set i (e.getD i 0))
          w.length D.m, 0, (List.replicate e.length 0).set i r, List.replicate e.length 0, 0, 0⟩ :
            EncCoeffs1 F).combine T.g1 pk' xvk pub =
          some ((List.zipWith (· + ·) (pub.deltaSG1.map (r • ·))
            (List.zipWith (· • ·) e xvk.gammaABC.rest))[i]'(by rw [hl]; exact hi)) := by
        intro i hi
        have hie : i < (e ++ un).length := by rw [List.length_append]; omega
        have hb := hplain 0 _ _ (multiexp_single vk'.gammaABC.rest (e ++ un).length i (e.getD i 0) hrl hie)
        rw [← hw] at hb
        have hs := multiexp_single pub.deltaSG1 e.length i r l1 hi
        simp only [EncCoeffs1.combine, hx, hb, hs, zt, Option.bind_eq_bind, Option.bind_some, Option.pure_def,
          List.getElem_zipWith, List.getElem_map]
        rw [List.getD_eq_getElem _ _ hi]
        refine congrArg some ?_
        module
      rw [show (honestEnc e un w H r r' s' D.m).body = (List.range e.length).map fun i =>
        ⟨plainCoeffs 0 ((List.replicate (e ++ un).length 0).set i (e.getD i 0)) w.length D.m, 0,
          (List.replicate e.length 0).set i r, List.replicate e.length 0, 0, 0⟩ from rfl, List.mapM_map]
      have hgo : ∀ (l : List Nat) (ys : List G1) (f : Nat → Option G1), l.length = ys.length →
          (∀ i (h : i < l.length) (h' : i < ys.length), f l[i] = some ys[i]) → l.mapM f = some ys := by
        intro l
        induction l with
        | nil => intro ys f hl _; cases ys with | nil => rfl | cons _ _ => simp at hl
        | cons a l ih =>
          intro ys f hl h
          cases ys with
          | nil => simp at hl
          | cons y ys =>
            have ha := h 0 (by simp) (by simp)
            have := ih ys f (by simpa using hl) fun i h1 h2 => by
              have := h (i + 1) (by simp only [List.length_cons]; omega) (by simp only [List.length_cons]; omega)
              simpa only [List.getElem_cons_succ] using this
            simp only [List.getElem_cons_zero] at ha
            simp [List.mapM_cons, ha, this]
      refine hgo _ _ _ (by rw [hl, List.length_range]) fun i h1 h2 => ?_
      simp only [List.getElem_range, Function.comp_apply]
      exact key i (by rw [← hl]; exact h2)
    simp only [EncStrategy.ciphertext, List.mapM_cons, List.mapM_append, List.mapM_nil, eh, eb, et,
      Option.bind_eq_bind, Option.bind_some, Option.pure_def, saverEncrypt]
  · have eA := hbase _ _ 0 hA
    have eC := hbase _ _ r hC
    have eB : (honestEnc e un w H r r' s' D.m).B.combine T.g2 pk' xvk pub = some π0.gB := by
      have zz := multiexp_zeros (F := F) pub.tG2 (e.length + 1) l3
      simp only [EncCoeffs2.combine, honestEnc, hx, hB, zz, Option.bind_eq_bind, Option.bind_some, Option.pure_def,
        add_zero]
    simp only [EncStrategy.prove, eB, Option.bind_eq_bind]
    simp only [honestEnc, eA, eC, Option.bind_some, Option.pure_def, zero_smul, add_zero]
    rw [add_comm]

/-- **C109** (partial), statements that are false: if no encrypted inputs and no witness go with the clear inputs, a
strategy is accepted for no more than `3m + 8` of every `|F|` secrets. -/
theorem C109_false_statements_rejected_partial [Fintype F] (P : Pairing F G1 G2 GT) (hD : D.Lawful) (cs : R1CS F)
    (hr : cs.WellRanged) (hm : cs.numConstraints + cs.numInputs + 1 ≤ D.m) (chunks : Nat)
    (g1 : G1) (g2 : G2) (hne : P.e g1 g2 ≠ 0) (κ : F) (hκ : κ ≠ 0) (hone : P.one2 = κ • g2) (n : Nat)
    (hlen : cs.numInputs + 2 < 2 ^ 64) (S : EncStrategy F) (hS : S.body.length = n) (un : List F)
    (hun : n + un.length = cs.primaryInputSize) (h2 : 2 ≤ un.length)
    (hfalse : ∀ m w, cs.isSatisfied (m ++ un) w ≠ some true)
    (accepting : Finset (((F × (Fin 4 → F)) × (Fin n → F)) × (Fin (n + 1) → F)))
    (hacc : ∀ z ∈ accepting, z.1.1.2 2 ≠ 0 ∧ z.1.1.2 3 ≠ 0 ∧ ∃ pk vk ct π,
      groth16GenerateExtended P D cs { t := z.1.1.1, alpha := z.1.1.2 0, beta := z.1.1.2 1, gamma := z.1.1.2 2,
                                       delta := z.1.1.2 3, g1 := g1, g2 := g2 } chunks = some (pk, vk) ∧
      S.ciphertext g1 pk vk (saverKey P vk (saverSecretOf z.1.2 z.2)) = some ct ∧
      S.prove g1 g2 pk vk (saverKey P vk (saverSecretOf z.1.2 z.2)) = some π ∧
      encVerify P ct vk (saverKey P vk (saverSecretOf z.1.2 z.2)) un π = some true) :
    accepting.card ≤ (3 * D.m + 8) * Fintype.card F ^ (2 * n + 5) := by
  obtain ⟨bad, hbad, h⟩ := C109_knowledge_partial P hD cs hr hm chunks g1 g2 hne κ hκ hone n hlen
  refine le_trans (Finset.card_le_card fun z hz => ?_) (hbad S un)
  obtain ⟨hγ, hδ, pk, vk, ct, π, hk, hct, hpi, hv⟩ := hacc z hz
  have hx : ![z.1.1.2 0, z.1.1.2 1, z.1.1.2 2, z.1.1.2 3] = z.1.1.2 := by
    funext i; fin_cases i <;> rfl
  have := (h _ _ _ _ _ _ _ pk vk S un ct π hγ hδ hS hun h2 hk hct hpi hv).resolve_left fun c => hfalse _ _ c.2
  rw [hx] at this
  exact this

section Examples

theorem exEncDom97 : (EvalDomain.ofPoints 5 (fun i => ((i + 1 : Nat) : ZMod 97)) 10).Lawful := by
  apply EvalDomain.ofPoints_lawful
  · decide
  · decide
  · decide

/-- `x₄ · x₄ = x₁ + x₂ + x₃` with `x₁, x₂, x₃` public -/
def exEncRoot97 : R1CS (ZMod 97) := ⟨3, 1, [⟨[⟨4, 1⟩], [⟨4, 1⟩], [⟨1, 1⟩, ⟨2, 1⟩, ⟨3, 1⟩]⟩]⟩

theorem exEncRoot97_ok : exEncRoot97.WellRanged := by
  intro k hk
  simp only [exEncRoot97, List.mem_singleton] at hk
  subst hk
  refine ⟨?_, ?_, ?_⟩ <;> · intro t ht; simp at ht; rcases ht with rfl | rfl | rfl <;> decide

set_option maxRecDepth 20000 in
/-- the hypotheses of `C109_knowledge_partial` are met, by one strategy at all secrets with invertible γ and δ: the
honest prover for `3 · 3 = 2 + 3 + 4` with the first input encrypted. The bound, `23` of every `97` secrets, is far
below that. -/
example : ∃ S : EncStrategy (ZMod 97), S.body.length = 1 ∧ S.tag.tG1 = [2] ∧ S.C.base.l = [3] ∧
    ∀ (t alpha beta gamma delta : ZMod 97) (s : Fin 1 → ZMod 97) (τ : Fin 2 → ZMod 97), gamma ≠ 0 → delta ≠ 0 →
      ∃ pk vk ct π, groth16GenerateExtended exPairing97
          (EvalDomain.ofPoints 5 (fun i => ((i + 1 : Nat) : ZMod 97)) 10) exEncRoot97
          ⟨t, alpha, beta, gamma, delta, 1, 1⟩ 3 = some (pk, vk) ∧
        S.ciphertext 1 pk vk (saverKey exPairing97 vk (saverSecretOf s τ)) = some ct ∧
        S.prove 1 1 pk vk (saverKey exPairing97 vk (saverSecretOf s τ)) = some π ∧
        encVerify exPairing97 ct vk (saverKey exPairing97 vk (saverSecretOf s τ)) [3, 4] π = some true := by
  obtain ⟨H, hH⟩ := C109_honest_prover exPairing97 exEncDom97 exEncRoot97 exEncRoot97_ok (by decide) 3 [2] [3, 4] [3]
    rfl rfl (by decide +kernel)
  refine ⟨honestEnc [2] [3, 4] [3] H 7 5 6 5, rfl, rfl, rfl, fun t alpha beta gamma delta s τ hγ hδ => ?_⟩
  obtain ⟨pk, vk, π, hk, hpr, hv⟩ := C71_encrypted_complete exPairing97 exEncDom97 exEncRoot97 exEncRoot97_ok
    (by decide) ⟨t, alpha, beta, gamma, delta, 1, 1⟩ hγ hδ 3 (fun _ => rfl) (fun _ => rfl) [2] [3, 4] [3] rfl rfl
    (by norm_num) (by decide) (by decide +kernel) (saverSecretOf s τ) (by simp [saverSecretOf])
    (by simp [saverSecretOf]) 7 5 6
  obtain ⟨e1, e2, -⟩ := hH _ pk vk s τ 7 5 6 π hk hpr
  exact ⟨pk, vk, _, π, hk, e1, e2, hv⟩

set_option maxRecDepth 20000 in
example := C109_knowledge_partial exPairing97 exEncDom97 exEncRoot97 exEncRoot97_ok (by decide) 3 1 1
  (by decide) 1 (by decide) (by decide) 1 (by decide)

end Examples

end Crypto3Zk
