import Verif.Lemmas.Groth16MPC
import Verif.Props.PowersOfTau
import Verif.Props.LinearCombination

/-!
# C56: the second phase of the Groth16 ceremony

`P` is the pairing, `K` the hash functions of the proofs of knowledge, `M` the transcript, `D` the evaluation domain
of the constraint system. All randomness is universally quantified.
-/

set_option linter.unusedSectionVars false

namespace Crypto3Zk

variable {F G1 G2 GT : Type} [Field F] [DecidableEq F] [AddCommGroup G1] [Module F G1] [AddCommGroup G2]
  [Module F G2] [AddCommGroup GT] [Module F GT]

/-- what the QAP of a constraint system gives for the ceremony -/
theorem mpc_setup (P : Pairing F G1 G2 GT) {D : EvalDomain F} (hD : D.Lawful) (cs : R1CS F) (hr : cs.WellRanged)
    (hm : cs.numConstraints + cs.numInputs + 1 ≤ D.m) (k : TauKey F) :
    ∃ (cs' : R1CS F) (q : QapEval F), cs.swapABIfBeneficial = some cs' ∧
      mpcInitial P D cs (tauResultOf P D D.m k) = some (mpcKeypair P q cs' k D.m 1) ∧
      q.numVariables = cs.numVariables ∧ q.numInputs = cs.numInputs ∧ q.Zt = D.vanishing k.tau ∧
      ∀ (delta : F) (chunks : Nat), ∃ pk vk,
        groth16Generate P D cs ⟨k.tau, k.alpha, k.beta, 1, delta, P.one1, P.one2⟩ chunks = some (pk, vk) ∧
        SameProvingKey (mpcKeypair P q cs' k D.m delta).1 pk ∧ (mpcKeypair P q cs' k D.m delta).2 = vk ∧
        pk.bQuery.entries.Pairwise fun x y => x.1 < y.1 := by
  obtain ⟨cs', hcs'⟩ := C16_swap_defined cs hr
  obtain ⟨hp', hw', hr'⟩ := R1CS.swap_shape cs cs' hcs'
  obtain ⟨-, hni, hnv, hnc⟩ := C16_swap_preserves cs cs' hcs'
  have hm' : cs'.numConstraints + cs'.numInputs + 1 ≤ D.m := by rw [hnc, hni]; exact hm
  obtain ⟨qi, q, hqi, hq, hev, n1, n2, n3, n4, lA, lB, lC, eH, eZ, -, -, -⟩ :=
    R1CS.qapEval_spec hD cs' (hr' hr) hm' k.tau
  have hle : q.numInputs ≤ q.numVariables := by
    rw [n1, n3]; simp [R1CS.numInputs, R1CS.numVariables]
  refine ⟨cs', q, hcs', mpcInitial_eq P hD cs cs' hcs' k qi q hqi hev n2 hle, by rw [n1, hnv], by rw [n3, hni], eZ, ?_⟩
  intro delta chunks
  have hgen := groth16Generate_eq P D cs cs' ⟨k.tau, k.alpha, k.beta, 1, delta, P.one1, P.one2⟩ chunks hcs' q hq
    q.numVariables q.numInputs rfl rfl hle (by rw [lA, n1]) (by rw [lB, n1]) (by rw [lC, n1])
  refine ⟨_, _, hgen, ?_, ?_, kcEntries_sorted _ _ _ _ _ _⟩
  · constructor
    case bQuery =>
      refine ⟨rfl, fun i => ?_⟩
      simp only [mpcKeypair]
      rw [zipIdx_entries_get]
      by_cases hi : i < q.Bt.length
      · rw [kcBatch_get _ _ _ _ _ _ hi, List.getD_eq_getElem _ _ (by simpa using hi),
          List.getD_eq_getElem _ _ hi]
        simp
      · rw [List.getD_eq_default _ _ (by simpa using hi), lookup_none_get]
        intro e he
        obtain ⟨j, hj, he⟩ := List.mem_flatMap.1 he
        have := mem_kcEntry he
        rw [List.mem_range] at hj
        omega
    case hQuery =>
      simp only [mpcKeypair, batchExpWithCoeff]
      rw [eH, length_powersFrom, powersFrom_one, ← List.map_take, List.take_range, List.map_map]
      have : min (D.m + 1 - 2) (D.m + 1) = D.m - 1 := by omega
      rw [this]
      apply List.map_congr_left
      intro i _
      simp only [Function.comp_apply]
      congr 1
      ring
    case lQuery =>
      simp only [mpcKeypair, batchExp, List.map_map]
      apply List.map_congr_left
      intro i _
      simp only [Function.comp_apply]
      congr 1
      ring
    all_goals rfl
  · simp only [mpcKeypair, inv_one, mul_one, one_smul, batchExp, Groth16VK.mk.injEq, AccVec.mk.injEq, true_and]
    apply List.ext_getElem
    · simp
    · intro i h1 h2; simp

theorem mpcTransform_fold (P : Pairing F G1 G2 GT) (q : QapEval F) (cs : R1CS F) (k : TauKey F) (m : Nat)
    (ds : List F) (h : ∀ d ∈ ds, d ≠ 0) (d0 : F) :
    ds.foldlM mpcTransform (mpcKeypair P q cs k m d0) = some (mpcKeypair P q cs k m (ds.prod * d0)) := by
  induction ds generalizing d0 with
  | nil => simp
  | cons d ds ih =>
    rw [List.foldlM_cons, mpcTransform_eq P q cs k m d0 d (h d (by simp))]
    simp only [Option.bind_eq_bind, Option.bind_some]
    rw [ih (fun x hx => h x (by simp [hx])), List.prod_cons]
    congr 2
    ring

/-- **C56** (the key pair): from the result of the first phase for the secrets `k`, any sequence of contributions with
secrets that are not zero ends in the key pair the generator makes for `τ`, `α`, `β`, `γ = 1` and `δ` the product
of the secrets (the same up to which zeros of the `B` query are stored). -/
theorem C56_generator (P : Pairing F G1 G2 GT) {D : EvalDomain F} (hD : D.Lawful) (cs : R1CS F)
    (hr : cs.WellRanged) (hm : cs.numConstraints + cs.numInputs + 1 ≤ D.m) (k : TauKey F) (ds : List F)
    (hds : ∀ d ∈ ds, d ≠ 0) (chunks : Nat) :
    ∃ init pk vk pk' vk', mpcInitial P D cs (tauResultOf P D D.m k) = some init ∧
      ds.foldlM mpcTransform init = some (pk, vk) ∧
      groth16Generate P D cs ⟨k.tau, k.alpha, k.beta, 1, ds.prod, P.one1, P.one2⟩ chunks = some (pk', vk') ∧
      SameProvingKey pk pk' ∧ vk = vk' := by
  obtain ⟨cs', q, -, hinit, -, -, -, hgen⟩ := mpc_setup P hD cs hr hm k
  obtain ⟨pk', vk', h1, h2, h3, -⟩ := hgen ds.prod chunks
  have hf := mpcTransform_fold P q cs' k D.m ds hds 1
  rw [mul_one] at hf
  exact ⟨_, _, _, pk', vk', hinit, hf, h1, h2, h3⟩

/-- **C56** (the keys work): proofs made with the key of the ceremony are the proofs made with the generator's key,
and they are accepted under the verification key of the ceremony. -/
theorem C56_complete [DecidableEq GT] (P : Pairing F G1 G2 GT) {D : EvalDomain F} (hD : D.Lawful) (cs : R1CS F)
    (hr : cs.WellRanged) (hm : cs.numConstraints + cs.numInputs + 1 ≤ D.m) (k : TauKey F) (ds : List F)
    (hds : ∀ d ∈ ds, d ≠ 0) (hwf1 : ∀ g, P.wf1 g = true) (hwf2 : ∀ g, P.wf2 g = true)
    (p w : List F) (hp : p.length = cs.primaryInputSize) (hw : w.length = cs.auxiliaryInputSize)
    (hsat : cs.isSatisfied p w = some true) (r s : F) :
    ∃ init pk vk π, mpcInitial P D cs (tauResultOf P D D.m k) = some init ∧
      ds.foldlM mpcTransform init = some (pk, vk) ∧
      groth16Prove D pk p w r s = some π ∧ groth16VerifyStrong P vk p π = some true := by
  obtain ⟨cs', q, -, hinit, -, -, -, hgen⟩ := mpc_setup P hD cs hr hm k
  obtain ⟨pk', vk', h1, h2, h3, h4⟩ := hgen ds.prod 1
  have hf := mpcTransform_fold P q cs' k D.m ds hds 1
  rw [mul_one] at hf
  have hne : ds.prod ≠ 0 := by
    intro h0
    rw [List.prod_eq_zero_iff] at h0
    exact hds 0 h0 rfl
  obtain ⟨pk2, vk2, π, g1, g2, g3, -⟩ := C50_groth16_complete P hD cs hr hm
    ⟨k.tau, k.alpha, k.beta, 1, ds.prod, P.one1, P.one2⟩ one_ne_zero hne 1 hwf1 hwf2 p w hp hw hsat r s
  obtain ⟨rfl, rfl⟩ : pk' = pk2 ∧ vk' = vk2 := by
    have := h1.symm.trans g1
    simpa using this
  refine ⟨_, _, _, π, hinit, hf, ?_, ?_⟩
  · rw [← g2]
    exact groth16Prove_congr D _ _ h2 (zipIdx_entries_sorted _) h4 p w r s
  · rw [← h3] at g3; exact g3

/-- **C56** (both phases): any history of the first phase, its result, and any history of the second phase give the
generator's key pair for the products of all secrets. -/
theorem C56_two_phases [DecidableEq G1] [DecidableEq G2] [DecidableEq GT] (P : Pairing F G1 G2 GT) {D : TauDomain F G1 G2} (hD : D.Lawful) (len : Nat)
    (hlen : D.dom.m ≤ len) (cs : R1CS F) (hr : cs.WellRanged)
    (hm : cs.numConstraints + cs.numInputs + 1 ≤ D.dom.m) (ks : List (TauKey F)) (ds : List F)
    (hds : ∀ d ∈ ds, d ≠ 0) (chunks : Nat) :
    ∃ acc res init pk vk pk' vk',
      ks.foldlM (TauAccumulator.transform len) (TauAccumulator.new P len) = some acc ∧
      TauResult.fromAccumulator D len D.dom.m acc = some res ∧
      mpcInitial P D.dom cs res = some init ∧
      ds.foldlM mpcTransform init = some (pk, vk) ∧
      groth16Generate P D.dom cs ⟨(ks.map TauKey.tau).prod, (ks.map TauKey.alpha).prod, (ks.map TauKey.beta).prod,
        1, ds.prod, P.one1, P.one2⟩ chunks = some (pk', vk') ∧
      SameProvingKey pk pk' ∧ vk = vk' := by
  obtain ⟨init, pk, vk, pk', vk', h1, h2, h3, h4, h5⟩ :=
    C56_generator P hD.dom cs hr hm (keyProduct ks) ds hds chunks
  exact ⟨_, _, init, pk, vk, pk', vk', C55_contributions P len (by omega) ks,
    C55_result P hD len D.dom.m le_rfl hlen (by omega) _, h1, h2, h3, h4, h5⟩

/-! ## verification -/

variable [DecidableEq G1] [DecidableEq G2] [DecidableEq GT]

theorem R1CS.beq_refl (sort : List (LinearTerm F) → List (LinearTerm F)) (cs : R1CS F) : cs.beq sort cs = true := by
  simp only [R1CS.beq, decide_true, Bool.true_and, Bool.and_true, List.all_eq_true]
  intro x hx
  rw [List.zip_eq_zipWith, List.mem_iff_getElem] at hx
  obtain ⟨i, hi, rfl⟩ := hx
  simp [LinComb.beq]

/-- the `delta` that has been reached when the last public key is `previous` -/
def reached (P : Pairing F G1 G2 GT) : Option (MpcPublicKey G1 G2) → G1
  | some pk => pk.deltaAfter
  | none => P.one1

theorem mpcCeremony_run (P : Pairing F G1 G2 GT) (K : PokLib G2) (hK : ∀ x, K.hash x ≠ [])
    (M : MpcTranscript F G1 G2) (q : QapEval F) (cs : R1CS F) (k : TauKey F) (m : Nat) (cts : List (F × G1))
    (h : ∀ c ∈ cts, c.1 ≠ 0) (d0 : F) (previous : Option (MpcPublicKey G1 G2))
    (hprev : reached P previous = d0 • P.one1) :
    ∃ pks, mpcCeremony P K M (mpcKeypair P q cs k m d0) previous cts =
        some (mpcKeypair P q cs k m ((cts.map Prod.fst).prod * d0), pks) ∧
      mpcChain P K M cs (M.compute cs previous) (reached P previous) pks =
        some (some (((cts.map Prod.fst).prod * d0) • P.one1)) := by
  induction cts generalizing d0 previous with
  | nil => exact ⟨[], by simp [mpcCeremony], by simp [mpcChain, hprev]⟩
  | cons c cts ih =>
    obtain ⟨g2s, hg⟩ : ∃ g, pokChallenge K c.2 (c.1 • c.2) (M.compute cs previous) 0 = some g := by
      refine ⟨K.random ((K.hash (0 :: M.compute cs previous))[0]'(List.length_pos_iff.2 (hK _))), ?_⟩
      rw [pokChallenge, List.getElem?_eq_getElem (List.length_pos_iff.2 (hK _))]
      rfl
    let pk : MpcPublicKey G1 G2 := ⟨c.1 • reached P previous, ⟨c.2, c.1 • c.2, c.1 • g2s⟩⟩
    have hpk : mpcProve P K M c.1 previous (mpcKeypair P q cs k m d0) c.2 = some pk := by
      have : (mpcKeypair P q cs k m d0 : Groth16PK F G1 G2 × Groth16VK G1 G2 GT).1.cs = cs := rfl
      simp only [mpcProve, this, pokProve, hg, Option.bind_eq_bind, Option.bind_some, Option.pure_def]
      cases previous <;> rfl
    obtain ⟨pks, h1, h2⟩ := ih (fun x hx => h x (by simp [hx])) (c.1 * d0) (some pk)
      (by show c.1 • reached P previous = _; rw [hprev, smul_smul])
    have hprod : ((c :: cts).map Prod.fst).prod * d0 = (cts.map Prod.fst).prod * (c.1 * d0) := by
      simp only [List.map_cons, List.prod_cons]; ring
    refine ⟨pk :: pks, ?_, ?_⟩
    · simp only [mpcCeremony, hpk, mpcTransform_eq P q cs k m d0 c.1 (h c (by simp)), h1, Option.bind_eq_bind,
        Option.bind_some, Option.pure_def, hprod]
    · have v1 : pokVerify P pk.pok g2s = true := by simp [pokVerify, pk]
      have v2 : isSameRatio P (reached P previous, pk.deltaAfter) (g2s, pk.pok.g2sx) = true := by
        simp [isSameRatio, pk]
      rw [mpcChain]
      have hg' : pokChallenge K pk.pok.g1s pk.pok.g1sx (M.compute cs previous) 0 = some g2s := hg
      simp only [hg', Option.bind_eq_bind, Option.bind_some, v1, v2, if_true]
      rw [hprod]
      exact h2

theorem mergePairs_scaled (P : Pairing F G1 G2 GT) (delta : F) (hd : delta ≠ 0) (n : Nat) (f : Nat → F)
    (r : List F) (hr : r.length = n) :
    (do
      let p ← mergePairs ((List.range n).map fun i => f i • P.one1)
        ((List.range n).map fun i => (delta⁻¹ * f i) • P.one1) r
      pure (isSameRatio P p (delta • P.one2, P.one2))) = some true := by
  have h1 : ((List.range n).map fun i => f i • P.one1) = ((List.range n).map f).map (· • P.one1) := by simp
  have h2 : ((List.range n).map fun i => (delta⁻¹ * f i) • P.one1) =
      (((List.range n).map f).map (delta⁻¹ * ·)).map (· • P.one1) := by simp
  rw [h1, h2, mergePairs_map _ _ _ _ (by simp [hr]) (by simp [hr]), innerProduct_scaled]
  simp only [Option.bind_eq_bind, Option.bind_some, Option.pure_def, Option.some.injEq]
  have := isSameRatio_of P (a := innerProduct r ((List.range n).map f))
    (b := delta⁻¹ * innerProduct r ((List.range n).map f)) (c := delta) (d := 1) (by field_simp)
  rwa [one_smul] at this

/-- **C56** (honest ceremonies are accepted): for every sequence of contributors with secrets that are not zero and for
all random choices, the ceremony runs and `verify_eval` accepts the final key pair with the public keys. -/
theorem C56_honest_accepted (sort : List (LinearTerm F) → List (LinearTerm F)) (P : Pairing F G1 G2 GT)
    (K : PokLib G2) (hK : ∀ x, K.hash x ≠ []) (M : MpcTranscript F G1 G2) {D : EvalDomain F} (hD : D.Lawful)
    (cs : R1CS F) (hr : cs.WellRanged) (hm : cs.numConstraints + cs.numInputs + 1 ≤ D.m) (k : TauKey F)
    (cts : List (F × G1)) (hc : ∀ c ∈ cts, c.1 ≠ 0) (rH rL : List F) (hH : rH.length = D.m - 1)
    (hL : rL.length = cs.auxiliaryInputSize) :
    ∃ init kp pks, mpcInitial P D cs (tauResultOf P D D.m k) = some init ∧
      mpcCeremony P K M init none cts = some (kp, pks) ∧ pks.length = cts.length ∧
      mpcVerify sort P K M D kp pks cs (tauResultOf P D D.m k) rH rL = some true := by
  obtain ⟨cs', q, -, hinit, nv, ni, -, -⟩ := mpc_setup P hD cs hr hm k
  obtain ⟨pks, hrun, hchain⟩ := mpcCeremony_run P K hK M q cs' k D.m cts hc 1 none (by simp [reached])
  rw [mul_one] at hrun hchain
  have hne : (cts.map Prod.fst).prod ≠ 0 := by
    intro h0
    rw [List.prod_eq_zero_iff, List.mem_map] at h0
    obtain ⟨c, hc', h0⟩ := h0
    exact hc c hc' h0
  have hlen : ∀ (cts : List (F × G1)) (kp : Groth16PK F G1 G2 × Groth16VK G1 G2 GT)
      (prev : Option (MpcPublicKey G1 G2)) (kp' : Groth16PK F G1 G2 × Groth16VK G1 G2 GT)
      (pks : List (MpcPublicKey G1 G2)), mpcCeremony P K M kp prev cts = some (kp', pks) →
      pks.length = cts.length := by
    intro cts
    induction cts with
    | nil => intro kp prev kp' pks h; simp only [mpcCeremony, Option.some.injEq, Prod.mk.injEq] at h; simp [← h.2]
    | cons c cts ih =>
      intro kp prev kp' pks h
      simp only [mpcCeremony, Option.bind_eq_bind, Option.bind_eq_some_iff, Option.pure_def, Option.some.injEq,
        Prod.mk.injEq] at h
      obtain ⟨pk, -, kp1, -, ⟨kp2, pks2⟩, h2, -, rfl⟩ := h
      simp [ih _ _ _ _ h2]
  refine ⟨_, _, pks, hinit, hrun, hlen _ _ _ _ _ hrun, ?_⟩
  set δ := (cts.map Prod.fst).prod with hδ
  have e1 := mergePairs_scaled P δ hne (D.m - 1) (fun i => k.tau ^ i * q.Zt) rH hH
  have e2 := mergePairs_scaled P δ hne (q.numVariables - q.numInputs)
    (fun i => kVal q k.alpha k.beta (q.numInputs + 1 + i)) rL
    (by rw [hL, nv, ni]; simp [R1CS.numVariables, R1CS.numInputs])
  have e3 : isSameRatio P (P.one1, δ • P.one1) (P.one2, δ • P.one2) = true := by simp [isSameRatio]
  have hself : ∀ v : KcVec (G2 × G1), v.same v = true := fun v => (KcVec.same_iff v v).2 ⟨rfl, fun _ => rfl⟩
  have hchain' : mpcChain P K M cs' (M.compute cs' none) P.one1 pks = some (some (δ • P.one1)) := hchain
  simp only [mpcVerify, hinit, Option.bind_eq_bind, Option.bind_some]
  simp only [mpcKeypair, inv_one, one_mul, one_smul] at hself ⊢
  simp only [Option.bind_eq_bind] at e1 e2
  simp only [hchain', Option.bind_some, e1, e2, e3, R1CS.beq_refl, hself, List.length_map, List.length_range,
    firstFailure, decide_true, and_self]

theorem mpcChain_sound {P : Pairing F G1 G2 GT} (hP : P.Cyclic) (K : PokLib G2) (hK : ∀ b, K.random b ≠ 0)
    (M : MpcTranscript F G1 G2) (cs : R1CS F) (pks : List (MpcPublicKey G1 G2))
    (previous : Option (MpcPublicKey G1 G2)) (current last : G1)
    (h : mpcChain P K M cs (M.compute cs previous) current pks = some (some last)) :
    ∃ xs, FactorChain K M cs previous current pks xs last ∧ last = xs.prod • current := by
  induction pks generalizing previous current with
  | nil =>
    simp only [mpcChain, Option.some.injEq] at h
    subst h
    exact ⟨[], .nil _ _, by simp⟩
  | cons pk pks ih =>
    rw [mpcChain] at h
    simp only [Option.bind_eq_bind, Option.bind_eq_some_iff] at h
    obtain ⟨g2s, hg, h⟩ := h
    split_ifs at h with h1 h2
    case neg => simp at h
    case neg => simp at h
    have hne : g2s ≠ 0 := by
      rw [pokChallenge, Option.map_eq_some_iff] at hg
      obtain ⟨b, -, rfl⟩ := hg
      exact hK b
    obtain ⟨xs, hxs, hlast⟩ := ih (some pk) pk.deltaAfter h
    obtain ⟨σ, hσ⟩ := hP.gen2 g2s
    obtain ⟨ξ, hξ⟩ := hP.gen2 pk.pok.g2sx
    obtain ⟨a, ha⟩ := hP.gen1 pk.pok.g1s
    obtain ⟨b, hb⟩ := hP.gen1 pk.pok.g1sx
    obtain ⟨c, hc⟩ := hP.gen1 current
    obtain ⟨d, hd⟩ := hP.gen1 pk.deltaAfter
    have hσ0 : σ ≠ 0 := by rintro rfl; simp [hσ] at hne
    rw [pokVerify, ha, hb, hσ, hξ] at h1
    replace h1 := (isSameRatio_iff hP a b σ ξ).1 h1
    rw [hc, hd, hσ, hξ, isSameRatio_iff hP] at h2
    have hafter : pk.deltaAfter = (ξ / σ) • current := by
      rw [hd, hc, smul_smul]
      congr 1
      field_simp
      linear_combination -h2
    refine ⟨(ξ / σ) :: xs, .cons _ _ _ _ _ _ _ g2s hg ⟨?_, ?_⟩ hafter hxs, ?_⟩
    · rw [ha, hb, smul_smul]
      congr 1
      field_simp
      linear_combination -h1
    · rw [hξ, hσ, smul_smul]
      congr 1
      field_simp
    · rw [hlast, hafter, smul_smul, List.prod_cons, mul_comm]

/-- a linear form that is not zero moves along some coordinate -/
theorem linear_or_shift (u : F) (v w : List F) (n : Nat) (hv : v.length = n) (hw : w.length = n) :
    List.Forall₂ (fun a b => a = u * b) v w ∨
      ∃ (j : Fin n) (c : F), c ≠ 0 ∧ ∀ (r : Fin n → F) (x : F),
        innerProduct (List.ofFn (Function.update r j (r j + x))) v -
          u * innerProduct (List.ofFn (Function.update r j (r j + x))) w =
        innerProduct (List.ofFn r) v - u * innerProduct (List.ofFn r) w + x * c := by
  by_cases h : ∀ j : Fin n, v[j.1]'(hv ▸ j.2) - u * w[j.1]'(hw ▸ j.2) = 0
  · left
    rw [List.forall₂_iff_get]
    refine ⟨by omega, fun i h1 h2 => ?_⟩
    exact sub_eq_zero.1 (h ⟨i, by omega⟩)
  · right
    push Not at h
    obtain ⟨j, hj⟩ := h
    refine ⟨j, _, hj, fun r x => ?_⟩
    have key : ∀ r : Fin n → F, innerProduct (List.ofFn r) v - u * innerProduct (List.ofFn r) w =
        ∑ i : Fin n, r i * (v[i.1]'(hv ▸ i.2) - u * w[i.1]'(hw ▸ i.2)) := by
      intro r
      rw [innerProduct_ofFn v n hv, innerProduct_ofFn w n hw, Finset.mul_sum, ← Finset.sum_sub_distrib]
      apply Finset.sum_congr rfl
      intro i _
      ring
    rw [key, key, ← Finset.add_sum_erase _ _ (Finset.mem_univ j), ← Finset.add_sum_erase (a := j) _ (fun i => r i * _)
      (Finset.mem_univ j)]
    have : ∑ i ∈ Finset.univ.erase j, Function.update r j (r j + x) i * (v[i.1]'(hv ▸ i.2) - u * w[i.1]'(hw ▸ i.2)) =
        ∑ i ∈ Finset.univ.erase j, r i * (v[i.1]'(hv ▸ i.2) - u * w[i.1]'(hw ▸ i.2)) := by
      apply Finset.sum_congr rfl
      intro i hi
      rw [Function.update_of_ne (Finset.ne_of_mem_erase hi)]
    rw [this, Function.update_self]
    ring

/-- **C56** (accepted key pairs are well formed). The key pair and the public keys are arbitrary, `init` is what
the first phase gives. Either nothing but `delta` and the two queries has changed, the public keys claim factors
whose product `δ` is the exponent of every `delta` of the key pair, and the queries are those of `init` divided by
`δ`; or `verify_eval` accepts for at most one in `|F|` of its random choices. Missing from the full property:
acceptance is not impossible in the second case (`C56_not_always`), and whether the contributors know the factors
(`C56_pok_forgery`). -/
theorem C56_sound_partial [Fintype F] (sort : List (LinearTerm F) → List (LinearTerm F)) {P : Pairing F G1 G2 GT}
    (hP : P.Cyclic) (K : PokLib G2) (hK : ∀ b, K.random b ≠ 0) (M : MpcTranscript F G1 G2) (D : EvalDomain F)
    (kp : Groth16PK F G1 G2 × Groth16VK G1 G2 GT) (pks : List (MpcPublicKey G1 G2)) (cs : R1CS F)
    (res : TauResult G1 G2) (init : Groth16PK F G1 G2 × Groth16VK G1 G2 GT)
    (hinit : mpcInitial P D cs res = some init) :
    (Unchanged sort init kp ∧ ∃ (xs : List F) (δ : F), δ = xs.prod ∧
      FactorChain K M kp.1.cs none P.one1 pks xs (δ • P.one1) ∧
      kp.1.deltaG1 = δ • P.one1 ∧ kp.1.deltaG2 = δ • P.one2 ∧ kp.2.deltaG2 = δ • P.one2 ∧
      List.Forall₂ (fun h0 h => h0 = δ • h) init.1.hQuery kp.1.hQuery ∧
      List.Forall₂ (fun l0 l => l0 = δ • l) init.1.lQuery kp.1.lQuery) ∨
    (Finset.univ.filter fun r : (Fin init.1.hQuery.length → F) × (Fin init.1.lQuery.length → F) =>
      mpcVerify sort P K M D kp pks cs res (List.ofFn r.1) (List.ofFn r.2) = some true).card * Fintype.card F ≤
        Fintype.card ((Fin init.1.hQuery.length → F) × (Fin init.1.lQuery.length → F)) := by
  generalize hA : (Finset.univ.filter fun r : (Fin init.1.hQuery.length → F) × (Fin init.1.lQuery.length → F) =>
      mpcVerify sort P K M D kp pks cs res (List.ofFn r.1) (List.ofFn r.2) = some true) = A
  rcases A.eq_empty_or_nonempty with rfl | ⟨r0, hr0⟩
  · right; simp
  have hacc : ∀ r ∈ A, mpcVerify sort P K M D kp pks cs res (List.ofFn r.1) (List.ofFn r.2) = some true := by
    intro r hr
    rw [← hA, Finset.mem_filter] at hr
    exact hr.2
  simp only [mpcVerify, hinit, Option.bind_eq_bind, Option.bind_some, firstFailure_true, List.forall_mem_cons] at hacc
  obtain ⟨c1, c2, c3, c4, c5, c6, c7, c8, c9, c10, c11, c12, -⟩ := hacc r0 hr0
  obtain ⟨last, hlast, c12⟩ := Option.bind_eq_some_iff.1 c12
  cases last with
  | none => simp at c12
  | some last =>
  simp only [firstFailure_true, List.forall_mem_cons, Option.some.injEq, decide_eq_true_eq] at c12
  obtain ⟨d1, d2, d3, -⟩ := c12
  obtain ⟨xs, hxs, hprod⟩ := mpcChain_sound hP K hK M kp.1.cs pks none P.one1 last hlast
  set δ := xs.prod with hδ
  have hD2 : kp.1.deltaG2 = δ • P.one2 := by
    obtain ⟨d, hd⟩ := hP.gen2 kp.1.deltaG2
    have := isSameRatio_iff hP 1 δ 1 d
    rw [one_smul, one_smul, ← hd, ← hprod] at this
    rw [hd]
    congr 1
    linear_combination this.1 d2
  obtain ⟨v, hv⟩ := exists_exponents P.one1 hP.gen1 init.1.hQuery
  obtain ⟨v', hv'⟩ := exists_exponents P.one1 hP.gen1 kp.1.hQuery
  obtain ⟨w, hw⟩ := exists_exponents P.one1 hP.gen1 init.1.lQuery
  obtain ⟨w', hw'⟩ := exists_exponents P.one1 hP.gen1 kp.1.lQuery
  have lv : v.length = init.1.hQuery.length := by rw [hv]; simp
  have lw : w.length = init.1.lQuery.length := by rw [hw]; simp
  have lv' : v'.length = init.1.hQuery.length := by
    rw [Option.some.injEq, decide_eq_true_eq, hv'] at c1; rw [c1]; simp
  have lw' : w'.length = init.1.lQuery.length := by
    rw [Option.some.injEq, decide_eq_true_eq, hw'] at c2; rw [c2]; simp
  have hlin : ∀ r ∈ A, innerProduct (List.ofFn r.1) v - δ * innerProduct (List.ofFn r.1) v' = 0 ∧
      innerProduct (List.ofFn r.2) w - δ * innerProduct (List.ofFn r.2) w' = 0 := by
    intro r hr
    obtain ⟨-, -, -, -, -, -, -, -, -, -, -, e, -⟩ := hacc r hr
    simp only [hlast, Option.bind_some, firstFailure_true, List.forall_mem_cons] at e
    obtain ⟨-, -, -, e1, e2, -⟩ := e
    have m1 := mergePairs_map P.one1 v v' (List.ofFn r.1) (by simp [lv]) (by simp [lv'])
    have m2 := mergePairs_map P.one1 w w' (List.ofFn r.2) (by simp [lw]) (by simp [lw'])
    rw [← hv, ← hv'] at m1
    rw [← hw, ← hw'] at m2
    rw [m1, hD2, Option.bind_some, Option.pure_def, Option.some.injEq] at e1
    rw [m2, hD2, Option.bind_some, Option.pure_def, Option.some.injEq] at e2
    have s1 := isSameRatio_iff hP (innerProduct (List.ofFn r.1) v) (innerProduct (List.ofFn r.1) v') δ 1
    have s2 := isSameRatio_iff hP (innerProduct (List.ofFn r.2) w) (innerProduct (List.ofFn r.2) w') δ 1
    rw [one_smul] at s1 s2
    exact ⟨by linear_combination s1.1 e1, by linear_combination s2.1 e2⟩
  rcases linear_or_shift δ v v' _ lv lv' with hH | ⟨j, c, hc, hs⟩
  · rcases linear_or_shift δ w w' _ lw lw' with hL | ⟨j, c, hc, hs⟩
    · left
      simp only [Option.some.injEq, decide_eq_true_eq] at c3 c4 c5 c6 c7 c8 c9 c10 c11
      refine ⟨⟨c3, c4, c5, c6, (KcVec.same_iff _ _).1 c7, c8, c9, c10, ?_⟩, xs, δ, rfl, hprod ▸ hxs, ?_, hD2, ?_, ?_, ?_⟩
      · obtain ⟨a1, a2⟩ := c11
        cases h1 : init.2.gammaABC; cases h2 : kp.2.gammaABC
        simp only [h1, h2] at a1 a2
        rw [a1, a2]
      · rw [← d1, hprod]
      · rw [← d3, hD2]
      · rw [hv, hv', List.forall₂_map_left_iff, List.forall₂_map_right_iff]
        exact hH.imp fun a b h => by rw [h, smul_smul]
      · rw [hw, hw', List.forall₂_map_left_iff, List.forall₂_map_right_iff]
        exact hL.imp fun a b h => by rw [h, smul_smul]
    · right
      refine count_le A (fun r x => (r.1, Function.update r.2 j (r.2 j + x)))
        (fun r => innerProduct (List.ofFn r.2) w - δ * innerProduct (List.ofFn r.2) w') c hc ?_ ?_
      · intro r hr x
        rw [hs, (hlin r hr).2, zero_add]
      · intro r x
        simp
  · right
    refine count_le A (fun r x => (Function.update r.1 j (r.1 j + x), r.2))
      (fun r => innerProduct (List.ofFn r.1) v - δ * innerProduct (List.ofFn r.1) v') c hc ?_ ?_
    · intro r hr x
      rw [hs, (hlin r hr).1, zero_add]
    · intro r x
      simp

/-- **C56** (what an accepted key pair is). With the result of the first phase for `k`, and `τ` outside the domain, an
accepted key pair is, outside of the exceptional random choices, the generator's key pair for `γ = 1` and a `δ` that
is not zero and is the product of the claimed factors; the constraint systems are equal by `operator==`. -/
theorem C56_sound_generator_partial [Fintype F] (sort : List (LinearTerm F) → List (LinearTerm F))
    {P : Pairing F G1 G2 GT} (hP : P.Cyclic) (K : PokLib G2) (hK : ∀ b, K.random b ≠ 0) (M : MpcTranscript F G1 G2)
    {D : EvalDomain F} (hD : D.Lawful) (kp : Groth16PK F G1 G2 × Groth16VK G1 G2 GT)
    (pks : List (MpcPublicKey G1 G2)) (cs : R1CS F) (hr : cs.WellRanged)
    (hm : cs.numConstraints + cs.numInputs + 1 ≤ D.m) (hm2 : 2 ≤ D.m) (k : TauKey F)
    (hτ : D.vanishing k.tau ≠ 0) (chunks : Nat) :
    (∃ (xs : List F) (pk : Groth16PK F G1 G2) (vk : Groth16VK G1 G2 GT), xs.prod ≠ 0 ∧
      FactorChain K M kp.1.cs none P.one1 pks xs (xs.prod • P.one1) ∧
      groth16Generate P D cs ⟨k.tau, k.alpha, k.beta, 1, xs.prod, P.one1, P.one2⟩ chunks = some (pk, vk) ∧
      pk.cs.beq sort kp.1.cs = true ∧ SameProvingKey { kp.1 with cs := pk.cs } pk ∧ kp.2 = vk) ∨
    (Finset.univ.filter fun r : (Fin (D.m - 1) → F) × (Fin cs.auxiliaryInputSize → F) =>
      mpcVerify sort P K M D kp pks cs (tauResultOf P D D.m k) (List.ofFn r.1) (List.ofFn r.2) =
        some true).card * Fintype.card F ≤
        Fintype.card ((Fin (D.m - 1) → F) × (Fin cs.auxiliaryInputSize → F)) := by
  obtain ⟨cs', q, -, hinit, nv, ni, eZ, hgen⟩ := mpc_setup P hD cs hr hm k
  have hH : (mpcKeypair P q cs' k D.m 1 : Groth16PK F G1 G2 × Groth16VK G1 G2 GT).1.hQuery.length = D.m - 1 := by
    simp [mpcKeypair]
  have hL : (mpcKeypair P q cs' k D.m 1 : Groth16PK F G1 G2 × Groth16VK G1 G2 GT).1.lQuery.length =
      cs.auxiliaryInputSize := by
    simp [mpcKeypair, nv, ni, R1CS.numVariables, R1CS.numInputs]
  rcases C56_sound_partial sort hP K hK M D kp pks cs _ _ hinit with ⟨hU, xs, δ, rfl, hx, h1, h2, h3, h4, h5⟩ | h
  · left
    have hne : xs.prod ≠ 0 := by
      intro h0
      rw [h0] at h4
      have : (mpcKeypair P q cs' k D.m 1 : Groth16PK F G1 G2 × Groth16VK G1 G2 GT).1.hQuery[0]'(by omega) = 0 := by
        have := (List.forall₂_iff_get.1 h4).2 0 (by omega) (by rw [← h4.length_eq]; omega)
        simpa using this
      simp only [mpcKeypair, List.getElem_map, List.getElem_range, inv_one, one_mul, pow_zero] at this
      rcases smul_eq_zero.1 this with h | h
      · rw [eZ] at h; exact hτ h
      · exact hP.one1_ne h
    obtain ⟨pk, vk, g1, g2, g3, -⟩ := hgen xs.prod chunks
    have hcs : pk.cs = cs' := g2.cs.symm
    have hdiv : ∀ (n : Nat) (f : Nat → F) (l : List G1),
        List.Forall₂ (fun h0 h => h0 = xs.prod • h) ((List.range n).map fun i => ((1 : F)⁻¹ * f i) • P.one1) l →
        l = (List.range n).map fun i => (xs.prod⁻¹ * f i) • P.one1 := by
      intro n f l hl
      apply List.ext_getElem
      · rw [← hl.length_eq]; simp
      · intro i i1 i2
        have := (List.forall₂_iff_get.1 hl).2 i (by simpa using i2) i1
        simp only [List.get_eq_getElem, List.getElem_map, List.getElem_range, inv_one, one_mul] at this
        simp only [List.getElem_map, List.getElem_range]
        rw [mul_smul, this, smul_smul, inv_mul_cancel₀ hne, one_smul]
    refine ⟨xs, pk, vk, hne, hx, g1, by rw [hcs]; exact hU.cs, ?_, ?_⟩
    · constructor
      · rw [← g2.alphaG1]; exact hU.alphaG1.symm
      · rw [← g2.betaG1]; exact hU.betaG1.symm
      · rw [← g2.betaG2]; exact hU.betaG2.symm
      · rw [← g2.deltaG1]; exact h1
      · rw [← g2.deltaG2]; exact h2
      · rw [← g2.aQuery]; exact hU.aQuery.symm
      · exact ⟨hU.bQuery.1.symm.trans g2.bQuery.1, fun i => (hU.bQuery.2 i).symm.trans (g2.bQuery.2 i)⟩
      · rw [← g2.hQuery]; exact hdiv _ _ _ h4
      · rw [← g2.lQuery]; exact hdiv _ _ _ h5
      · rfl
    · rw [← g3]
      obtain ⟨pk2, a, b, c, d⟩ := kp
      obtain ⟨u1, u2, u3⟩ := And.intro hU.alphaBeta (And.intro hU.gammaG2 hU.gammaABC)
      simp only [mpcKeypair] at u1 u2 u3 h3 ⊢
      rw [← u1, ← u2, ← u3, h3]
  · right
    rw [← hH, ← hL]
    exact h

/-! ## findings -/

/-- A proof of knowledge is not needed: the first two elements may be zero, and then only `delta_after` and the
third element have to be in proportion. Whoever has some `x • g2s` and `x • current` can publish the key. -/
theorem C56_pok_forgery (P : Pairing F G1 G2 GT) (K : PokLib G2) (M : MpcTranscript F G1 G2) (cs : R1CS F)
    (transcript : List UInt8) (current : G1) (g2s : G2) (x : F)
    (hg : pokChallenge K (0 : G1) 0 transcript 0 = some g2s) :
    mpcChain P K M cs transcript current [⟨x • current, ⟨0, 0, x • g2s⟩⟩] = some (some (x • current)) := by
  simp [mpcChain, hg, pokVerify, isSameRatio]

/-- The transcript of a contribution does not bind the key pair: the challenge for a contributor is the same for any
two key pairs with the same constraint system. -/
theorem C56_challenge_unbound (P : Pairing F G1 G2 GT) (K : PokLib G2) (M : MpcTranscript F G1 G2) (delta : F)
    (previous : Option (MpcPublicKey G1 G2)) (kp kp' : Groth16PK F G1 G2 × Groth16VK G1 G2 GT)
    (h : kp.1.cs = kp'.1.cs) (s : G1) :
    mpcProve P K M delta previous kp s = mpcProve P K M delta previous kp' s := by
  simp only [mpcProve, h]

/-- A contributor whose secret is zero publishes a key that passes all checks of the chain, and makes all later
values zero; the check of the queries is what rejects it. -/
theorem C56_zero_factor (P : Pairing F G1 G2 GT) (K : PokLib G2) (hK : ∀ x, K.hash x ≠ [])
    (M : MpcTranscript F G1 G2) (previous : Option (MpcPublicKey G1 G2))
    (kp : Groth16PK F G1 G2 × Groth16VK G1 G2 GT) (s : G1) (current : G1) :
    mpcTransform kp 0 = none ∧ ∃ pk, mpcProve P K M 0 previous kp s = some pk ∧
      mpcChain P K M kp.1.cs (M.compute kp.1.cs previous) current [pk] = some (some 0) := by
  refine ⟨by simp [mpcTransform], ?_⟩
  have hg : pokChallenge K s ((0 : F) • s) (M.compute kp.1.cs previous) 0 =
      some (K.random ((K.hash (0 :: M.compute kp.1.cs previous))[0]'(List.length_pos_iff.2 (hK _)))) := by
    rw [pokChallenge, List.getElem?_eq_getElem (List.length_pos_iff.2 (hK _))]
    rfl
  refine ⟨⟨0, ⟨s, 0, 0⟩⟩, ?_, ?_⟩
  · rw [zero_smul] at hg
    simp only [mpcProve, pokProve, zero_smul, hg, Option.bind_eq_bind, Option.bind_some, Option.pure_def]
  · rw [zero_smul] at hg
    simp [mpcChain, hg, pokVerify, isSameRatio]

/-- "Always" is not true: with unlucky random choices any `H` and `L` queries of the right lengths are accepted. -/
theorem C56_not_always (sort : List (LinearTerm F) → List (LinearTerm F)) (P : Pairing F G1 G2 GT) (K : PokLib G2)
    (M : MpcTranscript F G1 G2) (D : EvalDomain F) (cs : R1CS F) (res : TauResult G1 G2)
    (kp init : Groth16PK F G1 G2 × Groth16VK G1 G2 GT) (pks : List (MpcPublicKey G1 G2))
    (hinit : mpcInitial P D cs res = some init) (rH rL : List F)
    (hacc : mpcVerify sort P K M D kp pks cs res rH rL = some true) (h l : List G1)
    (hh : h.length = kp.1.hQuery.length) (hl : l.length = kp.1.lQuery.length) :
    ∃ rH rL : List F, mpcVerify sort P K M D ({ kp.1 with hQuery := h, lQuery := l }, kp.2) pks cs res rH rL =
      some true := by
  refine ⟨List.replicate init.1.hQuery.length 0, List.replicate init.1.lQuery.length 0, ?_⟩
  have hz : ∀ (v : List G1) (n : Nat), v.length = n → multiexp v (List.replicate n (0 : F)) = some 0 := by
    intro v n hv
    subst hv
    rw [multiexp, if_pos (by simp)]
    congr 1
    apply List.sum_eq_zero
    intro x hx
    obtain ⟨i, hi, rfl⟩ := List.getElem_of_mem hx
    simp
  simp only [mpcVerify, hinit, Option.bind_eq_bind, Option.bind_some, firstFailure_true, List.forall_mem_cons] at hacc ⊢
  obtain ⟨c1, c2, c3, c4, c5, c6, c7, c8, c9, c10, c11, c12, -⟩ := hacc
  simp only [Option.some.injEq, decide_eq_true_eq] at c1 c2
  obtain ⟨last, hlast, c12⟩ := Option.bind_eq_some_iff.1 c12
  cases last with
  | none => simp at c12
  | some last =>
  simp only [firstFailure_true, List.forall_mem_cons] at c12
  obtain ⟨d1, d2, d3, -⟩ := c12
  refine ⟨by simp [c1, hh], by simp [c2, hl], c3, c4, c5, c6, c7, c8, c9, c10, c11, ?_, by simp⟩
  simp only [hlast, Option.bind_some, firstFailure_true, List.forall_mem_cons, mergePairs]
  refine ⟨d1, d2, d3, ?_, ?_, by simp⟩
  · rw [hz _ _ rfl, hz h _ (by rw [hh, c1])]; simp [isSameRatio]
  · rw [hz _ _ rfl, hz l _ (by rw [hl, c2])]; simp [isSameRatio]

/-! ## the hypotheses can be met -/

section Examples

/-- the fourth roots of one modulo 17 -/
theorem exDom17 : (EvalDomain.ofPoints 4 (fun i => (4 : ZMod 17) ^ i) 3).Lawful := by
  apply EvalDomain.ofPoints_lawful
  · decide
  · decide +kernel
  · decide +kernel

/-- "the input is a square" -/
def exRoot17 : R1CS (ZMod 17) := ⟨1, 1, [⟨[⟨2, 1⟩], [⟨2, 1⟩], [⟨1, 1⟩]⟩]⟩

theorem exRoot17_ok : exRoot17.WellRanged := by
  intro k hk
  simp only [exRoot17, List.mem_singleton] at hk
  subst hk
  refine ⟨?_, ?_, ?_⟩ <;> · intro t ht; simp at ht; subst ht; decide

def exMpcTranscript : MpcTranscript (ZMod 17) (ZMod 17) (ZMod 17) :=
  ⟨fun l => [l.sum], fun cs => [UInt8.ofNat cs.constraints.length], fun k => [UInt8.ofNat k.deltaAfter.val]⟩

/-- three contributions -/
example (k : TauKey (ZMod 17)) := C56_generator exPairing17 exDom17 exRoot17 exRoot17_ok (by decide) k [2, 3, 5]
  (by decide) 1

/-- and proofs that `9` is a square -/
example (k : TauKey (ZMod 17)) (r s : ZMod 17) := C56_complete exPairing17 exDom17 exRoot17 exRoot17_ok (by decide) k
  [2, 3, 5] (by decide) (fun _ => rfl) (fun _ => rfl) [9] [3] rfl rfl (by decide +kernel) r s

noncomputable example := C56_two_phases exPairing17 (TauDomain.ofDomain_lawful (G1 := ZMod 17) (G2 := ZMod 17) exDom17)
  4 le_rfl exRoot17 exRoot17_ok (by decide) [⟨2, 3, 5⟩, ⟨7, 11, 13⟩] [2, 3] (by decide) 1

/-- two contributors, verified -/
example (k : TauKey (ZMod 17)) (a b c d : ZMod 17) := C56_honest_accepted id exPairing17 exPokLib
  (fun x => by simp [exPokLib]) exMpcTranscript exDom17 exRoot17 exRoot17_ok (by decide) k [(2, 1), (3, 7)]
  (by simp only [List.forall_mem_cons]; exact ⟨by decide, by decide, by simp⟩)
  [a, b, c] [d] rfl rfl

/-- whatever is presented to the verifier; `τ = 2` is not a fourth root of one -/
example (kp : Groth16PK (ZMod 17) (ZMod 17) (ZMod 17) × Groth16VK (ZMod 17) (ZMod 17) (ZMod 17))
    (pks : List (MpcPublicKey (ZMod 17) (ZMod 17))) :=
  C56_sound_generator_partial id exPairing17_cyclic exPokLib exPokLib_ne exMpcTranscript exDom17 kp pks exRoot17
    exRoot17_ok (by decide) (by decide) ⟨2, 3, 5⟩ (by
      show ∏ i ∈ Finset.range 4, ((2 : ZMod 17) - 4 ^ i) ≠ 0
      decide +kernel) 1

end Examples

end Crypto3Zk
