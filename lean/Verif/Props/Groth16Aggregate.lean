import Verif.Lemmas.Groth16AggregateHonest
import Verif.Lemmas.Groth16AggregateTranscript
import Mathlib.Data.ZMod.Basic
import Mathlib.Algebra.Field.ZMod
import Mathlib.Tactic.NormNum.Prime
import Mathlib.LinearAlgebra.Dual.Lemmas
import Mathlib.Algebra.Polynomial.Roots
import Mathlib.Algebra.Field.Rat

/-!
# C69, C70: aggregated Groth16 proofs
-/

set_option linter.unusedSectionVars false

namespace Crypto3Zk

variable {F : Type} [Field F] {G1 G2 GT : Type} [AddCommGroup G1] [Module F G1] [AddCommGroup G2]
  [Module F G2] [AddCommGroup GT] [Module F GT]

/-! ## C69: an honest aggregate of valid proofs is accepted -/

theorem grothDefect_honest (P : Pairing F G1 G2 GT) (vk : AggVK G1 G2) (inputs : List (List F))
    (proofs : List (Groth16Proof G1 G2)) (hlen : inputs.length = proofs.length) (p : AggProof G1 G2 GT) (r : F)
    (hip : p.ipAB = powerSum r proofs (fun π => P.e π.gA π.gB))
    (hag : p.aggC = powerSum r proofs (fun π => π.gC)) :
    grothDefect P vk inputs p r = ∑ i : Fin proofs.length, r ^ (i : Nat) •
      (P.e vk.alphaG1 vk.betaG2 + P.e (vk.gammaABC.first + (List.zipWith (fun g a => a • g) vk.gammaABC.rest
        (inputs[i.1]'(i.2.trans_eq hlen.symm))).sum) vk.gammaG2 + P.e (proofs[i]).gC vk.deltaG2 -
          P.e (proofs[i]).gA (proofs[i]).gB) := by
  have hre : ∀ {M : Type} [AddCommGroup M] (f : Fin inputs.length → M),
      ∑ i : Fin inputs.length, f i = ∑ i : Fin proofs.length, f ⟨i.1, i.2.trans_eq hlen.symm⟩ := by
    intro M _ f
    exact (Equiv.sum_comp (finCongr hlen.symm) f).symm
  unfold grothDefect
  rw [hip, hag, hre, hre]
  unfold powerSum
  simp only [map_sum, map_add, LinearMap.add_apply, LinearMap.sum_apply, map_smul, LinearMap.smul_apply,
    Finset.sum_smul, smul_sub, smul_add, Finset.sum_sub_distrib, Finset.sum_add_distrib]
  rfl

/-- For every number of proofs the reference string admits, every list of that many proofs that satisfy
their Groth16 equations, every transcript function whose reads end, every string the caller adds to the
transcript and every choice of the verifier's random coefficients: the aggregator produces an aggregate,
and the verifier accepts it. -/
theorem C69_aggregate_complete [DecidableEq F] [DecidableEq G1] [DecidableEq GT] (P : Pairing F G1 G2 GT)
    (H : AggHash F G1 G2 GT) (hH : ∀ tr, ∃ x, H.read tr = some x) (N n : Nat) (alpha beta : F)
    (srs : AggSrs G1 G2) (hsetup : aggSetup P N alpha beta = some srs)
    (psrs : AggProvingSrs G1 G2) (vsrs : AggVerificationSrs G1 G2)
    (hspec : srs.specialize n = some (psrs, vsrs)) (h2 : 2 ≤ n) (vk : AggVK G1 G2)
    (proofs : List (Groth16Proof G1 G2)) (hn : proofs.length = n) (inputs : List (List F))
    (hlen : inputs.length = proofs.length) (hl : ∀ x ∈ inputs, x.length = vk.gammaABC.domainSize)
    (hvalid : ∀ i (h : i < proofs.length), Groth16Holds P vk (inputs[i]'(h.trans_eq hlen.symm)) proofs[i])
    (incl : List UInt8) :
    ∃ p, aggregateProofs P H psrs incl proofs = some p ∧
      ∀ rho, verifyAggregate P H vsrs vk inputs p incl rho = some true := by
  obtain ⟨hp, hN⟩ : isPow2 n = true ∧ n ≤ N := by
    unfold AggSrs.specialize at hspec
    split at hspec
    swap
    · simp at hspec
    next hg =>
    refine ⟨hg.1, ?_⟩
    have h1 := hg.2.1
    unfold aggSetup structuredGenerators at hsetup
    split at hsetup
    · simp only [Option.bind_eq_bind, Option.bind_some, Option.some.injEq] at hsetup
      rw [← hsetup] at h1
      simp only [length_powerKey] at h1
      omega
    · simp at hsetup
  obtain ⟨k, rfl⟩ := (isPow2_iff n).mp hp
  obtain ⟨s', hs', hsp⟩ := specialize_eq P N (2 ^ k) alpha beta hp hN
  rw [hsetup, Option.some.injEq] at hs'
  subst hs'
  rw [hspec, Option.some.injEq, Prod.mk.injEq] at hsp
  obtain ⟨rfl, rfl⟩ := hsp
  have hk : 1 ≤ k := by
    rcases k with _ | k
    · simp at h2
    · omega
  obtain ⟨p, r, xs, z, hagg, hch, -, hd, hzc, hip, hag⟩ :=
    aggregateProofs_run P H hH k hk alpha beta incl proofs hn
  refine ⟨p, hagg, fun rho => ?_⟩
  have h0 : inputs ≠ [] := by
    rintro rfl
    simp at hlen
    omega
  rw [verifyAggregate_verdict P H _ vk inputs p incl rho h0 hl r xs z hch, Option.some.injEq,
    decide_eq_true_iff]
  refine ⟨hzc, ?_⟩
  rw [grothDefect_honest P vk inputs proofs hlen p r hip hag]
  have hw : weighted rho (aggDefect P (honestVerificationSrs P (2 ^ k) alpha beta) p r xs z) = 0 := by
    unfold weighted
    refine List.sum_eq_zero fun d hd' => ?_
    obtain ⟨i, hi, rfl⟩ := List.mem_mapIdx.mp hd'
    rw [hd _ (List.getElem_mem hi), smul_zero]
  rw [hw, zero_add]
  refine Finset.sum_eq_zero fun i _ => ?_
  have := hvalid i i.2
  unfold Groth16Holds at this
  rw [show (proofs[i]).gA = (proofs[i.1]).gA from rfl, show (proofs[i]).gB = (proofs[i.1]).gB from rfl, this]
  simp

/-- The same for proofs that the Groth16 verifier (with strong input consistency) accepts. -/
theorem C69_aggregate_of_accepted [DecidableEq F] [DecidableEq G1] [DecidableEq GT]
    (P : Pairing F G1 G2 GT)
    (H : AggHash F G1 G2 GT) (hH : ∀ tr, ∃ x, H.read tr = some x) (n : Nat) (alpha beta : F)
    (psrs : AggProvingSrs G1 G2) (vsrs : AggVerificationSrs G1 G2)
    (hgen : aggGenerate P n alpha beta = some (psrs, vsrs)) (h2 : 2 ≤ n) (vk : AggVK G1 G2)
    (proofs : List (Groth16Proof G1 G2)) (hn : proofs.length = n) (inputs : List (List F))
    (hvalid : List.Forall₂ (fun x π => groth16VerifyStrong P (vk.toVK P) x π = some true) inputs proofs)
    (incl : List UInt8) :
    ∃ p, aggregateProofs P H psrs incl proofs = some p ∧
      ∀ rho, verifyAggregate P H vsrs vk inputs p incl rho = some true := by
  unfold aggGenerate at hgen
  simp only [Option.bind_eq_bind, Option.bind_eq_some_iff] at hgen
  obtain ⟨srs, hsetup, hspec⟩ := hgen
  have key : ∀ x π, groth16VerifyStrong P (vk.toVK P) x π = some true →
      x.length = vk.gammaABC.domainSize ∧ Groth16Holds P vk x π := by
    intro x π h
    unfold groth16VerifyStrong at h
    split at h
    · simp at h
    next hd =>
    push Not at hd
    refine ⟨hd.symm, ?_⟩
    unfold groth16VerifyWeak at h
    simp only [Option.bind_eq_bind, Option.bind_eq_some_iff] at h
    obtain ⟨acc, hacc, h⟩ := h
    simp only [Option.pure_def, Option.some.injEq] at h
    split at h
    · simp at h
    next hq =>
    push Not at hq
    have hacc' : acc = vk.gammaABC.first + (List.zipWith (fun g a => a • g) vk.gammaABC.rest x).sum := by
      unfold AccVec.accumulate at hacc
      split at hacc
      · rw [Option.some.injEq] at hacc
        exact hacc.symm
      · simp at hacc
    rw [hacc'] at hq
    unfold Groth16Holds
    have hq' : P.e π.gA π.gB - (P.e (vk.gammaABC.first + (List.zipWith (fun g a => a • g)
        vk.gammaABC.rest x).sum) vk.gammaG2 + P.e π.gC vk.deltaG2) = P.e vk.alphaG1 vk.betaG2 := hq
    rw [sub_eq_iff_eq_add] at hq'
    rw [hq', add_assoc]
  have hlen := hvalid.length_eq
  refine C69_aggregate_complete P H hH n n alpha beta srs hsetup psrs vsrs hspec h2 vk proofs hn inputs hlen
    (fun x hx => ?_) (fun i h => ?_) incl
  · obtain ⟨i, hi, rfl⟩ := List.mem_iff_getElem.mp hx
    exact (key _ _ (hvalid.get hi (hi.trans_eq hlen))).1
  · exact (key _ _ (hvalid.get (h.trans_eq hlen.symm) h)).2

/-! ## C70: what an accepted aggregate shows -/

/-- The verifier's verdict, for all inputs of the right number of elements: it is `true` exactly when the
combination of `C` is consistent and the random combination of the other equations holds; in particular
the verifier accepts whenever all equations hold, for every choice of its coefficients. -/
theorem C70_equations_accepted [DecidableEq F] [DecidableEq G1] [DecidableEq GT] (P : Pairing F G1 G2 GT)
    (H : AggHash F G1 G2 GT) (s : AggVerificationSrs G1 G2) (vk : AggVK G1 G2) (inputs : List (List F))
    (p : AggProof G1 G2 GT) (incl : List UInt8) (h0 : inputs ≠ [])
    (hl : ∀ x ∈ inputs, x.length = vk.gammaABC.domainSize) (r : F) (xs : List F) (z : F)
    (hc : AggChallenges H p incl r xs z) (h : AggEquations P s vk inputs p r xs z) (rho : Nat → F) :
    verifyAggregate P H s vk inputs p incl rho = some true := by
  obtain ⟨h1, h2, h3⟩ := (aggEquations_iff P s vk inputs p r xs z).mp h
  rw [verifyAggregate_verdict P H s vk inputs p incl rho h0 hl r xs z hc, Option.some.injEq,
    decide_eq_true_iff]
  refine ⟨h2, ?_⟩
  rw [h3, add_zero]
  unfold weighted
  refine List.sum_eq_zero fun d hd' => ?_
  obtain ⟨i, hi, rfl⟩ := List.mem_mapIdx.mp hd'
  rw [h1 _ (List.getElem_mem hi), smul_zero]

theorem weighted_update (rho : Nat → F) (ds : List GT) (i : Nat) (hi : i < ds.length) (x : F) :
    weighted (Function.update rho i x) ds = weighted (Function.update rho i 0) ds + x • ds[i] := by
  unfold weighted
  induction ds generalizing rho i with
  | nil => simp at hi
  | cons d ds ih =>
    cases i with
    | zero =>
      simp only [List.mapIdx_cons, List.sum_cons, Function.update_self, zero_smul, zero_add, List.getElem_cons_zero]
      rw [add_comm]
      congr 3
    | succ i =>
      simp only [List.mapIdx_cons, List.sum_cons, List.getElem_cons_succ]
      have hh : ∀ y, (ds.mapIdx fun j d => Function.update rho (i + 1) y (j + 1) • d) =
          ds.mapIdx fun j d => Function.update (fun j => rho (j + 1)) i y j • d := by
        intro y
        refine List.mapIdx_eq_mapIdx_iff.mpr fun j hj => ?_
        simp only [Function.update_apply, Nat.add_right_cancel_iff]
      rw [hh, hh, ih (fun j => rho (j + 1)) i (by simpa using hi), add_assoc]
      simp [Function.update_apply]

/-- If some equation fails, the verifier rejects except for rare coefficients: there is a coefficient
such that, whatever the other coefficients are, at most one of its values makes the verifier accept; or
the verifier rejects for all coefficients. -/
theorem C70_failing_equation_rejected_partial [DecidableEq F] [DecidableEq G1] [DecidableEq GT]
    (P : Pairing F G1 G2 GT)
    (H : AggHash F G1 G2 GT) (s : AggVerificationSrs G1 G2) (vk : AggVK G1 G2) (inputs : List (List F))
    (p : AggProof G1 G2 GT) (incl : List UInt8) (r : F) (xs : List F) (z : F)
    (hc : AggChallenges H p incl r xs z) (h : ¬ AggEquations P s vk inputs p r xs z) :
    (∀ rho, verifyAggregate P H s vk inputs p incl rho ≠ some true) ∨
      ∃ i < 9, ∀ (rho : Nat → F) (x y : F),
        verifyAggregate P H s vk inputs p incl (Function.update rho i x) = some true →
        verifyAggregate P H s vk inputs p incl (Function.update rho i y) = some true → x = y := by
  rw [aggEquations_iff] at h
  by_cases hd : ∀ d ∈ aggDefect P s p r xs z, d = 0
  · left
    intro rho hv
    obtain ⟨h0, hl, -⟩ := challenges_of_verdict P H s vk inputs p incl rho true hv
    rw [verifyAggregate_verdict P H s vk inputs p incl rho h0 hl r xs z hc, Option.some.injEq,
      decide_eq_true_iff] at hv
    refine h ⟨hd, hv.1, ?_⟩
    have hw : weighted rho (aggDefect P s p r xs z) = 0 := by
      unfold weighted
      refine List.sum_eq_zero fun d hd' => ?_
      obtain ⟨i, hi, rfl⟩ := List.mem_mapIdx.mp hd'
      rw [hd _ (List.getElem_mem hi), smul_zero]
    have := hv.2
    rwa [hw, zero_add] at this
  · right
    push Not at hd
    obtain ⟨d, hdm, hd0⟩ := hd
    obtain ⟨i, hi, rfl⟩ := List.mem_iff_getElem.mp hdm
    refine ⟨i, hi, fun rho x y hx hy => ?_⟩
    obtain ⟨h0, hl, -⟩ := challenges_of_verdict P H s vk inputs p incl _ true hx
    rw [verifyAggregate_verdict P H s vk inputs p incl _ h0 hl r xs z hc, Option.some.injEq,
      decide_eq_true_iff, weighted_update _ _ i hi] at hx hy
    have : (x - y) • (aggDefect P s p r xs z)[i] = 0 := by
      have e := hx.2.trans hy.2.symm
      rw [sub_smul, sub_eq_zero]
      simpa using e
    rcases smul_eq_zero.mp this with h' | h'
    · exact sub_eq_zero.mp h'
    · exact absurd h' hd0

/-- A verdict `true` shows, whatever the coefficients are, that the combination of the third elements of
the proofs is consistent with the recursion. -/
theorem C70_accepted_shows_partial [DecidableEq F] [DecidableEq G1] [DecidableEq GT] (P : Pairing F G1 G2 GT)
    (H : AggHash F G1 G2 GT) (s : AggVerificationSrs G1 G2) (vk : AggVK G1 G2) (inputs : List (List F))
    (p : AggProof G1 G2 GT) (incl : List UInt8) (rho : Nat → F)
    (h : verifyAggregate P H s vk inputs p incl rho = some true) :
    inputs ≠ [] ∧ (∀ x ∈ inputs, x.length = vk.gammaABC.domainSize) ∧
      ∃ r xs z, AggChallenges H p incl r xs z ∧
        foldFactor (xs.map (·⁻¹)) r • p.gipa.finalC = combinedValue p.aggC p.gipa.zC xs := by
  obtain ⟨h0, hl, r, xs, z, hc⟩ := challenges_of_verdict P H s vk inputs p incl rho true h
  refine ⟨h0, hl, r, xs, z, hc, ?_⟩
  rw [verifyAggregate_verdict P H s vk inputs p incl rho h0 hl r xs z hc, Option.some.injEq,
    decide_eq_true_iff] at h
  exact h.1

theorem powerSum_roots (n : Nat) (D : Fin n → GT) (i0 : Fin n) (h : D i0 ≠ 0) :
    ∃ S : Finset F, S.card ≤ n - 1 ∧ ∀ r : F, ∑ i : Fin n, r ^ (i : Nat) • D i = 0 → r ∈ S := by
  classical
  obtain ⟨f, hf⟩ : ∃ f : Module.Dual F GT, f (D i0) ≠ 0 := by
    by_contra hcon
    push Not at hcon
    exact h ((Module.forall_dual_apply_eq_zero_iff F _).mp hcon)
  set q : Polynomial F := ∑ i : Fin n, Polynomial.C (f (D i)) * Polynomial.X ^ (i : Nat) with hq
  have hcoeff : q.coeff i0 = f (D i0) := by
    rw [hq, Polynomial.finset_sum_coeff]
    simp only [Polynomial.coeff_C_mul, Polynomial.coeff_X_pow]
    rw [Finset.sum_eq_single i0]
    · simp
    · intro j _ hj
      rw [if_neg (fun he => hj (Fin.ext he.symm)), mul_zero]
    · simp
  have hq0 : q ≠ 0 := by
    intro h0
    rw [h0, Polynomial.coeff_zero] at hcoeff
    exact hf hcoeff.symm
  have hdeg : q.natDegree ≤ n - 1 := by
    rw [hq]
    refine Polynomial.natDegree_sum_le_of_forall_le _ _ fun i _ => ?_
    refine (Polynomial.natDegree_C_mul_X_pow_le _ _).trans ?_
    have := i.2
    omega
  refine ⟨q.roots.toFinset, (Multiset.toFinset_card_le _).trans ((Polynomial.card_roots' q).trans hdeg), ?_⟩
  intro r hr
  rw [Multiset.mem_toFinset, Polynomial.mem_roots hq0, Polynomial.IsRoot.def, hq, Polynomial.eval_finset_sum]
  have := congrArg f hr
  rw [map_sum, map_zero] at this
  rw [← this]
  refine Finset.sum_congr rfl fun i _ => ?_
  rw [Polynomial.eval_mul, Polynomial.eval_C, Polynomial.eval_pow, Polynomial.eval_X, map_smul, smul_eq_mul,
    mul_comm]

/-- One invalid proof among the aggregated ones: for an aggregate made by the aggregator, the verifier
accepts only if the challenge `r` is one of at most `n - 1` values, and those depend on the proofs and
their inputs only. -/
theorem C70_invalid_proof_rejected [DecidableEq F] [DecidableEq G1] [DecidableEq GT]
    (P : Pairing F G1 G2 GT) (vk : AggVK G1 G2)
    (proofs : List (Groth16Proof G1 G2)) (inputs : List (List F)) (hlen : inputs.length = proofs.length)
    (i : Nat) (hi : i < proofs.length) (hbad : ¬ Groth16Holds P vk (inputs[i]'(hi.trans_eq hlen.symm)) proofs[i]) :
    ∃ S : Finset F, S.card ≤ proofs.length - 1 ∧
      ∀ (H : AggHash F G1 G2 GT) (_ : ∀ tr, ∃ x, H.read tr = some x) (alpha beta : F)
        (psrs : AggProvingSrs G1 G2) (vsrs : AggVerificationSrs G1 G2)
        (_ : aggGenerate P proofs.length alpha beta = some (psrs, vsrs)) (incl : List UInt8)
        (p : AggProof G1 G2 GT) (_ : aggregateProofs P H psrs incl proofs = some p) (rho : Nat → F),
        verifyAggregate P H vsrs vk inputs p incl rho = some true →
          ∃ r ∈ S, H.read (H.writeStart p.comAB p.comC incl) = some r := by
  obtain ⟨S, hcard, hS⟩ := powerSum_roots (F := F) proofs.length (fun i =>
    (P.e vk.alphaG1 vk.betaG2 + P.e (vk.gammaABC.first + (List.zipWith (fun g a => a • g) vk.gammaABC.rest
        (inputs[i.1]'(i.2.trans_eq hlen.symm))).sum) vk.gammaG2 + P.e (proofs[i]).gC vk.deltaG2 -
          P.e (proofs[i]).gA (proofs[i]).gB)) ⟨i, hi⟩ (by
    intro h0
    apply hbad
    unfold Groth16Holds
    exact (sub_eq_zero.mp h0).symm)
  refine ⟨S, hcard, ?_⟩
  intro H hH alpha beta psrs vsrs hgen incl p hp rho hv
  have h2 : 2 ≤ proofs.length ∧ isPow2 proofs.length = true := by
    unfold aggregateProofs at hp
    dsimp only at hp
    split at hp
    next h => exact ⟨h.1, h.2.1⟩
    · simp at hp
  obtain ⟨k, hk⟩ := (isPow2_iff _).mp h2.2
  have hk1 : 1 ≤ k := by
    rcases k with _ | k
    · rw [hk] at h2; simp at h2
    · omega
  obtain ⟨s', hs', hsp⟩ := specialize_eq P _ _ alpha beta h2.2 le_rfl
  unfold aggGenerate at hgen
  rw [hs'] at hgen
  simp only [Option.bind_eq_bind, Option.bind_some, hsp, Option.some.injEq, Prod.mk.injEq] at hgen
  obtain ⟨rfl, rfl⟩ := hgen
  rw [hk] at hp hv
  obtain ⟨p', r, xs, z, hagg, hch, -, hd, hzc, hip, hag⟩ :=
    aggregateProofs_run P H hH k hk1 alpha beta incl proofs hk
  rw [hp, Option.some.injEq] at hagg
  subst hagg
  obtain ⟨h0, hl, -⟩ := challenges_of_verdict P H _ vk inputs p incl rho true hv
  rw [verifyAggregate_verdict P H _ vk inputs p incl rho h0 hl r xs z hch, Option.some.injEq,
    decide_eq_true_iff] at hv
  refine ⟨r, hS r ?_, hch.start⟩
  rw [← grothDefect_honest P vk inputs proofs hlen p r hip hag]
  have hw : weighted rho (aggDefect P (honestVerificationSrs P (2 ^ k) alpha beta) p r xs z) = 0 := by
    unfold weighted
    refine List.sum_eq_zero fun d hd' => ?_
    obtain ⟨i, hi, rfl⟩ := List.mem_mapIdx.mp hd'
    rw [hd _ (List.getElem_mem hi), smul_zero]
  have := hv.2
  rwa [hw, zero_add] at this

/-- The public inputs have to be among the bytes that the caller adds to the transcript, as the comment at
verifier.hpp:550-559 says: an aggregate that is accepted for some inputs is accepted, with the same added
bytes, for every inputs with the same combination by the powers of `r`. In particular any input can be
claimed for the second proof if the one for the first is changed accordingly. -/
theorem C70_inputs_not_bound [DecidableEq F] [DecidableEq G1] [DecidableEq GT] (P : Pairing F G1 G2 GT)
    (H : AggHash F G1 G2 GT) (s : AggVerificationSrs G1 G2) (vk : AggVK G1 G2) (x0 x1 : List F)
    (rest : List (List F)) (p : AggProof G1 G2 GT) (incl : List UInt8) (rho : Nat → F)
    (h : verifyAggregate P H s vk (x0 :: x1 :: rest) p incl rho = some true) (y1 : List F)
    (hy : y1.length = vk.gammaABC.domainSize) :
    ∃ y0, verifyAggregate P H s vk (y0 :: y1 :: rest) p incl rho = some true := by
  obtain ⟨h0, hl, r, xs, z, hc⟩ := challenges_of_verdict P H s vk _ p incl rho true h
  have l0 : x0.length = vk.gammaABC.domainSize := hl _ (by simp)
  have l1 : x1.length = vk.gammaABC.domainSize := hl _ (by simp)
  set y0 := List.zipWith (fun a d => a + r * d) x0 (List.zipWith (fun a b => a - b) x1 y1) with hy0
  have ly0 : y0.length = vk.gammaABC.domainSize := by simp [hy0, l0, l1, hy]
  refine ⟨y0, ?_⟩
  have hl' : ∀ x ∈ y0 :: y1 :: rest, x.length = vk.gammaABC.domainSize := by
    intro x hx
    rcases List.mem_cons.mp hx with rfl | hx
    · exact ly0
    rcases List.mem_cons.mp hx with rfl | hx
    · exact hy
    · exact hl _ (by simp [hx])
  rw [verifyAggregate_verdict P H s vk _ p incl rho h0 hl r xs z hc, Option.some.injEq,
    decide_eq_true_iff] at h
  rw [verifyAggregate_verdict P H s vk _ p incl rho (by simp) hl' r xs z hc, Option.some.injEq,
    decide_eq_true_iff]
  refine ⟨h.1, ?_⟩
  rw [← h.2]
  congr 1
  unfold grothDefect
  have hsum : ∀ u0 u1 : List F, (∑ i : Fin (u0 :: u1 :: rest).length, r ^ (i : Nat) • (vk.gammaABC.first +
        (List.zipWith (fun g a => a • g) vk.gammaABC.rest (u0 :: u1 :: rest)[i]).sum)) =
      (vk.gammaABC.first + (List.zipWith (fun g a => a • g) vk.gammaABC.rest u0).sum) +
        r • ((vk.gammaABC.first + (List.zipWith (fun g a => a • g) vk.gammaABC.rest u1).sum) +
        r • powerSum r rest fun u => vk.gammaABC.first +
          (List.zipWith (fun g a => a • g) vk.gammaABC.rest u).sum) := by
    intro u0 u1
    refine (powerSum_cons r u0 (u1 :: rest) fun u => vk.gammaABC.first +
          (List.zipWith (fun g a => a • g) vk.gammaABC.rest u).sum).trans ?_
    rw [powerSum_cons]
  rw [hsum, hsum]
  have hz : (List.zipWith (fun g a => a • g) vk.gammaABC.rest y0).sum =
      (List.zipWith (fun g a => a • g) vk.gammaABC.rest x0).sum +
        r • ((List.zipWith (fun g a => a • g) vk.gammaABC.rest x1).sum -
          (List.zipWith (fun g a => a • g) vk.gammaABC.rest y1).sum) := by
    clear hsum h hl' hl h0
    rw [hy0]
    unfold AccVec.domainSize at l0 l1 hy
    clear hy0 ly0
    clear y0
    generalize vk.gammaABC.rest = g at *
    induction g generalizing x0 x1 y1 with
    | nil => simp
    | cons g gs ih =>
      obtain ⟨a0, x0, rfl⟩ := List.exists_cons_of_length_eq_add_one l0
      obtain ⟨a1, x1, rfl⟩ := List.exists_cons_of_length_eq_add_one l1
      obtain ⟨b1, y1, rfl⟩ := List.exists_cons_of_length_eq_add_one hy
      simp only [List.zipWith_cons_cons, List.sum_cons]
      rw [ih x0 x1 y1 (by simpa using hy) (by simpa using l0) (by simpa using l1)]
      module
  rw [hz]
  congr 3
  congr 2
  module

/-- Whenever the verifier gives a verdict, it has drawn its last challenge from bytes that the next theorem
speaks about. -/
theorem C70_last_challenge_bytes [DecidableEq F] [DecidableEq G1] [DecidableEq GT] (P : Pairing F G1 G2 GT)
    (H : AggHash F G1 G2 GT) (s : AggVerificationSrs G1 G2) (vk : AggVK G1 G2) (inputs : List (List F))
    (p : AggProof G1 G2 GT) (incl : List UInt8) (rho : Nat → F) (b : Bool)
    (h : verifyAggregate P H s vk inputs p incl rho = some b) :
    ∃ t z, H.LastBytes p incl t ∧ H.read t = some z := by
  obtain ⟨-, -, r, xs, z, -, ms, tr, c, h1, h2, -, h3⟩ := challenges_of_verdict P H s vk inputs p incl rho b h
  exact ⟨_, z, ⟨ms, _, tr, c, h1, h2, rfl⟩, h3⟩

/-- The challenges bind the aggregate, if the encodings are injective and of fixed length. The first one is drawn
from bytes that determine the commitments and the bytes added by the caller. The one of round `j` is drawn
from bytes that determine these, the combined values and the messages of the first `j` rounds. The last one
is drawn from bytes that determine everything in the aggregate but the last elements and the openings. So
whoever changes any of this is given challenges by a hash of other bytes. -/
theorem C70_challenges_bind [DecidableEq F] (H : AggHash F G1 G2 GT) (hE : H.Encodes)
    (p q : AggProof G1 G2 GT) (incl incl' : List UInt8) (hi : incl.length < 2 ^ 64)
    (hi' : incl'.length < 2 ^ 64) :
    (H.writeStart p.comAB p.comC incl = H.writeStart q.comAB q.comC incl' →
      p.comAB = q.comAB ∧ p.comC = q.comC ∧ incl = incl') ∧
    (∀ i j t, H.RoundBytes p incl i t → H.RoundBytes q incl' j t →
      i = j ∧ p.comAB = q.comAB ∧ p.comC = q.comC ∧ incl = incl' ∧ p.ipAB = q.ipAB ∧ p.aggC = q.aggC ∧
        p.gipa.rounds.map (·.take j) = q.gipa.rounds.map (·.take j)) ∧
    (∀ t, H.LastBytes p incl t → H.LastBytes q incl' t → p.SameAbsorbed q ∧ incl = incl') := by
  obtain ⟨nT, hT, -⟩ := hE.lenGT
  obtain ⟨n1, h1⟩ := hE.lenG1
  have key : ∀ ms ms' : List (GipaRound G1 GT),
      H.writeStart p.comAB p.comC incl ++ H.bytesGT p.ipAB ++ H.bytesG1 p.aggC ++ tagGipa ++
          ms.flatMap H.roundBytes =
        H.writeStart q.comAB q.comC incl' ++ H.bytesGT q.ipAB ++ H.bytesG1 q.aggC ++ tagGipa ++
          ms'.flatMap H.roundBytes →
      p.comAB = q.comAB ∧ p.comC = q.comC ∧ incl = incl' ∧ p.ipAB = q.ipAB ∧ p.aggC = q.aggC ∧
        ms = ms' := by
    intro ms ms' h
    simp only [List.append_assoc] at h
    obtain ⟨a1, a2, a3, h⟩ := writeStart_cancel hE hi hi' h
    obtain ⟨a4, h⟩ := append_cancel h (by simp [hT])
    obtain ⟨a5, h⟩ := append_cancel h (by simp [h1])
    have h := List.append_cancel_left h
    exact ⟨a1, a2, a3, hE.injGT a4, hE.injG1 a5, blocks_injective (roundBytes_injective hE)
      (roundBytes_length hE) (roundBytes_pos hE) h⟩
  refine ⟨fun h => ?_, fun i j t hp hq => ?_, fun t hp hq => ?_⟩
  · obtain ⟨a, b, c, -⟩ := writeStart_cancel (s := []) (s' := []) hE hi hi' (by simpa using h)
    exact ⟨a, b, c⟩
  · obtain ⟨ms, xs, hr, hj, h⟩ := hp
    obtain ⟨ms', xs', hr', hj', h'⟩ := hq
    have e := gipaChallenges_bytes H _ _ _ _ h
    have e' := gipaChallenges_bytes H _ _ _ _ h'
    obtain ⟨b1, b2, b3, b4, b5, b6⟩ := key _ _ (e.symm.trans e')
    have hij : i = j := by
      have := congrArg List.length b6
      simp only [List.length_take] at this
      omega
    subst hij
    exact ⟨rfl, b1, b2, b3, b4, b5, by rw [hr, hr', Option.map_some, Option.map_some, b6]⟩
  · obtain ⟨ms, xs, tr, c, hr, h, rfl⟩ := hp
    obtain ⟨ms', xs', tr', c', hr', h', ht⟩ := hq
    obtain ⟨f1, -, f2, f3⟩ := writeFinal_cancel hE ht
    have e := gipaChallenges_bytes H _ _ _ _ h
    have e' := gipaChallenges_bytes H _ _ _ _ h'
    obtain ⟨b1, b2, b3, b4, b5, b6⟩ := key _ _ (e.symm.trans (f1.trans e'))
    exact ⟨⟨b1, b2, b4, b5, by rw [hr, hr', b6], f2, f3⟩, b3⟩

/-- Undefined behaviour on a malformed aggregate: without rounds the verifier reads the first challenge of
an empty list; with vectors of different lengths it reads beyond the end of one. -/
theorem C70_malformed_undefined [DecidableEq F] [DecidableEq G1] [DecidableEq GT] (P : Pairing F G1 G2 GT)
    (H : AggHash F G1 G2 GT) (s : AggVerificationSrs G1 G2) (vk : AggVK G1 G2) (inputs : List (List F))
    (p : AggProof G1 G2 GT) (incl : List UInt8) (rho : Nat → F)
    (h : p.gipa.commsAB = [] ∨ p.gipa.commsAB.length ≠ p.gipa.zAB.length ∨
      p.gipa.commsAB.length ≠ p.gipa.commsC.length ∨ p.gipa.commsAB.length ≠ p.gipa.zC.length) :
    verifyAggregate P H s vk inputs p incl rho = none := by
  cases hv : verifyAggregate P H s vk inputs p incl rho with
  | none => rfl
  | some b =>
    exfalso
    obtain ⟨-, -, r, xs, z, hc⟩ := challenges_of_verdict P H s vk inputs p incl rho b hv
    obtain ⟨ms, tr, c, hms, hch, hlast, -⟩ := hc.rounds
    have hcond : p.gipa.commsAB.length = p.gipa.zAB.length ∧ p.gipa.commsAB.length = p.gipa.commsC.length ∧
        p.gipa.commsAB.length = p.gipa.zC.length := by
      unfold GipaProof.rounds at hms
      split at hms
      next h => exact h
      · simp at hms
    rcases h with h | h | h | h
    · obtain ⟨m1, -⟩ := rounds_map _ _ hms
      rw [h] at m1
      have : ms = [] := by simpa using m1
      rw [this] at hch
      simp only [gipaChallenges, Option.some.injEq, Prod.mk.injEq] at hch
      have hx : xs = [] := by simpa using hch.1.symm
      rw [hx] at hlast
      simp at hlast
    · exact h hcond.1
    · exact h hcond.2.1
    · exact h hcond.2.2

/-! ## Examples -/

section Examples

def aggPairing : Pairing ℚ ℚ ℚ ℚ := ⟨LinearMap.mul ℚ ℚ, 1, 1, fun _ => true, fun _ => true⟩

/-- a transcript whose challenges depend on the bytes absorbed -/
def aggHash : AggHash ℚ ℚ ℚ ℚ where
  bytesF x := [UInt8.ofNat x.num.natAbs, UInt8.ofNat x.den]
  bytesG1 x := [UInt8.ofNat x.num.natAbs, UInt8.ofNat x.den]
  bytesG2 x := [UInt8.ofNat x.num.natAbs, UInt8.ofNat x.den]
  bytesGT x := [UInt8.ofNat x.num.natAbs, UInt8.ofNat x.den]
  bytesLen n := [UInt8.ofNat n]
  bytesNonce n := [UInt8.ofNat n]
  hash bs := [bs.foldl (fun a b => a * 3 + b) 7]
  decode bs := some ((bs.headD 0).toNat + 2 : ℚ)
  patience := 1

theorem aggHash_total : ∀ tr, ∃ x, aggHash.read tr = some x := by
  intro tr
  unfold AggHash.read
  show ∃ x, aggHash.attempt 1 1 tr = some x
  unfold AggHash.attempt
  refine ⟨_, if_neg ?_⟩
  simp only [not_or]
  constructor
  · positivity
  · intro h
    have : (0 : ℚ) ≤ (((aggHash.hash (tr ++ aggHash.bytesNonce 1)).headD 0).toNat : ℚ) := by positivity
    linarith

def aggKey : AggVK ℚ ℚ := ⟨1, 2, 1, 3, ⟨1, [2]⟩⟩

/-- `A B = 2 + (1 + 2 x) + 3 C` -/
def aggProofs : List (Groth16Proof ℚ ℚ) := [⟨2, 3, 1⟩, ⟨5, 4, 5⟩, ⟨1, 8, 1⟩, ⟨3, 7, 2⟩]

def aggInputs : List (List ℚ) := [[0], [1], [1], [6]]

def aggRun (inputs : List (List ℚ)) (proofs : List (Groth16Proof ℚ ℚ)) : Option Bool := do
  let (psrs, vsrs) ← aggGenerate aggPairing 4 3 5
  let p ← aggregateProofs aggPairing aggHash psrs [1, 2] proofs
  verifyAggregate aggPairing aggHash vsrs aggKey inputs p [1, 2] fun i => i + 2

-- valid proofs: the hypotheses of `C69_aggregate_of_accepted` hold, and the verdict is `true`
example : List.Forall₂ (fun x π => groth16VerifyStrong aggPairing (aggKey.toVK aggPairing) x π = some true)
    aggInputs aggProofs := by
  unfold aggInputs aggProofs
  repeat' constructor
  all_goals decide +kernel

example : ∃ psrs vsrs, aggGenerate aggPairing 4 3 5 = some (psrs, vsrs) ∧
    ∃ p, aggregateProofs aggPairing aggHash psrs [] aggProofs = some p ∧
      ∀ rho, verifyAggregate aggPairing aggHash vsrs aggKey aggInputs p [] rho = some true := by
  obtain ⟨s, h1, h2⟩ := specialize_eq aggPairing 4 4 3 5 rfl le_rfl
  have hg : aggGenerate aggPairing 4 3 5 = some (honestProvingSrs aggPairing 4 3 5,
      honestVerificationSrs aggPairing 4 3 5) := by
    unfold aggGenerate
    rw [h1]
    exact h2
  refine ⟨_, _, hg, ?_⟩
  refine C69_aggregate_of_accepted aggPairing aggHash aggHash_total 4 3 5 _ _ hg (by omega) aggKey aggProofs
    rfl aggInputs ?_ []
  unfold aggInputs aggProofs
  repeat' constructor
  all_goals decide +kernel

-- whole runs: valid proofs; one wrong input; one wrong proof
example : aggRun aggInputs aggProofs = some true := by decide +kernel
example : aggRun [[0], [1], [1], [5]] aggProofs = some false := by decide +kernel
example : aggRun aggInputs [⟨2, 3, 1⟩, ⟨5, 4, 5⟩, ⟨1, 8, 0⟩, ⟨3, 7, 2⟩] = some false := by decide +kernel
-- `C70_invalid_proof_rejected`: the third proof is not valid for its input
example : ¬ Groth16Holds aggPairing aggKey [1] ⟨1, 8, 0⟩ := by
  unfold Groth16Holds
  decide +kernel
-- `C70_inputs_not_bound`: the aggregate of the valid proofs is accepted for the second input `9`, for which
-- the second proof is not valid, with some first input
example : ∃ psrs vsrs p y0, aggGenerate aggPairing 4 3 5 = some (psrs, vsrs) ∧
    aggregateProofs aggPairing aggHash psrs [1, 2] aggProofs = some p ∧
    verifyAggregate aggPairing aggHash vsrs aggKey [y0, [9], [1], [6]] p [1, 2] (fun i => i + 2) = some true ∧
    ¬ Groth16Holds aggPairing aggKey [9] ⟨5, 4, 5⟩ := by
  have hrun : aggRun aggInputs aggProofs = some true := by decide +kernel
  unfold aggRun at hrun
  simp only [Option.bind_eq_bind, Option.bind_eq_some_iff] at hrun
  obtain ⟨⟨psrs, vsrs⟩, hg, p, hp, hv⟩ := hrun
  obtain ⟨y0, hy⟩ := C70_inputs_not_bound aggPairing aggHash vsrs aggKey [0] [1] [[1], [6]] p [1, 2] _ hv [9] rfl
  refine ⟨psrs, vsrs, p, y0, hg, hp, hy, ?_⟩
  unfold Groth16Holds
  decide +kernel
-- not a power of two
example : aggGenerate aggPairing 3 3 5 = none := by decide +kernel

/-- encodings as `C70_challenges_bind` assumes: one byte for an element, eight for a length -/
def bindHash : AggHash (ZMod 17) (ZMod 17) (ZMod 17) (ZMod 17) where
  bytesF x := [UInt8.ofNat x.val]
  bytesG1 x := [UInt8.ofNat x.val]
  bytesG2 x := [UInt8.ofNat x.val]
  bytesGT x := [UInt8.ofNat x.val]
  bytesLen n := [UInt8.ofNat (n / 2 ^ 56), UInt8.ofNat (n / 2 ^ 48), UInt8.ofNat (n / 2 ^ 40),
    UInt8.ofNat (n / 2 ^ 32), UInt8.ofNat (n / 2 ^ 24), UInt8.ofNat (n / 2 ^ 16), UInt8.ofNat (n / 2 ^ 8),
    UInt8.ofNat n]
  bytesNonce n := [UInt8.ofNat n]
  hash bs := [bs.foldl (fun a b => a * 3 + b) 7]
  decode bs := some ((bs.headD 0).toNat + 2 : ZMod 17)
  patience := 1

theorem byte_injective : Function.Injective fun x : ZMod 17 => [UInt8.ofNat x.val] := by decide

example : (letI : Fact (Nat.Prime 17) := ⟨by norm_num⟩; bindHash.Encodes) := by
  letI : Fact (Nat.Prime 17) := ⟨by norm_num⟩
  refine ⟨byte_injective, byte_injective, byte_injective, byte_injective, ?_, ⟨1, fun _ => rfl⟩,
    ⟨1, fun _ => rfl⟩, ⟨1, fun _ => rfl⟩, ⟨1, fun _ => rfl, by omega⟩, ⟨8, fun _ _ => rfl⟩⟩
  intro m n hm hn h
  simp only [bindHash, List.cons.injEq, and_true] at h
  obtain ⟨h1, h2, h3, h4, h5, h6, h7, h8⟩ := h
  have t : ∀ {a b : Nat}, UInt8.ofNat a = UInt8.ofNat b → a % 256 = b % 256 := by
    intro a b h
    simpa using congrArg UInt8.toNat h
  have h1 := t h1
  have h2 := t h2
  have h3 := t h3
  have h4 := t h4
  have h5 := t h5
  have h6 := t h6
  have h7 := t h7
  have h8 := t h8
  omega

end Examples

end Crypto3Zk
