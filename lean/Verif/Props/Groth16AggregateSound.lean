import Verif.Lemmas.AggSound
import Verif.Lemmas.FormalPairing
import Verif.Props.Groth16Aggregate

/-!
# Properties: aggregates that the aggregator has not made
-/

set_option linter.unusedSectionVars false

namespace Crypto3Zk

open Finset

variable {F : Type} [Field F] {G1 G2 GT : Type} [AddCommGroup G1] [Module F G1] [AddCommGroup G2]
  [Module F G2] [AddCommGroup GT] [Module F GT]

/-- The commitments of a prover without relations in the key fix the vectors. -/
theorem commits_unique (P : Pairing F G1 G2 GT) (s : AggVerificationSrs G1 G2) (K : AggPowers G1 G2) (n d : Nat)
    (hB : AggBinding K P s n d) (TU : GT × GT) (A A' : Nat → G1) (B B' : Nat → G2)
    (h : K.CommitsAB P n TU A B) (h' : K.CommitsAB P n TU A' B') : ∀ i < n, A i = A' i ∧ B i = B' i := by
  intro i hi
  have := hB.commit (fun i => A i - A' i) (fun i => B i - B' i) (by
    refine ⟨?_, ?_⟩
    · refine (sub_eq_zero.mpr (h.1.symm.trans h'.1)).symm.trans ?_
      rw [← Finset.sum_sub_distrib]
      refine Finset.sum_congr rfl fun i _ => ?_
      simp only [map_sub, LinearMap.sub_apply]
      abel
    · refine (sub_eq_zero.mpr (h.2.symm.trans h'.2)).symm.trans ?_
      rw [← Finset.sum_sub_distrib]
      refine Finset.sum_congr rfl fun i _ => ?_
      simp only [map_sub, LinearMap.sub_apply]
      abel) i hi
  exact ⟨sub_eq_zero.mp this.1, sub_eq_zero.mp this.2⟩

/-- Aggregates made in any way: a prover that, after committing, answers for sufficiently many values of
the challenge `r`, with trees of transcripts for the challenges of the rounds, and that has no relation
between the elements of the key, has committed to vectors that are valid Groth16 proofs of all the
inputs. Entries after the end of the vectors count as zeros. -/
theorem C112_tree_shows_valid_proofs (P : Pairing F G1 G2 GT) (s : AggVerificationSrs G1 G2)
    (vk : AggVK G1 G2) (inputs : List (List F)) (K : AggPowers G1 G2) (k d : Nat) (hK : K.Of P s (2 ^ k))
    (hB : AggBinding K P s (2 ^ k) d) (comAB comC : GT × GT) (R : Finset F) (h0 : (0 : F) ∉ R)
    (hR : inputs.length ≤ R.card ∧ 2 ^ k ≤ R.card)
    (h : ∀ r ∈ R, AnswersTree P s vk inputs comAB comC k d r) :
    ∃ A B C, K.CommitsAB P (2 ^ k) comAB A B ∧ K.CommitsC P (2 ^ k) comC C ∧
      (∀ i, 2 ^ k ≤ i → A i = 0 ∧ B i = 0 ∧ C i = 0) ∧
      ∀ (i : Nat) (hi : i < inputs.length), Groth16Holds P vk inputs[i] ⟨A i, B i, C i⟩ := by
  classical
  have hpos : 0 < 2 ^ k := Nat.two_pow_pos k
  obtain ⟨r0, hr0⟩ := Finset.card_pos.mp (lt_of_lt_of_le hpos hR.2)
  have ext := fun r (hr : r ∈ R) => agg_extract P s vk inputs K k d hK hB comAB comC r
    (fun he => h0 (he ▸ hr)) (h r hr)
  obtain ⟨A0, B0, C0, hAB0, hC0, -⟩ := ext r0 hr0
  set A : Nat → G1 := fun i => if i < 2 ^ k then A0 i else 0 with hA
  set B : Nat → G2 := fun i => if i < 2 ^ k then B0 i else 0 with hBB
  set C : Nat → G1 := fun i => if i < 2 ^ k then C0 i else 0 with hC
  have inA : ∀ i < 2 ^ k, A i = A0 i := fun i hi => if_pos hi
  have inB : ∀ i < 2 ^ k, B i = B0 i := fun i hi => if_pos hi
  have inC : ∀ i < 2 ^ k, C i = C0 i := fun i hi => if_pos hi
  have hAB : K.CommitsAB P (2 ^ k) comAB A B := by
    refine ⟨hAB0.1.trans (Finset.sum_congr rfl fun i hi => ?_), hAB0.2.trans (Finset.sum_congr rfl fun i hi => ?_)⟩ <;>
      rw [inA i (Finset.mem_range.mp hi), inB i (Finset.mem_range.mp hi)]
  have hCC : K.CommitsC P (2 ^ k) comC C := by
    refine ⟨hC0.1.trans (Finset.sum_congr rfl fun i hi => ?_), hC0.2.trans (Finset.sum_congr rfl fun i hi => ?_)⟩ <;>
      rw [inC i (Finset.mem_range.mp hi)]
  refine ⟨A, B, C, hAB, hCC, fun i hi => ⟨if_neg (by omega), if_neg (by omega), if_neg (by omega)⟩, ?_⟩
  -- one equation for each `r`
  set N := max inputs.length (2 ^ k) with hN
  let E : Nat → GT := fun i => if hi : i < inputs.length then
      P.e vk.alphaG1 vk.betaG2 + P.e (vk.gammaABC.first +
        (List.zipWith (fun g a => a • g) vk.gammaABC.rest inputs[i]).sum) vk.gammaG2 else 0
  let D : Nat → GT := fun i => P.e (A i) (B i) - E i - P.e (C i) vk.deltaG2
  have hD : ∀ r ∈ R, ∑ i : Fin N, r ^ (i : Nat) • D i = 0 := by
    intro r hr
    obtain ⟨A', B', C', hAB', hC', heq⟩ := ext r hr
    have ha := commits_unique P s K (2 ^ k) d hB comAB A A' B B' hAB hAB'
    have hc : ∀ i < 2 ^ k, C i = C' i := fun i hi =>
      (commits_unique P s K (2 ^ k) d hB comC C C' (fun _ => 0) (fun _ => 0)
        ⟨hCC.1.trans (by simp), hCC.2.trans (by simp)⟩ ⟨hC'.1.trans (by simp), hC'.2.trans (by simp)⟩ i hi).1
    have s1 : ∑ i ∈ range N, r ^ i • P.e (A i) (B i) = ∑ i ∈ range (2 ^ k), r ^ i • P.e (A' i) (B' i) := by
      rw [← Finset.sum_subset (Finset.range_subset_range.mpr (le_max_right inputs.length (2 ^ k)))]
      · refine Finset.sum_congr rfl fun i hi => ?_
        rw [(ha i (Finset.mem_range.mp hi)).1, (ha i (Finset.mem_range.mp hi)).2]
      · intro i _ hi
        have : A i = 0 := if_neg (by simpa using hi)
        rw [this, map_zero, LinearMap.zero_apply, smul_zero]
    have s2 : ∑ i ∈ range N, r ^ i • P.e (C i) vk.deltaG2 = P.e (∑ i ∈ range (2 ^ k), r ^ i • C' i) vk.deltaG2 := by
      rw [← Finset.sum_subset (Finset.range_subset_range.mpr (le_max_right inputs.length (2 ^ k))), map_sum,
        LinearMap.sum_apply]
      · refine Finset.sum_congr rfl fun i hi => ?_
        rw [hc i (Finset.mem_range.mp hi), map_smul, LinearMap.smul_apply]
      · intro i _ hi
        have : C i = 0 := if_neg (by simpa using hi)
        rw [this, map_zero, LinearMap.zero_apply, smul_zero]
    have s3 : ∑ i ∈ range N, r ^ i • E i =
        P.e ((∑ i : Fin inputs.length, r ^ (i : Nat)) • vk.alphaG1) vk.betaG2 +
        P.e (∑ i : Fin inputs.length, r ^ (i : Nat) • (vk.gammaABC.first +
          (List.zipWith (fun g a => a • g) vk.gammaABC.rest inputs[i]).sum)) vk.gammaG2 := by
      rw [← Finset.sum_subset (Finset.range_subset_range.mpr (le_max_left inputs.length (2 ^ k))),
        Finset.sum_range, map_smul, LinearMap.smul_apply, Finset.sum_smul, map_sum, LinearMap.sum_apply,
        ← Finset.sum_add_distrib]
      · refine Finset.sum_congr rfl fun i _ => ?_
        rw [map_smul, LinearMap.smul_apply, ← smul_add]
        exact congrArg (fun v => r ^ (i : Nat) • v) (dif_pos i.2)
      · intro i _ hi
        have : E i = 0 := dif_neg (by simpa using hi)
        rw [this, smul_zero]
    rw [← Finset.sum_range (fun i => r ^ i • D i)]
    simp only [D, smul_sub, Finset.sum_sub_distrib]
    rw [s1, s2, s3, heq]
    abel
  intro i hi
  by_contra hne
  obtain ⟨S, hS, hz⟩ := powerSum_roots (F := F) N (fun i => D i) ⟨i, lt_of_lt_of_le hi (le_max_left _ _)⟩ (by
    intro hd
    apply hne
    unfold Groth16Holds
    have hd' : P.e (A i) (B i) - E i - P.e (C i) vk.deltaG2 = 0 := hd
    have hE : E i = P.e vk.alphaG1 vk.betaG2 + P.e (vk.gammaABC.first +
        (List.zipWith (fun g a => a • g) vk.gammaABC.rest inputs[i]).sum) vk.gammaG2 := dif_pos hi
    rw [hE, sub_sub, sub_eq_zero] at hd'
    exact hd')
  have hle := Finset.card_le_card (s := R) (t := S) fun r hr => hz r (hD r hr)
  have : N ≤ R.card := max_le hR.1 hR.2
  have : 0 < N := lt_of_lt_of_le hpos (le_max_right _ _)
  omega

/-- Conversely a prover that has committed to valid proofs answers in this way, for every `r` other than
zero. -/
theorem C112_valid_proofs_answer (P : Pairing F G1 G2 GT) (s : AggVerificationSrs G1 G2)
    (vk : AggVK G1 G2) (inputs : List (List F)) (K : AggPowers G1 G2) (k d : Nat) (hK : K.Of P s (2 ^ k))
    (comAB comC : GT × GT) (A : Nat → G1) (B : Nat → G2) (C : Nat → G1)
    (hAB : K.CommitsAB P (2 ^ k) comAB A B) (hC : K.CommitsC P (2 ^ k) comC C) (hlen : inputs.length = 2 ^ k)
    (hvalid : ∀ (i : Nat) (hi : i < inputs.length), Groth16Holds P vk inputs[i] ⟨A i, B i, C i⟩)
    (c : Fin 4 → F) (hc : Function.Injective c) (hc0 : ∀ j, c j ≠ 0) (S : Finset F) (hS : d < S.card)
    (r : F) (hr : r ≠ 0) : AnswersTree P s vk inputs comAB comC k d r := by
  obtain ⟨t, hd, hp⟩ := gipa_complete (P.e.comp (LinearMap.fst F G1 G1))
    (fun (a : (((GT × GT) × (GT × GT)) × G1) × (((GT × GT) × (GT × GT)) × G1)) (b : GT × GT) =>
      (⟨a.1.1.1, a.2.1.1, a.1.1.2, a.2.1.2, b.1, b.2, a.1.2, a.2.2⟩ : GipaRound G1 GT))
    (fun m : GipaRound G1 GT => (((m.tabL, m.tucL), m.zcL), ((m.tabR, m.tucR), m.zcR)))
    (fun m => (m.zabL, m.zabR)) (fun _ _ => rfl) (fun _ _ => rfl) c hc hc0 k (aggPhi P K r)
    (aggPsi P K (2 ^ k) r) (fun i => (A i, C i)) (fun i => r ^ i • B i)
  have hcom : keyCommit (2 ^ k) (aggPhi P K r) (aggPsi P K (2 ^ k) r) (fun i => (A i, C i))
      (fun i => r ^ i • B i) = ((comAB, comC), ∑ i ∈ range (2 ^ k), r ^ i • C i) := by
    have e : ∀ i, aggPhi P K r i (A i, C i) + aggPsi P K (2 ^ k) r i (r ^ i • B i) =
        (((P.e (A i) (K.v1 i) + P.e (K.w1 (2 ^ k + i)) (B i),
          P.e (A i) (K.v2 i) + P.e (K.w2 (2 ^ k + i)) (B i)),
          (P.e (C i) (K.v1 i), P.e (C i) (K.v2 i))), r ^ i • C i) := by
      intro i
      have hi : r ^ i * r⁻¹ ^ i = 1 := by rw [← mul_pow, mul_inv_cancel₀ hr, one_pow]
      rw [aggPhi_apply, aggPsi_apply]
      simp only [map_smul, LinearMap.smul_apply, smul_smul, hi, one_smul, Prod.mk_add_mk, add_zero]
    have p1 : comAB = (comAB.1, comAB.2) := rfl
    have p2 : comC = (comC.1, comC.2) := rfl
    rw [p1, p2, hAB.1, hAB.2, hC.1, hC.2]
    simp only [keyCommit, e]
    refine Prod.ext (Prod.ext (Prod.ext ?_ ?_) (Prod.ext ?_ ?_)) ?_ <;>
      simp only [Prod.fst_sum, Prod.snd_sum]
  rw [hcom] at hp
  have hip : ∑ i ∈ range (2 ^ k), (P.e.comp (LinearMap.fst F G1 G1)) (A i, C i) (r ^ i • B i) =
      P.e ((∑ i : Fin inputs.length, r ^ (i : Nat)) • vk.alphaG1) vk.betaG2 +
        P.e (∑ i : Fin inputs.length, r ^ (i : Nat) • (vk.gammaABC.first +
          (List.zipWith (fun g a => a • g) vk.gammaABC.rest inputs[i]).sum)) vk.gammaG2 +
        P.e (∑ i ∈ range (2 ^ k), r ^ i • C i) vk.deltaG2 := by
    rw [← hlen, Finset.sum_range, Finset.sum_range (fun i => r ^ i • C i), map_smul, LinearMap.smul_apply,
      Finset.sum_smul, map_sum, LinearMap.sum_apply, map_sum, LinearMap.sum_apply, ← Finset.sum_add_distrib,
      ← Finset.sum_add_distrib]
    refine Finset.sum_congr rfl fun i _ => ?_
    have := hvalid i i.2
    unfold Groth16Holds at this
    simp only at this
    rw [map_smul, map_smul, LinearMap.smul_apply, map_smul, LinearMap.smul_apply, ← smul_add, ← smul_add]
    exact congrArg (fun v => r ^ (i : Nat) • v) this
  obtain ⟨t', hd', hp'⟩ := RoundTree.replace t (Q := fun ms xs keys => ∃ S : Finset F, d < S.card ∧
      ∀ z ∈ S, AggAccepted P s vk inputs comAB comC
        (∑ i ∈ range (2 ^ k), (P.e.comp (LinearMap.fst F G1 G1)) (A i, C i) (r ^ i • B i))
        (∑ i ∈ range (2 ^ k), r ^ i • C i) r ms xs keys z) hd
    (RoundTree.AllPaths.imp t hp fun ms xs a hl hl' hq => by
      obtain ⟨⟨a, c'⟩, b⟩ := a
      obtain ⟨q1, q2⟩ := hq
      dsimp only at q1 q2
      rw [agg_components] at q1
      obtain ⟨t1, t2, t3, t4, t5⟩ := q1
      refine ⟨((foldVector (xs.map (·⁻¹)) K.v1, foldVector (xs.map (·⁻¹)) K.v2),
        (foldVector xs fun i => r⁻¹ ^ i • K.w1 (2 ^ k + i), foldVector xs fun i => r⁻¹ ^ i • K.w2 (2 ^ k + i))),
        S, hS, fun z _ => ?_⟩
      obtain ⟨o1, ho1⟩ := final_key_opens P.e s.g s.gAlpha K.v1 (2 ^ k) 0 1 hK.v1_succ (xs.map (·⁻¹))
        (by rw [List.length_map, hl']; omega) z
      obtain ⟨o2, ho2⟩ := final_key_opens P.e s.g s.gBeta K.v2 (2 ^ k) 0 1 hK.v2_succ (xs.map (·⁻¹))
        (by rw [List.length_map, hl']; omega) z
      obtain ⟨o3, ho3⟩ := final_key_opens P.e.flip s.h s.hAlpha K.w1 (2 * 2 ^ k) (2 ^ k) r⁻¹
        (fun i hi => hK.w1_succ i hi) xs (by rw [hl']; omega) z
      obtain ⟨o4, ho4⟩ := final_key_opens P.e.flip s.h s.hBeta K.w2 (2 * 2 ^ k) (2 ^ k) r⁻¹
        (fun i hi => hK.w2_succ i hi) xs (by rw [hl']; omega) z
      simp only [one_pow, one_smul, zero_add, mul_one, pow_zero] at ho1 ho2
      rw [hK.v1_zero] at ho1
      rw [hK.v2_zero] at ho2
      rw [hK.w1_zero] at ho3
      rw [hK.w2_zero] at ho4
      refine ⟨⟨comAB, comC, _, _, ⟨2 ^ k, ms.map (fun m => (m.tabL, m.tabR)), ms.map (fun m => (m.tucL, m.tucR)),
        ms.map (fun m => (m.zabL, m.zabR)), ms.map (fun m => (m.zcL, m.zcR)), a, b, c', _, _⟩, (o1, o2),
        (o3, o4)⟩, rfl, rfl, rfl, rfl, ?_, rfl, rfl, ?_⟩
      · unfold GipaProof.rounds
        rw [if_pos (by simp), Option.some.injEq]
        refine List.ext_getElem (by simp) fun i _ _ => ?_
        simp
      · constructor
        · exact ho1
        · exact ho2
        · rw [hK.size]
          exact ho3
        · rw [hK.size]
          exact ho4
        · exact q2
        · simpa [List.map_map, Function.comp_def] using t1
        · simpa [List.map_map, Function.comp_def] using t2
        · simpa [List.map_map, Function.comp_def] using t3
        · simpa [List.map_map, Function.comp_def] using t4
        · exact t5
        · exact hip)
  exact ⟨_, _, t', hd', hp'⟩

/-- The equations in `AnswersTree` are what the verifier checks: for the challenges of the transcript they
hold exactly when the verifier accepts the aggregate whatever its random coefficients are. -/
theorem C112_accepted_equations [DecidableEq F] [DecidableEq G1] [DecidableEq GT] (P : Pairing F G1 G2 GT)
    (H : AggHash F G1 G2 GT) (s : AggVerificationSrs G1 G2) (vk : AggVK G1 G2) (inputs : List (List F))
    (p : AggProof G1 G2 GT) (incl : List UInt8) (r : F) (xs : List F) (z : F)
    (hc : AggChallenges H p incl r xs z) (h0 : inputs ≠ [])
    (hl : ∀ x ∈ inputs, x.length = vk.gammaABC.domainSize) :
    AggEquations P s vk inputs p r xs z ↔ ∀ rho, verifyAggregate P H s vk inputs p incl rho = some true := by
  refine ⟨fun h rho => C70_equations_accepted P H s vk inputs p incl h0 hl r xs z hc h rho, fun h => ?_⟩
  by_contra hne
  rcases C70_failing_equation_rejected_partial P H s vk inputs p incl r xs z hc hne with h' | ⟨i, -, h'⟩
  · exact h' (fun _ => 0) (h _)
  · exact zero_ne_one (h' (fun _ => 0) 0 1 (h _) (h _))

/-! ## Provers that know representations -/

section formal
variable {R : Type} [CommRing R] [IsDomain R] [Algebra F R]

/-- The assumptions hold for a prover that knows, of every element that it sends, a representation in
terms of the reference string: commitments are binding and only the right final keys can be opened. -/
theorem C112_formal_assumptions (n d : Nat) (hd : 2 * n ≤ d + 1) (h1 : 1 ≤ d) :
    (formalPowers F R d).Of (formalPairing F R d) (formalSrs F R n d) n ∧
      AggBinding (formalPowers F R d) (formalPairing F R d) (formalSrs F R n d) n d :=
  ⟨formalPowers_of n d hd h1, formal_binding n d hd h1⟩

/-- Aggregates of a prover that knows representations: the elements that it sends and the key of the
Groth16 proofs are polynomials in the secrets of the reference string, with coefficients that may
depend on the other secrets. If it answers for `2^k` values of `r` the `2^k` committed triples are valid
proofs of all the inputs. -/
theorem C112_formal_prover (k : Nat) (vk : AggVK (formalElements F R (2 * 2 ^ k - 1)) (formalElements F R (2 * 2 ^ k - 1)))
    (inputs : List (List F)) (hlen : inputs.length = 2 ^ k) (comAB comC : FormalTarget R × FormalTarget R)
    (S : Finset F) (h0 : (0 : F) ∉ S) (hS : 2 ^ k ≤ S.card)
    (h : ∀ r ∈ S, AnswersTree (formalPairing F R (2 * 2 ^ k - 1)) (formalSrs F R (2 ^ k) (2 * 2 ^ k - 1)) vk inputs
      comAB comC k (2 * 2 ^ k - 1) r) :
    ∃ A B C, (formalPowers F R (2 * 2 ^ k - 1)).CommitsAB (formalPairing F R (2 * 2 ^ k - 1)) (2 ^ k) comAB A B ∧
      (formalPowers F R (2 * 2 ^ k - 1)).CommitsC (formalPairing F R (2 * 2 ^ k - 1)) (2 ^ k) comC C ∧
      ∀ (i : Nat) (hi : i < inputs.length),
        Groth16Holds (formalPairing F R (2 * 2 ^ k - 1)) vk inputs[i] ⟨A i, B i, C i⟩ := by
  have hp : 0 < 2 ^ k := Nat.two_pow_pos k
  obtain ⟨hK, hB⟩ := C112_formal_assumptions (F := F) (R := R) (2 ^ k) (2 * 2 ^ k - 1) (by omega) (by omega)
  obtain ⟨A, B, C, hAB, hC, -, hv⟩ := C112_tree_shows_valid_proofs _ _ vk inputs _ k _ hK hB comAB comC S h0
    ⟨hlen.le.trans hS, hS⟩ h
  exact ⟨A, B, C, hAB, hC, hv⟩

end formal

/-! ## Examples -/

/-- the element with the known logarithm `q` -/
noncomputable def exFormal (q : ℚ) : formalElements ℚ ℚ 3 := q • formalAlphaPower ℚ ℚ 3 0

theorem exFormal_pair (a b : ℚ) : (formalPairing ℚ ℚ 3).e (exFormal a) (exFormal b) = (a * b) • 1 := by
  rw [formalPairing_e, exFormal, exFormal, Submodule.coe_smul, Submodule.coe_smul,
    formalAlphaPower_val _ _ (Nat.zero_le _), pow_zero, smul_mul_smul_comm, mul_one]

/-- the key of the examples of the aggregation, in the formal groups -/
noncomputable def exFormalKey : AggVK (formalElements ℚ ℚ 3) (formalElements ℚ ℚ 3) :=
  ⟨exFormal 1, exFormal 2, exFormal 1, exFormal 3, ⟨exFormal 1, [exFormal 2]⟩⟩

/-- two valid proofs, of the inputs `0` and `1` -/
theorem exFormal_valid : Groth16Holds (formalPairing ℚ ℚ 3) exFormalKey [0] ⟨exFormal 2, exFormal 3, exFormal 1⟩ ∧
    Groth16Holds (formalPairing ℚ ℚ 3) exFormalKey [1] ⟨exFormal 5, exFormal 4, exFormal 5⟩ := by
  have e : ∀ a b : ℚ, exFormal a + b • exFormal 2 = exFormal (a + b * 2) := by
    intro a b
    simp only [exFormal]
    module
  constructor <;>
  · unfold Groth16Holds
    simp only [exFormalKey, List.zipWith_cons_cons, List.zipWith_nil_left, List.sum_cons, List.sum_nil, add_zero, e,
      exFormal_pair]
    module

/-- a prover that has committed to the two proofs answers for all `r` other than zero, and an input that
neither proof is for cannot take the place of the first -/
example : ∃ comAB comC, (∀ r : ℚ, r ≠ 0 → AnswersTree (formalPairing ℚ ℚ 3) (formalSrs ℚ ℚ 2 3) exFormalKey [[0], [1]]
      comAB comC 1 3 r) ∧
    ¬ (AnswersTree (formalPairing ℚ ℚ 3) (formalSrs ℚ ℚ 2 3) exFormalKey [[1], [1]] comAB comC 1 3 1 ∧
      AnswersTree (formalPairing ℚ ℚ 3) (formalSrs ℚ ℚ 2 3) exFormalKey [[1], [1]] comAB comC 1 3 2) := by
  obtain ⟨hK, hB⟩ := C112_formal_assumptions (F := ℚ) (R := ℚ) 2 3 (by omega) (by omega)
  let A : Nat → formalElements ℚ ℚ 3 := fun i => if i = 0 then exFormal 2 else exFormal 5
  let B : Nat → formalElements ℚ ℚ 3 := fun i => if i = 0 then exFormal 3 else exFormal 4
  let C : Nat → formalElements ℚ ℚ 3 := fun i => if i = 0 then exFormal 1 else exFormal 5
  obtain ⟨comAB, hAB0⟩ : ∃ comAB, (formalPowers ℚ ℚ 3).CommitsAB (formalPairing ℚ ℚ 3) 2 comAB A B :=
    ⟨(_, _), rfl, rfl⟩
  obtain ⟨comC, hC0⟩ : ∃ comC, (formalPowers ℚ ℚ 3).CommitsC (formalPairing ℚ ℚ 3) 2 comC C := ⟨(_, _), rfl, rfl⟩
  refine ⟨comAB, comC, fun r hr => ?_, fun h => ?_⟩
  · refine C112_valid_proofs_answer _ _ exFormalKey [[0], [1]] _ 1 3 hK _ _ A B C hAB0 hC0 rfl ?_
      (fun i => (i : ℚ) + 1) ?_ ?_ {0, 1, 2, 3} (by decide) r hr
    · intro i hi
      rcases i with _ | _ | i
      · exact exFormal_valid.1
      · exact exFormal_valid.2
      · simp at hi
    · intro a b hab
      have : ((a : Nat) : ℚ) = ((b : Nat) : ℚ) := by simpa using hab
      exact Fin.ext (by exact_mod_cast this)
    · intro j
      positivity
  · obtain ⟨A', B', C', hAB, hC, -, hv⟩ := C112_tree_shows_valid_proofs _ _ exFormalKey [[1], [1]] _ 1 3 hK hB _ _
      {1, 2} (by decide) ⟨by decide, by decide⟩ (fun r hr => by
        rcases Finset.mem_insert.mp hr with rfl | hr
        · exact h.1
        · rw [Finset.mem_singleton.mp hr]
          exact h.2)
    have h1 := hv 0 (by simp)
    obtain ⟨ha, hb⟩ := commits_unique _ _ _ 2 3 hB _ A A' B B' hAB0 hAB 0 (by omega)
    have hc := (commits_unique _ _ _ 2 3 hB _ C C' (fun _ => 0) (fun _ => 0) ⟨hC0.1.trans (by simp), hC0.2.trans (by simp)⟩
      ⟨hC.1.trans (by simp), hC.2.trans (by simp)⟩ 0 (by omega)).1
    rw [← ha, ← hb, ← hc] at h1
    have h2 := exFormal_valid.1
    unfold Groth16Holds at h1 h2
    have e : ∀ a b : ℚ, exFormal a + b • exFormal 2 = exFormal (a + b * 2) := by
      intro a b
      simp only [exFormal]
      module
    simp only [A, B, C, if_true, exFormalKey, List.getElem_cons_zero, List.zipWith_cons_cons, List.zipWith_nil_left,
      List.sum_cons, List.sum_nil, add_zero, e, exFormal_pair] at h1 h2
    have h3 := congrArg (fun p : FormalTarget ℚ => (p.coeff 0).coeff 0) h1
    simp [Polynomial.coeff_one] at h3
    norm_num at h3

end Crypto3Zk
