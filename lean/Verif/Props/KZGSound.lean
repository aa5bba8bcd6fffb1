import Verif.Lemmas.KZGSound
import Verif.Props.PlaceholderKzg

/-!
# C101: soundness of the KZG schemes

The prover combines elements of the key: its commitments and its proof are polynomials with coefficients that it
knows, evaluated at the trapdoor. If the verifier accepts, the claimed values are the values of these polynomials,
unless a challenge falls into a small set fixed by what was sent before it, or the trapdoor is a zero of a
polynomial that the prover can write down and that is not zero.
-/

set_option linter.unusedSectionVars false

namespace Crypto3Zk

open Polynomial

variable {F : Type} [Field F]
variable {G1 G2 GT : Type} [AddCommGroup G1] [Module F G1] [AddCommGroup G2] [Module F G2]
  [AddCommGroup GT] [Module F GT]

theorem smul_cancel {e : GT} (he : e ≠ 0) {a b : F} (h : a • e = b • e) : a = b := by
  have := sub_eq_zero.2 h
  rw [← sub_smul, smul_eq_zero] at this
  exact sub_eq_zero.1 (this.resolve_right he)

section

variable [LinearOrder F]

/-- C101, `kzg_commitment_scheme`. Let the committed polynomials `f` and the claimed values `z` be given. Outside
at most (number of polynomials − 1) challenges, and, whatever proof polynomial `q` is chosen after the challenge,
outside fewer than (length of the key + number of different points) trapdoors, the verifier accepts only if all
claimed values are true. -/
theorem C101_scheme_sound [DecidableEq GT] (P : Pairing F G1 G2 GT) (hP : P.e P.one1 P.one2 ≠ 0) (d t : Nat)
    (hv : List (ContainerOp F)) (ev : PolysEvaluator F) (hev : runContainer hv = some ev)
    (hnd : ∀ k, ∀ l ∈ ev.points.getD k [], l.Nodup)
    (keys : List Nat) (f : Nat → Nat → List F) (hf : ∀ k i, (f k i).length ≤ d) (z : EvalStorage F) :
    ∃ badGamma : Finset F, badGamma.card ≤ openedCount ev.points keys - 1 ∧ ∀ gamma ∉ badGamma,
      ∀ q : List F, q.length ≤ d →
      ∃ badAlpha : Finset F, badAlpha.card ≤ d - 1 + (mergedPoints ev).length ∧ ∀ alpha ∉ badAlpha,
        ∀ (codec : PointCodec G1) (chal : List (KzgMsg F) → F) (coms : OMap (List UInt8))
          (cms : OMap (List UInt8)) (merged : List F), coms.keys = keys →
          Represents codec P.one1 ev.points coms f alpha →
          (∀ ms, kzgTranscriptAll ⟨z, ev.polys, ev.locked, ev.points⟩ coms = some ms → chal ms = gamma) →
          KzgScheme.verifyEval P (batchedKzgSetup P d t alpha) codec chal ⟨ev, cms, merged⟩
            (z, evalPoly q alpha • P.one1) coms = some true →
          TrueClaims ev.points z keys f := by
  have hs : ev.points.Sorted := (container_run hv ev hev).psorted
  have hT : (mergedPoints ev).Nodup := nodup_sortedSet _
  set ev' : PolysEvaluator F := ⟨z, ev.polys, ev.locked, ev.points⟩ with hev'
  set T := mergedPoints ev with hTd
  have hTe : mergedPoints ev' = T := rfl
  set items := claimItems ev' keys f with hitems
  have hip : ∀ e ∈ items, ItemPoints T e := hTe ▸ claimItems_points ev' hs keys f hnd
  have hiu := fun e he => (claimItems_u ev' keys f e he).trans (le_max_right d _)
  have hif : ∀ e ∈ items, e.1.length ≤ d := by
    intro e he
    simp only [hitems, claimItems, List.mem_flatMap, List.mem_map, List.mem_range] at he
    obtain ⟨k, -, i, -, rfl⟩ := he
    exact hf k i
  obtain ⟨badGamma, hg1, hg2⟩ := wrong_claim_shows T items hip
  refine ⟨badGamma, by rw [← claimItems_length ev' keys f]; exact hg1, fun gamma hgam q hq => ?_⟩
  have hdeg : (combo T gamma 1 items - toPoly q * vanish T).natDegree ≤ d - 1 + T.length := by
    refine (natDegree_sub_le _ _).trans (max_le (natDegree_combo T hT gamma d items hip hif hiu 1) ?_)
    refine natDegree_mul_le.trans (add_le_add (natDegree_toPoly_le q d hq) ?_)
    rw [(vanish_monic T).2]
  have main : ∀ (alpha : F) (codec : PointCodec G1) (chal : List (KzgMsg F) → F) (coms : OMap (List UInt8))
      (cms : OMap (List UInt8)) (merged : List F), coms.keys = keys →
      Represents codec P.one1 ev.points coms f alpha →
      (∀ ms, kzgTranscriptAll ev' coms = some ms → chal ms = gamma) →
      KzgScheme.verifyEval P (batchedKzgSetup P d t alpha) codec chal ⟨ev, cms, merged⟩
        (z, evalPoly q alpha • P.one1) coms = some true →
      (combo T gamma 1 items - toPoly q * vanish T).eval alpha = 0 ∧
        ∀ k ∈ keys, ∀ i < (ev'.points.getD k []).length, (getU ev' k i).isSome := by
    intro alpha codec chal coms cms merged hk hrep hch hacc
    simp only [KzgScheme.verifyEval, Option.bind_eq_bind, Option.bind_eq_some_iff, Option.some.injEq,
      decide_eq_true_eq] at hacc
    obtain ⟨ms, hms, vs, hvs, st, hst, right, hright, heq⟩ := hacc
    rw [hch ms hms] at hst
    obtain ⟨rfl, hsome⟩ := verifierItems_some codec P.one1 ev' coms f alpha hrep vs hvs
    rw [hk] at hst hsome
    have h1 := kzgVerifier_fold_some P T hT d t alpha gamma items hip (1, 0) st hst
    rw [zero_add] at h1
    obtain ⟨-, rfl⟩ := kzgCommit_some (G := G2) (alpha := alpha) (n := t + 1) hright
    rw [h1, pair_smul] at heq
    have h2 := smul_cancel hP heq
    refine ⟨?_, hsome⟩
    rw [eval_sub, eval_mul, eval_toPoly, ← toPoly_getV, eval_toPoly, h2, sub_self]
  by_cases h0 : combo T gamma 1 items - toPoly q * vanish T = 0
  · refine ⟨∅, by simp, fun alpha _ codec chal coms cms merged hk hrep hch hacc => ?_⟩
    obtain ⟨-, hsome⟩ := main alpha codec chal coms cms merged hk hrep hch hacc
    refine claims_of_items ev' keys f hnd hsome (hg2 gamma hgam fun x hx => ?_)
    rw [sub_eq_zero.1 h0, eval_mul, vanish_eval_mem T x hx, mul_zero]
  · obtain ⟨bad, hb1, hb2⟩ := few_zeros _ h0 _ hdeg
    refine ⟨bad, hb1, fun alpha hal codec chal coms cms merged hk hrep hch hacc => ?_⟩
    exact absurd (main alpha codec chal coms cms merged hk hrep hch hacc).1 (hb2 alpha hal)

/-- C101, `kzg_commitment_scheme_v2`. The same with its two challenges and its two proof elements: `g` is chosen
after the first challenge, `h` after the second. -/
theorem C101_scheme2_sound [DecidableEq GT] (P : Pairing F G1 G2 GT) (hP : P.e P.one1 P.one2 ≠ 0) (d t : Nat)
    (hd : 0 < d) (hv : List (ContainerOp F)) (ev : PolysEvaluator F) (hev : runContainer hv = some ev)
    (hnd : ∀ k, ∀ l ∈ ev.points.getD k [], l.Nodup)
    (keys : List Nat) (f : Nat → Nat → List F) (hf : ∀ k i, (f k i).length ≤ d) (z : EvalStorage F) :
    ∃ badTheta : Finset F, badTheta.card ≤ openedCount ev.points keys - 1 ∧ ∀ theta ∉ badTheta,
      ∀ g : List F, g.length ≤ d →
      ∃ badTheta2 : Finset F, badTheta2.card ≤ d - 1 + (mergedPoints ev).length ∧ ∀ theta2 ∉ badTheta2,
      ∀ h : List F, h.length ≤ d →
      ∃ badAlpha : Finset F, badAlpha.card ≤ d ∧ ∀ alpha ∉ badAlpha,
        ∀ (codec : PointCodec G1) (chal : List (KzgMsg F) → F) (coms : OMap (List UInt8))
          (cms : OMap (List UInt8)) (merged : List F), coms.keys = keys →
          Represents codec P.one1 ev.points coms f alpha →
          (∀ ms, kzgTranscriptAll ⟨z, ev.polys, ev.locked, ev.points⟩ coms = some ms → chal ms = theta ∧
            chal (ms ++ [.bytes (codec.enc (evalPoly g alpha • P.one1))]) = theta2) →
          KzgScheme.verifyEval2 P (batchedKzgSetup P d t alpha) codec chal ⟨ev, cms, merged⟩
            (z, evalPoly g alpha • P.one1, evalPoly h alpha • P.one1) coms = some true →
          TrueClaims ev.points z keys f := by
  have hs : ev.points.Sorted := (container_run hv ev hev).psorted
  have hT : (mergedPoints ev).Nodup := nodup_sortedSet _
  set ev' : PolysEvaluator F := ⟨z, ev.polys, ev.locked, ev.points⟩ with hev'
  set T := mergedPoints ev with hTd
  have hTe : mergedPoints ev' = T := rfl
  set items := claimItems ev' keys f with hitems
  have hip : ∀ e ∈ items, ItemPoints T e := hTe ▸ claimItems_points ev' hs keys f hnd
  have hiu := fun e he => (claimItems_u ev' keys f e he).trans (le_max_right d _)
  have hif : ∀ e ∈ items, e.1.length ≤ d := by
    intro e he
    simp only [hitems, claimItems, List.mem_flatMap, List.mem_map, List.mem_range] at he
    obtain ⟨k, -, i, -, rfl⟩ := he
    exact hf k i
  obtain ⟨badTheta, hg1, hg2⟩ := wrong_claim_shows T items hip
  refine ⟨badTheta, by rw [← claimItems_length ev' keys f]; exact hg1, fun theta hth g hg => ?_⟩
  have hdeg : (combo T theta 1 items - toPoly g * vanish T).natDegree ≤ d - 1 + T.length := by
    refine (natDegree_sub_le _ _).trans (max_le (natDegree_combo T hT theta d items hip hif hiu 1) ?_)
    refine natDegree_mul_le.trans (add_le_add (natDegree_toPoly_le g d hg) ?_)
    rw [(vanish_monic T).2]
  obtain ⟨badTheta2, hb1, hb2⟩ : ∃ bad : Finset F, bad.card ≤ d - 1 + T.length ∧ ∀ theta2 ∉ bad,
      (combo T theta 1 items - toPoly g * vanish T).eval theta2 = 0 →
      combo T theta 1 items - toPoly g * vanish T = 0 := by
    by_cases h0 : combo T theta 1 items - toPoly g * vanish T = 0
    · exact ⟨∅, by simp, fun _ _ _ => h0⟩
    · obtain ⟨bad, hb1, hb2⟩ := few_zeros _ h0 _ hdeg
      exact ⟨bad, hb1, fun x hx h => absurd h (hb2 x hx)⟩
  refine ⟨badTheta2, hb1, fun theta2 hth2 h hh => ?_⟩
  set p : F[X] := comboL T theta theta2 1 items - C ((vanish T).eval theta2) * toPoly g
    - (X - C theta2) * toPoly h with hp
  have hpdeg : p.natDegree ≤ d := by
    refine (natDegree_sub_le _ _).trans (max_le ((natDegree_sub_le _ _).trans (max_le ?_ ?_)) ?_)
    · exact (natDegree_comboL T theta theta2 d items hif 1).trans (Nat.sub_le _ _)
    · refine natDegree_mul_le.trans ?_
      rw [natDegree_C, zero_add]
      exact (natDegree_toPoly_le g d hg).trans (Nat.sub_le _ _)
    · refine natDegree_mul_le.trans ?_
      rw [natDegree_X_sub_C]
      have := natDegree_toPoly_le h d hh
      omega
  have main : ∀ (alpha : F) (codec : PointCodec G1) (chal : List (KzgMsg F) → F) (coms : OMap (List UInt8))
      (cms : OMap (List UInt8)) (merged : List F), coms.keys = keys →
      Represents codec P.one1 ev.points coms f alpha →
      (∀ ms, kzgTranscriptAll ev' coms = some ms → chal ms = theta ∧
        chal (ms ++ [.bytes (codec.enc (evalPoly g alpha • P.one1))]) = theta2) →
      KzgScheme.verifyEval2 P (batchedKzgSetup P d t alpha) codec chal ⟨ev, cms, merged⟩
        (z, evalPoly g alpha • P.one1, evalPoly h alpha • P.one1) coms = some true →
      p.eval alpha = 0 ∧ ∀ k ∈ keys, ∀ i < (ev'.points.getD k []).length, (getU ev' k i).isSome := by
    intro alpha codec chal coms cms merged hk hrep hch hacc
    simp only [KzgScheme.verifyEval2, Option.bind_eq_bind, Option.bind_eq_some_iff, Option.some.injEq,
      decide_eq_true_eq] at hacc
    obtain ⟨ms, hms, -, -, vs, hvs, st, hst, vk1, hvk1, heq⟩ := hacc
    obtain ⟨c1, c2⟩ := hch ms hms
    rw [c1, c2] at hst
    rw [c2] at heq
    obtain ⟨rfl, hsome⟩ := verifierItems_some codec P.one1 ev' coms f alpha hrep vs hvs
    rw [hk] at hst hsome
    have h1 := kzg2Verifier_fold_some P.one1 T hT alpha theta theta2 items hip (1, 0, 0) st hst
    simp only [zero_smul, sub_zero, zero_add] at h1
    have ht : 1 < t + 1 := by
      by_contra hcon
      rw [List.getElem?_eq_none (by simp only [batchedKzgSetup, length_powerKey]; omega)] at hvk1
      simp at hvk1
    have hvk : vk1 = alpha • P.one2 := by
      simp only [batchedKzgSetup] at hvk1
      rw [powerKey_get alpha P.one2 (t + 1) 1 ht, pow_one, Option.some.injEq] at hvk1
      exact hvk1.symm
    rw [hvk, h1] at heq
    refine ⟨?_, hsome⟩
    simp only [map_add, map_sub, map_smul, LinearMap.add_apply, LinearMap.sub_apply,
      LinearMap.smul_apply, smul_smul, ← add_smul, ← sub_smul] at heq
    have h2 := smul_cancel hP heq
    rw [hp, eval_sub, eval_sub, eval_mul, eval_mul, eval_sub, eval_X, eval_C, eval_C, eval_toPoly, eval_toPoly,
      ← toPoly_getV, eval_toPoly]
    linear_combination h2
  by_cases h0 : p = 0
  · refine ⟨∅, by simp, fun alpha _ codec chal coms cms merged hk hrep hch hacc => ?_⟩
    obtain ⟨-, hsome⟩ := main alpha codec chal coms cms merged hk hrep hch hacc
    have h1 := congrArg (eval theta2) h0
    rw [hp, eval_sub, eval_sub, eval_mul, eval_mul, eval_sub, eval_X, eval_C, eval_C, comboL_eval, sub_self,
      zero_mul, sub_zero, eval_zero, mul_comm, ← eval_mul, ← eval_sub] at h1
    have h2 := hb2 theta2 hth2 h1
    refine claims_of_items ev' keys f hnd hsome (hg2 theta hth fun x hx => ?_)
    rw [sub_eq_zero.1 h2, eval_mul, vanish_eval_mem T x hx, mul_zero]
  · obtain ⟨bad, hb1, hb2⟩ := few_zeros _ h0 _ hpdeg
    refine ⟨bad, hb1, fun alpha hal codec chal coms cms merged hk hrep hch hacc => ?_⟩
    exact absurd (main alpha codec chal coms cms merged hk hrep hch hacc).1 (hb2 alpha hal)

/-- The commitments of an honest prover meet the hypotheses on the prover. -/
theorem C101_honest (P : Pairing F G1 G2 GT) (alpha : F) (d t : Nat) (codec : PointCodec G1)
    (hcodec : codec.Lawful) (hp hv : List (ContainerOp F)) (sess : Session d t hp hv) (sp : KzgScheme F)
    (hsp : runScheme (batchedKzgSetup P d t alpha).ck codec hp = some sp)
    (ev : PolysEvaluator F) (hev : runContainer hv = some ev) :
    (∀ k, ∀ l ∈ ev.points.getD k [], l.Nodup) ∧
      Represents codec P.one1 ev.points sp.commitments (fun k i => (appended k hp).getD i []) alpha := by
  obtain ⟨ev', keys, v⟩ := session_view P alpha d t codec hp hv sess sp hsp ev hev
  obtain ⟨L, hL⟩ := hcodec.length
  have hs : ev.points.Sorted := (container_run hv ev hev).psorted
  have hpts : ∀ k ∈ keys, ev.points.find k
      = some ((List.range (appended k hp).length).map fun i => requested k i hp) := v.verifier.points
  refine ⟨?_, ?_⟩
  · intro k l hl
    by_cases hk : k ∈ keys
    · rw [OMap.getD, hpts k hk] at hl
      obtain ⟨i, hi, rfl⟩ := List.mem_map.1 hl
      exact sess.nodup k i ((v.keysMem k).1 hk) (by simpa using hi)
    · have hk' : ¬ committed k hp := fun h => hk ((v.keysMem k).2 h)
      have : ev.points.find k = none := by
        refine ((container_run hv ev hev).unlocked k ?_).1
        rintro (h | ⟨n, hn⟩)
        · exact hk' (sess.verifierCommits k h).1
        · exact hk' (sess.sizes k n hn).1
      rw [OMap.getD, this] at hl
      simp at hl
  · intro e he i hi
    rw [v.commitments] at he
    obtain ⟨k, hk, rfl⟩ := List.mem_map.1 he
    simp only [OMap.getD, hpts k hk, Option.getD_some, List.length_map, List.length_range] at hi ⊢
    have hd := decodeAt_spec codec L hL hcodec.dec (((List.range (appended k hp).length).map fun i =>
      (appended k hp).getD i []).map fun f => evalPoly f alpha • P.one1) i (by simpa using hi)
    simp only [List.length_map, List.length_range, List.getElem_map, List.getElem_range] at hd
    exact hd

end

/-! ### the values of batches that are not among the commitments -/

section

variable [LinearOrder F]

theorem getU_congr (z z' : EvalStorage F) (ev : PolysEvaluator F) (k : Nat) (h : OMap.find z k = OMap.find z' k)
    (i : Nat) : getU ⟨z, ev.polys, ev.locked, ev.points⟩ k i = getU ⟨z', ev.polys, ev.locked, ev.points⟩ k i := by
  simp only [getU, EvalStorage.pointsNumber, EvalStorage.getPoly, h]

/-- C101, finding. The verifiers look only at the batches that are among the commitments handed to them: the values
claimed for any other batch, also one whose points were requested, are not checked. -/
theorem C101_other_batches_unchecked [DecidableEq GT] (P : Pairing F G1 G2 GT) (pp : BatchedKzgParams G1 G2)
    (codec : PointCodec G1) (chal : List (KzgMsg F) → F) (s : KzgScheme F) (coms : OMap (List UInt8))
    (z z' : EvalStorage F) (h : ∀ k ∈ coms.keys, OMap.find z k = OMap.find z' k) (pi pi' : G1) :
    KzgScheme.verifyEval P pp codec chal s (z, pi) coms = KzgScheme.verifyEval P pp codec chal s (z', pi) coms ∧
    KzgScheme.verifyEval2 P pp codec chal s (z, pi, pi') coms
      = KzgScheme.verifyEval2 P pp codec chal s (z', pi, pi') coms := by
  have ht : kzgTranscriptAll ⟨z, s.ev.polys, s.ev.locked, s.ev.points⟩ coms
      = kzgTranscriptAll ⟨z', s.ev.polys, s.ev.locked, s.ev.points⟩ coms := by
    unfold kzgTranscriptAll
    congr 1
    refine mapM_congr _ _ _ fun k hk => ?_
    simp only [kzgTranscript, h k hk, getU_congr z z' s.ev k (h k hk)]
  have hi : verifierItems codec ⟨z, s.ev.polys, s.ev.locked, s.ev.points⟩ coms
      = verifierItems codec ⟨z', s.ev.polys, s.ev.locked, s.ev.points⟩ coms := by
    unfold verifierItems
    congr 1
    refine mapM_congr _ _ _ fun e he => ?_
    simp only [getU_congr z z' s.ev e.1 (h e.1 (List.mem_map.2 ⟨e, he, rfl⟩))]
  refine ⟨?_, ?_⟩
  · simp only [KzgScheme.verifyEval, ht, hi]
  · simp only [KzgScheme.verifyEval2, ht, hi, batchesNonempty]

end

/-! ### the functions -/

/-- C101, `kzg`: a wrong value is accepted for at most `d` trapdoors, whatever proof is combined from the key. -/
theorem C101_single_sound [DecidableEq GT] (P : Pairing F G1 G2 GT) (hP : P.e P.one1 P.one2 ≠ 0) (d : Nat)
    (hd : 0 < d) (f q : List F) (hf : f.length ≤ d) (hq : q.length ≤ d) (x v : F) (hne : evalPoly f x ≠ v) :
    ∃ badAlpha : Finset F, badAlpha.card ≤ d ∧ ∀ alpha ∉ badAlpha,
      kzgVerify P (kzgSetup P d alpha) (evalPoly q alpha • P.one1) (evalPoly f alpha • P.one1) x v = false := by
  have h0 : (X - C x) * toPoly q + C v - toPoly f ≠ 0 := by
    intro h
    have := congrArg (eval x) h
    rw [eval_sub, eval_add, eval_mul, eval_sub, eval_X, eval_C, eval_C, eval_toPoly, eval_toPoly, sub_self, zero_mul,
      zero_add, eval_zero, sub_eq_zero] at this
    exact hne this.symm
  have hdeg : ((X - C x) * toPoly q + C v - toPoly f).natDegree ≤ d := by
    refine (natDegree_sub_le _ _).trans (max_le ((natDegree_add_le _ _).trans (max_le ?_ ?_)) ?_)
    · refine natDegree_mul_le.trans ?_
      rw [natDegree_X_sub_C]
      have := natDegree_toPoly_le q d hq
      omega
    · rw [natDegree_C]; omega
    · exact (natDegree_toPoly_le f d hf).trans (Nat.sub_le _ _)
  obtain ⟨bad, h1, h2⟩ := few_zeros _ h0 _ hdeg
  refine ⟨bad, h1, fun alpha ha => ?_⟩
  by_contra hc
  rw [Bool.not_eq_false, kzgVerify_iff] at hc
  simp only [map_smul, LinearMap.smul_apply, smul_smul, ← add_smul] at hc
  have := smul_cancel hP hc
  apply h2 alpha ha
  rw [eval_sub, eval_add, eval_mul, eval_sub, eval_X, eval_C, eval_C, eval_toPoly, eval_toPoly, this, sub_self]

section

variable [LinearOrder F]

/-- C101, `batched_kzg`. Every point set is a set of points of `T`. -/
theorem C101_batched_sound [DecidableEq G2] [DecidableEq GT] (P : Pairing F G1 G2 GT) (hP : P.e P.one1 P.one2 ≠ 0)
    (d t : Nat) (fs r S : List (List F)) (T : List F) (hT : T.Nodup) (hT0 : T ≠ []) (ht : T.length ≤ t)
    (hf : ∀ f ∈ fs, f.length ≤ d) (hr : ∀ u ∈ r, u.length ≤ d) (hrl : r.length = fs.length)
    (hSl : S.length = fs.length) (hS : ∀ s ∈ S, s.Nodup ∧ ∀ x ∈ s, x ∈ T)
    (hone : ∀ s, S = [s] → ∀ x ∈ T, x ∈ s) :
    ∃ badGamma : Finset F, badGamma.card ≤ fs.length - 1 ∧ ∀ gamma ∉ badGamma, ∀ q : List F, q.length ≤ d →
      ∃ badAlpha : Finset F, badAlpha.card ≤ d - 1 + T.length ∧ ∀ alpha ∉ badAlpha,
        batchedVerify P (batchedKzgSetup P d t alpha) (evalPoly q alpha • P.one1)
          ⟨fs.map fun f => evalPoly f alpha • P.one1, T, S, r⟩ gamma = some true →
        ∀ i (h : i < fs.length), ∀ x ∈ S[i], evalPoly r[i] x = evalPoly fs[i] x := by
  set items := fs.zip (r.zip S) with hitems
  have hitem : ∀ i (h : i < fs.length), (fs[i], r[i], S[i]) ∈ items := by
    intro i h
    have : items[i]'(by simp [hitems]; omega) = (fs[i], r[i], S[i]) := by simp [hitems]
    rw [← this]; exact List.getElem_mem _
  have hip : ∀ e ∈ items, ItemPoints T e := fun e he =>
    ⟨(hS _ (List.of_mem_zip (List.of_mem_zip he).2).2).1, (hS _ (List.of_mem_zip (List.of_mem_zip he).2).2).2⟩
  have hif : ∀ e ∈ items, e.1.length ≤ d := fun e he => hf _ (List.of_mem_zip he).1
  have hiu : ∀ e ∈ items, e.2.1.length ≤ max d e.2.2.length := fun e he =>
    (hr _ (List.of_mem_zip (List.of_mem_zip he).2).1).trans (le_max_left _ _)
  obtain ⟨badGamma, hg1, hg2⟩ := wrong_claim_shows T items hip
  have hlen : items.length = fs.length := by simp [hitems]; omega
  refine ⟨badGamma, hlen ▸ hg1, fun gamma hgam q hq => ?_⟩
  have hdeg : (combo T gamma 1 items - toPoly q * vanish T).natDegree ≤ d - 1 + T.length := by
    refine (natDegree_sub_le _ _).trans (max_le (natDegree_combo T hT gamma d items hip hif hiu 1) ?_)
    refine natDegree_mul_le.trans (add_le_add (natDegree_toPoly_le q d hq) ?_)
    rw [(vanish_monic T).2]
  have main : ∀ alpha : F, batchedVerify P (batchedKzgSetup P d t alpha) (evalPoly q alpha • P.one1)
      ⟨fs.map fun f => evalPoly f alpha • P.one1, T, S, r⟩ gamma = some true →
      (combo T gamma 1 items - toPoly q * vanish T).eval alpha = 0 := by
    intro alpha hacc
    obtain ⟨b, b1, b2⟩ := C40_verdict P d t alpha gamma ⟨fs.map fun f => evalPoly f alpha • P.one1, T, S, r⟩
      (evalPoly q alpha • P.one1) ⟨by simpa using hrl, by simpa using hSl, hT, hT0, ht, hr, hone⟩
    rw [hacc, Option.some.injEq] at b1
    have h1 := b2.1 b1.symm
    have hmap : (fs.map fun f => evalPoly f alpha • P.one1).zip (r.zip S)
        = items.map fun e => (evalPoly e.1 alpha • P.one1, e.2.1, e.2.2) := by
      rw [hitems, List.zip_map_left]
      rfl
    simp only at h1
    rw [hmap, openingSum_combo, map_smul, LinearMap.smul_apply, smul_smul] at h1
    have h2 := smul_cancel hP h1
    rw [eval_sub, eval_mul, eval_toPoly, vanish_eval, h2, mul_comm, sub_self]
  by_cases h0 : combo T gamma 1 items - toPoly q * vanish T = 0
  · refine ⟨∅, by simp, fun alpha _ _ i hi x hx => ?_⟩
    refine hg2 gamma hgam (fun y hy => ?_) _ (hitem i hi) x hx
    rw [sub_eq_zero.1 h0, eval_mul, vanish_eval_mem T y hy, mul_zero]
  · obtain ⟨bad, hb1, hb2⟩ := few_zeros _ h0 _ hdeg
    exact ⟨bad, hb1, fun alpha hal hacc => absurd (main alpha hacc) (hb2 alpha hal)⟩

/-- the combination of the differences -/
def differenceSum (gamma : F) : F → List (List F × List F × List F) → List F
  | _, [] => []
  | c, e :: es => polyAdd (polyScale c (polySub e.1 e.2.1)) (differenceSum gamma (c * gamma) es)

theorem differenceSum_spec (T : List F) (gamma : F) (d : Nat) (items : List (List F × List F × List F))
    (hd : ∀ e ∈ items, ∀ x ∈ e.2.2, x ∉ T) (hf : ∀ e ∈ items, e.1.length ≤ d) (hu : ∀ e ∈ items, e.2.1.length ≤ d) :
    ∀ c, combo T gamma c items = toPoly (differenceSum gamma c items) * vanish T ∧
      (differenceSum gamma c items).length ≤ d := by
  induction items with
  | nil => intro c; simp [combo, differenceSum, toPoly_nil]
  | cons e items ih =>
    intro c
    obtain ⟨i1, i2⟩ := ih (fun e he => hd e (by simp [he])) (fun e he => hf e (by simp [he]))
      (fun e he => hu e (by simp [he])) (c * gamma)
    have hfil : (T.filter fun x => x ∉ e.2.2) = T := by
      rw [List.filter_eq_self]
      intro x hx
      simpa using fun h => hd e (by simp) x h hx
    refine ⟨?_, ?_⟩
    · simp only [combo, differenceSum, toPoly_polyAdd, toPoly_polyScale, toPoly_polySub, i1, hfil]
      ring
    · have h1 := hf e (by simp)
      have h2 := hu e (by simp)
      simp only [differenceSum, length_polyAdd, length_polyScale, length_polySub]
      omega

/-- C101, finding. `batched_kzg` takes the merged points from the caller and does not compare them with the point
sets: if they contain none of these points, every claim is accepted, for every trapdoor, with a proof that the
prover computes from the polynomials and the claims. -/
theorem C101_batched_merged_points_matter [DecidableEq G2] [DecidableEq GT] (P : Pairing F G1 G2 GT)
    (d t : Nat) (gamma : F) (fs r S : List (List F)) (T : List F) (hT : T.Nodup) (hT0 : T ≠ []) (ht : T.length ≤ t)
    (hf : ∀ f ∈ fs, f.length ≤ d) (hr : ∀ u ∈ r, u.length ≤ d) (hrl : r.length = fs.length)
    (hSl : S.length = fs.length) (htwo : fs.length ≠ 1) (hS : ∀ s ∈ S, ∀ x ∈ s, x ∉ T) :
    ∃ q : List F, q.length ≤ d ∧ ∀ alpha,
      batchedVerify P (batchedKzgSetup P d t alpha) (evalPoly q alpha • P.one1)
        ⟨fs.map fun f => evalPoly f alpha • P.one1, T, S, r⟩ gamma = some true := by
  set items := fs.zip (r.zip S) with hitems
  obtain ⟨h1, h2⟩ := differenceSum_spec T gamma d items
    (fun e he => hS _ (List.of_mem_zip (List.of_mem_zip he).2).2) (fun e he => hf _ (List.of_mem_zip he).1)
    (fun e he => hr _ (List.of_mem_zip (List.of_mem_zip he).2).1) 1
  refine ⟨differenceSum gamma 1 items, h2, fun alpha => ?_⟩
  obtain ⟨b, b1, b2⟩ := C40_verdict P d t alpha gamma ⟨fs.map fun f => evalPoly f alpha • P.one1, T, S, r⟩
    (evalPoly (differenceSum gamma 1 items) alpha • P.one1) ⟨by simpa using hrl, by simpa using hSl, hT, hT0, ht, hr,
      fun s hs => absurd (by rw [← hSl]; simp only at hs; rw [hs]; rfl) htwo⟩
  have hmap : (fs.map fun f => evalPoly f alpha • P.one1).zip (r.zip S)
      = items.map fun e => (evalPoly e.1 alpha • P.one1, e.2.1, e.2.2) := by
    rw [hitems, List.zip_map_left]
    rfl
  rw [b1, Option.some.injEq, b2]
  simp only
  rw [hmap, openingSum_combo, map_smul, LinearMap.smul_apply, smul_smul, h1, eval_mul, eval_toPoly, vanish_eval,
    mul_comm]

end

/-! ### an example -/

def exVerifier257 : List (ContainerOp (ZMod 257)) :=
  [.batchSize 2 1, .pointsTo 2 0 [1], .batchSize 0 2, .points 0 [1, 2], .pointsTo 0 1 [3]]

def exPolys257 (k i : Nat) : List (ZMod 257) :=
  if k = 0 then (if i = 0 then [1, 2] else [3]) else [0, 0, 4]

/-- the commitments of a prover with these polynomials -/
def exComs257 (alpha : ZMod 257) : OMap (List UInt8) :=
  [(0, exCodec257.enc (evalPoly [1, 2] alpha) ++ exCodec257.enc (evalPoly [3] alpha)),
    (2, exCodec257.enc (evalPoly [0, 0, 4] alpha))]

def exPoints257 : OMap (List (List (ZMod 257))) := [(0, [[1, 2], [1, 2, 3]]), (2, [[1]])]

theorem exEv257_run : (runContainer exVerifier257).map (fun e => e.points) = some exPoints257 := by
  decide +kernel

theorem exComs257_represent (alpha : ZMod 257) :
    Represents exCodec257 exPairing257.one1 exPoints257 (exComs257 alpha) exPolys257 alpha := by
  have key : ∀ a b : ZMod 257, decodeAt exCodec257 (exCodec257.enc a ++ exCodec257.enc b) 2 0 = some a ∧
      decodeAt exCodec257 (exCodec257.enc a ++ exCodec257.enc b) 2 1 = some b ∧
      decodeAt exCodec257 (exCodec257.enc a) 1 0 = some a := by
    intro a b
    obtain ⟨L, hL⟩ := exCodec257_lawful.length
    have h := decodeAt_spec exCodec257 L hL exCodec257_lawful.dec [a, b]
    have h' := decodeAt_spec exCodec257 L hL exCodec257_lawful.dec [a] 0 (by simp)
    have h0 := h 0 (by simp)
    have h1 := h 1 (by simp)
    simp at h0 h1 h'
    exact ⟨h0, h1, h'⟩
  have hone : ∀ x : ZMod 257, x • exPairing257.one1 = x := fun x => by
    show x * 1 = x
    rw [mul_one]
  intro e he i hi
  simp only [exComs257, List.mem_cons, List.not_mem_nil, or_false] at he
  rcases he with rfl | rfl
  · have hi' : i < 2 := hi
    rw [hone]
    interval_cases i
    · exact (key _ _).1
    · exact (key _ _).2.1
  · have hi' : i < 1 := hi
    rw [hone]
    interval_cases i
    exact (key _ 0).2.2

/-- The claim that the polynomial `4·X²` has the value 5 at 1 is refused: for a suitable challenge, whatever proof
the prover combines, a suitable trapdoor exists; the honest commitments meet the hypotheses. -/
theorem C101_example : ∃ gamma : ZMod 257, ∀ q : List (ZMod 257), q.length ≤ 4 → ∃ alpha : ZMod 257,
    ∃ ev, runContainer exVerifier257 = some ev ∧
    KzgScheme.verifyEval exPairing257 (batchedKzgSetup exPairing257 4 3 alpha) exCodec257 (fun _ => gamma)
      ⟨ev, [], []⟩ ([(0, [[3, 5], [3, 3, 3]]), (2, [[5]])], evalPoly q alpha • exPairing257.one1)
      (exComs257 alpha) ≠ some true := by
  obtain ⟨ev, hev, hpts⟩ := Option.map_eq_some_iff.1 exEv257_run
  have hpd : ∀ k, ev.points.getD k [] = exPoints257.getD k [] := by rw [hpts]; exact fun _ => rfl
  obtain ⟨bg, hbg, hg⟩ := C101_scheme_sound exPairing257 (by decide +kernel) 4 3 exVerifier257 ev hev
    (by
      intro k l hl
      rw [hpd] at hl
      by_cases h0 : k = 0
      · subst h0; revert l; decide +kernel
      by_cases h2 : k = 2
      · subst h2; revert l; decide +kernel
      · have h0' : (0 : Nat) ≠ k := fun h => h0 h.symm
        have h2' : (2 : Nat) ≠ k := fun h => h2 h.symm
        simp [OMap.getD, OMap.find, exPoints257, h0', h2'] at hl)
    [0, 2] exPolys257
    (by
      intro k i
      unfold exPolys257
      split_ifs <;> simp) [(0, [[3, 5], [3, 3, 3]]), (2, [[5]])]
  have hcount : openedCount ev.points [0, 2] = 3 := by rw [hpts]; decide +kernel
  obtain ⟨gamma, hgamma⟩ : ∃ gamma, gamma ∉ bg := by
    by_contra hall
    push Not at hall
    have : bg = Finset.univ := Finset.eq_univ_iff_forall.2 hall
    rw [this, Finset.card_univ, ZMod.card, hcount] at hbg
    omega
  refine ⟨gamma, fun q hq => ?_⟩
  obtain ⟨ba, hba, ha⟩ := hg gamma hgamma q hq
  have hm : (mergedPoints ev).length ≤ 6 := by
    unfold mergedPoints sortedSet
    refine (List.dedup_sublist _).length_le.trans ?_
    rw [List.length_mergeSort, hpts]
    decide +kernel
  obtain ⟨alpha, halpha⟩ : ∃ alpha, alpha ∉ ba := by
    by_contra hall
    push Not at hall
    have : ba = Finset.univ := Finset.eq_univ_iff_forall.2 hall
    rw [this, Finset.card_univ, ZMod.card] at hba
    omega
  refine ⟨alpha, ev, hev, fun hacc => ?_⟩
  have := ha alpha halpha exCodec257 (fun _ => gamma) (exComs257 alpha) [] [] rfl
    (by rw [hpts]; exact exComs257_represent alpha) (fun _ _ => rfl) hacc
  have h2 := this 2 (by simp) 0 [1] (by rw [hpts]; decide +kernel)
  revert h2
  decide +kernel

example : ∃ q : List (ZMod 257), q.length ≤ 4 ∧ ∀ alpha,
    batchedVerify exPairing257 (batchedKzgSetup exPairing257 4 3 alpha) (evalPoly q alpha • exPairing257.one1)
      ⟨[[1, 2], [3]].map fun f => evalPoly f alpha • exPairing257.one1, [9], [[1], [1, 2]], [[7], [8]]⟩ 5 = some true :=
  C101_batched_merged_points_matter exPairing257 4 3 5 [[1, 2], [3]] [[7], [8]] [[1], [1, 2]] [9] (by simp) (by simp)
    (by simp) (by simp) (by simp) rfl rfl (by simp) (by decide +kernel)

example := C101_batched_sound exPairing257 (by decide +kernel) 4 3 [[1, 2], [3]] [[7], [8]] [[1], [1, 2]] [1, 2]
  (by decide +kernel) (by simp) (by simp) (by simp) (by simp) rfl rfl (by decide +kernel) (by simp)

example := C101_single_sound exPairing257 (by decide +kernel) 4 (by norm_num) [1, 2] [3] (by simp) (by simp) 1 4
  (by decide +kernel)

end Crypto3Zk
