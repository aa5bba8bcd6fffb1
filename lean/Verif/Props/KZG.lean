import Verif.Lemmas.KZG
import Verif.Spec.KZG
import Verif.Props.Groth16
import Mathlib.Algebra.Field.Rat
import Mathlib.Algebra.Order.Ring.Rat

/-!
# C39, C40 KZG commitments, single and batched openings
-/

set_option linter.unusedSectionVars false

namespace Crypto3Zk

open Polynomial

variable {F : Type} [Field F]
variable {G1 G2 GT : Type} [AddCommGroup G1] [Module F G1] [AddCommGroup G2] [Module F G2]
  [AddCommGroup GT] [Module F GT]

/-! ## C39 -/

theorem kzgVerify_iff [DecidableEq GT] (P : Pairing F G1 G2 GT) (d : Nat) (alpha : F)
    (proof cm : G1) (z v : F) : kzgVerify P (kzgSetup P d alpha) proof cm z v = true ↔
      (alpha - z) • P.e proof P.one2 + v • P.e P.one1 P.one2 = P.e cm P.one2 := by
  unfold kzgVerify kzgSetup
  rw [decide_eq_true_eq]
  simp only [← sub_smul, map_smul, map_sub, LinearMap.sub_apply, LinearMap.smul_apply]
  rw [← add_sub_assoc, sub_eq_zero]

/-- C39. For every polynomial that fits the key, every point and every trapdoor, committing and
proving succeed and the proof is accepted for the commitment and the true value. -/
theorem C39_complete [DecidableEq F] [DecidableEq GT] (P : Pairing F G1 G2 GT) (d : Nat)
    (alpha : F) (f : List F) (z : F) (h0 : f ≠ []) (hd : f.length ≤ d) :
    ∃ cm proof, kzgCommit (kzgSetup P d alpha).ck f = some cm ∧
      kzgProve (kzgSetup P d alpha) f z = some proof ∧
      kzgVerify P (kzgSetup P d alpha) proof cm z (evalPoly f z) = true := by
  cases f with
  | nil => exact absurd rfl h0
  | cons c cs =>
    set v := evalPoly (c :: cs) z with hv
    have hq : toPoly ((c - v) :: cs) = toPoly (c :: cs) - C v := by
      rw [toPoly_cons, toPoly_cons, C_sub]; ring
    have hlin : ([-z, 1] : List F).getLastD 0 = 1 := rfl
    have hdvd : (X - C z) ∣ toPoly ((c - v) :: cs) := by
      rw [dvd_iff_isRoot, IsRoot.def, hq, eval_sub, eval_C, eval_toPoly, ← hv, sub_self]
    have hmod : polyIsZero (polyMod ((c - v) :: cs) [-z, 1]) = true := by
      rw [polyIsZero_iff, (toPoly_divMod _ _ hlin).2, toPoly_lin]
      exact (modByMonic_eq_zero_iff_dvd (monic_X_sub_C z)).2 hdvd
    have hlen : (polyDiv ((c - v) :: cs) [-z, 1]).length ≤ d := by
      rw [length_polyDiv]; simp at hd ⊢; omega
    refine ⟨_, evalPoly (polyDiv ((c - v) :: cs) [-z, 1]) alpha • P.one1,
      kzgCommit_powerKey alpha P.one1 d _ hd, ?_, ?_⟩
    · unfold kzgProve
      simp only [← hv]
      rw [if_pos hmod]
      exact kzgCommit_powerKey alpha P.one1 d _ hlen
    · rw [kzgVerify_iff]
      have he : (alpha - z) * evalPoly (polyDiv ((c - v) :: cs) [-z, 1]) alpha
          = evalPoly (c :: cs) alpha - v := by
        have h1 := mul_divByMonic_of_dvd (monic_X_sub_C z) hdvd
        have h2 := congrArg (eval alpha) h1
        rw [eval_mul, eval_sub, eval_X, eval_C, ← toPoly_lin, ← (toPoly_divMod _ _ hlin).1,
          eval_toPoly, hq, eval_sub, eval_C, eval_toPoly] at h2
        exact h2
      simp only [map_smul, LinearMap.smul_apply, smul_smul, he, ← add_smul]
      congr 1; ring

/-- C39. With the same proof and the same commitment no second value is accepted. -/
theorem C39_wrong_value_rejected [DecidableEq GT] (P : Pairing F G1 G2 GT)
    (hP : P.e P.one1 P.one2 ≠ 0) (d : Nat) (alpha : F) (proof cm : G1) (z v v' : F)
    (h : kzgVerify P (kzgSetup P d alpha) proof cm z v = true) (hv : v' ≠ v) :
    kzgVerify P (kzgSetup P d alpha) proof cm z v' = false := by
  by_contra hc
  rw [Bool.not_eq_false, kzgVerify_iff] at hc
  rw [kzgVerify_iff, ← hc, add_right_inj, ← sub_eq_zero, ← sub_smul] at h
  rcases smul_eq_zero.1 h with h | h
  · exact hv (sub_eq_zero.1 h).symm
  · exact hP h

/-- C39. If two values are accepted for one commitment and point, with any two proofs, the two
proofs give the group element `1/(alpha − z)` without the trapdoor: opening to a second value is as
hard as that. -/
theorem C39_binding [DecidableEq GT] (P : Pairing F G1 G2 GT)
    (hP : ∀ g, P.e g P.one2 = 0 → g = 0) (d : Nat) (alpha : F) (proof proof' cm : G1) (z v v' : F)
    (h : kzgVerify P (kzgSetup P d alpha) proof cm z v = true)
    (h' : kzgVerify P (kzgSetup P d alpha) proof' cm z v' = true) (hv : v' ≠ v) :
    (alpha - z) • ((v - v')⁻¹ • (proof' - proof)) = P.one1 := by
  rw [kzgVerify_iff] at h h'
  have hz : P.e ((alpha - z) • (proof' - proof) - (v - v') • P.one1) P.one2 = 0 := by
    simp only [map_sub, map_smul, LinearMap.sub_apply, LinearMap.smul_apply]
    have := h'.trans h.symm
    rw [← sub_eq_zero] at this
    rw [← this]; module
  have h1 := sub_eq_zero.1 (hP _ hz)
  have h2 : v - v' ≠ 0 := sub_ne_zero.2 (Ne.symm hv)
  rw [smul_comm, h1, smul_smul, inv_mul_cancel₀ h2, one_smul]

/-- C39. A polynomial longer than the key is refused. -/
theorem C39_too_long (P : Pairing F G1 G2 GT) (d : Nat) (alpha : F) (f : List F)
    (h : d < f.length) : kzgCommit (kzgSetup P d alpha).ck f = none :=
  kzgCommit_none _ _ (by simpa [kzgSetup] using h)

/-- C39, finding. For a polynomial without coefficients (a default-constructed one) the commitment
is defined, but the prover accesses a coefficient that does not exist. -/
theorem C39_empty_polynomial [DecidableEq F] (P : Pairing F G1 G2 GT) (d : Nat) (alpha z : F) :
    kzgCommit (kzgSetup P d alpha).ck ([] : List F) = some 0 ∧
      kzgProve (kzgSetup P d alpha) [] z = none := by
  refine ⟨?_, rfl⟩
  have := kzgCommit_powerKey alpha P.one1 d ([] : List F) (by simp)
  simpa [kzgSetup] using this

example : ∃ cm proof, kzgCommit (kzgSetup exPairing 4 (7 : ℚ)).ck ([1, 0, 2] : List ℚ) = some cm ∧
    kzgProve (kzgSetup exPairing 4 7) ([1, 0, 2] : List ℚ) 3 = some proof ∧
    kzgVerify exPairing (kzgSetup exPairing 4 7) proof cm 3 19 = true ∧
    kzgVerify exPairing (kzgSetup exPairing 4 7) proof cm 3 20 = false := by
  obtain ⟨cm, pi, h1, h2, h3⟩ := C39_complete exPairing 4 (7 : ℚ) [1, 0, 2] 3 (by simp) (by simp)
  have h19 : evalPoly ([1, 0, 2] : List ℚ) 3 = 19 := by decide +kernel
  rw [h19] at h3
  exact ⟨cm, pi, h1, h2, h3, C39_wrong_value_rejected exPairing (by decide +kernel) 4 7 pi cm 3 19 20
    h3 (by decide +kernel)⟩

/-! ## C40, the algorithms -/

theorem vanish_eval (l : List F) (a : F) : (vanish l).eval a = zerosAt a l := by
  induction l with
  | nil => simp [vanish, zerosAt]
  | cons x l ih =>
    simp only [vanish, zerosAt, List.map_cons, List.prod_cons, eval_mul, eval_sub, eval_X,
      eval_C] at ih ⊢
    rw [ih]

section Static

variable [LinearOrder F]

/-- C40. The merged points are the points of the families, each once, in increasing order. -/
theorem C40_merged_points (S : List (List F)) :
    (∀ x, x ∈ mergeEvalPoints S ↔ ∃ s ∈ S, x ∈ s) ∧ (mergeEvalPoints S).Pairwise (· < ·) := by
  refine ⟨fun x => by simp [mergeEvalPoints, mem_sortedSet], ?_⟩
  have h1 : (mergeEvalPoints S).Pairwise (· ≤ ·) :=
    (sorted_mergeSort S.flatten).sublist (List.dedup_sublist _)
  have h2 : (mergeEvalPoints S).Nodup := nodup_sortedSet _
  exact (h1.and h2).imp fun h => lt_of_le_of_ne h.1 h.2

/-- C40. The set-difference polynomial has the value of the product over the points of `T` that are
not in `S`, everywhere: also for points given in any order. -/
theorem C40_set_difference (T S : List F) (hT : T.Nodup) : ∃ v, setDifferencePolynom T S = some v ∧
    ∀ a, evalPoly v a = zerosAt a (T.filter fun x => x ∉ S) := by
  obtain ⟨v, h1, h2, -⟩ := setDifferencePolynom_spec T S hT
  exact ⟨v, h1, fun a => by rw [← eval_toPoly, h2, vanish_eval]⟩

theorem batchedProve_fold (T : List F) (hT : T.Nodup) (d : Nat) (gamma : F)
    (items : List (List F × List F × List F)) (h : ∀ e ∈ items, ItemOK T d e ∧ e.2.2 ≠ []) :
    ∀ (st : F × List F), st.2.length ≤ d →
    ∃ st', items.foldlM (batchedProveStep gamma) st = some st' ∧
      toPoly st'.2 * vanish T = toPoly st.2 * vanish T + combo T gamma st.1 items ∧
      st'.2.length ≤ d := by
  induction items with
  | nil => intro st hst; exact ⟨st, rfl, by simp [combo], hst⟩
  | cons e items ih =>
    intro st hst
    obtain ⟨he, hne⟩ := h e (by simp)
    obtain ⟨v, h1, h2, h3, h4⟩ := polynomByZeros_spec e.2.2 hne
    have hdvd : vanish e.2.2 ∣ toPoly (polySub e.1 e.2.1) := by rw [toPoly_polySub]; exact he.dvd
    have hz : polyIsZero (polyMod (polySub e.1 e.2.1) v) = true := by
      rw [polyIsZero_iff, (toPoly_divMod _ _ h4).2, h2]
      exact (modByMonic_eq_zero_iff_dvd (vanish_monic _).1).2 hdvd
    have hstep : batchedProveStep gamma st e = some (st.1 * gamma,
        polyAdd st.2 (polyScale st.1 (polyDiv (polySub e.1 e.2.1) v))) := by
      simp only [batchedProveStep, h1, Option.bind_eq_bind, Option.bind_some, if_pos hz]
    obtain ⟨st', h5, h6, h7⟩ := ih (fun e' he' => h e' (by simp [he'])) (st.1 * gamma,
        polyAdd st.2 (polyScale st.1 (polyDiv (polySub e.1 e.2.1) v))) (by
      simp only [length_polyAdd, length_polyDiv, length_polyScale, length_polySub]
      have := he.len; have := he.ulen; have := he.plen
      omega)
    refine ⟨st', ?_, ?_, h7⟩
    · rw [List.foldlM_cons, hstep]; exact h5
    · rw [h6]
      simp only [combo, toPoly_polyAdd, toPoly_polyScale]
      rw [(toPoly_divMod _ _ h4).1, h2]
      have hdiv := mul_divByMonic_of_dvd (vanish_monic e.2.2).1 hdvd
      rw [toPoly_polySub] at hdiv ⊢
      rw [add_mul]
      conv_lhs => rw [vanish_split T e.2.2 hT he.nodup he.sub]
      rw [vanish_split T e.2.2 hT he.nodup he.sub]
      linear_combination (C st.1 * vanish (T.filter fun x => x ∉ e.2.2)) * hdiv

/-- a public key the verifier can process: one claimed polynomial and one point set per commitment,
within the sizes of the verification key; with a single commitment `T` has no further points -/
structure KeyOK (d t : Nat) (pk : BatchedKzgKey F G1) : Prop where
  rlen : pk.r.length = pk.commits.length
  slen : pk.S.length = pk.commits.length
  tnodup : pk.T.Nodup
  tne : pk.T ≠ []
  tfit : pk.T.length ≤ t
  rfit : ∀ r ∈ pk.r, r.length ≤ d
  single : ∀ S, pk.S = [S] → ∀ x ∈ pk.T, x ∈ S

theorem batchedVerify_fold [DecidableEq G2] (P : Pairing F G1 G2 GT) (d t : Nat) (alpha gamma : F)
    (pk : BatchedKzgKey F G1) (hT : pk.T.Nodup) (ht : pk.T.length ≤ t)
    (es : List (G1 × List F × List F)) (hr : ∀ e ∈ es, e.2.1.length ≤ d)
    (hsing : pk.commits.length = 1 → ∀ e ∈ es, ∀ x ∈ pk.T, x ∈ e.2.2) : ∀ (st : F × GT),
    ∃ c', es.foldlM (batchedVerifyStep P (batchedKzgSetup P d t alpha) pk gamma) st
      = some (c', st.2 + openingSum P alpha gamma pk.T st.1 es) := by
  induction es with
  | nil => intro st; exact ⟨st.1, by simp [openingSum]⟩
  | cons e es ih =>
    intro st
    obtain ⟨v, h1, h2, h3⟩ := setDifferencePolynom_spec pk.T e.2.2 hT
    have hva : evalPoly v alpha = zerosAt alpha (pk.T.filter fun x => x ∉ e.2.2) := by
      rw [← eval_toPoly, h2, vanish_eval]
    have hguard : ¬ (pk.commits.length = 1 ∧ evalPoly v alpha • P.one2 ≠ P.one2) := by
      rintro ⟨h4, h5⟩
      apply h5
      have : (pk.T.filter fun x => x ∉ e.2.2) = [] := by
        rw [List.filter_eq_nil_iff]
        intro x hx
        simpa using hsing h4 e (by simp) x hx
      rw [hva, this]; simp [zerosAt]
    have hstep : batchedVerifyStep P (batchedKzgSetup P d t alpha) pk gamma st e
        = some (st.1 * gamma, st.2 + P.e (st.1 • (e.1 - evalPoly e.2.1 alpha • P.one1))
            (evalPoly v alpha • P.one2)) := by
      simp only [batchedVerifyStep, batchedKzgSetup,
        kzgCommit_powerKey alpha P.one1 d _ (hr e (by simp)),
        Option.bind_eq_bind, Option.bind_some, h1,
        kzgCommit_powerKey alpha P.one2 (t + 1) v (by omega), if_neg hguard]
    obtain ⟨c', hc⟩ := ih (fun e' he' => hr e' (by simp [he']))
      (fun h e' he' => hsing h e' (by simp [he'])) _
    refine ⟨c', ?_⟩
    rw [List.foldlM_cons, hstep]
    simp only [Option.bind_eq_bind, Option.bind_some]
    rw [hc]
    congr 2
    rw [pair_smul, openingSum, hva, add_assoc]

/-- C40. The verdict of the batched verifier: the opening equation at the trapdoor. -/
theorem C40_verdict [DecidableEq G2] [DecidableEq GT] (P : Pairing F G1 G2 GT) (d t : Nat)
    (alpha gamma : F) (pk : BatchedKzgKey F G1) (proof : G1) (h : KeyOK d t pk) :
    ∃ b, batchedVerify P (batchedKzgSetup P d t alpha) proof pk gamma = some b ∧
      (b = true ↔ openingSum P alpha gamma pk.T 1 (pk.commits.zip (pk.r.zip pk.S))
        = zerosAt alpha pk.T • P.e proof P.one2) := by
  obtain ⟨c', hc⟩ := batchedVerify_fold P d t alpha gamma pk h.tnodup h.tfit
    (pk.commits.zip (pk.r.zip pk.S))
    (fun e he => h.rfit _ (List.of_mem_zip (List.of_mem_zip he).2).1)
    (fun h1 e he x hx => by
      have hs := (List.of_mem_zip (List.of_mem_zip he).2).2
      have hl : pk.S.length = 1 := by rw [h.slen, h1]
      obtain ⟨S, hS⟩ := List.length_eq_one_iff.1 hl
      rw [hS, List.mem_singleton] at hs
      rw [hs]; exact h.single S hS x hx) (1, 0)
  obtain ⟨v, h1, h2, h3, -⟩ := polynomByZeros_spec pk.T h.tne
  refine ⟨decide (openingSum P alpha gamma pk.T 1 (pk.commits.zip (pk.r.zip pk.S))
        = zerosAt alpha pk.T • P.e proof P.one2), ?_, ?_⟩
  · unfold batchedVerify
    rw [if_pos ⟨h.rlen.ge, h.slen.ge⟩]
    have hvk : kzgCommit (batchedKzgSetup P d t alpha).vk v = some (evalPoly v alpha • P.one2) :=
      kzgCommit_powerKey alpha P.one2 (t + 1) v (by have := h.tfit; omega)
    have hva : evalPoly v alpha = zerosAt alpha pk.T := by rw [← eval_toPoly, h2, vanish_eval]
    simp only [hc, h1, hvk, Option.bind_eq_bind, Option.bind_some, zero_add, map_smul, hva]
  · simp

theorem openingSum_combo (P : Pairing F G1 G2 GT) (alpha gamma : F) (T : List F)
    (items : List (List F × List F × List F)) : ∀ c,
    openingSum P alpha gamma T c (items.map fun e => (evalPoly e.1 alpha • P.one1, e.2.1, e.2.2))
      = (combo T gamma c items).eval alpha • P.e P.one1 P.one2 := by
  induction items with
  | nil => intro c; simp [combo, openingSum]
  | cons e items ih =>
    intro c
    simp only [List.map_cons, openingSum, combo, ih, eval_add, eval_mul, eval_C, eval_sub,
      eval_toPoly, vanish_eval, map_sub, map_smul, LinearMap.sub_apply, LinearMap.smul_apply]
    module

/-- C40. For every family of polynomials and non-empty point sets within the key, every challenge
and every trapdoor, the commitments, the interpolation polynomials and the batched proof are
produced, and the verifier accepts them. -/
theorem C40_complete [DecidableEq G2] [DecidableEq GT] (P : Pairing F G1 G2 GT) (d t : Nat)
    (alpha gamma : F) (polys S : List (List F)) (hne : polys ≠ []) (hlen : polys.length = S.length)
    (hf : ∀ f ∈ polys, f.length ≤ d) (hS : ∀ s ∈ S, s ≠ [] ∧ s.Nodup ∧ s.length ≤ d)
    (ht : (mergeEvalPoints S).length ≤ t) :
    ∃ commits r proof,
      polys.mapM (kzgCommit (batchedKzgSetup P d t alpha).ck) = some commits ∧
      createEvalsPolys polys S = some r ∧
      batchedProve (batchedKzgSetup P d t alpha) polys ⟨commits, mergeEvalPoints S, S, r⟩ gamma
        = some proof ∧
      batchedVerify P (batchedKzgSetup P d t alpha) proof ⟨commits, mergeEvalPoints S, S, r⟩ gamma
        = some true := by
  set T := mergeEvalPoints S with hTdef
  have hT : T.Nodup := nodup_sortedSet _
  have hTm : ∀ x, x ∈ T ↔ ∃ s ∈ S, x ∈ s := (C40_merged_points S).1
  set r := List.zipWith (fun f s => lagrangeInterpolation (s.map fun x => (x, evalPoly f x)))
    polys S with hr
  have hrl : r.length = polys.length := by simp [hr, hlen]
  set items := polys.zip (r.zip S) with hitems
  have hitem : ∀ e ∈ items, ItemOK T d e ∧ e.2.2 ≠ [] := by
    intro e he
    obtain ⟨i, hi, rfl⟩ := List.getElem_of_mem he
    have hiS : i < S.length := by simp [hitems] at hi; omega
    have hip : i < polys.length := by omega
    have e1 : items[i] = (polys[i], lagrangeInterpolation (S[i].map fun x => (x, evalPoly polys[i] x)),
        S[i]) := by
      simp [hitems, hr]
    rw [e1]
    obtain ⟨s1, s2, s3⟩ := hS S[i] (List.getElem_mem hiS)
    refine ⟨⟨s2, fun x hx => (hTm x).2 ⟨_, List.getElem_mem hiS, hx⟩,
      vanish_dvd_sub_interp _ _ s2, hf _ (List.getElem_mem hip), ?_, s3⟩, s1⟩
    exact (length_interpolation _).trans (by simp)
  set commits := polys.map fun f => evalPoly f alpha • P.one1 with hcommits
  have hmap : items.map (fun e => ((evalPoly e.1 alpha • P.one1, e.2.1, e.2.2) : G1 × _))
      = commits.zip (r.zip S) := by
    rw [hcommits, hitems, List.zip_map_left]
    rfl
  have hTne : T ≠ [] := by
    cases hS' : S with
    | nil => rw [hS'] at hlen; exact absurd (List.length_eq_zero_iff.1 hlen) hne
    | cons s S' =>
      have hs : s ∈ S := by simp [hS']
      obtain ⟨x, hx⟩ := List.exists_mem_of_ne_nil _ (hS s hs).1
      exact List.ne_nil_of_mem ((hTm x).2 ⟨s, hs, hx⟩)
  obtain ⟨st, p1, p2, p3⟩ := batchedProve_fold T hT d gamma items hitem (1, []) (by simp)
  have hprove : kzgCommit (batchedKzgSetup P d t alpha).ck st.2
      = some (evalPoly st.2 alpha • P.one1) := kzgCommit_powerKey alpha P.one1 d _ p3
  have hkey : KeyOK d t (⟨commits, T, S, r⟩ : BatchedKzgKey F G1) := by
    refine ⟨by simp [hcommits, hrl], by simp [hcommits, hlen], hT, hTne, ht, ?_, ?_⟩
    · intro r' hr'
      obtain ⟨i, hi, rfl⟩ := List.getElem_of_mem hr'
      have hiS : i < S.length := by simp [hrl] at hi; omega
      simp only [hr, List.getElem_zipWith]
      exact (length_interpolation _).trans (by simpa using (hS _ (List.getElem_mem hiS)).2.2)
    · intro S0 hS0 x hx
      simp only at hS0
      obtain ⟨s, hs, hxs⟩ := (hTm x).1 hx
      rw [hS0, List.mem_singleton] at hs
      rwa [← hs]
  obtain ⟨b, b1, b2⟩ := C40_verdict P d t alpha gamma ⟨commits, T, S, r⟩
    (evalPoly st.2 alpha • P.one1) hkey
  refine ⟨commits, r, evalPoly st.2 alpha • P.one1, ?_, ?_, ?_, ?_⟩
  · rw [hcommits]
    have : ∀ l : List (List F), (∀ f ∈ l, f.length ≤ d) →
        l.mapM (kzgCommit (batchedKzgSetup P d t alpha).ck)
          = some (l.map fun f => evalPoly f alpha • P.one1) := by
      intro l
      induction l with
      | nil => intro _; rfl
      | cons f l ih =>
        intro hl
        rw [List.mapM_cons, ih (fun g hg => hl g (by simp [hg]))]
        have : kzgCommit (batchedKzgSetup P d t alpha).ck f = some (evalPoly f alpha • P.one1) :=
          kzgCommit_powerKey alpha P.one1 d f (hl f (by simp))
        rw [this]; rfl
    exact this polys hf
  · unfold createEvalsPolys; rw [if_pos hlen]
  · unfold batchedProve
    rw [if_pos ⟨by simp [hrl], by simp [hlen]⟩]
    simp only [← hitems, p1, Option.bind_eq_bind, Option.bind_some, hprove]
  · rw [b1, Option.some.injEq, b2, ← hmap, openingSum_combo]
    have h := congrArg (eval alpha) p2
    rw [toPoly_nil, zero_mul, zero_add, eval_mul, eval_toPoly, vanish_eval] at h
    rw [map_smul, LinearMap.smul_apply, smul_smul, ← h]
    congr 1; ring

theorem openingSum_diff (P : Pairing F G1 G2 GT) (alpha gamma : F) (T : List F) (r' : List F) :
    ∀ (cms : List G1) (r S : List (List F)) (i : Nat) (c : F), i < cms.length →
      r.length = cms.length → S.length = cms.length →
    openingSum P alpha gamma T c (cms.zip (r.zip S))
      - openingSum P alpha gamma T c (cms.zip ((r.set i r').zip S))
      = (c * gamma ^ i * zerosAt alpha (T.filter fun x => x ∉ S.getD i [])
          * (evalPoly r' alpha - evalPoly (r.getD i []) alpha)) • P.e P.one1 P.one2 := by
  intro cms
  induction cms with
  | nil => intro r S i c hi; simp at hi
  | cons cm cms ih =>
    intro r S i c hi hr hs
    cases r with
    | nil => simp at hr
    | cons r0 r =>
      cases S with
      | nil => simp at hs
      | cons s0 S =>
        cases i with
        | zero =>
          simp only [List.set_cons_zero, List.zip_cons_cons, openingSum, List.getD_cons_zero,
            map_sub, map_smul, LinearMap.sub_apply, LinearMap.smul_apply]
          module
        | succ i =>
          have := ih r S i (c * gamma) (by simpa using hi) (by simpa using hr) (by simpa using hs)
          simp only [List.set_cons_succ, List.zip_cons_cons, openingSum, List.getD_cons_succ]
          rw [add_sub_add_left_eq_sub, this]
          congr 1; ring

/-- C40. With the same proof, commitments and point sets, replacing one claimed polynomial by one
with another value at the trapdoor is rejected, unless the challenge is zero or the trapdoor is one
of the points. -/
theorem C40_wrong_value_rejected [DecidableEq G2] [DecidableEq GT] (P : Pairing F G1 G2 GT)
    (hP : P.e P.one1 P.one2 ≠ 0) (d t : Nat) (alpha gamma : F) (pk : BatchedKzgKey F G1)
    (proof : G1) (h : KeyOK d t pk) (i : Nat) (hi : i < pk.commits.length) (r' : List F)
    (hr' : r'.length ≤ d) (hg : gamma ≠ 0) (ha : alpha ∉ pk.T)
    (hne : evalPoly r' alpha ≠ evalPoly (pk.r.getD i []) alpha)
    (hacc : batchedVerify P (batchedKzgSetup P d t alpha) proof pk gamma = some true) :
    batchedVerify P (batchedKzgSetup P d t alpha) proof
      ⟨pk.commits, pk.T, pk.S, pk.r.set i r'⟩ gamma = some false := by
  have h' : KeyOK d t (⟨pk.commits, pk.T, pk.S, pk.r.set i r'⟩ : BatchedKzgKey F G1) := by
    refine ⟨by simpa using h.rlen, h.slen, h.tnodup, h.tne, h.tfit, ?_, h.single⟩
    intro r hr
    rcases List.mem_or_eq_of_mem_set hr with hr | rfl
    · exact h.rfit r hr
    · exact hr'
  obtain ⟨b, b1, b2⟩ := C40_verdict P d t alpha gamma pk proof h
  obtain ⟨b', b1', b2'⟩ := C40_verdict P d t alpha gamma _ proof h'
  rw [b1, Option.some.injEq] at hacc
  rw [b1', Option.some.injEq]
  by_contra hc
  rw [Bool.not_eq_false] at hc
  have e1 := b2.1 hacc
  have e2 := b2'.1 hc
  simp only at e2
  have hd := openingSum_diff P alpha gamma pk.T r' pk.commits pk.r pk.S i 1 hi h.rlen h.slen
  rw [e1, e2, sub_self] at hd
  have hz : zerosAt alpha (pk.T.filter fun x => x ∉ pk.S.getD i []) ≠ 0 := by
    rw [← vanish_eval, Ne, vanish_eval_eq_zero]
    intro hm
    exact ha (List.mem_of_mem_filter hm)
  rcases smul_eq_zero.1 hd.symm with h0 | h0
  · exact mul_ne_zero (mul_ne_zero (mul_ne_zero one_ne_zero (pow_ne_zero _ hg)) hz)
      (sub_ne_zero.2 hne) h0
  · exact hP h0

end Static

example := C40_complete exPairing 4 3 (7 : ℚ) 5 [[1, 0, 2], [3, 1], [5]] [[2, 1], [2, 3], [3]]
  (by simp) rfl (by simp) (by decide +kernel)
  (by
    have h := C40_merged_points ([[2, 1], [2, 3], [3]] : List (List ℚ))
    have hs : mergeEvalPoints ([[2, 1], [2, 3], [3]] : List (List ℚ)) ⊆ [1, 2, 3] := by
      intro x hx
      have := (h.1 x).1 hx
      simp at this ⊢
      tauto
    exact (List.subperm_of_subset (nodup_sortedSet _) hs).length_le)

end Crypto3Zk
