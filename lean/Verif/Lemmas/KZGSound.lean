import Verif.Props.KZGScheme
import Verif.Spec.KZGSound
import Verif.Lemmas.FRISound
import Mathlib.Algebra.Polynomial.Roots

/-!
# What an accepted opening of the KZG schemes says
-/

set_option linter.unusedSectionVars false

namespace Crypto3Zk

open Polynomial

variable {F : Type} [Field F]
variable {G1 G2 GT : Type} [AddCommGroup G1] [Module F G1] [AddCommGroup G2] [Module F G2]
  [AddCommGroup GT] [Module F GT]

theorem kzgCommit_some {G : Type} [AddCommGroup G] [Module F G] {alpha : F} {g : G} {n : Nat} {f : List F} {c : G}
    (h : kzgCommit (powerKey alpha g n) f = some c) : f.length ≤ n ∧ c = evalPoly f alpha • g := by
  by_cases hl : f.length ≤ n
  · rw [kzgCommit_powerKey alpha g n f hl, Option.some.injEq] at h
    exact ⟨hl, h.symm⟩
  · rw [kzgCommit_none _ _ (by simpa using hl)] at h
    simp at h

/-- the zeros of a polynomial that is not zero are few -/
theorem few_zeros (p : F[X]) (hp : p ≠ 0) (n : Nat) (hn : p.natDegree ≤ n) :
    ∃ bad : Finset F, bad.card ≤ n ∧ ∀ x ∉ bad, p.eval x ≠ 0 := by
  classical
  refine ⟨p.roots.toFinset, (Multiset.toFinset_card_le _).trans ((card_roots' p).trans hn), ?_⟩
  intro x hx h0
  exact hx (Multiset.mem_toFinset.2 ((mem_roots hp).2 h0))

theorem natDegree_toPoly_le (l : List F) (n : Nat) (h : l.length ≤ n) : (toPoly l).natDegree ≤ n - 1 := by
  by_cases h0 : toPoly l = 0
  · simp [h0]
  have := degree_toPoly l
  rw [degree_eq_natDegree h0] at this
  have h2 : (toPoly l).natDegree < l.length := by exact_mod_cast this
  omega

section items

variable [LinearOrder F]

/-- the points of an item are different points of `T` -/
structure ItemPoints (T : List F) (e : List F × List F × List F) : Prop where
  nodup : e.2.2.Nodup
  sub : ∀ x ∈ e.2.2, x ∈ T

theorem kzgVerifier_fold_some (P : Pairing F G1 G2 GT) (T : List F) (hT : T.Nodup) (d t : Nat)
    (alpha gamma : F) (items : List (List F × List F × List F)) (h : ∀ e ∈ items, ItemPoints T e) :
    ∀ (st st' : F × GT), (items.map fun e => ((evalPoly e.1 alpha • P.one1, e.2.1, e.2.2) : G1 × _)).foldlM
        (kzgVerifierStep P (batchedKzgSetup P d t alpha) T gamma) st = some st' →
      st'.2 = st.2 + (combo T gamma st.1 items).eval alpha • P.e P.one1 P.one2 := by
  induction items with
  | nil =>
    intro st st' hs
    simp only [List.map_nil, List.foldlM_nil, Option.pure_def, Option.some.injEq] at hs
    subst hs
    simp [combo]
  | cons e items ih =>
    intro st st' hs
    have he := h e (by simp)
    obtain ⟨v, h1, h2, -, -⟩ := schemeSetDifference_spec T e.2.2 hT he.nodup he.sub
    rw [List.map_cons, List.foldlM_cons] at hs
    obtain ⟨st1, hst1, hs⟩ := Option.bind_eq_some_iff.1 hs
    simp only [kzgVerifierStep, batchedKzgSetup, h1, Option.bind_eq_bind, Option.bind_some,
      Option.bind_eq_some_iff, Option.some.injEq] at hst1
    obtain ⟨uc, huc, vc, hvc, rfl⟩ := hst1
    obtain ⟨-, rfl⟩ := kzgCommit_some huc
    obtain ⟨-, rfl⟩ := kzgCommit_some hvc
    rw [ih (fun e' he' => h e' (by simp [he'])) _ st' hs]
    rw [← sub_smul, smul_smul, pair_smul, add_assoc, ← add_smul]
    congr 2
    simp only [combo, eval_add, eval_mul, eval_C, eval_sub, eval_toPoly, ← h2]

theorem kzg2Verifier_fold_some (g : G1) (T : List F) (hT : T.Nodup) (alpha theta theta2 : F)
    (items : List (List F × List F × List F)) (h : ∀ e ∈ items, ItemPoints T e) :
    ∀ (st st' : F × G1 × F),
      (items.map fun e => ((evalPoly e.1 alpha • g, e.2.1, e.2.2) : G1 × _)).foldlM
        (kzg2VerifierStep T theta theta2) st = some st' →
      st'.2.1 - st'.2.2 • g
        = st.2.1 - st.2.2 • g + (comboL T theta theta2 st.1 items).eval alpha • g := by
  induction items with
  | nil =>
    intro st st' hs
    simp only [List.map_nil, List.foldlM_nil, Option.pure_def, Option.some.injEq] at hs
    subst hs
    simp [comboL]
  | cons e items ih =>
    intro st st' hs
    have he := h e (by simp)
    obtain ⟨v, h1, h2, -, -⟩ := schemeSetDifference_spec T e.2.2 hT he.nodup he.sub
    rw [List.map_cons, List.foldlM_cons] at hs
    obtain ⟨st1, hst1, hs⟩ := Option.bind_eq_some_iff.1 hs
    simp only [kzg2VerifierStep, h1, Option.bind_eq_bind, Option.bind_some, Option.some.injEq] at hst1
    subst hst1
    rw [ih (fun e' he' => h e' (by simp [he'])) _ st' hs]
    simp only [comboL, eval_add, eval_mul, eval_C, eval_sub, eval_toPoly, ← h2]
    module

/-- the coefficients of the combination at a point, as a polynomial in the challenge -/
noncomputable def comboCoeffs (T : List F) (x : F) (items : List (List F × List F × List F)) : List F :=
  items.map fun e => (evalPoly e.1 x - evalPoly e.2.1 x) * (vanish (T.filter fun y => y ∉ e.2.2)).eval x

theorem combo_eval (T : List F) (gamma x : F) (items : List (List F × List F × List F)) : ∀ c,
    (combo T gamma c items).eval x = c * evalPoly (comboCoeffs T x items) gamma := by
  induction items with
  | nil => intro c; simp [combo, comboCoeffs, evalPoly]
  | cons e items ih =>
    intro c
    simp only [combo, eval_add, ih, eval_mul, eval_C, eval_sub, eval_toPoly, comboCoeffs, List.map_cons,
      evalPoly_cons]
    ring

theorem vanish_eval_ne (l : List F) (x : F) (hx : x ∉ l) : (vanish l).eval x ≠ 0 := by
  induction l with
  | nil => simp [vanish]
  | cons a l ih =>
    rw [List.mem_cons, not_or] at hx
    simp only [vanish, List.map_cons, List.prod_cons, eval_mul, eval_sub, eval_X, eval_C] at ih ⊢
    exact mul_ne_zero (sub_ne_zero.2 hx.1) (ih hx.2)

theorem vanish_eval_mem (l : List F) (x : F) (hx : x ∈ l) : (vanish l).eval x = 0 := by
  induction l with
  | nil => simp at hx
  | cons a l ih =>
    simp only [vanish, List.map_cons, List.prod_cons, eval_mul, eval_sub, eval_X, eval_C] at ih ⊢
    rcases List.mem_cons.1 hx with rfl | hx
    · simp
    · rw [ih hx, mul_zero]

/-- A wrong claim shows in the combination, for all but few challenges. -/
theorem wrong_claim_shows (T : List F) (items : List (List F × List F × List F))
    (h : ∀ e ∈ items, ItemPoints T e) :
    ∃ bad : Finset F, bad.card ≤ items.length - 1 ∧ ∀ gamma ∉ bad,
      (∀ x ∈ T, (combo T gamma 1 items).eval x = 0) →
      ∀ e ∈ items, ∀ x ∈ e.2.2, evalPoly e.2.1 x = evalPoly e.1 x := by
  by_cases hall : ∀ e ∈ items, ∀ x ∈ e.2.2, evalPoly e.2.1 x = evalPoly e.1 x
  · exact ⟨∅, by simp, fun _ _ _ => hall⟩
  push Not at hall
  obtain ⟨e, he, x, hx, hne⟩ := hall
  have hp : toPoly (comboCoeffs T x items) ≠ 0 := by
    intro h0
    obtain ⟨i, hi, rfl⟩ := List.getElem_of_mem he
    have := congrArg (fun p => p.coeff i) h0
    simp only [coeff_toPoly, coeff_zero] at this
    rw [List.getD_eq_getElem _ _ (by simpa [comboCoeffs] using hi)] at this
    simp only [comboCoeffs, List.getElem_map, mul_eq_zero] at this
    rcases this with h1 | h1
    · exact hne (sub_eq_zero.1 h1).symm
    · exact vanish_eval_ne _ _ (by simp [hx]) h1
  have hlen : 0 < items.length := List.length_pos_iff.2 (List.ne_nil_of_mem he)
  have hdeg : (toPoly (comboCoeffs T x items)).natDegree ≤ items.length - 1 := by
    have := degree_toPoly (comboCoeffs T x items)
    rw [degree_eq_natDegree hp] at this
    have h2 : (toPoly (comboCoeffs T x items)).natDegree < (comboCoeffs T x items).length := by exact_mod_cast this
    simp only [comboCoeffs, List.length_map] at h2 ⊢
    omega
  obtain ⟨bad, hb1, hb2⟩ := few_zeros _ hp _ hdeg
  refine ⟨bad, hb1, fun gamma hg h0 => absurd ?_ (hb2 gamma hg)⟩
  have := h0 x ((h e he).sub x hx)
  rw [combo_eval, one_mul] at this
  rw [eval_toPoly, this]

theorem natDegree_combo (T : List F) (hT : T.Nodup) (gamma : F) (d : Nat)
    (items : List (List F × List F × List F)) (h : ∀ e ∈ items, ItemPoints T e)
    (hf : ∀ e ∈ items, e.1.length ≤ d) (hu : ∀ e ∈ items, e.2.1.length ≤ max d e.2.2.length) : ∀ c,
    (combo T gamma c items).natDegree ≤ d - 1 + T.length := by
  induction items with
  | nil => intro c; simp [combo]
  | cons e items ih =>
    intro c
    have ih := ih (fun e he => h e (by simp [he])) (fun e he => hf e (by simp [he]))
      (fun e he => hu e (by simp [he])) (c * gamma)
    have he := h e (by simp)
    have hlen : e.2.2.length + (T.filter fun x => x ∉ e.2.2).length = T.length := by
      have := congrArg natDegree (vanish_split T e.2.2 hT he.nodup he.sub)
      rw [(vanish_monic _).1.natDegree_mul (vanish_monic _).1, (vanish_monic _).2, (vanish_monic _).2,
        (vanish_monic _).2] at this
      omega
    simp only [combo]
    refine (natDegree_add_le _ _).trans (max_le ?_ ih)
    refine natDegree_mul_le.trans ?_
    rw [(vanish_monic _).2]
    have h1 : (C c * (toPoly e.1 - toPoly e.2.1)).natDegree ≤ max (d - 1) (max d e.2.2.length - 1) := by
      refine natDegree_mul_le.trans ?_
      rw [natDegree_C, zero_add]
      exact (natDegree_sub_le _ _).trans (max_le_max (natDegree_toPoly_le _ _ (hf e (by simp)))
        (natDegree_toPoly_le _ _ (hu e (by simp))))
    omega

theorem natDegree_comboL (T : List F) (theta theta2 : F) (d : Nat) (items : List (List F × List F × List F))
    (hf : ∀ e ∈ items, e.1.length ≤ d) : ∀ c, (comboL T theta theta2 c items).natDegree ≤ d - 1 := by
  induction items with
  | nil => intro c; simp [comboL]
  | cons e items ih =>
    intro c
    have ih := ih (fun e he => hf e (by simp [he])) (c * theta)
    simp only [comboL]
    refine (natDegree_add_le _ _).trans (max_le ?_ ih)
    refine natDegree_mul_le.trans ?_
    rw [natDegree_C, zero_add]
    refine (natDegree_sub_le _ _).trans (max_le ?_ ?_)
    · exact natDegree_toPoly_le _ _ (hf e (by simp))
    · rw [natDegree_C]; omega

/-! ### the items of the verifier -/

/-- what the verifier combines, with the polynomials behind the commitments -/
def claimItems (ev : PolysEvaluator F) (keys : List Nat) (f : Nat → Nat → List F) :
    List (List F × List F × List F) :=
  keys.flatMap fun k => (List.range (ev.points.getD k []).length).map fun i =>
    (f k i, (getU ev k i).getD [], (ev.points.getD k []).getD i [])

theorem mapM_some_map {α β : Type} (g : α → Option β) (h : α → β) (l : List α) (r : List β)
    (hr : l.mapM g = some r) (hg : ∀ a ∈ l, ∀ b, g a = some b → b = h a) :
    r = l.map h ∧ ∀ a ∈ l, (g a).isSome := by
  induction l generalizing r with
  | nil =>
    simp only [List.mapM_nil, Option.pure_def, Option.some.injEq] at hr
    simp [← hr]
  | cons a l ih =>
    simp only [List.mapM_cons, Option.pure_def, Option.bind_eq_bind, Option.bind_eq_some_iff,
      Option.some.injEq] at hr
    obtain ⟨b, hb, bs, hbs, rfl⟩ := hr
    obtain ⟨i1, i2⟩ := ih bs hbs fun a ha => hg a (by simp [ha])
    refine ⟨by rw [hg a (by simp) b hb, i1, List.map_cons], ?_⟩
    intro a' ha'
    rcases List.mem_cons.1 ha' with rfl | ha'
    · rw [hb]; rfl
    · exact i2 a' ha'

theorem verifierItems_some (codec : PointCodec G1) (one : G1) (ev : PolysEvaluator F)
    (coms : OMap (List UInt8)) (f : Nat → Nat → List F) (alpha : F)
    (hrep : Represents codec one ev.points coms f alpha) (vs : List (G1 × List F × List F))
    (hvs : verifierItems codec ev coms = some vs) :
    vs = (claimItems ev coms.keys f).map (fun e => (evalPoly e.1 alpha • one, e.2.1, e.2.2)) ∧
      ∀ k ∈ coms.keys, ∀ i < (ev.points.getD k []).length, (getU ev k i).isSome := by
  simp only [verifierItems, Option.bind_eq_bind, Option.bind_eq_some_iff, Option.some.injEq] at hvs
  obtain ⟨per, hper, rfl⟩ := hvs
  have key : ∀ e ∈ coms, ∀ b, (do
      let batch ← ev.points.find e.1
      (List.range batch.length).mapM fun i => do
        let cm ← decodeAt codec e.2 batch.length i
        let u ← getU ev e.1 i
        let pts ← batch[i]?
        some (cm, u, pts)) = some b →
      b = ((List.range (ev.points.getD e.1 []).length).map fun i => ((evalPoly (f e.1 i) alpha • one,
        (getU ev e.1 i).getD [], (ev.points.getD e.1 []).getD i []) : G1 × List F × List F)) ∧
      ∀ i < (ev.points.getD e.1 []).length, (getU ev e.1 i).isSome := by
    intro e he b hb
    simp only [Option.bind_eq_bind, Option.bind_eq_some_iff] at hb
    obtain ⟨batch, hbatch, hb⟩ := hb
    have hg : ev.points.getD e.1 [] = batch := by rw [OMap.getD, hbatch]; rfl
    rw [hg]
    obtain ⟨h1, h2⟩ := mapM_some_map _ (fun i => ((evalPoly (f e.1 i) alpha • one,
        (getU ev e.1 i).getD [], batch.getD i []) : G1 × List F × List F)) _ _ hb (by
      intro i hi b hb
      have hi' : i < batch.length := by simpa using hi
      have hd := hrep e he i (by rw [hg]; exact hi')
      rw [hg] at hd
      simp only [hd, Option.bind_some, Option.bind_eq_some_iff, Option.some.injEq] at hb
      obtain ⟨u, hu, pts, hpts, rfl⟩ := hb
      rw [hu, List.getD_eq_getElem?_getD, hpts]
      rfl)
    refine ⟨h1, fun i hi => ?_⟩
    have := h2 i (by simpa using hi)
    obtain ⟨x, hx⟩ := Option.isSome_iff_exists.1 this
    simp only [Option.bind_eq_some_iff] at hx
    obtain ⟨_, _, u, hu, _⟩ := hx
    rw [hu]; rfl
  obtain ⟨h1, h2⟩ := mapM_some_map _ _ _ _ hper fun e he b hb => (key e he b hb).1
  refine ⟨?_, ?_⟩
  · rw [h1, claimItems, List.map_flatMap, ← List.flatMap_def, OMap.keys, List.flatMap_map]
    simp only [List.map_map]
    rfl
  · intro k hk
    obtain ⟨e, he, rfl⟩ := List.mem_map.1 hk
    obtain ⟨b, hb⟩ := Option.isSome_iff_exists.1 (h2 e he)
    exact (key e he b hb).2

theorem getU_some (ev : PolysEvaluator F) (k i : Nat) (u : List F) (h : getU ev k i = some u) :
    ∃ pts zs, (ev.points.getD k [])[i]? = some pts ∧ ev.z.getPoly k i = some zs ∧
      zs.length = pts.length ∧ u = lagrangeInterpolation (pts.zip zs) := by
  simp only [getU, Option.bind_eq_bind, Option.bind_eq_some_iff] at h
  obtain ⟨batch, hb, pts, hp, n, hn, h⟩ := h
  simp only [EvalStorage.pointsNumber, Option.map_eq_some_iff] at hn
  obtain ⟨zs, hz, rfl⟩ := hn
  split_ifs at h with hl
  · rw [hz, Option.bind_some, Option.some.injEq] at h
    exact ⟨pts, zs, by rw [OMap.getD, hb]; exact hp, hz, hl.symm, h.symm⟩

theorem claimItems_length (ev : PolysEvaluator F) (keys : List Nat) (f : Nat → Nat → List F) :
    (claimItems ev keys f).length = openedCount ev.points keys := by
  simp [claimItems, openedCount, List.length_flatMap]

theorem claimItems_points (ev : PolysEvaluator F) (hs : ev.points.Sorted) (keys : List Nat)
    (f : Nat → Nat → List F) (hnd : ∀ k, ∀ l ∈ ev.points.getD k [], l.Nodup) :
    ∀ e ∈ claimItems ev keys f, ItemPoints (mergedPoints ev) e := by
  intro e he
  simp only [claimItems, List.mem_flatMap, List.mem_map, List.mem_range] at he
  obtain ⟨k, -, i, hi, rfl⟩ := he
  have hm : (ev.points.getD k []).getD i [] ∈ ev.points.getD k [] := by
    rw [List.getD_eq_getElem _ _ hi]; exact List.getElem_mem hi
  refine ⟨hnd k _ hm, fun x hx => ?_⟩
  rw [mem_mergedPoints ev hs]
  cases hf : ev.points.find k with
  | none => simp [OMap.getD, hf] at hi
  | some batch =>
    refine ⟨k, batch, hf, _, ?_, hx⟩
    rw [OMap.getD, hf] at hm ⊢
    exact hm

theorem claimItems_u (ev : PolysEvaluator F) (keys : List Nat) (f : Nat → Nat → List F) :
    ∀ e ∈ claimItems ev keys f, e.2.1.length ≤ e.2.2.length := by
  intro e he
  simp only [claimItems, List.mem_flatMap, List.mem_map, List.mem_range] at he
  obtain ⟨k, -, i, hi, rfl⟩ := he
  cases hu : getU ev k i with
  | none => simp
  | some u =>
    obtain ⟨pts, zs, hp, -, hl, rfl⟩ := getU_some ev k i u hu
    have h1 := length_interpolation (pts.zip zs)
    rw [List.length_zip, hl, min_self] at h1
    rw [List.getD_eq_getElem?_getD, hp]
    exact h1

theorem claims_of_items (ev : PolysEvaluator F) (keys : List Nat) (f : Nat → Nat → List F)
    (hnd : ∀ k, ∀ l ∈ ev.points.getD k [], l.Nodup)
    (hu : ∀ k ∈ keys, ∀ i < (ev.points.getD k []).length, (getU ev k i).isSome)
    (h : ∀ e ∈ claimItems ev keys f, ∀ x ∈ e.2.2, evalPoly e.2.1 x = evalPoly e.1 x) :
    TrueClaims ev.points ev.z keys f := by
  intro k hk i pts hp
  have hi : i < (ev.points.getD k []).length := (List.getElem?_eq_some_iff.1 hp).1
  obtain ⟨u, hu⟩ := Option.isSome_iff_exists.1 (hu k hk i hi)
  obtain ⟨pts', zs, hp', hz, hl, rfl⟩ := getU_some ev k i u hu
  rw [hp, Option.some.injEq] at hp'
  subst hp'
  rw [hz, Option.some.injEq]
  have hn : pts.Nodup := hnd k pts (List.mem_of_getElem? hp)
  have hit := h (f k i, lagrangeInterpolation (pts.zip zs), pts) (by
    simp only [claimItems, List.mem_flatMap, List.mem_map, List.mem_range]
    refine ⟨k, hk, i, hi, ?_⟩
    rw [hu, List.getD_eq_getElem?_getD, hp]
    rfl)
  apply List.ext_getElem
  · simpa using hl
  · intro j h1 h2
    have hj : j < pts.length := by simpa using h2
    rw [List.getElem_map]
    have h3 := hit pts[j] (List.getElem_mem hj)
    simp only at h3
    rw [← h3]
    refine (interpolation_eval (pts.zip zs) ?_ _ _ ?_).symm
    · rw [List.map_fst_zip (by omega)]; exact hn
    · have : (pts.zip zs)[j]'(by rw [List.length_zip]; omega) = (pts[j], zs[j]) := List.getElem_zip
      rw [← this]; exact List.getElem_mem _

end items

end Crypto3Zk
