import Verif.Props.PlaceholderRelease

/-!
# The permutation argument in several parts, with a running product that ends at once

The running product is one in the first row and zero in all others, and the last partition polynomial is a multiple
of it. Then only the first row has to be looked at, and there the multiple can be chosen after the challenges.
-/

set_option linter.unusedSectionVars false

namespace Crypto3Zk

open Polynomial

variable {F : Type} [Field F] [DecidableEq F] {L : FftLib F} {A n : Nat}

/-- The verifier's loop over the parts, if all partition values but the last are zero. -/
theorem verifyParts_last (al : F) : ∀ (as : List F) (ghs : List (F × F)) (gh : F × F), ghs[as.length]? = some gh →
    ∃ c, ∀ V p f, verifyParts ghs (as ++ [al]) (List.replicate as.length 0 ++ [p]) V f =
      some (f + c * V - al * p * gh.2, p) := by
  intro as
  induction as with
  | nil =>
    intro ghs gh h
    cases ghs with
    | nil => simp at h
    | cons g ghs =>
      simp only [List.length_nil, List.getElem?_cons_zero, Option.some.injEq] at h
      subst h
      refine ⟨al * g.1, fun V p f => ?_⟩
      simp only [List.nil_append, List.length_nil, List.replicate_zero, verifyParts, Option.some.injEq,
        Prod.mk.injEq, and_true]
      ring
  | cons a as ih =>
    intro ghs gh h
    cases ghs with
    | nil => simp at h
    | cons g ghs =>
      rw [List.length_cons, List.getElem?_cons_succ] at h
      obtain ⟨c, hc⟩ := ih ghs gh h
      refine ⟨a * g.1, fun V p f => ?_⟩
      simp only [List.cons_append, List.length_cons, List.replicate_succ, verifyParts, hc, Option.some.injEq,
        Prod.mk.injEq, and_true]
      ring

/-- The loop on polynomials. -/
theorem verifyParts_poly : ∀ (alphas : List F) (ghs : List (F[X] × F[X])) (parts : List F[X]) (prev f : F[X]),
    alphas.length ≤ ghs.length → alphas.length ≤ parts.length →
    ∃ r : F[X] × F[X], ∀ y, verifyParts (ghs.map fun g => (g.1.eval y, g.2.eval y)) alphas
      (parts.map (·.eval y)) (prev.eval y) (f.eval y) = some (r.1.eval y, r.2.eval y) := by
  intro alphas
  induction alphas with
  | nil =>
    intro ghs parts prev f _ _
    exact ⟨(f, prev), fun y => by cases ghs <;> simp [verifyParts]⟩
  | cons a as ih =>
    intro ghs parts prev f h1 h2
    cases ghs with
    | nil => simp at h1
    | cons g ghs =>
      cases parts with
      | nil => simp at h2
      | cons p parts =>
        obtain ⟨r, hr⟩ := ih ghs parts p (f + C a * (prev * g.1 - p * g.2)) (by simpa using h1) (by simpa using h2)
        refine ⟨r, fun y => ?_⟩
        have := hr y
        simp only [eval_add, eval_mul, eval_sub, eval_C] at this
        simpa [verifyParts] using this

/-- The forged running product and partition polynomials get through: for every `beta` all but at most one `gamma` for
each column and, for every `gamma`, all but one of the values of the last of the other challenges will do. -/
theorem permVerify_parts_forged (hL : L.Lawful A) (hn : n ≤ A) {pre : PermData F} {s usable : Nat}
    (hidl : pre.sId.length = s) (hsigl : pre.sSigma.length = s)
    (hql : pre.qLast = L.coefficients (lagrangeValues (2 ^ n) usable))
    (hqb : pre.qBlind = L.coefficients (blindValues (2 ^ n) usable))
    (hl0 : pre.lagrange0 = L.coefficients (lagrangeValues (2 ^ n) 0)) (hl0l : pre.lagrange0.length ≤ 2 ^ n)
    (hu : usable < 2 ^ n)
    (hparts : permutationParts s pre.mqc = some pre.parts) {k : Nat} (hk : pre.parts = k + 2)
    (cols : List (List F)) (hcl : cols.length = s) :
    ∃ (badGamma : F → Finset F) (badAlpha : F → F → Finset F), (∀ b, (badGamma b).card ≤ s) ∧
      (∀ b g, (badAlpha b g).card ≤ 1) ∧
      ∀ (beta gamma : F) (as : List F) (al : F), as.length = k → gamma ∉ badGamma beta →
        al ∉ badAlpha beta gamma → ∃ V partitions, V.length ≤ 2 ^ n ∧ (∀ p ∈ partitions, p.length ≤ 2 ^ n) ∧
          partitions.length = k + 1 ∧ ∃ f0 f1 f2 : F[X], PolyVanishesOnRows L n f0 ∧ PolyVanishesOnRows L n f1 ∧
            PolyVanishesOnRows L n f2 ∧
            ∀ (S : Type) (ch : S → F × S) (st : S) (y : F), (ch st).1 = beta → (ch (ch st).2).1 = gamma →
              (drawN ch (k + 1) (ch (ch st).2).2).1 = as ++ [al] →
              permVerify ch pre.lagrange0 pre.mqc pre.parts (trueClaims L n pre cols V partitions y) y st =
                some ((f0.eval y, f1.eval y, f2.eval y), (drawN ch (k + 1) (ch (ch st).2).2).2) := by
  set gz := fun b g => List.zipWith (permFactor b g) pre.sId cols with hgz
  set hz := fun b g => List.zipWith (permFactor b g) pre.sSigma cols with hhz
  set G := fun b g => (groupFactors pre.mqc (gz b g) []).map polyProduct with hG
  set H := fun b g => (groupFactors pre.mqc (hz b g) []).map polyProduct with hH
  have hGl : ∀ b g, (G b g).length = k + 2 := fun b g => by
    simp only [hG, List.length_map]
    rw [← hk]
    exact groupFactors_parts pre.mqc _ pre.parts (by simpa [hgz, hidl, hcl] using hparts)
  have hHl : ∀ b g, (H b g).length = k + 2 := fun b g => by
    simp only [hH, List.length_map]
    rw [← hk]
    exact groupFactors_parts pre.mqc _ pre.parts (by simpa [hhz, hsigl, hcl] using hparts)
  have row : ∀ (v : List F), v.length = 2 ^ n → ∀ j < 2 ^ n, evalPoly (L.coefficients v) (L.root n ^ j) = v.getD j 0 := by
    intro v hv j hj
    rw [← dfsPoly_eval_row hL n hn v hv j hj, dfsPoly, eval_toPoly]
  have hV : ∀ j < 2 ^ n, evalPoly pre.lagrange0 (L.root n ^ j) = if j = 0 then 1 else 0 := by
    intro j hj
    rw [hl0, row _ (by simp [lagrangeValues]) j hj, List.getD_eq_getElem _ _ (by simpa [lagrangeValues] using hj)]
    simp [lagrangeValues]
  have hqlr : ∀ j < 2 ^ n, evalPoly pre.qLast (L.root n ^ j) = if j = usable then 1 else 0 := by
    intro j hj
    rw [hql, row _ (by simp [lagrangeValues]) j hj, List.getD_eq_getElem _ _ (by simpa [lagrangeValues] using hj)]
    simp [lagrangeValues]
  have hqbr : ∀ j < 2 ^ n, evalPoly pre.qBlind (L.root n ^ j) = if usable + 1 ≤ j then 1 else 0 := by
    intro j hj
    rw [hqb, row _ (by simp [blindValues]) j hj, List.getD_eq_getElem _ _ (by simpa [blindValues] using hj)]
    simp [blindValues]
  refine ⟨fun b => ((pre.sSigma.zip cols).map fun p => -(evalPoly p.1 1 * b + evalPoly p.2 1)).toFinset,
    fun b g => {evalPoly ((G b g).getD (k + 1) []) 1 / evalPoly ((H b g).getD k []) 1}, ?_, fun b g => by simp, ?_⟩
  · intro b
    refine (List.toFinset_card_le _).trans ?_
    simp [hsigl, hcl]
  intro beta gamma as al has hgam hal
  obtain ⟨G', hG'⟩ : ∃ G', G' = G beta gamma := ⟨_, rfl⟩
  obtain ⟨H', hH'⟩ : ∃ H', H' = H beta gamma := ⟨_, rfl⟩
  have gl : G'.length = k + 2 := hG' ▸ hGl beta gamma
  have hl : H'.length = k + 2 := hH' ▸ hHl beta gamma
  -- the factors of the first row are not zero
  have hHne : evalPoly (H'.getD k []) 1 ≠ 0 := by
    rw [List.getD_eq_getElem _ _ (by rw [hl]; omega)]
    simp only [hH', hH, List.getElem_map, evalPoly_polyProduct]
    intro h0
    obtain ⟨p, hp, hp0⟩ := List.mem_map.1 (List.prod_eq_zero_iff.1 h0)
    have hmem : p ∈ hz beta gamma := by
      have := groupFactors_flatten pre.mqc (hz beta gamma) []
      rw [List.nil_append] at this
      rw [← this]
      exact List.mem_flatten.2 ⟨_, List.getElem_mem _, hp⟩
    rw [hhz] at hmem
    dsimp only at hmem
    rw [← List.map_uncurry_zip_eq_zipWith] at hmem
    obtain ⟨q, hq, rfl⟩ := List.mem_map.1 hmem
    rw [Function.uncurry_def] at hp0
    rw [evalPoly_permFactor] at hp0
    apply hgam
    rw [List.mem_toFinset]
    exact List.mem_map.2 ⟨q, hq, by linear_combination -hp0⟩
  have hden : evalPoly (G'.getD (k + 1) []) 1 - al * evalPoly (H'.getD k []) 1 ≠ 0 := by
    intro h0
    apply hal
    rw [Finset.mem_singleton, ← hG', ← hH', eq_div_iff hHne]
    linear_combination -h0
  -- the values at a point
  set ghs : F → List (F × F) := fun y => (G'.map (evalPoly · y)).zip (H'.map (evalPoly · y)) with hghs
  have hget : ∀ y i, i < k + 2 → (ghs y)[i]? = some (evalPoly (G'.getD i []) y, evalPoly (H'.getD i []) y) := by
    intro y i hi
    rw [hghs]
    simp only [List.getElem?_zip_eq_some, List.getElem?_map]
    rw [List.getElem?_eq_getElem (by omega), List.getElem?_eq_getElem (by omega),
      List.getD_eq_getElem _ _ (by omega), List.getD_eq_getElem _ _ (by omega)]
    simp
  choose cc hcc using fun y => verifyParts_last al as (ghs y) _ (hget y as.length (by omega))
  set p0 := -cc 1 / (evalPoly (G'.getD (k + 1) []) 1 - al * evalPoly (H'.getD k []) 1) with hp0
  set parts := List.replicate k ([] : List F) ++ [polyScale p0 pre.lagrange0] with hpartsdef
  refine ⟨pre.lagrange0, parts, hl0l, ?_, by simp [hpartsdef], ?_⟩
  · intro p hp
    rcases List.mem_append.1 hp with h | h
    · rw [(List.mem_replicate.1 h).2]; simp
    · rw [List.mem_singleton.1 h]; simpa [polyScale] using hl0l
  have hpm : ∀ y, parts.map (evalPoly · y) = List.replicate as.length 0 ++ [p0 * evalPoly pre.lagrange0 y] := by
    intro y
    have : evalPoly ([] : List F) y = 0 := rfl
    simp [hpartsdef, evalPoly_polyScale, has, this]
  obtain ⟨r, hr⟩ := verifyParts_poly (as ++ [al]) ((G'.map toPoly).zip (H'.map toPoly)) (parts.map toPoly)
    (toPoly pre.lagrange0) 0 (by simp [has, gl, hl]) (by simp [has, hpartsdef])
  have hr' : ∀ y, r.1.eval y = cc y * evalPoly pre.lagrange0 y - al * (p0 * evalPoly pre.lagrange0 y) *
      evalPoly (H'.getD k []) y ∧ r.2.eval y = p0 * evalPoly pre.lagrange0 y := by
    intro y
    have h1 := hr y
    have e1 : ((G'.map toPoly).zip (H'.map toPoly)).map (fun g => (g.1.eval y, g.2.eval y)) = ghs y := by
      rw [hghs]
      dsimp only
      rw [List.zip_map, List.map_map, List.zip_map]
      apply List.map_congr_left
      intro x _
      simp [eval_toPoly, Prod.map]
    have e2 : (parts.map toPoly).map (·.eval y) = parts.map (evalPoly · y) := by
      rw [List.map_map]
      apply List.map_congr_left
      intro x _
      simp [eval_toPoly]
    rw [e1, e2, hpm, eval_toPoly, eval_zero, hcc] at h1
    simp only [Option.some.injEq, Prod.mk.injEq] at h1
    rw [← h1.1, ← h1.2, has]
    exact ⟨by ring, rfl⟩
  refine ⟨toPoly pre.lagrange0 * (1 - toPoly pre.lagrange0),
    (r.1 + (r.2 * toPoly (G'.getD (k + 1) []) - shiftDfs (L.root n) 1 (toPoly pre.lagrange0) *
      toPoly (H'.getD (k + 1) []))) * (toPoly pre.qLast + toPoly pre.qBlind - 1),
    toPoly pre.qLast * (toPoly pre.lagrange0 * toPoly pre.lagrange0 - toPoly pre.lagrange0), ?_, ?_, ?_, ?_⟩
  · intro j hj
    simp only [eval_mul, eval_sub, eval_one, eval_toPoly, hV j hj]
    split_ifs <;> ring
  · intro j hj
    simp only [eval_mul, eval_sub, eval_add, eval_one, eval_toPoly, shiftDfs_eval, (hr' _).1, (hr' _).2, hV j hj,
      hqlr j hj, hqbr j hj]
    by_cases hju : j < usable
    · have hs : evalPoly pre.lagrange0 (L.root n ^ (1 : ℤ) * L.root n ^ j) = 0 := by
        rw [zpow_one, ← pow_succ', hV (j + 1) (by omega), if_neg (by omega)]
      rw [hs, if_neg (show ¬ j = usable by omega), if_neg (show ¬ usable + 1 ≤ j by omega)]
      by_cases h0 : j = 0
      · subst h0
        rw [if_pos rfl, pow_zero]
        have : p0 * (evalPoly (G'.getD (k + 1) []) 1 - al * evalPoly (H'.getD k []) 1) = -cc 1 := by
          rw [hp0, div_mul_cancel₀ _ hden]
        linear_combination -this
      · rw [if_neg h0]; ring
    · have : (if j = usable then (1 : F) else 0) + (if usable + 1 ≤ j then 1 else 0) - 1 = 0 := by
        rcases eq_or_ne j usable with h | h
        · rw [if_pos h, if_neg (by omega)]; ring
        · rw [if_neg h, if_pos (by omega)]; ring
      rw [this, mul_zero]
  · intro j hj
    simp only [eval_mul, eval_sub, eval_toPoly, hV j hj]
    split_ifs <;> ring
  intro S ch st y hb hg' hd
  have hgroups := verifyGroups_eq beta gamma pre.mqc y ((pre.sId.zip pre.sSigma).zip cols) [] [] rfl
  simp only [List.map_nil, List.prod_nil, List.length_nil] at hgroups
  rw [← zipWith_fst_zip (permFactor beta gamma) pre.sId pre.sSigma cols (by omega),
    ← zipWith_snd_zip (permFactor beta gamma) pre.sId pre.sSigma cols (by omega)] at hgroups
  change _ = ((G beta gamma).map (evalPoly · y)).zip ((H beta gamma).map (evalPoly · y)) at hgroups
  rw [← hG', ← hH'] at hgroups
  change _ = ghs y at hgroups
  unfold permVerify trueClaims
  simp only [List.length_map]
  rw [if_neg (by omega), hb, hg', map_zip_zip, hgroups, hk, show k + 2 - 1 = k + 1 by omega, hd,
    if_neg (by simp [has, hpartsdef]), if_neg (by omega), hpm y]
  rw [hcc y]
  simp only [Option.bind_eq_bind, Option.bind_some]
  rw [show (as ++ [al]).length = k + 1 by simp [has], hget y (k + 1) (by omega)]
  simp only [Option.bind_some, eval_mul, eval_sub, eval_add, eval_one, eval_toPoly, shiftDfs_eval, (hr' _).1,
    (hr' _).2, zpow_one, has, Option.some.injEq, Prod.mk.injEq, and_true]
  exact ⟨trivial, by ring⟩

end Crypto3Zk
