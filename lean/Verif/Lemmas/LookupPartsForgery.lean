import Verif.Lemmas.PartsForgery
import Verif.Lemmas.BlankedLookup

/-!
# The lookup argument in several parts, with a running product that ends at once

As in `Lemmas/PartsForgery`; the sorted columns are zero.
-/

set_option linter.unusedSectionVars false

namespace Crypto3Zk

open Polynomial

variable {F : Type} [Field F] [DecidableEq F] {L : FftLib F} {A n : Nat}

/-- The forged running product and partial products get through: for all `beta` but `-1`, all `gamma` but zero and all
but one of the values of the last of the challenges for the parts. -/
theorem lookupVerify_parts_forged {t : PlonkTable F} {sys : LookupSystem F} {pre : LookupData F}
    (h : LookupSetup L A n t sys pre)
    (h0 : ∀ p ∈ sys.parts pre.mqc, p ≠ 0) (h1 : (sys.parts pre.mqc).sum = sys.inputCount + sys.optionCount)
    {k : Nat} (hk : (sys.parts pre.mqc).length = k + 2) :
    ∃ badAlpha : F → F → F → Finset F, (∀ a b g, (badAlpha a b g).card ≤ 1) ∧
      ∀ (theta beta gamma : F) (as : List F) (al : F), as.length = k → beta ≠ -1 → gamma ≠ 0 →
        al ∉ badAlpha theta beta gamma → ∃ V partitions, V.length = 2 ^ n ∧ (∀ p ∈ partitions, p.length = 2 ^ n) ∧
          partitions.length = k + 1 ∧ ∃ f0 f1 f2 f3 : F[X], PolyVanishesOnRows L n f0 ∧ PolyVanishesOnRows L n f1 ∧
            PolyVanishesOnRows L n f2 ∧ PolyVanishesOnRows L n f3 ∧
            ∀ (S Com : Type) (ch : S → F × S) (absorb : Com → S → S) (com : Com) (st : S) (y : F)
              (ev : Nat → Int → ColumnType → Option F), TrueLookupEvaluations L n t sys y ev →
              (ch st).1 = theta → (ch (absorb com (ch st).2)).1 = beta →
              (ch (ch (absorb com (ch st).2)).2).1 = gamma →
              (drawN ch (k + 1) (ch (ch (absorb com (ch st).2)).2).2).1 = as ++ [al] →
              lookupVerify ch absorb com sys pre.mqc ev (trueLookupClaims L n pre
                  (List.replicate (sys.inputCount + sys.optionCount) (List.replicate (2 ^ n) 0)) V partitions y) st =
                some ((f0.eval y, f1.eval y, f2.eval y, f3.eval y),
                  (drawN ch (sys.inputCount + sys.optionCount - 1)
                    (drawN ch (k + 1) (ch (ch (absorb com (ch st).2)).2).2).2).2) := by
  have hL := h.lib
  have hn := h.small
  set m := sys.inputCount + sys.optionCount with hmdef
  set zeros : List F := List.replicate (2 ^ n) 0 with hzeros
  have hz0 : dfsPoly L zeros = 0 := dfsPoly_zero hL hn _ (by simp [zeros]) fun x hx => (List.mem_replicate.1 hx).2
  have hm : ∀ z, 1 - (pre.qLast.eval z + pre.qBlind.eval z) = (1 - pre.qLast - pre.qBlind).eval z := by
    intro z; simp only [eval_sub, eval_one]; ring
  have hVrow : ∀ j < 2 ^ n, pre.lagrange0.eval (L.root n ^ j) = if j = 0 then 1 else 0 := by
    intro j hj
    rw [h.lagrange0, dfsPoly_eval_row hL n hn _ (by simp [lagrangeValues]) j hj,
      List.getD_eq_getElem _ _ (by simpa [lagrangeValues] using hj)]
    simp [lagrangeValues]
  have hqlr : ∀ j < 2 ^ n, pre.qLast.eval (L.root n ^ j) = if j = pre.usable then 1 else 0 := by
    intro j hj
    rw [h.qLast, dfsPoly_eval_row hL n hn _ (by simp [lagrangeValues]) j hj,
      List.getD_eq_getElem _ _ (by simpa [lagrangeValues] using hj)]
    simp [lagrangeValues]
  have hqbr : ∀ j < 2 ^ n, pre.qBlind.eval (L.root n ^ j) = if pre.usable + 1 ≤ j then 1 else 0 := by
    intro j hj
    rw [h.qBlind, dfsPoly_eval_row hL n hn _ (by simp [blindValues]) j hj,
      List.getD_eq_getElem _ _ (by simpa [blindValues] using hj)]
    simp [blindValues]
  -- the factors on the left
  choose values hvals hvale using fun theta => lookupValues_eval (L := L) (n := n) h.inTable theta
    (1 - pre.qLast - pre.qBlind)
  choose inputs hinps hinpe using fun theta => lookupInputs_eval (L := L) (n := n) h.inTable theta
  have hgl : ∀ a b g, (gFactors (L.root n) (inputs a) (values a) b g).length = m := by
    intro a b g
    have e1 := congrArg List.length (hinpe a 0)
    have e2 := congrArg List.length (hvale a 0)
    have e3 := sum_zipIdx sys.tables 0 fun tab => tab.options.length
    simp only [List.length_map, inputsAt, valuesAt, List.length_flatMap] at e1 e2
    simp only [hmdef, gFactors, List.length_append, List.length_map, LookupSystem.inputCount,
      LookupSystem.optionCount]
    omega
  choose gg hgg hggl using fun a b g => groupByParts_some (sys.parts pre.mqc)
    (gFactors (L.root n) (inputs a) (values a) b g) [] h0 (fun _ => rfl)
    (fun p hp => Nat.pos_of_ne_zero (h0 p (List.mem_of_head? hp))) (by simp [hgl, h1])
  choose hh hhh hhhl using fun b g : F => groupByParts_some (sys.parts pre.mqc)
    (hFactors (L.root n) ((List.replicate m zeros).map (dfsPoly L)) b g) [] h0 (fun _ => rfl)
    (fun p hp => Nat.pos_of_ne_zero (h0 p (List.mem_of_head? hp))) (by simp [hFactors, h1])
  refine ⟨fun a b g => {(((gg a b g).map dfsProduct).getD (k + 1) 0).eval 1 /
    (((hh b g).map dfsProduct).getD k 0).eval 1}, fun a b g => by simp, ?_⟩
  intro theta beta gamma as al has hbeta hgamma hal
  obtain ⟨G', hG'⟩ : ∃ G', G' = (gg theta beta gamma).map dfsProduct := ⟨_, rfl⟩
  obtain ⟨H', hH'⟩ : ∃ H', H' = (hh beta gamma).map dfsProduct := ⟨_, rfl⟩
  have gl : G'.length = k + 2 := by rw [hG', List.length_map, hggl, hk]
  have hl : H'.length = k + 2 := by rw [hH', List.length_map, hhhl, hk]
  have hHne : (H'.getD k 0).eval 1 ≠ 0 := by
    rw [List.getD_eq_getElem _ _ (by omega)]
    simp only [hH', List.getElem_map]
    rw [dfsProduct, ← List.prod_eq_foldl, eval_list_prod]
    intro e
    obtain ⟨p, hp, hp0⟩ := List.mem_map.1 (List.prod_eq_zero_iff.1 e)
    have hmem : p ∈ hFactors (L.root n) ((List.replicate m zeros).map (dfsPoly L)) beta gamma := by
      have := groupByParts_flatten _ _ _ _ (hhh beta gamma)
      rw [List.nil_append] at this
      rw [← this]
      exact List.mem_flatten.2 ⟨_, List.getElem_mem _, hp⟩
    unfold hFactors at hmem
    obtain ⟨q, hq, rfl⟩ := List.mem_map.1 hmem
    obtain ⟨z, hz, rfl⟩ := List.mem_map.1 hq
    rw [(List.mem_replicate.1 hz).2, hz0] at hp0
    have h2 : (1 + beta) * gamma = 0 := by simpa [shiftDfs_eval] using hp0
    rcases mul_eq_zero.1 h2 with h3 | h3
    · exact hbeta (by linear_combination h3)
    · exact hgamma h3
  have hden : (G'.getD (k + 1) 0).eval 1 - al * (H'.getD k 0).eval 1 ≠ 0 := by
    intro e
    apply hal
    rw [Finset.mem_singleton, ← hG', ← hH', eq_div_iff hHne]
    linear_combination -e
  set ghs : F → List (F × F) := fun y => (G'.map (eval y)).zip (H'.map (eval y)) with hghs
  have hget : ∀ y i, i < k + 2 → (ghs y)[i]? = some ((G'.getD i 0).eval y, (H'.getD i 0).eval y) := by
    intro y i hi
    rw [hghs]
    simp only [List.getElem?_zip_eq_some, List.getElem?_map]
    rw [List.getElem?_eq_getElem (by omega), List.getElem?_eq_getElem (by omega),
      List.getD_eq_getElem _ _ (by omega), List.getD_eq_getElem _ _ (by omega)]
    simp
  choose cc hcc using fun y => verifyParts_last al as (ghs y) _ (hget y as.length (by omega))
  set p0 := -cc 1 / ((G'.getD (k + 1) 0).eval 1 - al * (H'.getD k 0).eval 1) with hp0
  set V : List F := lagrangeValues (2 ^ n) 0 with hV
  have hVl : V.length = 2 ^ n := by simp [hV, lagrangeValues]
  have hVp : dfsPoly L V = pre.lagrange0 := h.lagrange0.symm
  obtain ⟨last, hlast⟩ : ∃ last : List F, last = V.map (p0 * ·) := ⟨_, rfl⟩
  have hlastl : last.length = 2 ^ n := by rw [hlast, List.length_map, hVl]
  have hlrow : ∀ j < 2 ^ n, (dfsPoly L last).eval (L.root n ^ j) = if j = 0 then p0 else 0 := by
    intro j hj
    rw [dfsPoly_eval_row hL n hn _ hlastl j hj, List.getD_eq_getElem _ _ (by omega)]
    simp [hlast, hV, lagrangeValues]
  set parts := List.replicate k zeros ++ [last] with hpartsdef
  refine ⟨V, parts, hVl, ?_, by simp [hpartsdef], ?_⟩
  · intro p hp
    rcases List.mem_append.1 hp with e | e
    · rw [(List.mem_replicate.1 e).2]; simp [hzeros]
    · rw [List.mem_singleton.1 e]; exact hlastl
  have hpm : ∀ y, parts.map (fun p => (dfsPoly L p).eval y) = List.replicate as.length 0 ++ [(dfsPoly L last).eval y] := by
    intro y
    simp [hpartsdef, has, hz0]
  obtain ⟨r, hr⟩ := verifyParts_poly (as ++ [al]) (G'.zip H') (parts.map (dfsPoly L))
    pre.lagrange0 0 (by simp [has, gl, hl]) (by simp [has, hpartsdef])
  have hr' : ∀ y, r.1.eval y = cc y * pre.lagrange0.eval y - al * (dfsPoly L last).eval y *
      (H'.getD k 0).eval y ∧ r.2.eval y = (dfsPoly L last).eval y := by
    intro y
    have e := hr y
    have e1 : (G'.zip H').map (fun g => (g.1.eval y, g.2.eval y)) = ghs y := by
      rw [hghs]
      dsimp only
      rw [List.zip_map]
      rfl
    have e2 : (parts.map (dfsPoly L)).map (·.eval y) = parts.map (fun p => (dfsPoly L p).eval y) := by
      rw [List.map_map]
      rfl
    rw [e1, e2, hpm, eval_zero, hcc] at e
    simp only [Option.some.injEq, Prod.mk.injEq] at e
    rw [← e.1, ← e.2, has]
    exact ⟨by ring, rfl⟩
  refine ⟨(1 - pre.lagrange0) * pre.lagrange0, pre.qLast * (pre.lagrange0 * pre.lagrange0 - pre.lagrange0),
    (r.1 + (r.2 * G'.getD (k + 1) 0 - shiftDfs (L.root n) 1 pre.lagrange0 * H'.getD (k + 1) 0)) *
      (pre.qLast + pre.qBlind - 1), 0, ?_, ?_, ?_, fun _ _ => eval_zero, ?_⟩
  · intro j hj
    simp only [eval_mul, eval_sub, eval_one, hVrow j hj]
    split_ifs <;> ring
  · intro j hj
    simp only [eval_mul, eval_sub, hVrow j hj]
    split_ifs <;> ring
  · intro j hj
    simp only [eval_mul, eval_sub, eval_add, eval_one, shiftDfs_eval, (hr' _).1, (hr' _).2, hVrow j hj,
      hqlr j hj, hqbr j hj, hlrow j hj]
    by_cases hju : j < pre.usable
    · have hsp := h.spare
      have hs : pre.lagrange0.eval (L.root n ^ (1 : ℤ) * L.root n ^ j) = 0 := by
        rw [zpow_one, ← pow_succ', hVrow (j + 1) (by omega), if_neg (by omega)]
      rw [hs, if_neg (show ¬ j = pre.usable by omega), if_neg (show ¬ pre.usable + 1 ≤ j by omega)]
      by_cases e0 : j = 0
      · subst e0
        simp only [if_true, pow_zero]
        have : p0 * ((G'.getD (k + 1) 0).eval 1 - al * (H'.getD k 0).eval 1) = -cc 1 := by
          rw [hp0, div_mul_cancel₀ _ hden]
        linear_combination -this
      · rw [if_neg e0, if_neg e0]; ring
    · have : (if j = pre.usable then (1 : F) else 0) + (if pre.usable + 1 ≤ j then 1 else 0) - 1 = 0 := by
        rcases eq_or_ne j pre.usable with e | e
        · rw [if_pos e, if_neg (by omega)]; ring
        · rw [if_neg e, if_pos (by omega)]; ring
      rw [this, mul_zero]
  intro S Com ch absorb com st y ev hev hth hb hg' hd
  have hvv := verifyValues_eq ev sys theta (1 - (pre.qLast.eval y + pre.qBlind.eval y))
    (1 - (pre.qLast.eval (L.root n * y) + pre.qBlind.eval (L.root n * y)))
    (fun i => (columnPoly L t i .selector).eval y)
    (fun i => (columnPoly L t i .selector).eval (L.root n * y))
    (fun i => (columnPoly L t i .constant).eval y)
    (fun i => (columnPoly L t i .constant).eval (L.root n * y))
    (fun tab htab o ho => ((h.inTable.2 tab htab).2 o ho).1) (fun tab htab => by
      have h0 := hev.1 tab htab 0 (Or.inl rfl)
      have h1 := hev.1 tab htab 1 (Or.inr rfl)
      simp only [zpow_zero, one_mul, zpow_one] at h0 h1
      exact ⟨h0.1, h1.1, fun o ho c hc => ⟨h0.2 o ho c hc, h1.2 o ho c hc⟩⟩)
  simp only [hm] at hvv
  rw [← hvale theta y, ← hvale theta (L.root n * y)] at hvv
  have hvi := verifyInputs_eq ev sys theta (fun v => (varPoly L n t v).eval y) (fun g hg => by
    obtain ⟨h0, h1⟩ := hev.2 g hg
    refine ⟨?_, fun c hc e he v hv => ?_⟩
    · rw [h0, varPoly, shiftDfs_eval]; simp
    · rw [h1 c hc e he v hv, varPoly, shiftDfs_eval])
  rw [← hinpe theta y] at hvi
  have hgs := verifyPartProducts_eq _ _ _ _ y (hgg theta beta gamma)
  have hhs := verifyPartProducts_eq _ _ _ _ y (hhh beta gamma)
  rw [gFactors_eval] at hgs
  rw [hFactors_eval, List.map_map] at hhs
  simp only [List.map_nil, List.prod_nil, List.length_nil] at hgs hhs
  have eG : (gg theta beta gamma).map (fun g => (dfsProduct g).eval y) = G'.map (eval y) := by
    rw [hG', List.map_map]; rfl
  have eH : (hh beta gamma).map (fun g => (dfsProduct g).eval y) = H'.map (eval y) := by
    rw [hH', List.map_map]; rfl
  rw [eG] at hgs
  rw [eH] at hhs
  unfold lookupVerify
  simp only [trueLookupClaims, List.length_map]
  rw [hth]
  simp only [hm]
  rw [hvv]
  simp only [Option.bind_eq_bind, Option.bind_some]
  rw [hvi]
  simp only [Option.bind_some]
  rw [hb, hg', hk, show k + 2 - 1 = k + 1 by omega, hd, if_neg (by simp [has, hpartsdef]), hgs]
  simp only [Option.bind_some]
  simp only [List.map_map, Function.comp_def] at hhs ⊢
  rw [hhs]
  simp only [Option.bind_some]
  rw [if_neg (by simp [hpartsdef, gl, hl]), if_neg (by omega), verifyLookupParts_eq _ _ _ _ _ _ (by simp [gl, hl]),
    hpm y, hVp]
  change ((verifyParts (ghs y) _ _ _ _).bind _) = _
  rw [hcc y]
  simp only [Option.bind_some]
  rw [show (as ++ [al]).length = k + 1 by simp [has], List.getElem?_map, List.getElem?_map,
    List.getElem?_eq_getElem (by omega), List.getElem?_eq_getElem (by omega)]
  simp only [Option.map_some, Option.bind_some, List.map_replicate, hz0, eval_zero, verifyOverlap_zeros,
    List.length_replicate, eval_mul, eval_sub, eval_add, eval_one, shiftDfs_eval, (hr' _).1,
    (hr' _).2, zpow_one, has, Option.some.injEq, Prod.mk.injEq, and_true, true_and]
  rw [List.getD_eq_getElem _ _ (by omega), List.getD_eq_getElem (n := k + 1) _ _ (by omega),
    List.getD_eq_getElem (n := k + 1) _ _ (by omega)]
  ring

end Crypto3Zk
