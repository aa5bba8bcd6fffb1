import Verif.Lemmas.PlaceholderSoundPolys
import Verif.Lemmas.PlaceholderSoundRun
import Verif.Props.PlonkTable

/-!
# The verifiers of the arguments return values, whatever is committed

If the prover sends as many polynomials as expected, the verifiers of the permutation and the lookup argument
return some values.
-/

set_option linter.unusedSectionVars false

namespace Crypto3Zk

open Polynomial

variable {F : Type} [Field F] [DecidableEq F] {S : Type}
variable {L : FftLib F} {A n : Nat}

theorem verifyGroups_length (beta gamma : F) (mqc : Nat) : ∀ (ts : List ((F × F) × F)) (g h : F)
    (cur qs : List (List F)), qs.length = ts.length →
    (verifyGroups beta gamma mqc ts g h cur.length).length = (groupFactors mqc qs cur).length := by
  intro ts
  induction ts with
  | nil =>
    intro g h cur qs hq
    obtain rfl := List.length_eq_zero_iff.1 hq
    simp only [verifyGroups, groupFactors]
    split_ifs <;> rfl
  | cons x ts ih =>
    intro g h cur qs hq
    cases qs with
    | nil => simp at hq
    | cons q qs =>
      obtain ⟨⟨tId, tSigma⟩, v⟩ := x
      have hq' : qs.length = ts.length := by simpa using hq
      simp only [verifyGroups, groupFactors, List.length_append, List.length_singleton]
      split_ifs
      · simp only [List.length_cons]
        rw [← ih 1 1 [] qs hq']
        rfl
      · have := ih (g * (tId * beta + (v + gamma))) (h * (tSigma * beta + (v + gamma))) (cur ++ [q]) qs hq'
        rw [← this]
        simp

theorem verifyParts_defined : ∀ (alphas : List F) (ghs : List (F × F)) (parts : List F) (prev f : F),
    alphas.length ≤ ghs.length → alphas.length ≤ parts.length →
    ∃ r, verifyParts ghs alphas parts prev f = some r := by
  intro alphas
  induction alphas with
  | nil => intro ghs parts prev f _ _; exact ⟨(f, prev), by simp only [verifyParts]⟩
  | cons a as ih =>
    intro ghs parts prev f h1 h2
    cases ghs with
    | nil => simp at h1
    | cons gh ghs =>
      cases parts with
      | nil => simp at h2
      | cons p ps =>
        obtain ⟨g, h⟩ := gh
        exact ih ghs ps _ _ (by simpa using h1) (by simpa using h2)

/-- The verifier of the permutation argument returns values for all claims of the right number. -/
theorem permVerify_defined (ch : S → F × S) (lagrange0 : List F) {mqc parts : Nat} (cl : PermClaims F) (y : F)
    (st : S) (h1 : cl.cols.length = cl.sId.length) (h2 : cl.cols.length = cl.sSigma.length)
    (h3 : permutationParts cl.cols.length mqc = some parts) (h4 : parts ≠ 0)
    (h5 : cl.partitions.length = parts - 1) :
    ∃ f, permVerify ch lagrange0 mqc parts cl y st = some (f, (drawN ch (parts - 1) (ch (ch st).2).2).2) := by
  unfold permVerify
  simp only
  rw [if_neg (by simp [h1.symm, h2.symm, h4]), if_neg (by rw [length_drawN]; omega)]
  have hl : (verifyGroups (ch st).1 (ch (ch st).2).1 mqc ((cl.sId.zip cl.sSigma).zip cl.cols) 1 1 0).length =
      parts := by
    have := verifyGroups_length (ch st).1 (ch (ch st).2).1 mqc ((cl.sId.zip cl.sSigma).zip cl.cols) 1 1 []
      (List.replicate cl.cols.length []) (by simp [← h1, ← h2])
    rw [List.length_nil] at this
    rw [this]
    exact groupFactors_parts mqc _ parts (by rw [List.length_replicate]; exact h3)
  split_ifs with hp
  · rw [List.getElem?_eq_getElem (by omega)]
    exact ⟨_, rfl⟩
  · obtain ⟨r, hr⟩ := verifyParts_defined (drawN ch (parts - 1) (ch (ch st).2).2).1
      (verifyGroups (ch st).1 (ch (ch st).2).1 mqc ((cl.sId.zip cl.sSigma).zip cl.cols) 1 1 0) cl.partitions cl.V 0
      (by rw [length_drawN]; omega) (by rw [length_drawN]; omega)
    rw [hr, List.getElem?_eq_getElem (by rw [length_drawN]; omega)]
    exact ⟨_, rfl⟩

theorem verifyPartProducts_defined (parts : List Nat) (xs : List F) (h0 : ∀ p ∈ parts, p ≠ 0)
    (hs : parts.sum = xs.length) : ∃ gs, verifyPartProducts parts xs 1 0 = some gs ∧ gs.length = parts.length := by
  obtain ⟨gs, h1, h2⟩ := groupByParts_some parts (xs.map (C : F → F[X])) [] h0 (fun _ => rfl)
    (fun p hp => Nat.pos_of_ne_zero (h0 p (List.mem_of_head? hp))) (by simpa using hs)
  have := verifyPartProducts_eq parts (xs.map C) [] gs 0 h1
  refine ⟨gs.map fun g => (dfsProduct g).eval 0, ?_, by simp [h2]⟩
  rw [← this]
  simp [List.map_map, Function.comp_def]

/-- The verifier of the lookup argument returns values for all claims of the right number, and the same for all
functions that return the values of the columns. -/
theorem lookupVerify_defined {t : PlonkTable F} {sys : LookupSystem F} {pre : LookupData F}
    (h : LookupSetup L A n t sys pre) {Com : Type} (ch : S → F × S) (absorb : Com → S → S) (com : Com) (st : S)
    (sorted : List (List F)) (V : List F) (partitions : List (List F)) (y : F)
    (h0 : ∀ p ∈ sys.parts pre.mqc, p ≠ 0) (h1 : (sys.parts pre.mqc).sum = sys.inputCount + sys.optionCount)
    (h2 : sorted.length = sys.inputCount + sys.optionCount) (h3 : sys.parts pre.mqc ≠ [])
    (h4 : partitions.length = (sys.parts pre.mqc).length - 1) :
    ∃ f, ∀ ev, TrueLookupEvaluations L n t sys y ev →
      lookupVerify ch absorb com sys pre.mqc ev (trueLookupClaims L n pre sorted V partitions y) st =
        some (f, (drawN ch (sorted.length - 1) (drawN ch ((sys.parts pre.mqc).length - 1)
          (ch (ch (absorb com (ch st).2)).2).2).2).2) := by
  obtain ⟨theta, hth⟩ : ∃ x, x = (ch st).1 := ⟨_, rfl⟩
  obtain ⟨beta, hbeta⟩ : ∃ x, x = (ch (absorb com (ch st).2)).1 := ⟨_, rfl⟩
  obtain ⟨gamma, hgamma⟩ : ∃ x, x = (ch (ch (absorb com (ch st).2)).2).1 := ⟨_, rfl⟩
  obtain ⟨values, hvals, hvale⟩ := lookupValues_eval (L := L) (n := n) h.inTable theta
    (1 - pre.qLast - pre.qBlind)
  obtain ⟨inputs, hinps, hinpe⟩ := lookupInputs_eval (L := L) (n := n) h.inTable theta
  have hgl : (gFactors (L.root n) inputs values beta gamma).length = sys.inputCount + sys.optionCount := by
    have e1 := congrArg List.length (hinpe 0)
    have e2 := congrArg List.length (hvale 0)
    have e3 := sum_zipIdx sys.tables 0 fun tab => tab.options.length
    simp only [List.length_map, inputsAt, valuesAt, List.length_flatMap] at e1 e2
    simp only [gFactors, List.length_append, List.length_map, LookupSystem.inputCount,
      LookupSystem.optionCount]
    omega
  have hm : ∀ z, 1 - (pre.qLast.eval z + pre.qBlind.eval z) = (1 - pre.qLast - pre.qBlind).eval z := by
    intro z; simp only [eval_sub, eval_one]; ring
  obtain ⟨gs, hgs, hgsl⟩ := verifyPartProducts_defined (sys.parts pre.mqc)
    ((gFactors (L.root n) inputs values beta gamma).map (eval y)) h0 (by rw [List.length_map, hgl, h1])
  obtain ⟨hs, hhs, hhsl⟩ := verifyPartProducts_defined (sys.parts pre.mqc)
    ((hFactors (L.root n) (sorted.map (dfsPoly L)) beta gamma).map (eval y)) h0
    (by simp [hFactors, h1, h2])
  have hpl : 0 < (sys.parts pre.mqc).length := List.length_pos_iff.2 h3
  obtain ⟨alphas, hal⟩ : ∃ x, x = drawN ch ((sys.parts pre.mqc).length - 1) (ch (ch (absorb com (ch st).2)).2).2 :=
    ⟨_, rfl⟩
  have hall : alphas.1.length = (sys.parts pre.mqc).length - 1 := by rw [hal, length_drawN]
  have hstep : ∃ f : F → F → F → F → F × F × F × F, ∀ ev, TrueLookupEvaluations L n t sys y ev →
      lookupVerify ch absorb com sys pre.mqc ev (trueLookupClaims L n pre sorted V partitions y) st =
        (if (sys.parts pre.mqc).length = 1 then do
          let g ← gs[0]?
          let h ← hs[0]?
          some (f g h 0 0, (drawN ch (sorted.length - 1) alphas.2).2)
        else do
          let r ← verifyLookupParts gs hs alphas.1 (trueLookupClaims L n pre sorted V partitions y).parts
            (trueLookupClaims L n pre sorted V partitions y).V 0
          let g ← gs[alphas.1.length]?
          let h ← hs[alphas.1.length]?
          some (f g h r.1 r.2, (drawN ch (sorted.length - 1) alphas.2).2)) := by
    refine ⟨fun g h' r1 r2 => ((1 - (dfsPoly L V).eval y) * pre.lagrange0.eval y,
      pre.qLast.eval y * ((dfsPoly L V).eval y * (dfsPoly L V).eval y - (dfsPoly L V).eval y),
      (if (sys.parts pre.mqc).length = 1 then
        (1 - pre.qLast - pre.qBlind).eval y *
          ((trueLookupClaims L n pre sorted V partitions y).shifted * h' - (dfsPoly L V).eval y * g)
      else (r1 + (r2 * g - (trueLookupClaims L n pre sorted V partitions y).shifted * h')) *
        (pre.qLast.eval y + pre.qBlind.eval y - 1)),
      verifyOverlap (pre.lagrange0.eval y) (trueLookupClaims L n pre sorted V partitions y).sorted
        (drawN ch (sorted.length - 1) alphas.2).1 0), fun ev hev => ?_⟩
    have hvv := verifyValues_eq ev sys theta (1 - (pre.qLast.eval y + pre.qBlind.eval y))
      (1 - (pre.qLast.eval (L.root n * y) + pre.qBlind.eval (L.root n * y)))
      (fun i => (columnPoly L t i .selector).eval y)
      (fun i => (columnPoly L t i .selector).eval (L.root n * y))
      (fun i => (columnPoly L t i .constant).eval y)
      (fun i => (columnPoly L t i .constant).eval (L.root n * y))
      (fun tab htab o ho => ((h.inTable.2 tab htab).2 o ho).1) (fun tab htab => by
        have h0 := hev.1 tab htab 0 (Or.inl rfl)
        have h1 := hev.1 tab htab 1 (Or.inr rfl)
        simp only [zpow_zero, one_mul, zpow_one] at h0 h1
        exact ⟨h0.1, h1.1, fun o ho c hc => ⟨h0.2 o ho c hc, h1.2 o ho c hc⟩⟩)
    simp only [hm] at hvv
    rw [← hvale y, ← hvale (L.root n * y)] at hvv
    have hvi := verifyInputs_eq ev sys theta (fun v => (varPoly L n t v).eval y) (fun g hg => by
      obtain ⟨h0, h1⟩ := hev.2 g hg
      refine ⟨?_, fun c hc e he v hv => ?_⟩
      · rw [h0, varPoly, shiftDfs_eval]; simp
      · rw [h1 c hc e he v hv, varPoly, shiftDfs_eval])
    rw [← hinpe y] at hvi
    rw [gFactors_eval] at hgs
    rw [hFactors_eval, List.map_map] at hhs
    unfold lookupVerify
    simp only [trueLookupClaims, List.length_map]
    rw [← hth]
    simp only [hm]
    rw [hvv]
    simp only [Option.bind_eq_bind, Option.bind_some]
    rw [hvi]
    simp only [Option.bind_some]
    rw [← hbeta, ← hgamma, ← hal, if_neg (by omega), hgs]
    simp only [Option.bind_some]
    simp only [List.map_map, Function.comp_def] at hhs ⊢
    rw [hhs]
    simp only [Option.bind_some]
    rw [if_neg (by omega)]
    by_cases hone : (sys.parts pre.mqc).length = 1
    · simp only [if_pos hone]
    · simp only [if_neg hone]
  obtain ⟨f, hf⟩ := hstep
  rw [← hal]
  by_cases hone : (sys.parts pre.mqc).length = 1
  · simp only [if_pos hone] at hf
    rw [List.getElem?_eq_getElem (by omega), List.getElem?_eq_getElem (by omega)] at hf
    exact ⟨_, hf⟩
  · simp only [if_neg hone] at hf
    obtain ⟨r, hr⟩ := verifyParts_defined alphas.1 (gs.zip hs)
      (trueLookupClaims L n pre sorted V partitions y).parts
      (trueLookupClaims L n pre sorted V partitions y).V 0 (by simp; omega)
      (by simp [trueLookupClaims]; omega)
    rw [← verifyLookupParts_eq _ _ _ _ _ _ (by omega)] at hr
    rw [hr, List.getElem?_eq_getElem (by omega), List.getElem?_eq_getElem (by omega)] at hf
    exact ⟨_, hf⟩

theorem permutationParts_pos {l : List PlonkVar} {mqc parts : Nat} (hl : l ≠ [])
    (h : permutationParts l.length mqc = some parts) : parts ≠ 0 := by
  have hl' : 0 < l.length := List.length_pos_iff.2 hl
  unfold permutationParts at h
  split_ifs at h with h0 h1 h2 h3
  · omega
  · simp at h; omega
  · simp only [Option.some.injEq] at h
    obtain ⟨q, hq⟩ := Nat.dvd_of_mod_eq_zero h3
    rw [hq, Nat.mul_div_cancel_left _ (by omega)] at h
    rintro rfl
    rw [h] at hq
    simp at hq
    exact hl hq
  · rw [Option.some.injEq] at h
    exact h ▸ Nat.succ_ne_zero _

theorem order_ne_nil {fuel : Nat} {d : TableDesc} {c : Circuit F} {order : List PlonkVar} {t : PlonkTable F}
    (h : PlaceholderSetup L A n fuel d c order t) (hc : c.copies ≠ []) : order ≠ [] := by
  obtain ⟨x, xs, hx⟩ := List.exists_cons_of_ne_nil hc
  have := (h.members ⟨x.1.index, 0, true, x.1.type⟩).2 (by simp [hx, permutedVars])
  exact List.ne_nil_of_mem this

theorem lookup_parts_sum {sys : LookupSystem F} {mqc : Nat} (h : sys.gates ≠ []) :
    (sys.parts mqc).sum = sys.inputCount + sys.optionCount := by
  rw [LookupSystem.parts, C29_parts_sum _ _ _ _ (Or.inr (by simpa using h))]
  simp [LookupSystem.inputCount, LookupSystem.optionCount, List.length_flatMap]

theorem lookup_parts_ne_nil {sys : LookupSystem F} {mqc : Nat} : sys.parts mqc ≠ [] := by
  unfold LookupSystem.parts lookupParts
  split_ifs <;> simp

end Crypto3Zk
