import Verif.Props.PlaceholderLookupPartsForgery

/-!
# The polynomials of an honest prover for each argument, for use within other strategies
-/

set_option linter.unusedSectionVars false

namespace Crypto3Zk

open Polynomial

variable {F : Type} [Field F] [DecidableEq F]
variable {L : FftLib F} {A n fuel : Nat} {d : TableDesc} {c : Circuit F} {order : List PlonkVar}
  {t : PlonkTable F} {delta : F} {mqc : Nat} {pre : PermData F}

/-- For a table that satisfies the copy constraints, and all but few values of the second challenge, there are a running
product and partition polynomials that get through. -/
theorem permVerify_honest (hS : PlaceholderSetup L A n fuel d c order t) (hcop : c.copies ≠ [])
    (hcopies : CopiesHold d c.copies t.cellAt)
    (hperm : permPreprocess L n fuel d c.copies order delta mqc = some pre) {gi : List Nat}
    (hgi : permutedIndices d order = some gi) {cols : List (List F)}
    (hcols : gi.mapM (fun i => (t.column i).map L.coefficients) = some cols) :
    ∃ badGamma : F → Finset F, (∀ b, (badGamma b).card ≤ order.length * 2 ^ n) ∧
      ∀ (S : Type) (ch : S → F × S) (st : S), (ch (ch st).2).1 ∉ badGamma (ch st).1 →
        ∃ V partitions, V.length ≤ 2 ^ n ∧ (∀ p ∈ partitions, p.length ≤ 2 ^ n) ∧
          partitions.length = pre.parts - 1 ∧ pre.parts ≠ 0 ∧ ∃ f0 f1 f2 : F[X], PolyVanishesOnRows L n f0 ∧
            PolyVanishesOnRows L n f1 ∧ PolyVanishesOnRows L n f2 ∧
            ∀ y, permVerify ch pre.lagrange0 pre.mqc pre.parts (trueClaims L n pre cols V partitions y) y st =
              some ((f0.eval y, f1.eval y, f2.eval y), (drawN ch (pre.parts - 1) (ch (ch st).2).2).2) := by
  have hps := hS.permSetup_of hperm hgi
  obtain ⟨-, -, -, -, -, -, -, -, -, -, s11, -, -⟩ := permPreprocess_shape hS.lib hS.small hperm
  have hcol : ∀ i ∈ gi, ∃ p, (fun i => (t.column i).map L.coefficients) i = some p := by
    intro i hi
    obtain ⟨k, hk, rfl⟩ := List.getElem_of_mem hi
    have hf := forall₂_of_mapM _ _ _ hcols
    exact ⟨_, hf.get hk (hf.length_eq ▸ hk)⟩
  choose badGamma hb1 hb2 using fun beta => C31_prover_succeeds hps hcop _ hcol beta
  have hl : gi.length = order.length := length_mapM _ _ _ hgi
  refine ⟨badGamma, fun b => hl ▸ hb1 b, fun S ch st hg => ?_⟩
  obtain ⟨⟨res, st'⟩, hr⟩ := hb2 _ _ hg S ch st rfl rfl
  obtain ⟨h1, h2, h3, h4, -, -, -, h8⟩ := permProve_shape hS.lib hS.small ch pre
    (by rw [s11]; exact (hS.rows ▸ hS.usable).le) _ gi st st' res hr
  obtain ⟨-, -, a1, a2, a3⟩ := C31_completeness hps ch _ _ _ _
    ((copiesHold_columns hS.lib hS.small hS.fits (hS.rows ▸ hS.usable) hS.copies).2 hcopies) hr
  refine ⟨res.V, res.partitions, h1, h2, h3, h4, toPoly res.F0, toPoly res.F1, toPoly res.F2,
    fun j hj => by rw [eval_toPoly]; exact a1 j hj, fun j hj => by rw [eval_toPoly]; exact a2 j hj,
    fun j hj => by rw [eval_toPoly]; exact a3 j hj, fun y => ?_⟩
  rw [eval_toPoly, eval_toPoly, eval_toPoly, ← h8]
  exact permProve_verify ch n pre _ gi st st' res cols hcols hr y

/-- For a table that satisfies the lookups, and all but few values of the challenges, there are sorted columns, which
depend on the first challenge only, a running product and partition polynomials that get through. -/
theorem lookupVerify_honest {sys : LookupSystem F} {pre : LookupData F} (h : LookupSetup L A n t sys pre)
    (hgates : sys.gates ≠ []) (hparts : ∀ p ∈ sys.parts pre.mqc, p ≠ 0) {w : Nat}
    (hl : LookupsSatisfied t sys pre.usable w) :
    ∃ (badTheta : Finset F) (badGamma : F → F → Finset F),
      badTheta.card ≤ (sys.optionCount * pre.usable) * (sys.optionCount * pre.usable + 1) * w ∧
      (∀ a b, (badGamma a b).card ≤ (sys.inputCount + sys.optionCount) * pre.usable) ∧
      ∀ theta, ∃ sorted : List (List F), (∀ c ∈ sorted, c.length = 2 ^ n) ∧ (theta ∉ badTheta →
        ∀ (S Com : Type) (ch : S → F × S) (absorb : Com → S → S) (com : Com) (st : S), (ch st).1 = theta →
          (ch (absorb com (ch st).2)).1 ≠ -1 →
          (ch (ch (absorb com (ch st).2)).2).1 ∉ badGamma theta (ch (absorb com (ch st).2)).1 →
          ∃ V partitions, V.length = 2 ^ n ∧ (∀ p ∈ partitions, p.length = 2 ^ n) ∧
            partitions.length = (sys.parts pre.mqc).length - 1 ∧ ∃ f0 f1 f2 f3 : F[X], PolyVanishesOnRows L n f0 ∧
              PolyVanishesOnRows L n f1 ∧ PolyVanishesOnRows L n f2 ∧ PolyVanishesOnRows L n f3 ∧
              ∀ y ev, TrueLookupEvaluations L n t sys y ev →
                lookupVerify ch absorb com sys pre.mqc ev (trueLookupClaims L n pre sorted V partitions y) st =
                  some ((f0.eval y, f1.eval y, f2.eval y, f3.eval y),
                    (drawN ch (sys.inputCount + sys.optionCount - 1) (drawN ch ((sys.parts pre.mqc).length - 1)
                      (ch (ch (absorb com (ch st).2)).2).2).2).2)) := by
  classical
  obtain ⟨badTheta, b1, b2⟩ := C35_sortable h hl.wellFormed hl.tags hl.laidOut hl.hold w hl.columns
  have hex : ∀ theta, ∃ sorted : List (List F), (∀ c ∈ sorted, c.length = 2 ^ n) ∧ (theta ∉ badTheta →
      sorted.length = sys.inputCount + sys.optionCount ∧
      sortPolynomials (compressedInputs t sys n theta) (compressedValues t sys n pre.usable theta) (2 ^ n)
        pre.usable = some sorted) := by
    intro theta
    by_cases ht : theta ∈ badTheta
    · exact ⟨[], by simp, fun h => absurd ht h⟩
    · obtain ⟨sorted, hs, hlen, hc, -⟩ := C35_sort (b2 theta ht)
      rw [length_compressedInputs, length_compressedValues] at hlen
      exact ⟨sorted, hc, fun _ => ⟨hlen, hs⟩⟩
  choose sorted hsl hsorted using hex
  have hg : ∀ theta beta, ∃ bad : Finset F, bad.card ≤ (sys.inputCount + sys.optionCount) * pre.usable ∧
      (theta ∉ badTheta → beta ≠ -1 → ∀ gamma ∉ bad, ∀ (S Com : Type) (ch : S → F × S) (absorb : Com → S → S)
        (com : Com) (st : S), (ch st).1 = theta → (ch (absorb com (ch st).2)).1 = beta →
        (ch (ch (absorb com (ch st).2)).2).1 = gamma →
        ∃ r, lookupProve ch absorb (fun _ => com) L n t sys pre st = some r) := by
    intro theta beta
    by_cases ht : theta ∉ badTheta ∧ beta ≠ -1
    · obtain ⟨_, -, bad, c1, c2⟩ := C35_prover_succeeds h hgates hparts theta (b2 theta ht.1) beta ht.2
      exact ⟨bad, c1, fun _ _ gamma hgamma S Com ch absorb com st e1 e2 e3 =>
        c2 gamma hgamma S Com ch absorb (fun _ => com) st e1 e2 e3⟩
    · exact ⟨∅, by simp, fun a b => absurd ⟨a, b⟩ ht⟩
  choose badGamma g1 g2 using hg
  refine ⟨badTheta, badGamma, b1, g1, fun theta => ⟨sorted theta, hsl theta, ?_⟩⟩
  intro ht S Com ch absorb com st e1 hb hgam
  obtain ⟨⟨res, st'⟩, hr⟩ := g2 theta _ ht hb _ hgam S Com ch absorb com st e1 rfl rfl
  have hsort : Sortable (compressedInputs t sys n (ch st).1) (compressedValues t sys n pre.usable (ch st).1)
      (2 ^ n) pre.usable := by rw [e1]; exact b2 theta ht
  obtain ⟨-, h2, h3, h4⟩ := lookupProve_shape h hsort hr
  obtain ⟨v0, v1, v2, v3⟩ := C35_complete h ch absorb (fun _ => com) st st' res hsort hr
  obtain ⟨th, beta, gamma, alphas, alphas3, values, inputs, gg, hh, R⟩ :=
    lookupProve_run ch absorb (fun _ => com) n t sys pre st st' res hr
  have hs := R.h_sorted
  rw [R.valueRows h, R.inputRows h, R.h_theta, e1, (hsorted theta ht).2, Option.some_inj] at hs
  refine ⟨res.V, res.partitions, h2, h3, h4, res.F0, res.F1, res.F2, res.F3, v0, v1, v2, v3, fun y ev hev => ?_⟩
  have hv := lookupProve_verify h.inTable hr y ev hev
  have hfin : st' = _ := congrArg Prod.snd R.h_final
  rw [← hs, (hsorted theta ht).1] at hfin
  rw [← hs, hfin] at hv
  exact hv

end Crypto3Zk
