import Verif.Lemmas.PlaceholderKzgForgery
import Verif.Lemmas.VerifyDefined

/-!
# The verifier of the lookup argument with selectors that are zero
-/

set_option linter.unusedSectionVars false

namespace Crypto3Zk

open Polynomial

variable {F : Type} [Field F] [DecidableEq F]
variable {L : FftLib F} {A n : Nat}

/-- Equal factors and ones for the partial products: nothing is left of the products. -/
theorem verifyParts_ones : ∀ (alphas gs : List F) (f : F), alphas.length ≤ gs.length →
    verifyParts (gs.zip gs) alphas (List.replicate alphas.length 1) 1 f = some (f, 1) := by
  intro alphas
  induction alphas with
  | nil => intro gs f _; simp only [verifyParts]
  | cons a as ih =>
    intro gs f h
    cases gs with
    | nil => simp at h
    | cons g gs =>
      simp only [List.zip_cons_cons, List.length_cons, List.replicate_succ, verifyParts]
      rw [ih gs _ (by simpa using h)]
      simp

theorem verifyOverlap_zeros (l0 : F) : ∀ (m : Nat) (alphas : List F) (f : F),
    verifyOverlap l0 (List.replicate m (0, 0, 0)) alphas f = f := by
  intro m
  induction m with
  | zero => intro alphas f; simp [verifyOverlap]
  | succ m ih =>
    intro alphas f
    cases m with
    | zero => simp [verifyOverlap]
    | succ m =>
      cases alphas with
      | nil => simp [List.replicate_succ, verifyOverlap]
      | cons a as =>
        have := ih as (f + (0 - 0) * a * l0)
        rw [List.replicate_succ, List.replicate_succ, verifyOverlap]
        rw [List.replicate_succ] at this
        rw [this]
        ring

/-- If all inputs and table entries are zero, zeros and ones satisfy the lookup argument at every point. -/
theorem lookupVerify_zeros {S Com : Type} (ch : S → F × S) (absorb : Com → S → S) (com : Com) (sys : LookupSystem F)
    (mqc : Nat) (ev : Nat → Int → ColumnType → Option F) (l0 ql qb qls qbs : F) (st : S) (i o : Nat)
    (hv : ∀ theta mask masks, verifyValues ev sys theta mask masks = some (List.replicate o (0, 0)))
    (hi : ∀ theta, verifyInputs ev sys theta = some (List.replicate i 0))
    (h0 : ∀ p ∈ sys.parts mqc, p ≠ 0) (h1 : (sys.parts mqc).sum = i + o) (h3 : sys.parts mqc ≠ []) :
    lookupVerify ch absorb com sys mqc ev ⟨l0, ql, qb, qls, qbs, List.replicate (i + o) (0, 0, 0), 1, 1,
        List.replicate ((sys.parts mqc).length - 1) 1⟩ st =
      some ((0, 0, 0, 0), (drawN ch (i + o - 1) (drawN ch ((sys.parts mqc).length - 1)
          (ch (ch (absorb com (ch st).2)).2).2).2).2) := by
  have hpl : 0 < (sys.parts mqc).length := List.length_pos_iff.2 h3
  unfold lookupVerify
  simp only [hv, hi, Option.bind_eq_bind, Option.bind_some, List.length_replicate, length_drawN, ne_eq,
    not_true_eq_false, if_false, List.map_replicate]
  obtain ⟨beta, hbeta⟩ : ∃ x, x = (ch (absorb com (ch st).2)).1 := ⟨_, rfl⟩
  obtain ⟨gamma, hgamma⟩ : ∃ x, x = (ch (ch (absorb com (ch st).2)).2).1 := ⟨_, rfl⟩
  rw [← hbeta, ← hgamma]
  have e1 : (1 + beta) * (gamma + 0) = (1 + beta) * gamma := by ring
  have e2 : (1 + beta) * gamma + 0 + beta * 0 = (1 + beta) * gamma := by ring
  simp only [e1, e2, List.replicate_append_replicate]
  obtain ⟨gs, hgs, hgl⟩ := verifyPartProducts_defined (sys.parts mqc) (List.replicate (i + o) ((1 + beta) * gamma)) h0
    (by rw [List.length_replicate, h1])
  simp only [hgs, Option.bind_some]
  rw [if_neg (by omega)]
  have hF3 := verifyOverlap_zeros l0 (i + o) (drawN ch (i + o - 1) (drawN ch ((sys.parts mqc).length - 1)
          (ch (ch (absorb com (ch st).2)).2).2).2).1 (0 : F)
  rw [hF3]
  by_cases hone : (sys.parts mqc).length = 1
  · rw [if_pos hone, List.getElem?_eq_getElem (by omega)]
    simp
  · rw [if_neg hone]
    have hp := verifyParts_ones (drawN ch ((sys.parts mqc).length - 1) (ch (ch (absorb com (ch st).2)).2).2).1 gs 0
      (by rw [length_drawN]; omega)
    rw [length_drawN, ← verifyLookupParts_eq _ _ _ _ _ _ rfl] at hp
    rw [hp, List.getElem?_eq_getElem (by omega)]
    simp

/-- The reads of the lookup argument are not touched by values after the fixed ones. -/
theorem readLookupClaims_pad {H Com Data : Type} (common : CommonData F H Com Data) (extra : List (List F))
    (z : EvalStorage F) (a b k : F) (cl : LookupClaims F) (h : readLookupClaims z common a b k = some cl) :
    readLookupClaims (padStorage FIXED_BATCH extra z) common a b k = some cl := by
  unfold readLookupClaims at h ⊢
  simp only [Option.bind_eq_bind, Option.bind_eq_some_iff] at h ⊢
  obtain ⟨x1, h1, x2, h2, x3, h3, x4, h4, x5, h5, x6, h6, x7, h7, h8⟩ := h
  refine ⟨x1, get_padStorage _ _ _ _ _ _ _ h1, x2, get_padStorage _ _ _ _ _ _ _ h2, x3,
    mapM_mono _ _ (fun i v hh => get_padStorage _ _ _ _ _ _ _ hh) _ _ h3, x4, ?_, x5, h5, x6,
    get_padStorage _ _ _ _ _ _ _ h6, x7, get_padStorage _ _ _ _ _ _ _ h7, h8⟩
  rw [find_padStorage, if_neg (by decide)]
  exact h4

/-- Lookups with selectors zero: zeros. -/
theorem blanked_lookups {S H Com Pr Data Obj : Type} {C : CommScheme F S Com Pr Data Obj}
    {T : PlonkTranscript S F H Com} {fuel : Nat} {d : TableDesc} {c : Circuit F} {order : List PlonkVar} {delta : F}
    {mqc : Nat} {hash : H} {t : PlonkTable F} {obj : Obj} {pd : PublicData F H Com Data} {o0 : Obj}
    (h : PlaceholderSetup L A n fuel d c order t)
    (hp : PreFacts C T L n fuel d c order delta mqc hash t obj pd o0) (hne : c.lookups.gates ≠ []) {y : F}
    {ev : Nat → Int → ColumnType → Option F}
    (hev : ∀ v : PlonkVar, d.HasColumn v → ∀ g, d.globalIndex v = some g →
      v.rotation ∈ pd.common.rotations.getD g [] →
      ev v.index v.rotation v.type = some (blankedValue L n t y (v.index, v.rotation, v.type))) :
    (∀ theta mask masks, verifyValues ev c.lookups theta mask masks =
      some (List.replicate c.lookups.optionCount (0, 0))) ∧
    ∀ theta, verifyInputs ev c.lookups theta = some (List.replicate c.lookups.inputCount 0) := by
  obtain ⟨hlen, -, hlt, hmem⟩ := columnsRotations_spec d c _ hp.rotations
  have hs := h.fits.selector
  have hc := h.fits.constant
  have hused : ∀ v ∈ c.usedVars, t.HasVar v → ev v.index v.rotation v.type =
      some (blankedValue L n t y (v.index, v.rotation, v.type)) := by
    intro v hv ht
    have hcol := PlaceholderSetup.hasColumn h.fits ht
    obtain ⟨g, hg⟩ := globalIndex_of_hasColumn hcol
    have hu : VarUsed d c g v.rotation := ⟨v, hv, hg, rfl⟩
    exact hev v hcol g hg ((hmem g (hlt g _ (Or.inl hu)) _).2 (Or.inr (Or.inl hu)))
  have hsel : ∀ i < t.selectors.length, ev i 0 .selector = some 0 := by
    intro i hi
    have hcol : d.HasColumn ⟨i, 0, true, .selector⟩ := by simp only [TableDesc.HasColumn]; omega
    obtain ⟨g, hg⟩ := globalIndex_of_hasColumn hcol
    exact hev ⟨i, 0, true, .selector⟩ hcol g hg
      ((hmem g (columnPoly_column (L := L) h.fits hcol hg).1 0).2 (Or.inl rfl))
  have hsel1 : ∀ tab ∈ c.lookups.tables, ev tab.tagIndex 1 .selector = some 0 := by
    intro tab htab
    have hcol : d.HasColumn ⟨tab.tagIndex, 1, true, .selector⟩ := by
      have := (h.lookups.2 tab htab).1
      simp only [TableDesc.HasColumn]; omega
    obtain ⟨g, hg⟩ := globalIndex_of_hasColumn hcol
    refine hev ⟨tab.tagIndex, 1, true, .selector⟩ hcol g hg
      ((hmem g (columnPoly_column (L := L) h.fits hcol hg).1 1).2 (Or.inr (Or.inr ⟨hne, rfl, tab, htab, Or.inl ?_⟩)))
    simp only [TableDesc.globalIndex, Option.some.injEq] at hg
    omega
  have hconst : ∀ tab ∈ c.lookups.tables, ∀ o ∈ tab.options, ∀ v ∈ o, ∀ r : Int, r = 0 ∨ r = 1 →
      ev v.index r .constant = some 0 := by
    intro tab htab o ho v hv r hr
    have hcol : d.HasColumn ⟨v.index, r, true, .constant⟩ := by
      have := ((h.lookups.2 tab htab).2 o ho).2 v hv
      simp only [TableDesc.HasColumn]; omega
    obtain ⟨g, hg⟩ := globalIndex_of_hasColumn hcol
    refine hev ⟨v.index, r, true, .constant⟩ hcol g hg
      ((hmem g (columnPoly_column (L := L) h.fits hcol hg).1 r).2 ?_)
    rcases hr with rfl | rfl
    · exact Or.inl rfl
    · refine Or.inr (Or.inr ⟨hne, rfl, tab, htab, Or.inr ⟨o, ho, v, hv, ?_⟩⟩)
      simp only [TableDesc.globalIndex, Option.some.injEq] at hg
      omega
  constructor
  · intro theta mask masks
    rw [verifyValues_eq ev c.lookups theta mask masks (fun _ => 0) (fun _ => 0) (fun _ => 0) (fun _ => 0)
      (fun tab htab o ho => ((h.lookups.2 tab htab).2 o ho).1)
      (fun tab htab => ⟨hsel _ (h.lookups.2 tab htab).1, hsel1 tab htab, fun o ho v hv =>
        ⟨hconst tab htab o ho v hv 0 (Or.inl rfl), hconst tab htab o ho v hv 1 (Or.inr rfl)⟩⟩)]
    have hz : valuesAt c.lookups theta (fun _ => 0) (fun _ => (0 : F)) = List.replicate c.lookups.optionCount 0 := by
      rw [List.eq_replicate_iff]
      refine ⟨?_, fun x hx => ?_⟩
      · have e3 := sum_zipIdx c.lookups.tables 0 fun tab => tab.options.length
        simp only [valuesAt, List.length_flatMap, List.length_map, LookupSystem.optionCount]
        omega
      · simp only [valuesAt, zero_mul, List.mem_flatMap, List.mem_map] at hx
        obtain ⟨_, _, _, _, rfl⟩ := hx
        rfl
    rw [hz]
    simp
  · intro theta
    rw [verifyInputs_eq ev c.lookups theta (fun v => blankedValue L n t y (v.index, v.rotation, v.type))
      (fun g hg => ⟨hsel _ (h.lookups.1 g hg).1, fun k hk e he v hv => hused v (by
        unfold Circuit.usedVars
        exact List.mem_append_right _ (List.mem_flatMap.2 ⟨g, hg, List.mem_flatMap.2 ⟨k, hk,
          List.mem_flatMap.2 ⟨e, he, hv⟩⟩⟩)) ((h.lookups.1 g hg).2 k hk e he v hv)⟩)]
    rw [Option.some_inj, List.eq_replicate_iff]
    refine ⟨?_, fun x hx => ?_⟩
    · simp [inputsAt, List.length_flatMap, LookupSystem.inputCount]
    · simp only [inputsAt, List.mem_flatMap, List.mem_map] at hx
      obtain ⟨_, _, _, _, rfl⟩ := hx
      simp [blankedValue]

end Crypto3Zk
