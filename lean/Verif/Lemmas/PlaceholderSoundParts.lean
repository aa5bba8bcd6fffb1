import Verif.Lemmas.PlaceholderSoundPolys
import Verif.Props.PlaceholderTotal

/-!
# The parts of the soundness proof

The lookup argument with challenges drawn one after the other, the combination of the constraint polynomials
on the rows, and the columns of the permutation argument.
-/

set_option linter.unusedSectionVars false

namespace Crypto3Zk

open Polynomial

variable {F : Type} [Field F] [DecidableEq F]
variable {L : FftLib F} {A n : Nat}

/-! ## the combination -/

theorem combination_rows : ∀ (as : List F) (fs : List F[X]), as.length = fs.length → ∀ y : F,
    (combination as fs).eval y = ∑ i ∈ Finset.range fs.length, as.getD i 0 * (fs.getD i 0).eval y
  | [], [], _, y => by simp [combination]
  | [], _ :: _, h, _ => by simp at h
  | _ :: _, [], h, _ => by simp at h
  | a :: as, f :: fs, h, y => by
    have ih := combination_rows as fs (by simpa using h) y
    rw [List.length_cons, Finset.sum_range_succ']
    simp only [List.getD_cons_zero, List.getD_cons_succ]
    rw [← ih]
    simp [combination, add_comm]

theorem combination_degree (as : List F) (fs : List F[X]) (D : Nat) (hf : ∀ f ∈ fs, f.natDegree ≤ D) :
    (combination as fs).natDegree ≤ D := by
  apply natDegree_sum_le_of_forall
  intro p hp
  obtain ⟨i, hi, rfl⟩ := List.getElem_of_mem hp
  rw [List.getElem_zipWith]
  exact (natDegree_C_mul_le _ _).trans (hf _ (List.getElem_mem _))

theorem recombine_degree (chunks : List (List F)) (h : ∀ c ∈ chunks, c.length ≤ 2 ^ n) :
    ((X ^ 2 ^ n - 1) * recombine (2 ^ n) (chunks.map toPoly) : F[X]).natDegree ≤
      2 ^ n * (chunks.length + 1) := by
  have hpos : 0 < 2 ^ n := Nat.two_pow_pos n
  have e1 : (X ^ 2 ^ n - 1 : F[X]).natDegree = 2 ^ n := natDegree_X_pow_sub_C (n := 2 ^ n) (r := (1 : F))
  have e2 : (recombine (2 ^ n) (chunks.map toPoly)).natDegree ≤ 2 ^ n * chunks.length := by
    apply natDegree_sum_le_of_forall
    intro p hp
    obtain ⟨i, hi, rfl⟩ := List.getElem_of_mem hp
    have hi' : i < chunks.length := by simpa using hi
    rw [List.getElem_mapIdx, List.getElem_map]
    refine natDegree_mul_le.trans ?_
    rw [natDegree_X_pow]
    have h1 := natDegree_toPoly_lt chunks[i] (2 ^ n) hpos (h _ (List.getElem_mem _))
    have h2 : 2 ^ n * (i + 1) ≤ 2 ^ n * chunks.length := Nat.mul_le_mul_left _ hi'
    rw [Nat.mul_add] at h2
    omega
  refine natDegree_mul_le.trans ?_
  rw [e1, Nat.mul_add]
  omega

/-- For all but a few points, the final equation says that the combination is divisible. -/
theorem equation_bad (hL : L.Lawful A) (hn : n ≤ A) (alphas : List F) (fs : List F[X]) (chunks : List (List F))
    (D : Nat) (hf : ∀ f ∈ fs, f.natDegree ≤ D) :
    ∃ bad : Finset F, bad.card ≤ max D (2 ^ n * (chunks.length + 1)) ∧
      ((∀ c ∈ chunks, c.length ≤ 2 ^ n) → ∀ y ∉ bad,
        FinalEquation (2 ^ n) alphas (fs.map (eval y)) (chunks.map (evalPoly · y)) y →
        PolyVanishesOnRows L n (combination alphas fs)) := by
  classical
  by_cases hc : ∀ c ∈ chunks, c.length ≤ 2 ^ n
  swap
  · exact ⟨∅, by simp, fun h => absurd h hc⟩
  set P : F[X] := combination alphas fs - (X ^ 2 ^ n - 1) * recombine (2 ^ n) (chunks.map toPoly) with hP
  refine ⟨P.roots.toFinset, ?_, fun _ y hy he => ?_⟩
  · refine (Multiset.toFinset_card_le _).trans ((card_roots' _).trans ?_)
    exact (natDegree_sub_le _ _).trans
      (max_le_max (combination_degree _ _ _ hf) (recombine_degree _ hc))
  · have hz : P.eval y = 0 := by
      unfold FinalEquation at he
      have e : chunks.map (evalPoly · y) = (chunks.map toPoly).map (eval y) := by
        rw [List.map_map]
        apply List.map_congr_left
        intro c _
        simp [eval_toPoly]
      rw [e, ← combination_eval, consolidateQuotient_eval, ← eval_toPoly,
        toPoly_vanishing _ (Nat.two_pow_pos n)] at he
      rw [hP, eval_sub, eval_mul, he, sub_self]
    have h0 : P = 0 := by
      by_contra h0
      exact hy (Multiset.mem_toFinset.2 ((mem_roots h0).2 hz))
    have h3 := sub_eq_zero.1 h0
    intro j _
    rw [h3, eval_mul, eval_sub, eval_pow, eval_X, eval_one, ← pow_mul, mul_comm j, pow_mul,
      root_pow_card hL n hn, one_pow, sub_self, zero_mul]

/-! ## the lookup argument -/

theorem verifyOverlap_sum (l0 : F) : ∀ (s : List (F × F × F)) (alphas : List F) (f : F),
    alphas.length = s.length - 1 → verifyOverlap l0 s alphas f = f +
      ∑ i ∈ Finset.range (s.length - 1), alphas.getD i 0 * (((s.getD (i + 1) 0).1 - (s.getD i 0).2.2) * l0)
  | [], alphas, f, h => by simp [verifyOverlap]
  | [_], alphas, f, h => by simp [verifyOverlap]
  | a :: b :: rest, [], f, h => by simp at h
  | a :: b :: rest, al :: als, f, h => by
    have ih := verifyOverlap_sum l0 (b :: rest) als (f + (b.1 - a.2.2) * al * l0) (by simpa using h)
    rw [verifyOverlap, ih]
    simp only [List.length_cons, Nat.add_sub_cancel]
    rw [Finset.sum_range_succ' _ rest.length]
    simp only [List.getD_cons_zero, List.getD_cons_succ]
    ring

/-- The lookup argument is sound, with bad values for each challenge that depend on what was fixed before. -/
theorem lookup_bad {t : PlonkTable F} {sys : LookupSystem F} {pre : LookupData F}
    (h : LookupSetup L A n t sys pre) (hw : LookupsWellFormed sys)
    (hb : TagsBoolean t sys pre.usable) (hopt : 0 < sys.optionCount)
    (hparts : (sys.parts pre.mqc).length = 1) (m : Nat)
    (hm : ∀ tab ∈ sys.tables, tab.columnsNumber + 1 ≤ m) :
    ∃ (badTheta : Finset F) (badBeta : F → List (List F) → Finset F)
      (badGamma : F → List (List F) → F → Finset F) (badAlpha : List (List F) → List F → Finset F),
      badTheta.card ≤ sys.inputCount * pre.usable * (sys.optionCount * pre.usable + 1) * m ∧
      (∀ th s, (badBeta th s).card ≤ (2 * ((sys.inputCount + sys.optionCount) * pre.usable)) ^ 2 + 1) ∧
      (∀ th s b, (badGamma th s b).card ≤ 3 * ((sys.inputCount + sys.optionCount) * pre.usable)) ∧
      (∀ s l, (badAlpha s l).card ≤ 1) ∧
      ∀ (theta : F) (sorted : List (List F)) (beta gamma : F) (alphas : List F), theta ∉ badTheta →
        beta ∉ badBeta theta sorted → gamma ∉ badGamma theta sorted beta →
        (∀ i a, alphas[i]? = some a → a ∉ badAlpha sorted (alphas.take i)) →
        ∀ (S Com : Type) (ch : S → F × S) (absorb : Com → S → S) (com : Com) (st : S) (V : List F)
          (parts : List (List F)),
          (ch st).1 = theta → (ch (absorb com (ch st).2)).1 = beta →
          (ch (ch (absorb com (ch st).2)).2).1 = gamma →
          (drawN ch (sorted.length - 1) (ch (ch (absorb com (ch st).2)).2).2).1 = alphas →
          LookupRowsAccepted ch absorb com st L n t sys pre sorted V parts → LookupsHold t sys pre.usable := by
  classical
  have hU := h.spare
  obtain ⟨bt, hbt, ht⟩ := lookupsHold_of_cells h hw hb m hm
  -- the condition on the sorted columns
  let Ov : List (List F) → Prop := fun sorted => ∀ i, i + 1 < sorted.length →
    ((sorted.map fun c => rowsOf L n (dfsPoly L c)).getD (i + 1) []).getD 0 0 =
      ((sorted.map fun c => rowsOf L n (dfsPoly L c)).getD i []).getD pre.usable 0
  have hsteps : ∀ (theta : F) (sorted : List (List F)), ∃ (bb : Finset F) (bg : F → Finset F),
      bb.card ≤ (2 * ((sys.inputCount + sys.optionCount) * pre.usable)) ^ 2 + 1 ∧
      (∀ b, (bg b).card ≤ 3 * ((sys.inputCount + sys.optionCount) * pre.usable)) ∧
      (sorted.length = sys.inputCount + sys.optionCount → Ov sorted → ∀ beta ∉ bb, ∀ gamma ∉ bg beta,
        ∀ V : Nat → F, V 0 = 1 → V pre.usable = 0 ∨ V pre.usable = 1 →
          (∀ j < pre.usable, V (j + 1) * lookupDen (sorted.map fun c => rowsOf L n (dfsPoly L c)) beta gamma j =
            V j * lookupNum (compressedInputs t sys n theta) (compressedValues t sys n pre.usable theta)
              beta gamma j) →
          ∀ a ∈ cells (compressedInputs t sys n theta) pre.usable,
            a = 0 ∨ a ∈ cells (compressedValues t sys n pre.usable theta) pre.usable) := by
    intro theta sorted
    by_cases hc : sorted.length = sys.inputCount + sys.optionCount ∧ Ov sorted
    · obtain ⟨bb, hbb, hbeta⟩ := lookup_sound_steps h hopt theta
        (sorted.map fun c => rowsOf L n (dfsPoly L c)) (by simpa using hc.1) (fun i hi => hc.2 i (by simpa using hi))
      have : ∀ beta, ∃ bg : Finset F, bg.card ≤ 3 * ((sys.inputCount + sys.optionCount) * pre.usable) ∧
          (beta ∉ bb → ∀ gamma ∉ bg, ∀ V : Nat → F, V 0 = 1 → V pre.usable = 0 ∨ V pre.usable = 1 →
          (∀ j < pre.usable, V (j + 1) * lookupDen (sorted.map fun c => rowsOf L n (dfsPoly L c)) beta gamma j =
            V j * lookupNum (compressedInputs t sys n theta) (compressedValues t sys n pre.usable theta)
              beta gamma j) →
          ∀ a ∈ cells (compressedInputs t sys n theta) pre.usable,
            a = 0 ∨ a ∈ cells (compressedValues t sys n pre.usable theta) pre.usable) := by
        intro beta
        by_cases hbm : beta ∈ bb
        · exact ⟨∅, by simp, fun h => absurd hbm h⟩
        · obtain ⟨bg, h1, h2⟩ := hbeta beta hbm
          exact ⟨bg, h1, fun _ => h2⟩
      choose bg h1 h2 using this
      exact ⟨bb, bg, hbb, h1, fun _ _ beta hb => h2 beta hb⟩
    · exact ⟨∅, fun _ => ∅, by simp, by simp, fun a b => absurd ⟨a, b⟩ hc⟩
  choose bb bg hbb hbg hst using hsteps
  let triple : List (List F) → List (F × F × F) := fun sorted => sorted.map fun c =>
    ((dfsPoly L c).eval 1, (dfsPoly L c).eval (L.root n), (dfsPoly L c).eval (L.root n ^ pre.usable))
  choose ba hba hal using fun sorted : List (List F) => linear_bad (ι := Unit) (sorted.length - 1)
    fun i _ => (((triple sorted).getD (i + 1) 0).1 - ((triple sorted).getD i 0).2.2)
  refine ⟨bt, bb, bg, ba, hbt, hbb, hbg, hba, ?_⟩
  intro theta sorted beta gamma alphas htheta hbeta hgamma halpha S Com ch absorb com st V parts h1 h2 h3 h4 hacc
  have hlen := (hacc.row h rfl rfl rfl rfl 0 (Nat.two_pow_pos n)).2.2.1
  have hov : Ov sorted := by
    have h0 := (hacc.row h rfl rfl rfl rfl 0 (Nat.two_pow_pos n)).2.2.2.1 rfl
    rw [hparts] at h0
    have h0' : verifyOverlap 1 (triple sorted) alphas 0 = 0 := by rw [← h4]; exact h0
    have hal' : alphas.length = sorted.length - 1 := by rw [← h4, length_drawN]
    have htl : (triple sorted).length = sorted.length := by simp [triple]
    rw [verifyOverlap_sum _ _ _ _ (by rw [hal', htl]), htl, zero_add] at h0'
    have hz := hal sorted alphas hal' halpha (fun _ => by simpa using h0')
    intro i hi
    have hzi := hz i (by omega) ()
    have e1 : ∀ k (hk : k < sorted.length), (triple sorted).getD k 0 = ((dfsPoly L sorted[k]).eval 1,
        (dfsPoly L sorted[k]).eval (L.root n), (dfsPoly L sorted[k]).eval (L.root n ^ pre.usable)) := by
      intro k hk
      rw [List.getD_eq_getElem _ _ (by rw [htl]; exact hk)]
      simp [triple]
    have e2 : ∀ k (hk : k < sorted.length),
        (sorted.map fun c => rowsOf L n (dfsPoly L c)).getD k [] = rowsOf L n (dfsPoly L sorted[k]) := by
      intro k hk
      rw [List.getD_eq_getElem _ _ (by simpa using hk)]
      simp
    rw [e1 _ hi, e1 i (by omega)] at hzi
    rw [e2 _ hi, e2 i (by omega), rowsOf_getD _ 0 (Nat.two_pow_pos n), rowsOf_getD _ _ hU, pow_zero]
    linear_combination hzi
  apply ht theta htheta
  apply hst theta sorted hlen hov beta hbeta gamma hgamma fun j => (dfsPoly L V).eval (L.root n ^ j)
  · have := (hacc.row h h1.symm h2.symm h3.symm rfl 0 (Nat.two_pow_pos n)).1
    rw [if_pos rfl, one_mul] at this
    linear_combination -this
  · have := (hacc.row h h1.symm h2.symm h3.symm rfl pre.usable hU).2.1
    rw [if_pos rfl, one_mul] at this
    have h' : (dfsPoly L V).eval (L.root n ^ pre.usable) *
        ((dfsPoly L V).eval (L.root n ^ pre.usable) - 1) = 0 := by linear_combination this
    rcases mul_eq_zero.1 h' with h0 | h0
    · exact .inl h0
    · exact .inr (by linear_combination h0)
  · intro j hj
    obtain ⟨gs, hs, -, -, -, -, -, e1, e2, e3, -⟩ :=
      (hacc.row h h1.symm h2.symm h3.symm rfl j (by omega)).2.2.2.2 hj
    rw [← e1, ← e2]
    exact e3 hparts

/-! ## the permuted columns -/

variable {fuel : Nat} {d : TableDesc} {c : Circuit F} {order : List PlonkVar} {t : PlonkTable F}

theorem PlaceholderSetup.indices (hS : PlaceholderSetup L A n fuel d c order t) :
    ∃ gi, permutedIndices d order = some gi := by
  refine ⟨_, mapM_eq_some_map _ (fun v => (d.globalIndex v).getD 0) _ fun v hv => ?_⟩
  obtain ⟨cp, hcp, w, hw1, hw2⟩ := (mem_permutedVars _ _).1 ((hS.members v).1 hv)
  obtain ⟨i, hi, -⟩ := globalIndex_lt d w (hS.copies cp hcp w hw1).1 (hS.copies cp hcp w hw1).2.1
  have : d.globalIndex v = some i := by rw [hw2]; exact hi
  rw [this]; rfl

theorem PlaceholderSetup.permutedCols (hS : PlaceholderSetup L A n fuel d c order t) {gi : List Nat}
    (hgi : permutedIndices d order = some gi) :
    ∃ cols : List (List F), gi.mapM (fun i => (t.column i).map L.coefficients) = some cols ∧
      cols.length = order.length ∧ ∀ c ∈ cols, c.length ≤ 2 ^ n := by
  have hcol : ∀ i ∈ gi, ∃ p, t.column i = some p := by
    intro i hi
    obtain ⟨k, hk, rfl⟩ := List.getElem_of_mem hi
    have hf := forall₂_of_mapM _ _ _ hgi
    have hk' : k < order.length := hf.length_eq ▸ hk
    have hvi := hf.get hk' hk
    simp only [List.get_eq_getElem] at hvi
    have hv := (hS.members _).1 (List.getElem_mem hk')
    obtain ⟨cp, hcp, v, hv1, hv2⟩ := (mem_permutedVars _ _).1 hv
    have hhas : d.HasColumn order[k] := by
      rw [hv2, hasColumn_erase]
      exact (hS.copies cp hcp v hv1).1
    obtain ⟨-, col, hcol, -⟩ := columnPoly_column (L := L) hS.fits hhas hvi
    exact ⟨col, hcol⟩
  have hm := mapM_eq_some_map (fun i => (t.column i).map L.coefficients)
    (fun i => L.coefficients ((t.column i).getD [])) gi (by
      intro i hi
      obtain ⟨p, hp⟩ := hcol i hi
      simp [hp])
  refine ⟨_, hm, ?_, ?_⟩
  · rw [List.length_map]
    exact length_mapM _ _ _ hgi
  · intro x hx
    obtain ⟨i, hi, rfl⟩ := List.mem_map.1 hx
    obtain ⟨p, hp⟩ := hcol i hi
    rw [hp, Option.getD_some]
    exact (coefficients_column hS.lib hS.small p (PlonkTable.column_length hS.fits.rect i p hp)).1

end Crypto3Zk
