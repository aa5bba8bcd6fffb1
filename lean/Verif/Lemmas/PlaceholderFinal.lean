import Verif.Lemmas.PlaceholderReads
import Verif.Props.GateArg
import Verif.Props.LookupArg
import Verif.Props.PermutationArg
import Verif.Props.Quotient

/-!
# The final equation of the placeholder verifier
-/

set_option linter.unusedSectionVars false

namespace Crypto3Zk

open Polynomial

variable {F : Type} [Field F] [DecidableEq F] {S H Com Pr Data Obj : Type}
variable {L : FftLib F} {A n : Nat}

theorem vanishingCoeffs_eq (m : Nat) : (vanishingCoeffs (m + 1) : List F) = -1 :: (List.replicate m 0 ++ [1]) := by
  unfold vanishingCoeffs
  rw [List.replicate_succ, List.set_cons_zero, List.set_cons_succ]
  congr 1
  apply List.ext_getElem
  · simp
  · intro i h1 h2
    rw [List.getElem_set]
    by_cases h : m = i
    · subst h; simp
    · rw [if_neg h, List.getElem_replicate, List.getElem_append_left (by simp at h1 ⊢; omega),
        List.getElem_replicate]

theorem toPoly_replicate_one (m : Nat) : toPoly (List.replicate m 0 ++ [1] : List F) = X ^ m := by
  induction m with
  | zero => simp [toPoly]
  | succ m ih => rw [List.replicate_succ, List.cons_append, toPoly_cons, ih]; simp [pow_succ']

theorem toPoly_vanishing (N : Nat) (hN : 0 < N) : toPoly (vanishingCoeffs N : List F) = X ^ N - 1 := by
  obtain ⟨m, rfl⟩ : ∃ m, N = m + 1 := ⟨N - 1, by omega⟩
  rw [vanishingCoeffs_eq, toPoly_cons, toPoly_replicate_one]
  simp [pow_succ']
  ring

theorem getLastD_vanishing (N : Nat) (hN : 0 < N) : (vanishingCoeffs N : List F).getLastD 0 = 1 := by
  obtain ⟨m, rfl⟩ : ∃ m, N = m + 1 := ⟨N - 1, by omega⟩
  rw [vanishingCoeffs_eq, ← List.cons_append, List.getLastD_eq_getLast?, List.getLast?_append]
  rfl

theorem toPoly_coeffsOf (p : F[X]) : toPoly (coeffsOf p) = p := by
  ext i
  rw [coeff_toPoly, coeffsOf]
  by_cases h : i < p.natDegree + 1
  · simp [h]
  · rw [List.getD_eq_getElem?_getD, List.getElem?_eq_none (by simp; omega), Option.getD_none,
      coeff_eq_zero_of_natDegree_lt (by omega)]

theorem monic_vanish (l : List F) : (vanish l).Monic ∧ (vanish l).natDegree = l.length := by
  induction l with
  | nil => simp [vanish]
  | cons x l ih =>
    have hv : vanish (x :: l) = (X - C x) * vanish l := by simp [vanish]
    rw [hv]
    refine ⟨(monic_X_sub_C x).mul ih.1, ?_⟩
    rw [(monic_X_sub_C x).natDegree_mul ih.1, natDegree_X_sub_C, ih.2, List.length_cons, add_comm]

/-- The vanishing polynomial of the rows divides what vanishes on the rows. -/
theorem zerofier_dvd (hL : L.Lawful A) (hn : n ≤ A) (p : F[X]) (h : PolyVanishesOnRows L n p) :
    (X ^ 2 ^ n - 1 : F[X]) ∣ p := by
  have hN : 0 < 2 ^ n := by positivity
  have hnd : ((List.range (2 ^ n)).map fun j => L.root n ^ j).Nodup := by
    refine List.Nodup.map_on ?_ List.nodup_range
    intro i hi j hj he
    exact elem_injective hL n hn i j (List.mem_range.1 hi) (List.mem_range.1 hj) he
  have hv : ∀ q : F[X], PolyVanishesOnRows L n q →
      vanish ((List.range (2 ^ n)).map fun j => L.root n ^ j) ∣ q := by
    intro q hq
    apply vanish_dvd _ hnd
    intro x hx
    obtain ⟨j, hj, rfl⟩ := List.mem_map.1 hx
    exact hq j (List.mem_range.1 hj)
  have hm : (X ^ 2 ^ n - 1 : F[X]).Monic := monic_X_pow_sub_C 1 hN.ne'
  obtain ⟨hmv, hd⟩ : (vanish ((List.range (2 ^ n)).map fun j => L.root n ^ j)).Monic ∧
      (vanish ((List.range (2 ^ n)).map fun j => L.root n ^ j)).natDegree = 2 ^ n := by
    have := monic_vanish ((List.range (2 ^ n)).map fun j => L.root n ^ j)
    simpa using this
  have he : (X ^ 2 ^ n - 1 : F[X]) = vanish ((List.range (2 ^ n)).map fun j => L.root n ^ j) := by
    refine eq_of_monic_of_dvd_of_natDegree_le hmv hm (hv _ ?_) ?_
    · intro j _
      rw [eval_sub, eval_pow, eval_X, eval_one, ← pow_mul, mul_comm, pow_mul, root_pow_card hL n hn, one_pow,
        sub_self]
    · rw [hd]
      exact (natDegree_X_pow_sub_C (n := 2 ^ n) (r := (1 : F))).le
  rw [he]
  exact hv p h

theorem consolidate_eval (y : F) : ∀ (fs : List F[X]) (as : List F),
    (consolidate fs as).eval y = (List.zipWith (fun f a => a * f.eval y) fs as).sum := by
  intro fs
  induction fs with
  | nil => intro as; simp [consolidate]
  | cons f fs ih =>
    intro as
    cases as with
    | nil => simp [consolidate]
    | cons a as =>
      have := ih as
      unfold consolidate at this ⊢
      rw [List.zipWith_cons_cons, List.sum_cons, eval_add, this, List.zipWith_cons_cons, List.sum_cons]
      congr 1
      split_ifs with h0
      · simp [h0]
      · simp

theorem foldl_add_sum (l : List F) : ∀ a, l.foldl (· + ·) a = a + l.sum := by
  induction l with
  | nil => intro a; simp
  | cons x l ih => intro a; simp [ih, add_assoc]

/-- The verifier's combination, for the values of the prover's polynomials. -/
theorem verifier_consolidate (fs : List F[X]) (as : List F) (y : F) :
    (List.zipWith (fun a f => a * f) as (fs.map (eval y))).foldl (· + ·) 0 = (consolidate fs as).eval y := by
  rw [foldl_add_sum, zero_add, consolidate_eval]
  congr 1
  rw [List.zipWith_map_right, List.zipWith_comm]

theorem consolidate_vanishes (fs : List F[X]) (as : List F) (h : ∀ f ∈ fs, PolyVanishesOnRows L n f) :
    PolyVanishesOnRows L n (consolidate fs as) := by
  intro j hj
  rw [consolidate_eval]
  apply List.sum_eq_zero
  intro x hx
  obtain ⟨i, hi, rfl⟩ := List.getElem_of_mem hx
  rw [List.getElem_zipWith, h _ (List.getElem_mem _) j hj, mul_zero]

/-- The quotient computed by the prover, and its chunks. -/
theorem quotient_equation (hL : L.Lawful A) (hn : n ≤ A) (f : F[X]) (hf : PolyVanishesOnRows L n f)
    {permSize lookupDegree gatesDegree maxChunks : Nat} {chunks : List (List F)}
    (h : quotientSplit (polyDiv (coeffsOf f) (vanishingCoeffs (2 ^ n))) permSize lookupDegree gatesDegree
      (2 ^ n) maxChunks = some chunks) :
    (∀ c ∈ chunks, c.length ≤ 2 ^ n) ∧ ∀ y, f.eval y = evalPoly (vanishingCoeffs (2 ^ n)) y *
      consolidateQuotient (chunks.map (evalPoly · y)) (2 ^ n) y := by
  have hN : 0 < 2 ^ n := by positivity
  obtain ⟨-, h2, h3⟩ := C36_prover_chunks _ _ _ _ _ _ _ h
  refine ⟨h2, fun y => ?_⟩
  rw [h3, ← eval_toPoly, ← eval_toPoly, (toPoly_divMod _ _ (getLastD_vanishing _ hN)).1, toPoly_coeffsOf,
    toPoly_vanishing _ hN, ← eval_mul]
  congr 1
  have hm : (X ^ 2 ^ n - 1 : F[X]).Monic := monic_X_pow_sub_C 1 hN.ne'
  have hdvd := zerofier_dvd hL hn f hf
  have := modByMonic_add_div f (X ^ 2 ^ n - 1 : F[X])
  rw [(modByMonic_eq_zero_iff_dvd hm).2 hdvd, zero_add] at this
  exact this.symm

/-! ## the arguments in the setting -/

section

variable {fuel : Nat} {d : TableDesc} {c : Circuit F} {order : List PlonkVar} {t : PlonkTable F}

theorem PlaceholderSetup.hasColumn (h : TableFits d n t) {v : PlonkVar} (hv : t.HasVar v) : d.HasColumn v := by
  obtain ⟨cols, h1, h2⟩ := hv
  have hw := h.witness
  have hp := h.publicInput
  have hc := h.constant
  have hs := h.selector
  obtain ⟨i, r, rel, ty⟩ := v
  cases ty <;> simp only [PlonkTable.columnsOf, Option.some.injEq, reduceCtorEq] at h1 <;> subst h1 <;>
    simp only [TableDesc.HasColumn] at h2 ⊢ <;> omega

theorem globalIndex_of_hasColumn {v : PlonkVar} (hv : d.HasColumn v) : ∃ g, d.globalIndex v = some g := by
  obtain ⟨i, r, rel, ty⟩ := v
  cases ty <;> simp_all [TableDesc.HasColumn, TableDesc.globalIndex]

theorem columnValue_cell (hL : L.Lawful A) (hn : n ≤ A) (hf : TableFits d n t) (hu : d.usableRows < 2 ^ n)
    (hin : CopiesInTable d c.copies) : ∀ e ∈ c.copies, ∀ v, v = e.1 ∨ v = e.2 → ∀ x, d.cellOf v = some x →
      columnValue L n (fun i => (t.column i).map L.coefficients) x.1 x.2 = t.cellAt x.1 x.2 := by
  intro e he v hv x hx
  obtain ⟨h1, -, h3, h4⟩ := hin e he v hv
  obtain ⟨g, hg, hx⟩ := Option.map_eq_some_iff.1 hx
  subst hx
  obtain ⟨hlt, col, hcol, -⟩ := columnPoly_column (L := L) hf h1 hg
  have hlen : col.length = 2 ^ n := by
    rw [column_append] at hcol
    have hm := List.mem_of_getElem? hcol
    simp only [List.mem_append] at hm
    rcases hm with hm | hm | hm | hm
    · exact hf.rect.1 col hm
    · exact hf.rect.2.1 col hm
    · exact hf.rect.2.2.1 col hm
    · exact hf.rect.2.2.2 col hm
  simp only [columnValue, PlonkTable.cellAt, hcol, Option.map_some, Option.getD_some]
  exact rowValue_coefficients hL n hn col hlen v.rotation.toNat (by omega)

theorem copiesHold_columns (hL : L.Lawful A) (hn : n ≤ A) (hf : TableFits d n t) (hu : d.usableRows < 2 ^ n)
    (hin : CopiesInTable d c.copies) :
    CopiesHold d c.copies (columnValue L n fun i => (t.column i).map L.coefficients) ↔
      CopiesHold d c.copies t.cellAt := by
  have key := columnValue_cell hL hn hf hu hin
  constructor <;> intro h e he x y hx hy
  · rw [← key e he _ (Or.inl rfl) x hx, ← key e he _ (Or.inr rfl) y hy]
    exact h e he x y hx hy
  · rw [key e he _ (Or.inl rfl) x hx, key e he _ (Or.inr rfl) y hy]
    exact h e he x y hx hy

variable {C : CommScheme F S Com Pr Data Obj} {T : PlonkTranscript S F H Com} {delta : F} {mqc : Nat}
  {hash : H} {obj o0 : Obj} {pd : PublicData F H Com Data}

theorem PlaceholderSetup.permSetup (h : PlaceholderSetup L A n fuel d c order t)
    (hp : PreFacts C T L n fuel d c order delta mqc hash t obj pd o0) :
    PermSetup L A n d c.copies order pd.common.permutedColumns delta mqc pd.perm where
  lib := h.lib
  small := h.small
  rows := h.rows
  usable := h.usable
  width := h.width
  rows32 := by rw [h.rows]; exact Nat.pow_le_pow_right (by norm_num) h.rows32
  copies := h.copies
  nodup := h.nodup
  members := h.members
  indices := hp.indices
  data := ⟨fuel, h.fuel, hp.perm⟩

theorem PlaceholderSetup.gateSetup (h : PlaceholderSetup L A n fuel d c order t) :
    GateSetup L A n d.usableRows t c.gates c.maxDegree where
  lib := h.lib
  small := h.small
  fits := h.rows32.trans (by norm_num)
  rect := h.fits.rect
  rows := h.fits.rows
  usable := h.rows ▸ h.usable
  inTable := h.gates
  degree := h.degree

theorem PlaceholderSetup.lookupSetup (h : PlaceholderSetup L A n fuel d c order t)
    (hp : PreFacts C T L n fuel d c order delta mqc hash t obj pd o0) (hne : c.lookups.gates ≠ []) :
    LookupSetup L A n t c.lookups (lookupData pd.perm) := by
  obtain ⟨-, -, -, -, q1, q2, q3, -, -, -, q4, -, -⟩ := permPreprocess_shape h.lib h.small hp.perm
  exact
    { lib := h.lib
      small := h.small
      fits := h.rows32.trans (by norm_num)
      rect := h.fits.rect
      rows := h.fits.rows
      used := by simp only [lookupData, q4]; exact h.used hne
      spare := by simp only [lookupData, q4]; exact h.rows ▸ h.usable
      qLast := by simp only [lookupData, q1, q4, dfsPoly]
      qBlind := by simp only [lookupData, q2, q4, dfsPoly]
      lagrange0 := by simp only [lookupData, q3, dfsPoly]
      inTable := h.lookups }

/-- The values in `columns_at_y` are those that the arguments need. -/
theorem PlaceholderSetup.evaluations (h : PlaceholderSetup L A n fuel d c order t)
    (hp : PreFacts C T L n fuel d c order delta mqc hash t obj pd o0) {y : F}
    {ev : Nat → Int → ColumnType → Option F}
    (hev : ∀ v : PlonkVar, d.HasColumn v → ∀ g, d.globalIndex v = some g →
      v.rotation ∈ pd.common.rotations.getD g [] → ev v.index v.rotation v.type =
        some ((columnPoly L t v.index v.type).eval (L.root n ^ v.rotation * y))) :
    TrueEvaluations L n t c.gates y ev ∧
      (c.lookups.gates ≠ [] → TrueLookupEvaluations L n t c.lookups y ev) := by
  obtain ⟨hlen, -, hlt, hmem⟩ := columnsRotations_spec d c _ hp.rotations
  have hs := h.fits.selector
  have hc := h.fits.constant
  have hused : ∀ v ∈ c.usedVars, t.HasVar v → ev v.index v.rotation v.type =
      some ((columnPoly L t v.index v.type).eval (L.root n ^ v.rotation * y)) := by
    intro v hv ht
    have hcol := PlaceholderSetup.hasColumn h.fits ht
    obtain ⟨g, hg⟩ := globalIndex_of_hasColumn hcol
    have hu : VarUsed d c g v.rotation := ⟨v, hv, hg, rfl⟩
    exact hev v hcol g hg ((hmem g (hlt g _ (Or.inl hu)) _).2 (Or.inr (Or.inl hu)))
  have hsel : ∀ i < t.selectors.length, ev i 0 .selector = some ((columnPoly L t i .selector).eval y) := by
    intro i hi
    have hcol : d.HasColumn ⟨i, 0, true, .selector⟩ := by simp only [TableDesc.HasColumn]; omega
    obtain ⟨g, hg⟩ := globalIndex_of_hasColumn hcol
    have := hev ⟨i, 0, true, .selector⟩ hcol g hg
      ((hmem g (columnPoly_column (L := L) h.fits hcol hg).1 0).2 (Or.inl rfl))
    simpa using this
  refine ⟨fun g hg => ⟨hsel _ (h.gates g hg).1, fun e he v hv => hused v ?_ ((h.gates g hg).2 e he v hv)⟩,
    fun hne => ⟨fun tab htab r hr => ⟨?_, fun o ho v hv => ?_⟩, fun g hg =>
      ⟨hsel _ (h.lookups.1 g hg).1, fun k hk e he v hv => hused v ?_ ((h.lookups.1 g hg).2 k hk e he v hv)⟩⟩⟩
  · unfold Circuit.usedVars
    exact List.mem_append_left _ (List.mem_flatMap.2 ⟨g, hg, List.mem_flatMap.2 ⟨e, he, hv⟩⟩)
  · rcases hr with rfl | rfl
    · rw [zpow_zero, one_mul]; exact hsel _ (h.lookups.2 tab htab).1
    · have hcol : d.HasColumn ⟨tab.tagIndex, 1, true, .selector⟩ := by
        have := (h.lookups.2 tab htab).1
        simp only [TableDesc.HasColumn]; omega
      obtain ⟨g, hg⟩ := globalIndex_of_hasColumn hcol
      refine hev ⟨tab.tagIndex, 1, true, .selector⟩ hcol g hg
        ((hmem g (columnPoly_column (L := L) h.fits hcol hg).1 1).2 (Or.inr (Or.inr ⟨hne, rfl, tab, htab, Or.inl ?_⟩)))
      simp only [TableDesc.globalIndex, Option.some.injEq] at hg
      omega
  · have hcol : ∀ r, d.HasColumn ⟨v.index, r, true, .constant⟩ := by
      have := ((h.lookups.2 tab htab).2 o ho).2 v hv
      intro r
      simp only [TableDesc.HasColumn]; omega
    obtain ⟨g, hg⟩ := globalIndex_of_hasColumn (hcol r)
    refine hev ⟨v.index, r, true, .constant⟩ (hcol r) g hg
      ((hmem g (columnPoly_column (L := L) h.fits (hcol r) hg).1 r).2 ?_)
    rcases hr with rfl | rfl
    · exact Or.inl rfl
    · refine Or.inr (Or.inr ⟨hne, rfl, tab, htab, Or.inr ⟨o, ho, v, hv, ?_⟩⟩)
      simp only [TableDesc.globalIndex, Option.some.injEq] at hg
      omega
  · unfold Circuit.usedVars
    exact List.mem_append_right _ (List.mem_flatMap.2 ⟨g, hg, List.mem_flatMap.2 ⟨k, hk,
      List.mem_flatMap.2 ⟨e, he, hv⟩⟩⟩)

end

end Crypto3Zk
