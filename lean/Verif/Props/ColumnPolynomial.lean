import Verif.Model.ColumnPolynomial
import Verif.Lemmas.PlaceholderRun
import Verif.Lemmas.FftExample
import Verif.Props.FRI
import Mathlib.Logic.Relation

/-!
# C98: the polynomials of the columns; C99: `plonk_permutation`
-/

set_option linter.unusedSectionVars false

namespace Crypto3Zk

variable {F : Type} [Field F] {L : FftLib F} {A n : Nat}

/-- The polynomial of a column that fills the domain has the entries of the column as its values on the
rows, in both forms. -/
theorem C98_full_column_partial [DecidableEq F] (hL : L.Lawful A) (hn : n ≤ A) (column : List F)
    (hlen : column.length = 2 ^ n) :
    (∃ c, columnPolynomial L n column = some c ∧ c.length ≤ 2 ^ n ∧
        ∀ j (hj : j < column.length), evalPoly c ((L.domain n).elem j) = column[j]) ∧
      columnPolynomialDfs L n column = some column := by
  obtain ⟨h1, h2⟩ := coefficients_column hL hn column hlen
  refine ⟨⟨_, by rw [columnPolynomial, if_pos hlen.le, hlen, Nat.sub_self, List.replicate_zero,
    List.append_nil], h1, ?_⟩, ?_⟩
  · intro j hj
    have := congrArg (·[j]?) h2
    simp only [FriDomain.evals, List.getElem?_map, List.getElem?_eq_getElem hj] at this
    rw [List.getElem?_range (show j < (L.domain n).size by simp only [FftLib.domain]; omega), Option.map_some,
      Option.some.injEq] at this
    exact this
  · rw [columnPolynomialDfs, if_pos ⟨by rw [hlen, Nat.log_pow (by norm_num)], hlen.le⟩]
    simp only [FriPoly.on]
    exact if_pos hlen

/-- A column shorter than the domain is continued with zeros by the coefficient form ... -/
theorem C98_short_column_zeros [DecidableEq F] (hL : L.Lawful A) (hn : n ≤ A) (column : List F)
    (hlen : column.length ≤ 2 ^ n) :
    ∃ c, columnPolynomial L n column = some c ∧
      ∀ j < 2 ^ n, evalPoly c ((L.domain n).elem j) = column.getD j 0 := by
  have hl : (column ++ List.replicate (2 ^ n - column.length) (0 : F)).length = 2 ^ n := by simp; omega
  obtain ⟨h1, h2⟩ := coefficients_column hL hn _ hl
  refine ⟨_, by rw [columnPolynomial, if_pos hlen], fun j hj => ?_⟩
  have := congrArg (·.getD j 0) h2
  simp only [FriDomain.evals] at this
  have e : ((List.range (L.domain n).size).map fun i => evalPoly
      (L.coefficients (column ++ List.replicate (2 ^ n - column.length) 0)) ((L.domain n).elem i)).getD j 0 =
      evalPoly (L.coefficients (column ++ List.replicate (2 ^ n - column.length) 0)) ((L.domain n).elem j) := by
    rw [List.getD_eq_getElem _ _ (by simpa [FftLib.domain] using hj)]
    simp
  rw [e] at this
  rw [this]
  by_cases hc : j < column.length
  · rw [List.getD_append _ _ _ _ hc]
  · rw [List.getD_append_right _ _ _ _ (by omega), List.getD_eq_default column _ (by omega),
      List.getD_replicate _ (by omega)]

theorem elem_scaled (hL : L.Lawful A) : ∀ (e k : Nat), k + e ≤ A → ∀ j,
    (L.domain (k + e)).elem (j * 2 ^ e) = (L.domain k).elem j := by
  intro e
  induction e with
  | zero => intro k _ j; simp
  | succ e ih =>
    intro k hk j
    rw [show k + (e + 1) = (k + 1) + e by omega, pow_succ, show j * (2 ^ e * 2) = (j * 2) * 2 ^ e by ring,
      ih (k + 1) (by omega)]
    simp only [FftLib.domain]
    rw [mul_comm j 2, pow_mul, pow_two, hL.root_sq k (by omega)]

/-- ... but spread over the rows by the evaluation form: entry `j` of a column of `2 ^ k` entries stands in
row `j * 2 ^ (n - k)`. -/
theorem C98_short_column_spread [DecidableEq F] (hL : L.Lawful A) (hn : n ≤ A) (k : Nat) (hk : k ≤ n)
    (column : List F) (hlen : column.length = 2 ^ k) :
    ∃ v, columnPolynomialDfs L n column = some v ∧ v.length = 2 ^ n ∧
      ∀ j (hj : j < column.length), v[j * 2 ^ (n - k)]? = some column[j] := by
  have hle : 2 ^ k ≤ 2 ^ n := Nat.pow_le_pow_right (by norm_num) hk
  obtain ⟨h1, h2⟩ := coefficients_column hL (by omega : k ≤ A) column hlen
  have hon : FriPoly.on L (L.domain n) (.dfs column) = some ((L.domain n).evals (L.coefficients column)) := by
    have := has_on hL n hn (L.coefficients column) (.dfs column) ⟨k, hk, h2.symm, h1⟩
    exact this
  refine ⟨_, by rw [columnPolynomialDfs, if_pos ⟨by rw [hlen, Nat.log_pow (by norm_num)], by omega⟩, hon],
    by simp [FriDomain.evals, FftLib.domain], ?_⟩
  intro j hj
  have hlt : j * 2 ^ (n - k) < 2 ^ n := by
    rw [hlen] at hj
    calc j * 2 ^ (n - k) < 2 ^ k * 2 ^ (n - k) := Nat.mul_lt_mul_of_pos_right hj (Nat.pow_pos (by norm_num))
      _ = 2 ^ n := by rw [← pow_add]; congr 1; omega
  have hel := elem_scaled hL (n - k) k (by omega) j
  rw [show k + (n - k) = n by omega] at hel
  simp only [FriDomain.evals, List.getElem?_map]
  rw [List.getElem?_range (by simpa [FftLib.domain] using hlt), Option.map_some, hel]
  have := congrArg (·[j]?) h2
  simp only [FriDomain.evals, List.getElem?_map, List.getElem?_eq_getElem hj] at this
  rw [List.getElem?_range (by simpa [FftLib.domain, ← hlen] using hj), Option.map_some] at this
  exact this

/-- So the two forms are different polynomials for a short column that is not constant: the column `1, 2` on
four rows. -/
theorem C98_forms_differ : ∃ c v, columnPolynomial (FftLib.ofRoots exRoots17) 2 [1, 2] = some c ∧
    columnPolynomialDfs (FftLib.ofRoots exRoots17) 2 [1, 2] = some v ∧
    ((FftLib.ofRoots exRoots17).domain 2).evals c = [1, 2, 0, 0] ∧ v[1]? ≠ some 2 ∧ v[2]? = some 2 := by
  refine ⟨(columnPolynomial (FftLib.ofRoots exRoots17) 2 [1, 2]).getD [],
    (columnPolynomialDfs (FftLib.ofRoots exRoots17) 2 [1, 2]).getD [], ?_⟩
  decide +kernel

/-- All columns of a range are treated alike, and their number and order is kept. -/
theorem C98_range [DecidableEq F] (hL : L.Lawful A) (hn : n ≤ A) (columns : List (List F))
    (hlen : ∀ c ∈ columns, c.length = 2 ^ n) :
    columnRangePolynomialDfs L n columns = some columns ∧
      ∃ cs, columnRangePolynomials L n columns = some cs ∧ cs.map (L.domain n).evals = columns := by
  constructor
  · unfold columnRangePolynomialDfs
    rw [mapM_eq_some_map _ id _ fun c hc => (C98_full_column_partial hL hn c (hlen c hc)).2]
    simp
  · refine ⟨columns.map L.coefficients, ?_, ?_⟩
    · unfold columnRangePolynomials
      apply mapM_eq_some_map
      intro c hc
      rw [columnPolynomial, if_pos (hlen c hc).le, hlen c hc, Nat.sub_self, List.replicate_zero,
        List.append_nil]
    · rw [List.map_map]
      conv_rhs => rw [← List.map_id columns]
      apply List.map_congr_left
      intro c hc
      exact (coefficients_column hL hn c (hlen c hc)).2

/-! ## `plonk_permutation` -/

/-- Two cells have been declared equal, directly or through other cells. -/
def DeclaredEqual (calls : List (GridCell × GridCell)) : GridCell → GridCell → Prop :=
  Relation.EqvGen fun a b => (a, b) ∈ calls

/-- The cells of the grid. -/
def InGrid (columns rows : Nat) (c : GridCell) : Prop := c.1 < columns ∧ c.2 < rows

theorem run_snoc (p : PlonkPermutation) (calls : List (GridCell × GridCell)) (c : GridCell × GridCell) :
    p.run (calls ++ [c]) = (p.run calls).cellsEqual c.1 c.2 := by
  simp [PlonkPermutation.run]

/-- Whatever calls are made on cells of the grid, every cell is sent to a cell of the grid that has been
declared equal to it. -/
theorem C99_within_classes_partial (columns rows : Nat) (calls : List (GridCell × GridCell))
    (hcalls : ∀ c ∈ calls, InGrid columns rows c.1 ∧ InGrid columns rows c.2) (cell : GridCell)
    (hcell : InGrid columns rows cell) :
    InGrid columns rows ((PlonkPermutation.new columns rows).run calls cell) ∧
      DeclaredEqual calls cell ((PlonkPermutation.new columns rows).run calls cell) := by
  induction calls using List.reverseRecOn generalizing cell with
  | nil =>
    have : (PlonkPermutation.new columns rows).run [] cell = cell := by
      simp only [PlonkPermutation.run, List.foldl_nil, PlonkPermutation.new]
      exact if_pos hcell
    rw [this]
    exact ⟨hcell, .refl _⟩
  | append_singleton calls c ih =>
    have hc := hcalls c (by simp)
    have ih := ih fun c hc => hcalls c (by simp [hc])
    have hmono : ∀ a b, DeclaredEqual calls a b → DeclaredEqual (calls ++ [c]) a b := by
      intro a b h
      induction h with
      | rel x y hxy => exact .rel _ _ (List.mem_append_left _ hxy)
      | refl x => exact .refl _
      | symm x y _ ih => exact .symm _ _ ih
      | trans x y z _ _ h1 h2 => exact .trans _ _ _ h1 h2
    rw [run_snoc]
    simp only [PlonkPermutation.cellsEqual]
    split_ifs with h
    · obtain ⟨h1, h2⟩ := ih c.2 hc.2
      refine ⟨h1, .trans _ c.2 _ (.rel _ _ ?_) (hmono _ _ h2)⟩
      rw [h]; simp
    · obtain ⟨h1, h2⟩ := ih cell hcell
      exact ⟨h1, hmono _ _ h2⟩

/-- Directly after a call the two cells are sent to the same cell, and all others where they were. -/
theorem C99_call (p : PlonkPermutation) (cell equalTo c : GridCell) :
    p.cellsEqual cell equalTo cell = p.cellsEqual cell equalTo equalTo ∧
      (c ≠ cell → p.cellsEqual cell equalTo c = p c) := by
  unfold PlonkPermutation.cellsEqual
  refine ⟨?_, fun h => if_neg h⟩
  rw [if_pos rfl]
  split_ifs <;> rfl

/-- Finding: it is never a permutation once two different cells have been declared equal: some cell of the
grid is not the image of any cell of the grid. -/
theorem C99_not_a_permutation (columns rows : Nat) (calls : List (GridCell × GridCell))
    (hcalls : ∀ c ∈ calls, InGrid columns rows c.1 ∧ InGrid columns rows c.2)
    (hne : ∃ c ∈ calls, c.1 ≠ c.2) :
    ∃ target, InGrid columns rows target ∧ ∀ cell, InGrid columns rows cell →
      (PlonkPermutation.new columns rows).run calls cell ≠ target := by
  induction calls using List.reverseRecOn with
  | nil => simp at hne
  | append_singleton calls c ih =>
    have hc := hcalls c (by simp)
    have hcalls' : ∀ c ∈ calls, InGrid columns rows c.1 ∧ InGrid columns rows c.2 :=
      fun c hc => hcalls c (by simp [hc])
    rw [run_snoc]
    by_cases hex : ∃ c ∈ calls, c.1 ≠ c.2
    · obtain ⟨target, ht, hno⟩ := ih hcalls' hex
      refine ⟨target, ht, fun cell hcell => ?_⟩
      simp only [PlonkPermutation.cellsEqual]
      split_ifs
      · exact hno _ hc.2
      · exact hno _ hcell
    · have hid : ∀ cell, InGrid columns rows cell →
          (PlonkPermutation.new columns rows).run calls cell = cell := by
        clear ih hcalls hne
        intro cell hcell
        induction calls using List.reverseRecOn with
        | nil =>
          simp only [PlonkPermutation.run, List.foldl_nil, PlonkPermutation.new]
          exact if_pos hcell
        | append_singleton calls e ih =>
          have he : e.1 = e.2 := by
            by_contra h
            exact hex ⟨e, by simp, h⟩
          have ih := ih (fun c hc => hcalls' c (by simp [hc])) (fun ⟨c, hc, h⟩ => hex ⟨c, by simp [hc], h⟩)
          rw [run_snoc]
          simp only [PlonkPermutation.cellsEqual]
          split_ifs with h
          · rw [← he, ← h]; exact ih
          · exact ih
      have hcne : c.1 ≠ c.2 := by
        obtain ⟨e, he, hne⟩ := hne
        rcases List.mem_append.1 he with h | h
        · exact absurd ⟨e, h, hne⟩ hex
        · rw [List.mem_singleton] at h
          rw [← h]; exact hne
      refine ⟨c.1, hc.1, fun cell hcell => ?_⟩
      simp only [PlonkPermutation.cellsEqual]
      split_ifs with h
      · rw [hid _ hc.2]; exact fun h => hcne h.symm
      · rw [hid _ hcell]; exact h

/-- a grid of two columns and three rows with one call -/
example : let p := (PlonkPermutation.new 2 3).run [((0, 1), (1, 2))]
    p (0, 1) = (1, 2) ∧ p (1, 2) = (1, 2) ∧ p (1, 1) = (1, 1) := by decide +kernel

example : ([2, 3, 5, 7] : List (ZMod 17)).length = 2 ^ 2 ∧ (FftLib.ofRoots exRoots17).Lawful 4 :=
  ⟨rfl, exLib17_lawful⟩

end Crypto3Zk
