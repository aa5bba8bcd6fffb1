import Verif.Lemmas.LookupTotal
import Verif.Props.PermutationArg

/-!
# C35, C64 and C33: the lookup argument
-/

namespace Crypto3Zk

set_option linter.unusedSectionVars false

open Polynomial

variable {F : Type} [Field F] [DecidableEq F] {S Com : Type} {L : FftLib F} {A n : Nat}
    {t : PlonkTable F} {sys : LookupSystem F} {pre : LookupData F}

/-! ## C35: sorting -/

/-- C35: columns that can be sorted are sorted into as many columns as there are inputs and tables. The
usable rows hold exactly the inputs and the table values; the columns overlap in one cell; and the
pairs of neighbours are those of the table and one equal pair for each input. -/
theorem C35_sort {inputs values : List (List F)} {size usable : Nat}
    (h : Sortable inputs values size usable) :
    ∃ sorted, sortPolynomials inputs values size usable = some sorted ∧
      sorted.length = inputs.length + values.length ∧ (∀ c ∈ sorted, c.length = size) ∧
      (cells sorted usable).Perm (cells inputs usable ++ cells values usable) ∧
      (∀ i, i + 1 < sorted.length →
        (sorted.getD i []).getD usable 0 = (sorted.getD (i + 1) []).getD 0 0) ∧
      (cellPairs sorted usable).Perm
        (cellPairs values usable ++ (cells inputs usable).map fun a => (a, a)) := by
  have hp := finished_pairs h
  have hcol : ∀ c ∈ finished (inputs.length + values.length) size usable
      (merged (cells values usable) (cells inputs usable)), c.length = size :=
    fun c hc => length_finished_col _ _ hc
  have hlen : (finished (inputs.length + values.length) size usable
      (merged (cells values usable) (cells inputs usable))).length = inputs.length + values.length := by
    simp [finished]
  refine ⟨_, sortPolynomials_eq h, hlen, hcol, ?_, ?_, hp⟩
  · have := hp.map Prod.fst
    rw [map_fst_cellPairs _ _ (fun c hc => by rw [hcol c hc]; exact h.spare.le), List.map_append,
      map_fst_cellPairs _ _ (fun c hc => by rw [h.valueSize c hc]; exact h.spare.le), List.map_map] at this
    refine this.trans ?_
    rw [show (Prod.fst ∘ fun a : F => (a, a)) = id from rfl, List.map_id]
    exact List.perm_append_comm
  · intro i hi
    rw [hlen] at hi
    rw [finished_getD _ i usable (by omega) h.spare le_rfl,
      finished_getD _ (i + 1) 0 hi (by have := h.spare; omega) (by omega)]
    congr 1; ring

/-- C35: the order. Apart from zeros, the sorted columns hold the values in the order of the table, each as
often as it is in the table and in the inputs together. -/
theorem C35_order {inputs values sorted : List (List F)} {size usable : Nat}
    (h : Sortable inputs values size usable)
    (hs : sortPolynomials inputs values size usable = some sorted) :
    (cells sorted usable).filter (· ≠ 0) =
      (((cells values usable).filter (· ≠ 0)).dedup).flatMap fun a =>
        List.replicate ((cells values usable).count a + (cells inputs usable).count a) a := by
  rw [sortPolynomials_eq h, Option.some_inj] at hs
  subst hs
  have hcol : ∀ c ∈ finished (inputs.length + values.length) size usable
      (merged (cells values usable) (cells inputs usable)), usable ≤ c.length :=
    fun c hc => by rw [length_finished_col _ _ hc]; exact h.spare.le
  rw [← map_fst_cellPairs _ _ hcol, cellPairs_finished h.spare, List.map_map]
  have hml := merged_length h
  have hgen : ∀ (xs : List F) (N : Nat), xs.length ≤ N →
      ((List.range N).map (Prod.fst ∘ fun p => (xs.getD p 0, xs.getD (p + 1) 0))).filter (· ≠ 0) =
        xs.filter (· ≠ 0) := by
    intro xs N hN
    have : (List.range N).map (Prod.fst ∘ fun p => (xs.getD p 0, xs.getD (p + 1) 0)) =
        xs ++ List.replicate (N - xs.length) 0 := by
      apply List.ext_getElem
      · simp; omega
      · intro i h1 h2
        simp only [List.getElem_map, List.getElem_range, Function.comp_apply]
        by_cases hi : i < xs.length
        · rw [List.getD_eq_getElem _ _ hi, List.getElem_append_left hi]
        · rw [List.getD_eq_default _ _ (by omega), List.getElem_append_right (by omega)]
          simp
    rw [this, List.filter_append]
    simp
  rw [hgen _ _ hml]
  obtain ⟨T, hT⟩ := cells_head h
  have hg := h.grouped
  rw [merged, hT] at *
  simp only [emit, ne_eq, not_true_eq_false, if_false]
  exact emit_order _ T 0 hg

/-- C35: the running product is defined exactly when no denominator is zero. -/
theorem C35_product_defined_iff (inputs values sorted : List (List F)) (size usable : Nat)
    (hu : usable < size) (beta gamma : F) :
    (∃ V, lookupV sorted inputs values size usable beta gamma = some V) ↔
      ∀ c ∈ sorted, ∀ j < usable,
        (1 + beta) * gamma + c.getD j 0 + beta * c.getD (j + 1) 0 ≠ 0 := by
  constructor
  · rintro ⟨V, hV⟩ c hc j hj h0
    refine (lookupV_spec hV).2.2.1 j hj ?_
    rw [lookupDen_eq]
    exact List.prod_eq_zero (List.mem_map.2 ⟨c, hc, h0⟩)
  · intro h
    apply lookupV_defined hu
    intro j hj h0
    rw [lookupDen_eq, List.prod_eq_zero_iff, List.mem_map] at h0
    obtain ⟨c, hc, h0⟩ := h0
    exact h c hc j hj h0

/-- C35: the running product closes: for all challenges at which it is defined, it starts and ends with
one, and each step multiplies by the factors of the inputs and table values and divides by those of the
sorted columns. -/
theorem C35_product_closes {inputs values sorted : List (List F)} {size usable : Nat} {beta gamma : F}
    {V : List F} (h : Sortable inputs values size usable)
    (hs : sortPolynomials inputs values size usable = some sorted)
    (hV : lookupV sorted inputs values size usable beta gamma = some V) :
    V.length = size ∧ V.getD 0 0 = 1 ∧ V.getD usable 0 = 1 ∧ ∀ j < usable,
      V.getD (j + 1) 0 *
          (sorted.map fun c => (1 + beta) * gamma + c.getD j 0 + beta * c.getD (j + 1) 0).prod =
        V.getD j 0 * ((inputs.map fun c => (1 + beta) * (gamma + c.getD j 0)).prod *
          (values.map fun c => (1 + beta) * gamma + c.getD j 0 + beta * c.getD (j + 1) 0).prod) := by
  obtain ⟨h1, h2, _, h4⟩ := lookupV_spec hV
  refine ⟨h1, h2, lookupV_closes h hs hV, fun j hj => ?_⟩
  have := h4 j hj
  rw [lookupDen_eq, lookupNum_eq] at this
  have hi : (inputs.map fun c => (1 + beta) * (gamma + c.getD j 0)) =
      inputs.map fun c => pairFactor beta gamma (c.getD j 0, c.getD j 0) := by
    apply List.map_congr_left
    intro c _
    rw [pairFactor]; ring
  rw [hi]
  exact this

/-- C35: the four polynomials of the argument vanish on every row, for every number of parts and every
transcript, whenever the compressed columns can be sorted. -/
theorem C35_complete (h : LookupSetup L A n t sys pre) (ch : S → F × S) (absorb : Com → S → S)
    (commit : List (List F) → Com) (st st' : S) (res : LookupResult F)
    (hsort : Sortable (compressedInputs t sys n (ch st).1)
      (compressedValues t sys n pre.usable (ch st).1) (2 ^ n) pre.usable)
    (hp : lookupProve ch absorb commit L n t sys pre st = some (res, st')) :
    PolyVanishesOnRows L n res.F0 ∧ PolyVanishesOnRows L n res.F1 ∧ PolyVanishesOnRows L n res.F2 ∧
      PolyVanishesOnRows L n res.F3 := by
  obtain ⟨theta, beta, gamma, alphas, alphas3, values, inputs, gg, hh, R⟩ :=
    lookupProve_run ch absorb commit n t sys pre st st' res hp
  exact R.complete h (by rw [R.h_theta]; exact hsort)

/-- C35: when every lookup holds, and the tables are laid out as the packing functions do it, the
compressed columns can be sorted, unless one of a few values of the first challenge is drawn. -/
theorem C35_sortable (h : LookupSetup L A n t sys pre) (hw : LookupsWellFormed sys)
    (hb : TagsBoolean t sys pre.usable) (hlay : TablesLaidOut t sys pre.usable)
    (hold : LookupsHold t sys pre.usable) (m : Nat)
    (hm : ∀ tab ∈ sys.tables, tab.columnsNumber + 1 ≤ m) :
    ∃ bad : Finset F, bad.card ≤
        (sys.optionCount * pre.usable) * (sys.optionCount * pre.usable + 1) * m ∧
      ∀ theta ∉ bad, Sortable (compressedInputs t sys n theta)
        (compressedValues t sys n pre.usable theta) (2 ^ n) pre.usable :=
  sortable_of_holds h hw hb hlay hold m hm

/-- C35: the prover gets through on columns that can be sorted if all parts are non-empty (C29 says when),
unless the second challenge is `-1` or the third one of at most (columns × usable rows) values. -/
theorem C35_prover_succeeds (h : LookupSetup L A n t sys pre) (hgates : sys.gates ≠ [])
    (hparts : ∀ p ∈ sys.parts pre.mqc, p ≠ 0) (theta : F)
    (hsort : Sortable (compressedInputs t sys n theta) (compressedValues t sys n pre.usable theta)
      (2 ^ n) pre.usable) (beta : F) (hbeta : beta ≠ -1) :
    ∃ sorted, sortPolynomials (compressedInputs t sys n theta)
        (compressedValues t sys n pre.usable theta) (2 ^ n) pre.usable = some sorted ∧
      ∃ bad : Finset F, bad.card ≤ (sys.inputCount + sys.optionCount) * pre.usable ∧ ∀ gamma ∉ bad,
        ∀ (S Com : Type) (ch : S → F × S) (absorb : Com → S → S) (commit : List (List F) → Com) (st : S),
          (ch st).1 = theta → (ch (absorb (commit sorted) (ch st).2)).1 = beta →
          (ch (ch (absorb (commit sorted) (ch st).2)).2).1 = gamma →
          ∃ r, lookupProve ch absorb commit L n t sys pre st = some r := by
  obtain ⟨sorted, hs, hlen, -, -, -, -⟩ := C35_sort hsort
  rw [length_compressedInputs, length_compressedValues] at hlen
  have hb1 : 1 + beta ≠ 0 := fun h0 => hbeta (by linear_combination h0)
  refine ⟨sorted, hs, (cellPairs sorted pre.usable).toFinset.image
    fun x => -(x.1 + beta * x.2) / (1 + beta), ?_, ?_⟩
  · refine Finset.card_image_le.trans ((List.toFinset_card_le _).trans ?_)
    rw [length_cellPairs, hlen]
  · intro gamma hgamma S Com ch absorb commit st ht hb hg
    refine lookupProve_defined h ch absorb commit st hparts ?_ (by rw [ht]; exact hsort) ?_
    · rw [LookupSystem.parts, C29_parts_sum _ _ _ _ (.inr (by
        intro h0; exact hgates (List.length_eq_zero_iff.1 h0)))]
      simp [LookupSystem.inputCount, LookupSystem.optionCount, List.length_flatMap]
    · intro sorted' hs' c hc j hj h0
      rw [ht, hs, Option.some_inj] at hs'
      subst hs'
      rw [hb, hg] at h0
      apply hgamma
      rw [Finset.mem_image]
      refine ⟨(c.getD j 0, c.getD (j + 1) 0), ?_, ?_⟩
      · rw [List.mem_toFinset, cellPairs, List.mem_flatMap]
        exact ⟨c, hc, List.mem_map.2 ⟨j, List.mem_range.2 hj, rfl⟩⟩
      · rw [div_eq_iff hb1]
        simp only [pairFactor] at h0
        linear_combination -h0

/-- C35: an input that is not in the table makes the assertion of the sorting fail. -/
theorem C35_absent_input {inputs values : List (List F)} {size usable : Nat}
    (hi : ∀ c ∈ inputs, usable ≤ c.length) (hv : ∀ c ∈ values, usable ≤ c.length) (x : F)
    (hx : x ∈ cells inputs usable) (hn : x ∉ cells values usable) :
    sortPolynomials inputs values size usable = none := by
  unfold sortPolynomials
  rw [usableCells_eq values usable hv, usableCells_eq inputs usable hi]
  simp only [Option.bind_eq_bind, Option.bind_some]
  rw [countInputs_none _ _ ⟨x, hx, by
    rw [foldl_incr]
    simp [hn], trivial⟩]
  rfl

/-- FINDING (C35): the sorting needs the table to start with an empty row. The table `5, 6` in rows 0 and
1, with all inputs in it, makes it write out of bounds. -/
theorem C35_first_row_used :
    sortPolynomials [[(5 : ZMod 17), 6, 0, 0]] [[5, 6, 0, 0]] 4 2 = none := by
  decide +kernel

/-- FINDING (C35): the sorting needs equal table values to be next to each other: otherwise the copies are
written more than once, out of bounds. -/
theorem C35_not_grouped :
    sortPolynomials [[(5 : ZMod 17), 6, 5, 5, 0, 0, 0, 0]] [[0, 5, 6, 5, 0, 0, 0, 0]] 8 4 = none := by
  decide +kernel

/-! ## C33 for the lookup argument -/

/-- C33 (lookup argument): at every point `y`, on the true evaluations, the verifier computes the
evaluations of the prover's four polynomials, and its transcript ends in the same state: for every system,
transcript, commitment and number of parts. -/
theorem C33_lookup {ch : S → F × S} {absorb : Com → S → S} {commit : List (List F) → Com}
    {st st' : S} {res : LookupResult F} (hin : LookupsInTable t sys)
    (h : lookupProve ch absorb commit L n t sys pre st = some (res, st')) (y : F)
    (ev : Nat → Int → ColumnType → Option F) (hev : TrueLookupEvaluations L n t sys y ev) :
    lookupVerify ch absorb (commit res.sorted) sys pre.mqc ev
        (trueLookupClaims L n pre res.sorted res.V res.partitions y) st =
      some ((res.F0.eval y, res.F1.eval y, res.F2.eval y, res.F3.eval y), st') :=
  lookupProve_verify hin h y ev hev

/-- C33, C35: the polynomials of the prover are accepted by the verifier on every row. -/
theorem C35_rows_accepted (h : LookupSetup L A n t sys pre) (ch : S → F × S) (absorb : Com → S → S)
    (commit : List (List F) → Com) (st st' : S) (res : LookupResult F)
    (hsort : Sortable (compressedInputs t sys n (ch st).1)
      (compressedValues t sys n pre.usable (ch st).1) (2 ^ n) pre.usable)
    (hp : lookupProve ch absorb commit L n t sys pre st = some (res, st')) :
    LookupRowsAccepted ch absorb (commit res.sorted) st L n t sys pre res.sorted res.V
      res.partitions := by
  intro j hj
  obtain ⟨h0, h1, h2, h3⟩ := C35_complete h ch absorb commit st st' res hsort hp
  refine ⟨st', ?_⟩
  rw [C33_lookup h.inTable hp (L.root n ^ j) (tableEvaluations L n t (L.root n ^ j)),
    h0 j hj, h1 j hj, h2 j hj, h3 j hj]
  refine ⟨fun tab _ r _ => ⟨rfl, fun o _ v _ => rfl⟩, fun g _ => ⟨?_, fun c _ e _ v _ => rfl⟩⟩
  simp [tableEvaluations]

/-! ## C64: soundness -/

/-- If some pair of columns does not overlap, one of the last challenges has at most one value for which
the rows are accepted. -/
theorem overlap_or_alpha (h : LookupSetup L A n t sys pre) (sorted : List (List F)) :
    (∀ i, i + 1 < sorted.length →
      ((sorted.map fun c => rowsOf L n (dfsPoly L c)).getD (i + 1) []).getD 0 0 =
        ((sorted.map fun c => rowsOf L n (dfsPoly L c)).getD i []).getD pre.usable 0) ∨
    ∃ i, ∀ alphas : List F, alphas.length = sorted.length - 1 → ∃ b, ∀ a ≠ b,
      ∀ (S Com : Type) (ch : S → F × S) (absorb : Com → S → S) (com : Com) (st : S) (V : List F)
        (parts : List (List F)),
        (drawN ch (sorted.length - 1) (drawN ch ((sys.parts pre.mqc).length - 1)
          (ch (ch (absorb com (ch st).2)).2).2).2).1 = alphas.set i a →
        ¬ LookupRowsAccepted ch absorb com st L n t sys pre sorted V parts := by
  by_cases hov : ∀ i, i + 1 < sorted.length →
      ((sorted.map fun c => rowsOf L n (dfsPoly L c)).getD (i + 1) []).getD 0 0 =
        ((sorted.map fun c => rowsOf L n (dfsPoly L c)).getD i []).getD pre.usable 0
  · exact .inl hov
  right
  push Not at hov
  obtain ⟨i, hi, hne⟩ := hov
  set s : List (F × F × F) := sorted.map fun c => ((dfsPoly L c).eval 1, (dfsPoly L c).eval (L.root n),
      (dfsPoly L c).eval (L.root n ^ pre.usable)) with hs
  have hd : (s.getD (i + 1) 0).1 - (s.getD i 0).2.2 ≠ 0 := by
    intro h0
    apply hne
    have e1 : ∀ k (hk : k < sorted.length), s.getD k 0 = ((dfsPoly L sorted[k]).eval 1,
        (dfsPoly L sorted[k]).eval (L.root n), (dfsPoly L sorted[k]).eval (L.root n ^ pre.usable)) := by
      intro k hk
      rw [List.getD_eq_getElem _ _ (by simpa [hs] using hk)]
      simp [hs]
    have e2 : ∀ k (hk : k < sorted.length),
        (sorted.map fun c => rowsOf L n (dfsPoly L c)).getD k [] = rowsOf L n (dfsPoly L sorted[k]) := by
      intro k hk
      rw [List.getD_eq_getElem _ _ (by simpa using hk)]
      simp
    rw [e1 _ hi, e1 i (by omega)] at h0
    rw [e2 _ hi, e2 i (by omega), rowsOf_getD _ 0 (Nat.two_pow_pos n), rowsOf_getD _ _ h.spare, pow_zero]
    linear_combination h0
  refine ⟨i, fun alphas hal => ⟨-(verifyOverlap 1 s (alphas.set i 0) 0) /
    ((s.getD (i + 1) 0).1 - (s.getD i 0).2.2), fun a ha S Com ch absorb com st V parts hdr hacc => ha ?_⟩⟩
  have := (hacc.row h rfl rfl rfl rfl 0 (Nat.two_pow_pos n)).2.2.2.1 rfl
  rw [hdr, verifyOverlap_set 1 _ alphas i a 0 (by omega) (by simpa using hi)] at this
  rw [eq_div_iff hd]
  linear_combination this

/-- C64: with one part (no limit on the quotient, or few lookups), sorted columns and a running product
that the verifier accepts on every row force every lookup to hold: unless one of a few values of `theta`
(they depend on the table only), of `beta` (they also depend on the sorted columns) or of `gamma` is drawn,
or a single value of one of the last challenges. -/
theorem C64_soundness_one_part_partial (h : LookupSetup L A n t sys pre) (hw : LookupsWellFormed sys)
    (hb : TagsBoolean t sys pre.usable) (hopt : 0 < sys.optionCount)
    (hparts : (sys.parts pre.mqc).length = 1) (m : Nat)
    (hm : ∀ tab ∈ sys.tables, tab.columnsNumber + 1 ≤ m) :
    ∃ badTheta : Finset F, badTheta.card ≤
        sys.inputCount * pre.usable * (sys.optionCount * pre.usable + 1) * m ∧
    ∀ theta ∉ badTheta, ∀ sorted : List (List F), ∃ badBeta : Finset F,
      badBeta.card ≤ (2 * ((sys.inputCount + sys.optionCount) * pre.usable)) ^ 2 + 1 ∧
    ∀ beta ∉ badBeta, ∃ badGamma : Finset F,
      badGamma.card ≤ 3 * ((sys.inputCount + sys.optionCount) * pre.usable) ∧
    ∀ gamma ∉ badGamma, ∃ i, ∀ alphas : List F, alphas.length = sorted.length - 1 → ∃ b, ∀ a ≠ b,
      ∀ (S Com : Type) (ch : S → F × S) (absorb : Com → S → S) (com : Com) (st : S) (V : List F)
        (parts : List (List F)),
        (ch st).1 = theta → (ch (absorb com (ch st).2)).1 = beta →
        (ch (ch (absorb com (ch st).2)).2).1 = gamma →
        (drawN ch (sorted.length - 1) (ch (ch (absorb com (ch st).2)).2).2).1 = alphas.set i a →
        LookupRowsAccepted ch absorb com st L n t sys pre sorted V parts →
        LookupsHold t sys pre.usable := by
  obtain ⟨bt, hbt, ht⟩ := lookupsHold_of_cells h hw hb m hm
  refine ⟨bt, hbt, fun theta htheta sorted => ?_⟩
  have hU := h.spare
  rcases overlap_or_alpha h (sys := sys) (pre := pre) sorted with hov | ⟨i, hi⟩
  swap
  · refine ⟨∅, by simp, fun beta _ => ⟨∅, by simp, fun gamma _ => ⟨i, fun alphas hal => ?_⟩⟩⟩
    obtain ⟨b, hb'⟩ := hi alphas hal
    refine ⟨b, fun a ha S Com ch absorb com st V parts _ _ _ hdr hacc => ?_⟩
    exact absurd hacc (hb' a ha S Com ch absorb com st V parts (by rw [hparts]; exact hdr))
  by_cases hlen : sorted.length = sys.inputCount + sys.optionCount
  swap
  · refine ⟨∅, by simp, fun beta _ => ⟨∅, by simp, fun gamma _ => ⟨0, fun alphas _ => ⟨0, ?_⟩⟩⟩⟩
    intro a _ S Com ch absorb com st V parts _ _ _ _ hacc
    exact absurd (hacc.row h rfl rfl rfl rfl 0 (Nat.two_pow_pos n)).2.2.1 hlen
  obtain ⟨bb, hbb, hbeta⟩ := lookup_sound_steps h hopt theta
    (sorted.map fun c => rowsOf L n (dfsPoly L c)) (by simpa using hlen) (by simpa using hov)
  refine ⟨bb, hbb, fun beta hbm => ?_⟩
  obtain ⟨bg, hbg, hgamma⟩ := hbeta beta hbm
  refine ⟨bg, hbg, fun gamma hgm => ⟨0, fun alphas _ => ⟨0, ?_⟩⟩⟩
  intro a _ S Com ch absorb com st V parts h1 h2 h3 _ hacc
  apply ht theta htheta
  apply hgamma gamma hgm fun j => (dfsPoly L V).eval (L.root n ^ j)
  · have := (hacc.row h h1.symm h2.symm h3.symm rfl 0 (Nat.two_pow_pos n)).1
    rw [if_pos rfl, one_mul] at this
    linear_combination -this
  · have := (hacc.row h h1.symm h2.symm h3.symm rfl pre.usable hU).2.1
    rw [if_pos rfl, one_mul] at this
    have h' : (dfsPoly L V).eval (L.root n ^ pre.usable) *
        ((dfsPoly L V).eval (L.root n ^ pre.usable) - 1) = 0 := by linear_combination this
    rcases mul_eq_zero.1 h' with h0 | h0
    · exact .inl h0
    · exact .inr (by linear_combination h0)
  · intro j hj
    obtain ⟨gs, hs, -, -, -, -, -, e1, e2, e3, -⟩ :=
      (hacc.row h h1.symm h2.symm h3.symm rfl j (by omega)).2.2.2.2 hj
    rw [← e1, ← e2]
    exact e3 hparts

/-- C64: with several parts, the same if the additional challenges are independent of the running product
and of the partition polynomials: for every choice of these polynomials, if the lookups do not hold then
one of the additional challenges, or one of the last challenges, is determined (if it exists at all) by the
others. -/
theorem C64_soundness_independent_alphas_partial (h : LookupSetup L A n t sys pre) (hw : LookupsWellFormed sys)
    (hb : TagsBoolean t sys pre.usable) (hopt : 0 < sys.optionCount)
    (hparts : 2 ≤ (sys.parts pre.mqc).length) (m : Nat)
    (hm : ∀ tab ∈ sys.tables, tab.columnsNumber + 1 ≤ m) :
    ∃ badTheta : Finset F, badTheta.card ≤
        sys.inputCount * pre.usable * (sys.optionCount * pre.usable + 1) * m ∧
    ∀ theta ∉ badTheta, ∀ sorted : List (List F), ∃ badBeta : Finset F,
      badBeta.card ≤ (2 * ((sys.inputCount + sys.optionCount) * pre.usable)) ^ 2 + 1 ∧
    ∀ beta ∉ badBeta, ∃ badGamma : Finset F,
      badGamma.card ≤ 3 * ((sys.inputCount + sys.optionCount) * pre.usable) ∧
    ∀ gamma ∉ badGamma, ∀ (V : List F) (parts : List (List F)), LookupsHold t sys pre.usable ∨
      (∃ i, ∀ alphas alphas3 : List F, alphas.length = (sys.parts pre.mqc).length - 1 →
        alphas3.length = sorted.length - 1 → ∃ b, ∀ a ≠ b,
        ¬ LookupRowsAccepted scripted (fun (_ : Unit) s => s) ()
          (theta :: beta :: gamma :: (alphas ++ alphas3.set i a)) L n t sys pre sorted V parts) ∨
      ∃ i < (sys.parts pre.mqc).length - 1, ∀ (alphas rest : List F) (a a' : F),
        alphas.length = (sys.parts pre.mqc).length - 1 →
        LookupRowsAccepted scripted (fun (_ : Unit) s => s) ()
          (theta :: beta :: gamma :: (alphas.set i a ++ rest)) L n t sys pre sorted V parts →
        LookupRowsAccepted scripted (fun (_ : Unit) s => s) ()
          (theta :: beta :: gamma :: (alphas.set i a' ++ rest)) L n t sys pre sorted V parts →
        a = a' := by
  have hdraw : ∀ (l rest : List F), drawN scripted l.length (l ++ rest) = (l, rest) := by
    intro l rest
    induction l with
    | nil => rfl
    | cons x l ih => simp [drawN, scripted, ih]
  obtain ⟨bt, hbt, ht⟩ := lookupsHold_of_cells h hw hb m hm
  refine ⟨bt, hbt, fun theta htheta sorted => ?_⟩
  have hU := h.spare
  rcases overlap_or_alpha h (sys := sys) (pre := pre) sorted with hov | ⟨i, hi⟩
  swap
  · refine ⟨∅, by simp, fun beta _ => ⟨∅, by simp, fun gamma _ V parts => .inr (.inl ⟨i, ?_⟩)⟩⟩
    intro alphas alphas3 hal hal3
    obtain ⟨b, hb'⟩ := hi alphas3 hal3
    refine ⟨b, fun a ha => ?_⟩
    apply hb' a ha
    simp only [scripted, List.headD_cons, List.tail_cons]
    rw [← hal, hdraw, ← hal3, ← List.length_set (i := i) (a := a)]
    have := hdraw (alphas3.set i a) []
    rw [List.append_nil] at this
    rw [this]
  by_cases hlen : sorted.length = sys.inputCount + sys.optionCount
  swap
  · refine ⟨∅, by simp, fun beta _ => ⟨∅, by simp, fun gamma _ V parts => .inr (.inl ⟨0, ?_⟩)⟩⟩
    intro alphas alphas3 _ _
    refine ⟨0, fun a _ hacc => ?_⟩
    exact absurd (hacc.row h rfl rfl rfl rfl 0 (Nat.two_pow_pos n)).2.2.1 hlen
  obtain ⟨bb, hbb, hbeta⟩ := lookup_sound_steps h hopt theta
    (sorted.map fun c => rowsOf L n (dfsPoly L c)) (by simpa using hlen) (by simpa using hov)
  refine ⟨bb, hbb, fun beta hbm => ?_⟩
  obtain ⟨bg, hbg, hgamma⟩ := hbeta beta hbm
  refine ⟨bg, hbg, fun gamma hgm V parts => ?_⟩
  by_contra hcon
  push Not at hcon
  obtain ⟨hno, -, hcon⟩ := hcon
  apply hno
  obtain ⟨al0, rest0, a0, _, hal0, hacc, _, _⟩ := hcon 0 (by omega)
  -- each part holds on each usable row
  have hpart : ∀ j < pre.usable, ∀ i < (sys.parts pre.mqc).length - 1, ∀ gs hs : List F,
      verifyPartProducts (sys.parts pre.mqc)
        (((compressedInputs t sys n theta).map fun c => (1 + beta) * (gamma + c.getD j 0)) ++
          (compressedValues t sys n pre.usable theta).map fun c =>
            (1 + beta) * gamma + c.getD j 0 + beta * c.getD (j + 1) 0) 1 0 = some gs →
      verifyPartProducts (sys.parts pre.mqc) (sorted.map fun c => (1 + beta) * gamma +
        (dfsPoly L c).eval (L.root n ^ j) + beta * (dfsPoly L c).eval (L.root n ^ (j + 1))) 1 0 = some hs →
      ((dfsPoly L V).eval (L.root n ^ j) ::
          parts.map fun p => (dfsPoly L p).eval (L.root n ^ j)).getD i 0 * ((gs.zip hs).getD i (0, 0)).1 =
        ((dfsPoly L V).eval (L.root n ^ j) ::
          parts.map fun p => (dfsPoly L p).eval (L.root n ^ j)).getD (i + 1) 0 *
          ((gs.zip hs).getD i (0, 0)).2 := by
    intro j hj i hi gs hs hgs hhs
    obtain ⟨al, rest, a, a', hal, h1, h2, hne⟩ := hcon i hi
    have hd1 : drawN scripted ((sys.parts pre.mqc).length - 1) (al.set i a ++ rest) =
        (al.set i a, rest) := by
      rw [← hal, ← List.length_set (i := i) (a := a)]; exact hdraw _ _
    have hd2 : drawN scripted ((sys.parts pre.mqc).length - 1) (al.set i a' ++ rest) =
        (al.set i a', rest) := by
      rw [← hal, ← List.length_set (i := i) (a := a')]; exact hdraw _ _
    obtain ⟨g1, h1', hg1, hh1, hgl, hhl, hpl, _, _, _, k1⟩ :=
      (h1.row h (theta := theta) (beta := beta) (gamma := gamma) (alphas := al.set i a) rfl rfl rfl
        (by simp only [scripted, List.headD_cons, List.tail_cons]; rw [hd1]) j (by omega)).2.2.2.2 hj
    obtain ⟨g2, h2', hg2, hh2, _, _, _, _, _, _, k2⟩ :=
      (h2.row h (theta := theta) (beta := beta) (gamma := gamma) (alphas := al.set i a') rfl rfl rfl
        (by simp only [scripted, List.headD_cons, List.tail_cons]; rw [hd2]) j (by omega)).2.2.2.2 hj
    obtain rfl : g1 = gs := Option.some_inj.1 (hg1.symm.trans hgs)
    obtain rfl : g2 = g1 := Option.some_inj.1 (hg2.symm.trans hgs)
    obtain rfl : h1' = hs := Option.some_inj.1 (hh1.symm.trans hhs)
    obtain rfl : h2' = h1' := Option.some_inj.1 (hh2.symm.trans hhs)
    obtain ⟨r1, hr1, er1⟩ := k1 (by omega)
    obtain ⟨r2, hr2, er2⟩ := k2 (by omega)
    rw [show al.set i a' = (al.set i a).set i a' by simp] at hr2
    have hzl : (g2.zip h2').length = (al.set i a).length + 1 := by
      rw [List.length_zip, List.length_set]; omega
    obtain ⟨m1, m2⟩ := verifyParts_set (al.set i a) (g2.zip h2') _ _ _ _ r1 r2 i a' (by simp; omega)
      hzl (by simp; omega) hr1 hr2
    rw [m1] at er1
    have hget : (al.set i a).getD i 0 = a := by
      rw [List.getD_eq_getElem _ _ (by simp; omega)]; simp
    rw [hget] at m2
    have h3 : r1.1 = r2.1 := by linear_combination er1 - er2
    rw [h3] at m2
    have h4 : (a - a') * (((dfsPoly L V).eval (L.root n ^ j) ::
          parts.map fun p => (dfsPoly L p).eval (L.root n ^ j)).getD i 0 *
            ((g2.zip h2').getD i (0, 0)).1 -
        ((dfsPoly L V).eval (L.root n ^ j) ::
          parts.map fun p => (dfsPoly L p).eval (L.root n ^ j)).getD (i + 1) 0 *
          ((g2.zip h2').getD i (0, 0)).2) = 0 := by rw [← m2]; ring
    rcases mul_eq_zero.1 h4 with h5 | h5
    · exact absurd (by linear_combination h5) hne
    · linear_combination h5
  have hd0 : drawN scripted ((sys.parts pre.mqc).length - 1) (al0.set 0 a0 ++ rest0) =
      (al0.set 0 a0, rest0) := by
    rw [← hal0, ← List.length_set (i := 0) (a := a0)]; exact hdraw _ _
  have hrow := fun j hj => hacc.row h (theta := theta) (beta := beta) (gamma := gamma)
    (alphas := al0.set 0 a0) rfl rfl rfl
    (by simp only [scripted, List.headD_cons, List.tail_cons]; rw [hd0]) j hj
  apply ht theta htheta
  apply hgamma gamma hgm fun j => (dfsPoly L V).eval (L.root n ^ j)
  · have := (hrow 0 (Nat.two_pow_pos n)).1
    rw [if_pos rfl, one_mul] at this
    linear_combination -this
  · have := (hrow pre.usable hU).2.1
    rw [if_pos rfl, one_mul] at this
    have h' : (dfsPoly L V).eval (L.root n ^ pre.usable) *
        ((dfsPoly L V).eval (L.root n ^ pre.usable) - 1) = 0 := by linear_combination this
    rcases mul_eq_zero.1 h' with h0 | h0
    · exact .inl h0
    · exact .inr (by linear_combination h0)
  · intro j hj
    obtain ⟨gs, hs, hgs, hhs, hgl, hhl, hpl, e1, e2, -, e3⟩ := (hrow j (by omega)).2.2.2.2 hj
    rw [← e1, ← e2]
    obtain ⟨r, hr1, er⟩ := e3 (by omega)
    have hzl : (gs.zip hs).length = (al0.set 0 a0).length + 1 := by
      rw [List.length_zip, List.length_set]; omega
    obtain ⟨c1, c2⟩ := verifyParts_chain _ (gs.zip hs) _ _ _ r hzl
      (by simp; omega) hr1 (fun i hi => hpart j hj i (by simp at hi; omega) gs hs hgs hhs)
    rw [List.map_fst_zip (by omega), List.map_snd_zip (by omega)] at c2
    apply c2
    rw [List.length_set, hal0]
    rw [c1] at er
    linear_combination er

theorem verifyPartProducts_take : ∀ (k : Nat) (xs : List F) (p : Nat) (ps : List Nat) (acc : F) (size : Nat),
    0 < k → size + k = p → k ≤ xs.length → verifyPartProducts (p :: ps) xs acc size =
      (verifyPartProducts ps (xs.drop k) 1 0).map ((acc * (xs.take k).prod) :: ·) := by
  intro k
  induction k with
  | zero => intro xs p ps acc size h; omega
  | succ k ih =>
    intro xs p ps acc size _ hp hk
    cases xs with
    | nil => simp at hk
    | cons x xs =>
      simp only [List.length_cons] at hk
      simp only [verifyPartProducts, List.drop_succ_cons, List.take_succ_cons, List.prod_cons]
      by_cases h : size + 1 = p
      · rw [if_pos h]
        obtain rfl : k = 0 := by omega
        simp
      · rw [if_neg h, ih xs p ps _ _ (by omega) (by omega) (by omega), mul_assoc]

theorem verifyPartProducts_two (p q : Nat) (xs : List F) (hp : p ≠ 0) (hq : q ≠ 0)
    (hx : xs.length = p + q) :
    verifyPartProducts [p, q] xs 1 0 = some [(xs.take p).prod, (xs.drop p).prod] := by
  rw [verifyPartProducts_take p xs p _ _ _ (by omega) (by omega) (by omega),
    verifyPartProducts_take q _ q _ _ _ (by omega) (by omega) (by simp; omega), List.drop_drop,
    List.drop_eq_nil_of_le hx.le, List.take_of_length_le (l := xs.drop p) (by simp; omega)]
  simp [verifyPartProducts]

/-- A constant column has this value at all powers of the root. -/
theorem dfsPoly_const (hL : L.Lawful A) (n : Nat) (hn : n ≤ A) (c : F) (m : Nat) :
    (dfsPoly L (List.replicate (2 ^ n) c)).eval (L.root n ^ m) = c := by
  have hlt : m % 2 ^ n < 2 ^ n := Nat.mod_lt _ (Nat.two_pow_pos n)
  have : L.root n ^ m = L.root n ^ (m % 2 ^ n) := by
    conv_lhs => rw [← Nat.div_add_mod m (2 ^ n), pow_add, pow_mul, root_pow_card hL n hn, one_pow, one_mul]
  rw [this, dfsPoly_eval_row hL n hn _ (by simp) _ hlt, List.getD_eq_getElem _ _ (by simpa using hlt)]
  simp

theorem verifyOverlap_zero (l : F) : ∀ (k : Nat) (alphas : List F) (f : F),
    verifyOverlap l (List.replicate k (0, 0, 0)) alphas f = f := by
  intro k
  induction k with
  | zero => intro alphas f; cases alphas <;> rfl
  | succ k ih =>
    intro alphas f
    cases k with
    | zero => cases alphas <;> rfl
    | succ k =>
      cases alphas with
      | nil => rfl
      | cons a as =>
        have := ih as (f + (0 - 0) * a * l)
        rw [List.replicate_succ] at this
        simp only [List.replicate_succ, verifyOverlap]
        rw [this]; ring

/-- FINDING (C64): with two parts the argument is not sound, because the additional challenge is drawn
before the running product and the partition polynomial are committed to. For every table and every system
of lookups, the prover who commits to sorted columns of zeros and to the running product one finds, for all
but a few values of the additional challenge, a partition polynomial with which all rows are accepted. -/
theorem C64_forgery (h : LookupSetup L A n t sys pre) (p q : Nat) (hp : p ≠ 0) (hq : q ≠ 0)
    (hparts : sys.parts pre.mqc = [p, q]) (hsum : p + q = sys.inputCount + sys.optionCount)
    (theta beta gamma : F) (hbeta : beta ≠ -1) (hgamma : gamma ≠ 0) :
    ∃ badAlpha : Finset F, badAlpha.card ≤ pre.usable ∧ ∀ alpha ∉ badAlpha, ∃ part, ∀ rest,
      LookupRowsAccepted scripted (fun (_ : Unit) s => s) () (theta :: beta :: gamma :: alpha :: rest)
        L n t sys pre (List.replicate (p + q) (List.replicate (2 ^ n) 0)) (List.replicate (2 ^ n) 1)
        [part] := by
  classical
  have hb1 : 1 + beta ≠ 0 := fun h0 => hbeta (by linear_combination h0)
  have hz : (1 + beta) * gamma ≠ 0 := mul_ne_zero hb1 hgamma
  set fac : Nat → List F := fun j =>
    ((compressedInputs t sys n theta).map fun c => (1 + beta) * (gamma + c.getD j 0)) ++
      (compressedValues t sys n pre.usable theta).map fun c =>
        (1 + beta) * gamma + c.getD j 0 + beta * c.getD (j + 1) 0 with hfac
  set g0 : Nat → F := fun j => ((fac j).take p).prod with hg0
  set g1 : Nat → F := fun j => ((fac j).drop p).prod with hg1
  set h0 : F := ((1 + beta) * gamma) ^ p with hh0
  set h1 : F := ((1 + beta) * gamma) ^ q with hh1
  have hh0n : h0 ≠ 0 := pow_ne_zero _ hz
  refine ⟨(Finset.range pre.usable).image fun j => g1 j / h0,
    Finset.card_image_le.trans (by simp), fun alpha halpha => ?_⟩
  have hden : ∀ j < pre.usable, g1 j - alpha * h0 ≠ 0 := by
    intro j hj e
    apply halpha
    rw [Finset.mem_image]
    refine ⟨j, by simpa using hj, ?_⟩
    rw [div_eq_iff hh0n]
    linear_combination e
  set vals : List F := (List.range (2 ^ n)).map fun j => (h1 - alpha * g0 j) / (g1 j - alpha * h0)
    with hvals
  refine ⟨vals, fun rest j hj => ?_⟩
  have hpv : (dfsPoly L vals).eval (L.root n ^ j) = (h1 - alpha * g0 j) / (g1 j - alpha * h0) := by
    rw [dfsPoly_eval_row h.lib n h.small vals (by rw [hvals]; simp) j hj,
      List.getD_eq_getElem _ _ (by simpa [hvals] using hj)]
    simp [hvals]
  have hzero : ∀ m, (dfsPoly L (List.replicate (2 ^ n) (0 : F))).eval (L.root n ^ m) = 0 :=
    fun m => dfsPoly_const h.lib n h.small 0 m
  have hone : ∀ m, (dfsPoly L (List.replicate (2 ^ n) (1 : F))).eval (L.root n ^ m) = 1 :=
    fun m => dfsPoly_const h.lib n h.small 1 m
  have hm : ∀ z, 1 - (pre.qLast.eval z + pre.qBlind.eval z) = (1 - pre.qLast - pre.qBlind).eval z := by
    intro z; simp only [eval_sub, eval_one]; ring
  have hvv := verifyValues_eq (tableEvaluations L n t (L.root n ^ j)) sys theta
    (1 - (pre.qLast.eval (L.root n ^ j) + pre.qBlind.eval (L.root n ^ j)))
    (1 - (pre.qLast.eval (L.root n * L.root n ^ j) + pre.qBlind.eval (L.root n * L.root n ^ j)))
    (fun i => (columnPoly L t i .selector).eval (L.root n ^ j))
    (fun i => (columnPoly L t i .selector).eval (L.root n * L.root n ^ j))
    (fun i => (columnPoly L t i .constant).eval (L.root n ^ j))
    (fun i => (columnPoly L t i .constant).eval (L.root n * L.root n ^ j))
    (fun tab htab o ho => ((h.inTable.2 tab htab).2 o ho).1) (fun tab htab => by
      simp [tableEvaluations])
  have hvi := verifyInputs_eq (tableEvaluations L n t (L.root n ^ j)) sys theta
    (fun v => (varPoly L n t v).eval (L.root n ^ j)) (fun g hg => by
      refine ⟨?_, fun c hc e he v hv => ?_⟩
      · rw [varPoly, shiftDfs_eval]; simp [tableEvaluations]
      · rw [varPoly, shiftDfs_eval]; simp [tableEvaluations])
  rw [inputsAt_getD h theta j hj] at hvi
  simp only [hm] at hvv
  rw [valuesAt_getD h theta j hj] at hvv
  obtain ⟨sv, hvv, hsl, hse⟩ : ∃ sv : List F, verifyValues (tableEvaluations L n t (L.root n ^ j)) sys theta
      ((1 - pre.qLast - pre.qBlind).eval (L.root n ^ j))
      ((1 - pre.qLast - pre.qBlind).eval (L.root n * L.root n ^ j)) =
        some (((compressedValues t sys n pre.usable theta).map (·.getD j 0)).zip sv) ∧
      sv.length = sys.optionCount ∧
      (j < pre.usable → sv = (compressedValues t sys n pre.usable theta).map (·.getD (j + 1) 0)) := by
    refine ⟨_, hvv, ?_, fun hju => ?_⟩
    · simp only [valuesAt, List.length_map, List.length_flatMap, LookupSystem.optionCount]
      exact sum_zipIdx sys.tables 0 fun tab => tab.options.length
    · have hU := h.spare
      simp only [root_mul_pow]
      exact valuesAt_getD h theta (j + 1) (by omega)
  have mk := h.mask_row j hj
  refine ⟨(drawN scripted (p + q - 1) rest).2, ?_⟩
  unfold lookupVerify
  simp only [trueLookupClaims, List.map_replicate, List.map_cons, List.map_nil, scripted,
    List.headD_cons, List.tail_cons, hparts, List.length_cons, List.length_nil, hm]
  rw [hvv]
  simp only [Option.bind_eq_bind, Option.bind_some]
  rw [hvi]
  simp only [Option.bind_some]
  rw [root_mul_pow, ← pow_add, hzero, hzero, hzero, hone, hone, hpv]
  simp only [List.map_map]
  have hfl : (((compressedInputs t sys n theta).map ((fun l => (1 + beta) * (gamma + l)) ∘
      fun x => x.getD j 0)) ++ List.map (fun v : F × F => (1 + beta) * gamma + v.1 + beta * v.2)
        (((compressedValues t sys n pre.usable theta).map (·.getD j 0)).zip sv)).length = p + q := by
    simp only [List.length_append, List.length_map, length_compressedInputs, List.length_zip,
      length_compressedValues, hsl]
    omega
  rw [verifyPartProducts_two p q _ hp hq hfl, verifyPartProducts_two p q _ hp hq (by simp)]
  have hf2 : j < pre.usable → (((compressedInputs t sys n theta).map
      ((fun l => (1 + beta) * (gamma + l)) ∘ fun x => x.getD j 0)) ++
      List.map (fun v : F × F => (1 + beta) * gamma + v.1 + beta * v.2)
        (((compressedValues t sys n pre.usable theta).map (·.getD j 0)).zip sv)) = fac j := by
    intro hju
    rw [hse hju, List.zip_map', List.map_map]
    rfl
  generalize (((compressedInputs t sys n theta).map
      ((fun l => (1 + beta) * (gamma + l)) ∘ fun x => x.getD j 0)) ++
      List.map (fun v : F × F => (1 + beta) * gamma + v.1 + beta * v.2)
        (((compressedValues t sys n pre.usable theta).map (·.getD j 0)).zip sv)) = fs at hfl hf2
  simp [drawN, scripted, verifyLookupParts, verifyOverlap_zero]
  by_cases hju : j < pre.usable
  · have hd := hden j hju
    left
    rw [hf2 hju]
    change alpha * (g0 j - (h1 - alpha * g0 j) / (g1 j - alpha * h0) * h0) +
      ((h1 - alpha * g0 j) / (g1 j - alpha * h0) * g1 j - h1) = 0
    have e : (h1 - alpha * g0 j) / (g1 j - alpha * h0) * (g1 j - alpha * h0) = h1 - alpha * g0 j :=
      div_mul_cancel₀ _ hd
    linear_combination e
  · right
    rw [if_neg hju] at mk
    linear_combination -mk

/-! ## concrete cases -/

/-- One witness column, one table `5, 6` in the constant column with its tag in the first selector column;
the second selector column switches the lookup on in rows 0 and 1. -/
def exLookupTable (w : List (ZMod 17)) : PlonkTable (ZMod 17) :=
  ⟨[w], [], [[0, 5, 6, 0]], [[0, 1, 1, 0], [1, 1, 0, 0]]⟩

/-- The witness is looked up in the table. -/
def exLookups : LookupSystem (ZMod 17) :=
  ⟨[⟨1, [⟨1, [.term ⟨[⟨0, 0, true, .witness⟩], 1⟩]⟩]⟩], [⟨1, 0, [[⟨0, 0, true, .constant⟩]]⟩]⟩


noncomputable def exLookupData (mqc : Nat) : LookupData (ZMod 17) :=
  ⟨dfsPoly (FftLib.ofRoots exRoots17) (lagrangeValues (2 ^ 2) 3),
    dfsPoly (FftLib.ofRoots exRoots17) (blindValues (2 ^ 2) 3),
    dfsPoly (FftLib.ofRoots exRoots17) (lagrangeValues (2 ^ 2) 0), 3, mqc⟩

theorem exLookupSetup (w : List (ZMod 17)) (hw : w.length = 4) (mqc : Nat) :
    LookupSetup (FftLib.ofRoots exRoots17) 4 2 (exLookupTable w) exLookups (exLookupData mqc) where
  lib := exLib17_lawful
  small := by norm_num
  fits := by norm_num
  rect := by
    unfold PlonkTable.Rectangular
    simp [exLookupTable, hw]
  rows := by simp [exLookupTable, PlonkTable.rowsAmount, PlonkTable.maxSize, hw]
  used := by simp [exLookupData]
  spare := by simp [exLookupData]
  qLast := rfl
  qBlind := rfl
  lagrange0 := rfl
  inTable := by
    refine ⟨fun g hg => ?_, fun tab htab => ?_⟩
    · simp only [exLookups, List.mem_singleton] at hg
      subst hg
      refine ⟨by simp [exLookupTable], fun c hc e he v hv => ?_⟩
      simp only [List.mem_singleton] at hc
      subst hc
      simp only [List.mem_singleton] at he
      subst he
      simp only [Expr.visitVars, List.mem_singleton] at hv
      subst hv
      exact ⟨_, rfl, by simp [exLookupTable]⟩
    · simp only [exLookups, List.mem_singleton] at htab
      subst htab
      refine ⟨by simp [exLookupTable], fun o ho => ?_⟩
      simp only [List.mem_singleton] at ho
      subst ho
      refine ⟨rfl, fun v hv => ?_⟩
      simp only [List.mem_singleton] at hv
      subst hv
      simp [exLookupTable]

theorem exLookupsWellFormed : LookupsWellFormed exLookups where
  named := by
    intro g hg c hc
    simp only [exLookups, List.mem_singleton] at hg
    subst hg
    simp only [List.mem_singleton] at hc
    subst hc
    exact ⟨0, _, rfl, rfl, rfl⟩
  nonzero := by decide
  distinct := by decide

theorem exTagsBoolean (w : List (ZMod 17)) : TagsBoolean (exLookupTable w) exLookups 3 := by
  intro j hj
  refine ⟨fun g hg => ?_, fun tab htab => ?_⟩
  · simp only [exLookups, List.mem_singleton] at hg
    subst hg
    interval_cases j <;> simp [PlonkTable.selectorAt, exLookupTable]
  · simp only [exLookups, List.mem_singleton] at htab
    subst htab
    interval_cases j <;> simp [PlonkTable.selectorAt, exLookupTable]

theorem exTablesLaidOut (w : List (ZMod 17)) : TablesLaidOut (exLookupTable w) exLookups 3 where
  some := by decide
  first := by
    intro tab htab
    simp only [exLookups, List.mem_singleton] at htab
    subst htab
    simp [PlonkTable.selectorAt, exLookupTable]
  grouped := by
    have : tableEntries (exLookupTable w) exLookups 3 = [none, some (1, [5]), some (1, [6])] := by
      simp [tableEntries, exLookups, exLookupTable, PlonkTable.selectorAt, optionRow,
        PlonkTable.constantAt, List.range_succ]
    rw [this]
    intro i j k hij hjk hk
    simp only [List.length_cons, List.length_nil] at hk
    interval_cases k <;> interval_cases j <;> interval_cases i <;> decide

/-- The lookups hold for the witness `6, 5` and do not for `6, 7`: the hypotheses of `C35_sortable` and
of the soundness theorems are met. -/
theorem exLookupsHold : LookupsHold (exLookupTable [6, 5, 0, 0]) exLookups 3 := by
  intro j hj g hg hs c hc
  simp only [exLookups, List.mem_singleton] at hg
  subst hg
  simp only [List.mem_singleton] at hc
  subst hc
  refine ⟨0, _, rfl, rfl, _, List.mem_singleton.2 rfl, ?_⟩
  interval_cases j
  · exact ⟨2, by norm_num, by decide +kernel, by decide +kernel⟩
  · exact ⟨1, by norm_num, by decide +kernel, by decide +kernel⟩
  · exact absurd rfl hs

theorem exLookupsFail : ¬ LookupsHold (exLookupTable [6, 7, 0, 0]) exLookups 3 := by
  intro h
  obtain ⟨k, tab, hk, -, o, ho, i, hi, hs, he⟩ := h 1 (by norm_num) _ (List.mem_singleton.2 rfl)
    (by decide +kernel) _ (List.mem_singleton.2 rfl)
  cases k with
  | succ k => simp [exLookups] at hk
  | zero =>
    simp only [exLookups, List.getElem?_cons_zero, Option.some.injEq] at hk
    subst hk
    simp only [List.mem_singleton] at ho
    subst ho
    revert he
    interval_cases i <;> decide +kernel

/-- The compressed columns of the example can be sorted, for `theta = 3`. -/
theorem exSortable : Sortable (compressedInputs (exLookupTable [6, 5, 0, 0]) exLookups 2 3)
    (compressedValues (exLookupTable [6, 5, 0, 0]) exLookups 2 3 3) (2 ^ 2) 3 where
  used := by norm_num
  spare := by norm_num
  inputSize := by decide +kernel
  valueSize := by decide +kernel
  table := by decide +kernel
  first := by decide +kernel
  last := by decide +kernel
  grouped := by
    have : cells (compressedValues (exLookupTable [6, 5, 0, 0]) exLookups 2 3 3) 3 = [0, 16, 2] := by
      decide +kernel
    rw [this]
    intro i j k hij hjk hk
    simp only [List.length_cons, List.length_nil] at hk
    interval_cases k <;> interval_cases j <;> interval_cases i <;> decide
  present := by decide +kernel

/-- What the sorting makes of them, with the inputs `2, 16, 0` and the table `0, 16, 2`. -/
example : sortPolynomials [[(2 : ZMod 17), 16, 0, 0]] [[0, 16, 2, 0]] 4 3 =
    some [[0, 16, 16, 2], [2, 2, 0, 0]] := by
  decide +kernel

/-- The prover gets through, with one part and with two. -/
example (mqc : Nat) (hm : mqc = 0 ∨ mqc = 3) : ∃ gamma res st',
    lookupProve scripted (fun (_ : Unit) s => s) (fun _ => ()) (FftLib.ofRoots exRoots17) 2
      (exLookupTable [6, 5, 0, 0]) exLookups (exLookupData mqc) [3, 2, gamma, 5, 7] = some (res, st') := by
  have hp : ∀ p ∈ exLookups.parts (exLookupData mqc).mqc, p ≠ 0 := by
    rcases hm with rfl | rfl
    · show ∀ p ∈ exLookups.parts 0, p ≠ 0
      decide +kernel
    · show ∀ p ∈ exLookups.parts 3, p ≠ 0
      decide +kernel
  obtain ⟨sorted, -, bad, hb, h⟩ := C35_prover_succeeds (exLookupSetup [6, 5, 0, 0] rfl mqc) (by simp [exLookups])
    hp 3 exSortable 2 (by decide)
  obtain ⟨gamma, hg⟩ : ∃ gamma, gamma ∉ bad := by
    by_contra hcon
    push Not at hcon
    have : (Finset.univ : Finset (ZMod 17)) ⊆ bad := fun a _ => hcon a
    have h1 := Finset.card_le_card this
    have h2 : (Finset.univ : Finset (ZMod 17)).card = 17 := by decide
    have h3 : (exLookups.inputCount + exLookups.optionCount) * (exLookupData mqc).usable = 6 := rfl
    omega
  obtain ⟨⟨r, st'⟩, hr⟩ := h gamma hg _ Unit scripted (fun _ s => s) (fun _ => ()) [3, 2, gamma, 5, 7] rfl rfl rfl
  exact ⟨gamma, r, st', hr⟩

/-- FINDING (C64): a table whose lookups do not hold is accepted, with two parts. -/
theorem C64_forgery_witness : ∃ (alpha : ZMod 17) (part : List (ZMod 17)),
    ¬ LookupsHold (exLookupTable [6, 7, 0, 0]) exLookups 3 ∧
    LookupSetup (FftLib.ofRoots exRoots17) 4 2 (exLookupTable [6, 7, 0, 0]) exLookups (exLookupData 3) ∧
    LookupRowsAccepted scripted (fun (_ : Unit) s => s) () [3, 2, 4, alpha, 5]
      (FftLib.ofRoots exRoots17) 2 (exLookupTable [6, 7, 0, 0]) exLookups (exLookupData 3)
      [[0, 0, 0, 0], [0, 0, 0, 0]] [1, 1, 1, 1] [part] := by
  have hS := exLookupSetup [6, 7, 0, 0] rfl 3
  obtain ⟨bad, hb, h⟩ := C64_forgery hS 1 1 (by norm_num) (by norm_num)
    (by show exLookups.parts 3 = _; decide +kernel) rfl 3 2 4 (by decide) (by decide)
  obtain ⟨alpha, ha⟩ : ∃ alpha, alpha ∉ bad := by
    by_contra hcon
    push Not at hcon
    have : (Finset.univ : Finset (ZMod 17)) ⊆ bad := fun a _ => hcon a
    have h1 := Finset.card_le_card this
    have h2 : (Finset.univ : Finset (ZMod 17)).card = 17 := by decide
    have h3 : (exLookupData 3).usable = 3 := rfl
    omega
  obtain ⟨part, hp⟩ := h alpha ha
  exact ⟨alpha, part, exLookupsFail, hS, hp [5]⟩

end Crypto3Zk
