import Verif.Lemmas.PlonkTable
import Verif.Spec.PlonkTable
import Mathlib.Algebra.Field.Rat
import Mathlib.Tactic.FinCases

/-!
# C27 row rotation, C28 padding, C29 lookup parts
-/

namespace Crypto3Zk

set_option linter.unusedSectionVars false

/-! ## C27 -/

/-- C27. For every height, row and rotation that does not go further back than `rows + row` (and no
64-bit overflow), the row read is `row + rotation` modulo the height, which is inside the column. -/
theorem C27_rotation_cyclic (rows row : Nat) (rot : Int) (h0 : 0 < rows)
    (hlo : -((rows : Int) + row) ≤ rot) (hhi : (rows : Int) + row + rot < 2 ^ 64) :
    ∃ r, rotatedRow rows row rot = some r ∧ r < rows ∧ (r : Int) = ((row : Int) + rot) % rows := by
  refine ⟨_, rotatedRow_eq rows row rot h0 (by omega) hhi, ?_, ?_⟩
  · have := Int.emod_lt_of_pos ((row : Int) + rot) (show (0 : Int) < rows by omega)
    have := Int.emod_nonneg ((row : Int) + rot) (show (rows : Int) ≠ 0 by omega)
    omega
  · have := Int.emod_nonneg ((row : Int) + rot) (show (rows : Int) ≠ 0 by omega)
    omega

example : rotatedRow 8 0 (-1) = some 7 ∧ rotatedRow 8 7 1 = some 0 ∧ rotatedRow 5 1 (-6) = some 0 := by
  decide +kernel

/-- C27. On a table whose height is a power of two the rotation is cyclic for every rotation at all:
the wrap-around of the 64-bit sum is harmless. -/
theorem C27_rotation_cyclic_pow2 (k row : Nat) (rot : Int) (hk : k ≤ 64) :
    ∃ r, rotatedRow (2 ^ k) row rot = some r ∧ r < 2 ^ k ∧
      (r : Int) = ((row : Int) + rot) % (2 ^ k : Nat) := by
  have hp : (0 : Int) < (2 ^ k : Nat) := by exact_mod_cast Nat.two_pow_pos k
  refine ⟨_, rotatedRow_pow2 k row rot hk, ?_, ?_⟩
  · have := Int.emod_lt_of_pos ((row : Int) + rot) hp
    have := Int.emod_nonneg ((row : Int) + rot) hp.ne'
    omega
  · have := Int.emod_nonneg ((row : Int) + rot) hp.ne'
    omega

/-- C27, why the bound is there: on a table with three rows, rotation `-4` seen from row `0` reads
row `0`, although `-4` modulo `3` is row `2`. -/
theorem C27_far_rotation_not_cyclic :
    rotatedRow 3 0 (-4) = some 0 ∧ (((0 : Int) + (-4)) % 3) = 2 := by decide +kernel

/-- C27. On a rectangular non-empty table, a constraint whose variables name existing columns, with
rotations not further back than `rows + row`, evaluates at a row to the value of its expression with
every variable standing for its cyclically rotated cell; in particular no read is out of range. -/
theorem C27_evaluate {F : Type} [CommRing F] (t : PlonkTable F) (rows row : Nat)
    (e : Expr PlonkVar F) (hrect : t.Rectangular rows) (h0 : 0 < rows) (hrows : t.rowsAmount = rows)
    (hcol : ∀ v ∈ e.visitVars, ∃ cols, t.columnsOf v.type = some cols ∧ v.index < cols.length)
    (hrot : ∀ v ∈ e.visitVars, -((rows : Int) + row) ≤ v.rotation ∧
      (rows : Int) + row + v.rotation < 2 ^ 64) :
    evaluateAtRow e row t = some (e.eval (t.cyclicCell rows row)) := by
  unfold evaluateAtRow
  apply evalM_eq_eval
  intro v hv
  obtain ⟨cols, hc, hi⟩ := hcol v hv
  obtain ⟨hlo, hhi⟩ := hrot v hv
  obtain ⟨r, hr, hlt, hre⟩ := C27_rotation_cyclic rows row v.rotation h0 hlo hhi
  have hlen : ∀ c ∈ cols, c.length = rows := by
    obtain ⟨a, b, c, d⟩ := hrect
    cases hty : v.type <;> rw [hty] at hc <;> simp [PlonkTable.columnsOf] at hc <;> subst hc <;>
      assumption
  have hcl := hlen _ (List.getElem_mem hi)
  unfold PlonkTable.cell PlonkTable.cyclicCell
  rw [hrows, hc, hr, ← hre]
  simp [hi, List.getElem?_eq_getElem, hcl, hlt]

/-- C27, why the table has to be rectangular: the height is that of the longest column, and reading a
shorter one runs off its end. -/
theorem C27_ragged_undefined :
    evaluateAtRow (F := ℚ) (.term ⟨[⟨1, 0, true, .witness⟩], 1⟩) 1 ⟨[[5, 7], [5]], [], [], []⟩ = none := by
  decide +kernel

example : evaluateAtRow (F := ℚ)
    (.bin .sub (.term ⟨[⟨0, -1, true, .witness⟩], 2⟩) (.term ⟨[⟨0, 1, true, .constant⟩], 1⟩)) 0
    ⟨[[5, 7, 11]], [], [[1, 2, 3]], []⟩ = some 20 := by
  decide +kernel

/-- the numbering of columns used by `operator[]` (plonk/assignment.hpp:368-375) is the same as
the one of the table description proved injective in C26: witnesses, public inputs, constants,
selectors, in this order, and nothing beyond. -/
theorem C27_column_order {F : Type} (t : PlonkTable F) (i : Nat) :
    t.column i = (t.witnesses ++ t.publicInputs ++ t.constants ++ t.selectors)[i]? := by
  unfold PlonkTable.column
  simp only [List.append_assoc]
  split_ifs with h1 h2 h3 h4 h5
  · rw [List.getElem?_append_left h1]
  · rw [List.getElem?_append_right (by omega), List.getElem?_append_left h3]
  · rw [List.getElem?_append_right (by omega), List.getElem?_append_right (by omega),
      List.getElem?_append_left h4]
  · rw [List.getElem?_append_right (by omega), List.getElem?_append_right (by omega),
      List.getElem?_append_right (by omega)]
  · omega
  · rw [eq_comm, List.getElem?_eq_none_iff]
    simp; omega

/-! ## C28 -/

/-- C28. For every number of usable rows below `2^31` the padded row count is a power of two, at
least 8, and strictly larger than the number of usable rows. -/
theorem C28_padded_rows (u : Nat) (h : u < 2 ^ 31) :
    ∃ k, paddedRows u = some (2 ^ k) ∧ 8 ≤ 2 ^ k ∧ u < 2 ^ k :=
  let ⟨k, h1, h2, h3, _⟩ := paddedRows_eq u h
  ⟨k, h1, h2, h3⟩

example : paddedRows 8 = some 16 ∧ paddedRows 9 = some 16 ∧ paddedRows 0 = some 8 := by
  decide +kernel

/-- C28, minimality: above the floor of 8 the padded count is at most twice the usable count. -/
theorem C28_padded_rows_minimal (u p : Nat) (h : paddedRows u = some p) (h8 : 8 < p) : p ≤ 2 * u := by
  unfold paddedRows at h
  by_cases h0 : u = 0
  · subst h0; simp at h; omega
  simp only [if_neg h0] at h
  have hlt : 2 ^ Nat.clog 2 u < 2 * u := by
    rcases Nat.lt_or_ge u 2 with h1 | h1
    · have : u = 1 := by omega
      subst this; simp
    · have h2 := Nat.pow_pred_clog_lt_self (b := 2) (by norm_num) (x := u) (by omega)
      have h3 : 0 < Nat.clog 2 u := Nat.clog_pos (by norm_num) (by omega)
      obtain ⟨m, hm⟩ : ∃ m, Nat.clog 2 u = m + 1 := ⟨Nat.clog 2 u - 1, by omega⟩
      rw [hm] at h2 ⊢
      simp only [Nat.pred_eq_sub_one, Nat.add_sub_cancel] at h2
      rw [pow_succ]; omega
  have hm := Nat.mod_le (2 ^ Nat.clog 2 u * 2) (2 ^ 32)
  split_ifs at h with h1 h2 h3 h3 <;> simp only [Option.some.injEq] at h <;> omega

/-- C28, why the bound is there: a table with `2^31` usable rows is "padded" to eight rows, because
the doubled count wraps around in 32 bits. -/
theorem C28_overflow : paddedRows (2 ^ 31) = some 8 := by
  unfold paddedRows
  have : Nat.clog 2 (2 ^ 31) = 31 := Nat.clog_pow 2 31 (by norm_num)
  rw [this]
  norm_num

/-- C28, `basic_padding`. The result has the padded number of rows in every column, keeps every
original cell, is zero elsewhere, and keeps the number of columns of each kind. -/
theorem C28_basic_padding {F : Type} [Zero F] (t : PlonkTable F) (h : t.rowsAmount < 2 ^ 31) :
    ∃ t' k, basicPadding t = some (t', 2 ^ k) ∧ 8 ≤ 2 ^ k ∧ t.rowsAmount < 2 ^ k ∧
      ArePadded t.rowsAmount (2 ^ k) (fun _ _ => 0) t.witnesses t'.witnesses ∧
      ArePadded t.rowsAmount (2 ^ k) (fun _ _ => 0) t.publicInputs t'.publicInputs ∧
      ArePadded t.rowsAmount (2 ^ k) (fun _ _ => 0) t.constants t'.constants ∧
      ArePadded t.rowsAmount (2 ^ k) (fun _ _ => 0) t.selectors t'.selectors := by
  obtain ⟨k, hp, h8, hlt, _⟩ := paddedRows_eq _ h
  obtain ⟨l1, l2, l3, l4⟩ := (rowsAmount_le t _).1 le_rfl
  have key : ∀ cols : List (List F), (∀ c ∈ cols, c.length ≤ t.rowsAmount) →
      ArePadded t.rowsAmount (2 ^ k) (fun _ _ => 0) cols (cols.map fun c => resize c (2 ^ k) 0) := by
    intro cols hc
    refine ⟨by simp, fun j c hj => ⟨resize c (2 ^ k) 0, by simp [hj], resize_length _ _ _,
      fun i hi => ?_, fun i h1 h2 => ?_, fun i h1 h2 => ?_⟩⟩
    all_goals have := hc c (List.mem_of_getElem? hj)
    · exact resize_get_lt _ _ _ _ hi (by omega)
    · exact resize_get_ge _ _ _ _ h1 (by omega)
    · exact resize_get_ge _ _ _ _ (by omega) h2
  refine ⟨⟨t.witnesses.map fun c => resize c (2 ^ k) 0, t.publicInputs.map fun c => resize c (2 ^ k) 0,
    t.constants.map fun c => resize c (2 ^ k) 0, t.selectors.map fun c => resize c (2 ^ k) 0⟩,
    k, ?_, h8, hlt, key _ l1, key _ l2, key _ l3, key _ l4⟩
  simp [basicPadding, hp]

/-- C28, `zk_padding`. As for `basic_padding`, but rows from the usable height on hold values drawn
from the random engine in witness, constant and selector columns, and zero in public inputs. Every
cell gets its own draw: column `j` of the witnesses uses draws `j * (p - u), ...`, the constants
continue after all witnesses and the selectors after all constants. -/
theorem C28_zk_padding {F : Type} [Zero F] (rnd : Nat → F) (t : PlonkTable F)
    (h : t.rowsAmount < 2 ^ 31) :
    ∃ t' k, zkPadding rnd t = some (t', 2 ^ k) ∧ 8 ≤ 2 ^ k ∧ t.rowsAmount < 2 ^ k ∧
      let blind := 2 ^ k - t.rowsAmount
      ArePadded t.rowsAmount (2 ^ k) (fun j i => rnd (j * blind + i)) t.witnesses t'.witnesses ∧
      ArePadded t.rowsAmount (2 ^ k) (fun _ _ => 0) t.publicInputs t'.publicInputs ∧
      ArePadded t.rowsAmount (2 ^ k) (fun j i => rnd ((t.witnesses.length + j) * blind + i))
        t.constants t'.constants ∧
      ArePadded t.rowsAmount (2 ^ k)
        (fun j i => rnd ((t.witnesses.length + t.constants.length + j) * blind + i))
        t.selectors t'.selectors := by
  obtain ⟨k, hp, h8, hlt, _⟩ := paddedRows_eq _ h
  obtain ⟨l1, l2, l3, l4⟩ := (rowsAmount_le t _).1 le_rfl
  set u := t.rowsAmount with hu
  have key : ∀ (cols : List (List F)) (n : Nat), (∀ c ∈ cols, c.length ≤ u) →
      ArePadded u (2 ^ k) (fun j i => rnd ((n + j) * (2 ^ k - u) + i)) cols
        (fillColumns rnd u (2 ^ k) (n * (2 ^ k - u)) (cols.map fun c => resize c u 0)).1 := by
    intro cols n hc
    refine ⟨by simp [fillColumns_length], fun j c hj =>
      ⟨fillRandom rnd u (2 ^ k) ((n + j) * (2 ^ k - u)) (resize c u 0), ?_, ?_⟩⟩
    · rw [fillColumns_get]
      simp [hj, add_mul]
    · exact fillRandom_spec rnd u (2 ^ k) _ c (hc c (List.mem_of_getElem? hj)) hlt.le
  refine ⟨_, k, by unfold zkPadding; simp only [← hu, hp]; rfl, h8, hlt, ?_, ?_, ?_, ?_⟩
  · have := key t.witnesses 0 l1
    simpa only [Nat.zero_mul, Nat.zero_add] using this
  · refine ⟨by simp, fun j c hj => ⟨resize (resize c u 0) (2 ^ k) 0, by simp [hj],
      resize_length _ _ _, fun i hi => ?_, fun i h1 h2 => ?_, fun i h1 h2 => ?_⟩⟩
    all_goals have := l2 c (List.mem_of_getElem? hj)
    all_goals have hrl := resize_length c u (0 : F)
    · rw [resize_get_lt _ _ _ _ (by omega) (by omega), resize_get_lt _ _ _ _ hi (by omega)]
    · rw [resize_get_lt _ _ _ _ (by omega) (by omega), resize_get_ge _ _ _ _ h1 h2]
    · exact resize_get_ge _ _ _ _ (by omega) h2
  · have := key t.constants t.witnesses.length l3
    simp only [fillColumns_count, Nat.zero_add, List.length_map, ← hu]
    exact this
  · have := key t.selectors (t.witnesses.length + t.constants.length) l4
    simp only [fillColumns_count, Nat.zero_add, List.length_map, ← hu, ← Nat.add_mul]
    exact this

/-- C28. After padding, the height of the table is the padded count (as soon as it has a column). -/
theorem C28_height_after {F : Type} [Zero F] (t t' : PlonkTable F) (p : Nat)
    (h : t.rowsAmount < 2 ^ 31) (hb : basicPadding t = some (t', p))
    (hne : t.witnesses ≠ [] ∨ t.publicInputs ≠ [] ∨ t.constants ≠ [] ∨ t.selectors ≠ []) :
    t'.rowsAmount = p := by
  unfold basicPadding at hb
  obtain ⟨k, hp, -⟩ := paddedRows_eq _ h
  rw [hp] at hb
  simp only [Option.bind_eq_bind, Option.bind_some, Option.pure_def, Option.some.injEq,
    Prod.mk.injEq] at hb
  obtain ⟨rfl, rfl⟩ := hb
  apply le_antisymm
  · rw [rowsAmount_le]
    simp [resize_length]
  · have h2 := (rowsAmount_le (F := F) ⟨_, _, _, _⟩ _).1 (le_refl (PlonkTable.rowsAmount
      ⟨t.witnesses.map fun c => resize c (2 ^ k) 0, t.publicInputs.map fun c => resize c (2 ^ k) 0,
        t.constants.map fun c => resize c (2 ^ k) 0, t.selectors.map fun c => resize c (2 ^ k) 0⟩))
    simp only [List.mem_map, forall_exists_index, and_imp, forall_apply_eq_imp_iff₂, resize_length] at h2
    obtain ⟨a1, a2, a3, a4⟩ := h2
    rcases hne with hne | hne | hne | hne <;>
      obtain ⟨c, hc⟩ := List.exists_mem_of_ne_nil _ hne
    · exact a1 c hc
    · exact a2 c hc
    · exact a3 c hc
    · exact a4 c hc

example : basicPadding (F := ℚ) ⟨[[1, 2, 3], [4]], [[9]], [], [[1, 0]]⟩ =
    some (⟨[[1, 2, 3, 0, 0, 0, 0, 0], [4, 0, 0, 0, 0, 0, 0, 0]], [[9, 0, 0, 0, 0, 0, 0, 0]], [],
      [[1, 0, 0, 0, 0, 0, 0, 0]]⟩, 8) := by decide +kernel

example : zkPadding (F := ℚ) (fun k => k + 100) ⟨[[1, 2, 3, 4, 5, 6, 7]], [[9]], [], [[1, 0]]⟩ =
    some (⟨[[1, 2, 3, 4, 5, 6, 7, 100]], [[9, 0, 0, 0, 0, 0, 0, 0]], [],
      [[1, 0, 0, 0, 0, 0, 0, 101]]⟩, 8) := by decide +kernel

/-! ## C29

A part is a run of consecutive lookups (first the constraints, each costing its degree plus one, then
the table options, each costing three). -/

/-- C29, no lookup is lost or counted twice: the parts are the lengths of consecutive runs whose
concatenation is the list of all lookups. Each run costs less than the chunk limit, or consists of a
single lookup that alone reaches it, or is empty; only the first run can be empty. The full property
(every part non-empty and within the budget) is refuted below. -/
theorem C29_parts_partial (numGates : Nat) (degrees : List Nat) (options mx : Nat) (hmx : mx ≠ 0) :
    ∃ runs : List (List Nat),
      runs.flatten = degrees.map (· + 1) ++ List.replicate options 3 ∧
      lookupParts numGates degrees options mx = runs.map List.length ∧
      (∀ r ∈ runs, r.sum < mx ∨ r.length ≤ 1) ∧ (∀ r ∈ runs.tail, r ≠ []) := by
  obtain ⟨segs, cur, h1, h2, h3, h4, h5, h6, h7, h8, -, -⟩ :=
    parts_inv mx (degrees.map (· + 1) ++ List.replicate options 3)
  refine ⟨segs ++ [cur], by simpa using h1.symm, ?_, ?_, ?_⟩
  · unfold lookupParts
    rw [if_neg hmx]
    simp only [h2, h3, List.map_append, List.map_cons, List.map_nil]
  · intro r hr
    rcases List.mem_append.1 hr with hr | hr
    · exact (h6 r hr).symm
    · simp only [List.mem_singleton] at hr; subst hr; exact h5.symm
  · intro r hr
    cases segs with
    | nil => simp at hr
    | cons a segs =>
      simp only [List.cons_append, List.tail_cons, List.mem_append, List.mem_singleton] at hr
      rcases hr with hr | hr
      · exact h8 r (by simpa using hr)
      · subst hr
        intro hc
        have := h7 hc
        rw [this] at h2
        simp at h2

/-- C29. The parts sum up to the number of lookup constraints plus the number of options, for every
limit (with limit zero there is one part, provided there is a lookup gate). -/
theorem C29_parts_sum (numGates : Nat) (degrees : List Nat) (options mx : Nat)
    (h : mx ≠ 0 ∨ numGates ≠ 0) :
    (lookupParts numGates degrees options mx).sum = degrees.length + options := by
  by_cases hmx : mx = 0
  · unfold lookupParts
    rw [if_pos hmx, if_neg (by tauto)]
    simp; omega
  · obtain ⟨runs, h1, h2, -, -⟩ := C29_parts_partial numGates degrees options mx hmx
    rw [h2]
    have := congrArg List.length h1
    rw [List.length_flatten] at this
    simpa using this

/-- C29. Exactly when every part is non-empty: there is a lookup at all, and the first one alone
stays below the limit. -/
theorem C29_parts_nonempty_iff (numGates : Nat) (degrees : List Nat) (options mx : Nat)
    (hmx : mx ≠ 0) :
    (∀ p ∈ lookupParts numGates degrees options mx, p ≠ 0) ↔
      ∃ c, (degrees.map (· + 1) ++ List.replicate options 3).head? = some c ∧ c < mx := by
  obtain ⟨segs, cur, h1, h2, h3, h4, h5, h6, h7, h8, h9, h10⟩ :=
    parts_inv mx (degrees.map (· + 1) ++ List.replicate options 3)
  set costs := degrees.map (· + 1) ++ List.replicate options 3 with hcosts
  have hp : lookupParts numGates degrees options mx = (segs ++ [cur]).map List.length := by
    unfold lookupParts
    rw [if_neg hmx]
    simp only [← hcosts, h2, h3, List.map_append, List.map_cons, List.map_nil]
  rw [hp]
  constructor
  · intro hall
    cases hh : costs.head? with
    | none =>
      exfalso
      have hnil : costs = [] := List.head?_eq_none_iff.1 hh
      rw [hnil] at h1
      have hc : cur = [] := by
        have := h1.symm; rw [List.append_eq_nil_iff] at this; exact this.2
      exact hall 0 (by simp [hc]) rfl
    | some c =>
      refine ⟨c, rfl, ?_⟩
      by_contra hlt
      have hs := h10 ⟨c, hh, by omega⟩
      have : ([] : List Nat) ∈ segs := List.mem_of_mem_head? (by rw [hs]; rfl)
      exact hall 0 (List.mem_map.2 ⟨[], by simp [this], rfl⟩) rfl
  · rintro ⟨c, hh, hlt⟩ p hp
    obtain ⟨s, hs, rfl⟩ := List.mem_map.1 hp
    rcases List.mem_append.1 hs with hs | hs
    · have hne : segs.head? ≠ some [] := fun hh' => by
        obtain ⟨c', hc', hm⟩ := h9 hh'
        rw [hh] at hc'; simp at hc'; omega
      cases segs with
      | nil => simp at hs
      | cons a segs =>
        simp only [List.mem_cons] at hs
        rcases hs with rfl | hs
        · simpa using hne
        · simpa using h8 s (by simpa using hs)
    · simp only [List.mem_singleton] at hs; subst hs
      intro h0
      have := h7 (List.length_eq_zero_iff.1 h0)
      rw [this] at hh; simp at hh

/-- C29, the full property is false: with a limit of four chunks and one constraint of degree three,
the first part is empty and the second costs as much as the limit. -/
theorem C29_empty_part : lookupParts 1 [3] 1 4 = [0, 1, 1] := by decide +kernel

/-- C29, corner case: without lookup gates and with limit zero the tables' options are not counted. -/
theorem C29_limit_zero_no_gates (options : Nat) : lookupParts 0 [] options 0 = [0] := by
  simp [lookupParts]

example : lookupParts 1 [1, 1, 1] 2 8 = [3, 2] := by decide +kernel

end Crypto3Zk
