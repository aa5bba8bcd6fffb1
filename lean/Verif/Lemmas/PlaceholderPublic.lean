import Verif.Lemmas.PlaceholderComplete
import Mathlib.Algebra.Ring.GeomSum

/-!
# Public inputs: the barycentric formula
-/

set_option linter.unusedSectionVars false

namespace Crypto3Zk

open Polynomial

variable {F : Type} [Field F] [DecidableEq F] {L : FftLib F} {A n : Nat}

theorem rows_ne_zero (hL : L.Lawful A) : ((2 ^ n : Nat) : F) ≠ 0 := by
  rw [Nat.cast_pow]
  exact pow_ne_zero _ (by exact_mod_cast hL.two_ne)

/-- The polynomial that is one at `a` and zero at the other rows. -/
noncomputable def unitPoly (N : Nat) (a : F) : F[X] :=
  C (a * (N : F)⁻¹) * ∑ i ∈ Finset.range N, X ^ i * C a ^ (N - 1 - i)

theorem unitPoly_mul (N : Nat) (a y : F) (ha : a ^ N = 1) :
    (unitPoly N a).eval y * (y - a) = a * (N : F)⁻¹ * (y ^ N - 1) := by
  have h := congrArg (eval y) (Commute.geom_sum₂_mul (Commute.all (X : F[X]) (C a)) N)
  rw [eval_mul, eval_sub, eval_X, eval_C, eval_sub, eval_pow, eval_X, eval_pow, eval_C, ha] at h
  rw [unitPoly, eval_mul, eval_C, mul_assoc, h]

theorem unitPoly_self (N : Nat) (hN : 0 < N) (hN0 : (N : F) ≠ 0) (a : F) (ha : a ^ N = 1) :
    (unitPoly N a).eval a = 1 := by
  have h : ∀ i ∈ Finset.range N, a ^ i * a ^ (N - 1 - i) = a ^ (N - 1) := by
    intro i hi
    rw [← pow_add]
    congr 1
    have := Finset.mem_range.1 hi
    omega
  rw [unitPoly, eval_mul, eval_C, eval_finset_sum]
  simp only [eval_mul, eval_pow, eval_X, eval_C]
  rw [Finset.sum_congr rfl h, Finset.sum_const, Finset.card_range, nsmul_eq_mul,
    show a * (N : F)⁻¹ * ((N : F) * a ^ (N - 1)) = ((N : F)⁻¹ * N) * (a * a ^ (N - 1)) by ring,
    inv_mul_cancel₀ hN0, one_mul, ← pow_succ', show N - 1 + 1 = N by omega, ha]

theorem unitPoly_degree (N : Nat) (a : F) : (unitPoly N a).natDegree ≤ N - 1 := by
  refine (natDegree_C_mul_le _ _).trans (natDegree_sum_le_of_forall_le _ _ ?_)
  intro i hi
  have := Finset.mem_range.1 hi
  refine natDegree_mul_le.trans ?_
  rw [natDegree_X_pow, ← C_pow, natDegree_C]
  omega

/-- A polynomial of small degree is determined by its values on the rows. -/
theorem eq_of_rows (hL : L.Lawful A) (hn : n ≤ A) {p q : F[X]} (hp : p.natDegree < 2 ^ n)
    (hq : q.natDegree < 2 ^ n) (h : ∀ j < 2 ^ n, p.eval (L.root n ^ j) = q.eval (L.root n ^ j)) : p = q := by
  have hinj : Set.InjOn (fun j => L.root n ^ j) (Finset.range (2 ^ n) : Set Nat) := by
    intro i hi j hj he
    exact elem_injective hL n hn i j (by simpa using hi) (by simpa using hj) he
  refine eq_of_degree_sub_lt_of_eval_finset_eq ((Finset.range (2 ^ n)).image fun j => L.root n ^ j) ?_ ?_
  · rw [Finset.card_image_of_injOn hinj, Finset.card_range]
    refine lt_of_le_of_lt degree_le_natDegree (WithBot.coe_lt_coe.2 (lt_of_le_of_lt (natDegree_sub_le _ _) ?_))
    exact max_lt hp hq
  · intro x hx
    obtain ⟨j, hj, rfl⟩ := Finset.mem_image.1 hx
    exact h j (Finset.mem_range.1 hj)

theorem natDegree_toPoly_lt (l : List F) (N : Nat) (hN : 0 < N) (h : l.length ≤ N) : (toPoly l).natDegree < N := by
  have h' : (toPoly l).natDegree ≤ N - 1 := by
    rw [natDegree_le_iff_coeff_eq_zero]
    intro m hm
    rw [coeff_toPoly, List.getD_eq_default _ _ (by omega)]
  omega

theorem dfsPoly_degree (hL : L.Lawful A) (hn : n ≤ A) (v : List F) (hv : v.length = 2 ^ n) :
    (dfsPoly L v).natDegree < 2 ^ n :=
  natDegree_toPoly_lt _ _ (by positivity) (coefficients_column hL hn v hv).1

/-- The column polynomial as a sum over the rows. -/
theorem dfsPoly_units (hL : L.Lawful A) (hn : n ≤ A) (v : List F) (hv : v.length = 2 ^ n) :
    dfsPoly L v = ∑ k ∈ Finset.range (2 ^ n), C (v.getD k 0) * unitPoly (2 ^ n) (L.root n ^ k) := by
  have hN : 0 < 2 ^ n := by positivity
  have hpow : ∀ k, (L.root n ^ k) ^ 2 ^ n = 1 := by
    intro k
    rw [← pow_mul, mul_comm, pow_mul, root_pow_card hL n hn, one_pow]
  refine eq_of_rows hL hn (dfsPoly_degree hL hn v hv) ?_ ?_
  · refine lt_of_le_of_lt (natDegree_sum_le_of_forall_le _ _ fun k _ =>
      (natDegree_C_mul_le _ _).trans (unitPoly_degree _ _)) (by omega)
  · intro j hj
    rw [dfsPoly_eval_row hL n hn v hv j hj, eval_finset_sum,
      Finset.sum_eq_single_of_mem j (Finset.mem_range.2 hj)]
    · rw [eval_mul, eval_C, unitPoly_self _ hN (rows_ne_zero hL) _ (hpow j), mul_one]
    · intro k hk hkj
      have h := unitPoly_mul (2 ^ n) (L.root n ^ k) (L.root n ^ j) (hpow k)
      rw [hpow j, sub_self, mul_zero] at h
      rcases mul_eq_zero.1 h with h0 | h0
      · rw [eval_mul, h0, mul_zero]
      · exact absurd (elem_injective hL n hn j k hj (Finset.mem_range.1 hk) (sub_eq_zero.1 h0)).symm hkj

/-- The loop over the values of a public input. -/
theorem publicInputSum_eq (omega y : F) (xs : List F) : ∀ power value,
    publicInputSum omega y xs power value =
      if ∀ k < xs.length, y ≠ power * omega ^ k then
        some (value + ∑ k ∈ Finset.range xs.length,
          xs.getD k 0 * (power * omega ^ k) * (y - power * omega ^ k)⁻¹)
      else none := by
  induction xs with
  | nil => intro power value; simp [publicInputSum]
  | cons x xs ih =>
    intro power value
    unfold publicInputSum
    by_cases h0 : y - power = 0
    · rw [if_pos h0, if_neg]
      intro h
      exact h 0 (by simp) (by rw [pow_zero, mul_one]; exact sub_eq_zero.1 h0)
    · rw [if_neg h0, ih]
      have hiff : (∀ k < xs.length, y ≠ power * omega * omega ^ k) ↔
          ∀ k < (x :: xs).length, y ≠ power * omega ^ k := by
        constructor
        · intro h k hk
          cases k with
          | zero => rw [pow_zero, mul_one]; exact sub_ne_zero.1 h0
          | succ k =>
            rw [pow_succ', ← mul_assoc]
            exact h k (by simpa using hk)
        · intro h k hk
          have := h (k + 1) (by simpa using hk)
          rwa [pow_succ', ← mul_assoc] at this
      by_cases hc : ∀ k < xs.length, y ≠ power * omega * omega ^ k
      · rw [if_pos hc, if_pos (hiff.1 hc), Option.some_inj, List.length_cons, Finset.sum_range_succ']
        simp only [List.getD_cons_succ, List.getD_cons_zero, pow_zero, mul_one, pow_succ', mul_assoc]
        ring
      · rw [if_neg hc, if_neg fun h => hc (hiff.2 h)]

/-- The value the verifier computes for given public inputs is that of the column polynomial. -/
theorem publicInput_value (hL : L.Lawful A) (hn : n ≤ A) (y : F) (xs : List F) (hx : xs.length ≤ 2 ^ n) (v : F)
    (h : publicInputSum (L.root n) y xs 1 0 = some v) :
    v * ((y ^ 2 ^ n - 1) * ((2 ^ n : Nat) : F)⁻¹) =
      (dfsPoly L (xs ++ List.replicate (2 ^ n - xs.length) 0)).eval y := by
  have hpow : ∀ k, (L.root n ^ k) ^ 2 ^ n = 1 := by
    intro k
    rw [← pow_mul, mul_comm, pow_mul, root_pow_card hL n hn, one_pow]
  rw [publicInputSum_eq] at h
  by_cases hc : ∀ k < xs.length, y ≠ 1 * L.root n ^ k
  · rw [if_pos hc, Option.some_inj, zero_add] at h
    rw [dfsPoly_units hL hn _ (by simp; omega), eval_finset_sum, ← h, Finset.sum_mul,
      ← Finset.sum_subset (Finset.range_mono hx)]
    · refine Finset.sum_congr rfl fun k hk => ?_
      have hk' := Finset.mem_range.1 hk
      have hne : y - L.root n ^ k ≠ 0 := sub_ne_zero.2 (by simpa using hc k hk')
      have hu := unitPoly_mul (2 ^ n) (L.root n ^ k) y (hpow k)
      rw [eval_mul, eval_C, List.getD_append _ _ _ _ hk', one_mul]
      have hu' : (unitPoly (2 ^ n) (L.root n ^ k)).eval y =
          L.root n ^ k * ((2 ^ n : Nat) : F)⁻¹ * (y ^ 2 ^ n - 1) * (y - L.root n ^ k)⁻¹ := by
        rw [← hu, mul_assoc, mul_inv_cancel₀ hne, mul_one]
      rw [hu']
      ring
    · intro k _ hk
      have hk' : xs.length ≤ k := by simpa using hk
      rw [eval_mul, eval_C, List.getD_append_right _ _ _ _ hk']
      have : (List.replicate (2 ^ n - xs.length) (0 : F)).getD (k - xs.length) 0 = 0 := by
        by_cases h1 : k - xs.length < 2 ^ n - xs.length
        · rw [List.getD_eq_getElem _ _ (by simpa using h1), List.getElem_replicate]
        · rw [List.getD_eq_default _ _ (by simpa using h1)]
      rw [this, zero_mul]
  · rw [if_neg hc] at h; simp at h

theorem publicInputSum_some (omega y : F) (xs : List F) :
    (∃ v, publicInputSum omega y xs 1 0 = some v) ↔ ∀ k < xs.length, y ≠ omega ^ k := by
  rw [publicInputSum_eq]
  simp only [one_mul]
  by_cases hc : ∀ k < xs.length, y ≠ omega ^ k
  · rw [if_pos hc]; exact ⟨fun _ => hc, fun _ => ⟨_, rfl⟩⟩
  · rw [if_neg hc]; simp only [reduceCtorEq, exists_false, false_iff]; exact hc

theorem publicSize_le (sizes : List Nat) (i : Nat) (xs : List F) : publicSize sizes i xs ≤ xs.length := by
  unfold publicSize
  split
  · exact le_rfl
  · exact min_le_left _ _

/-- The loop over the given columns. -/
theorem checkPublicInputs_iff (z : EvalStorage F) (d : TableDesc) (sizes : List Nat) (omega numerator y : F)
    (pi : List (List F)) : ∀ i, checkPublicInputs z d sizes omega numerator y pi i = some true ↔
      ∀ j xs, pi[j]? = some xs → (sizes ≠ [] → i + j < sizes.length) ∧
        ∃ v, publicInputSum omega y (xs.take (publicSize sizes (i + j) xs)) 1 0 = some v ∧
          z.get VARIABLE_BATCH (d.witness + (i + j)) 0 = some (v * numerator) := by
  induction pi with
  | nil => intro i; simp [checkPublicInputs]
  | cons xs rest ih =>
    intro i
    unfold checkPublicInputs
    have hsize : publicInputCount sizes i xs.length =
        if sizes ≠ [] → i < sizes.length then some (publicSize sizes i xs) else none := by
      unfold publicSize publicInputCount
      by_cases h0 : sizes = []
      · simp [h0]
      · rw [if_pos (fun h => h0 (List.length_eq_zero_iff.1 h)), if_neg h0]
        by_cases hi : i < sizes.length
        · rw [if_pos (fun _ => hi), List.getElem?_eq_getElem hi, List.getD_eq_getElem _ _ hi]; rfl
        · rw [if_neg (fun h => hi (h h0)), List.getElem?_eq_none (by omega)]; rfl
    have hstep : (∀ j ys, (xs :: rest)[j]? = some ys → (sizes ≠ [] → i + j < sizes.length) ∧
        ∃ v, publicInputSum omega y (ys.take (publicSize sizes (i + j) ys)) 1 0 = some v ∧
          z.get VARIABLE_BATCH (d.witness + (i + j)) 0 = some (v * numerator)) ↔
        ((sizes ≠ [] → i < sizes.length) ∧
          ∃ v, publicInputSum omega y (xs.take (publicSize sizes i xs)) 1 0 = some v ∧
          z.get VARIABLE_BATCH (d.witness + i) 0 = some (v * numerator)) ∧
        ∀ j ys, rest[j]? = some ys → (sizes ≠ [] → i + 1 + j < sizes.length) ∧
          ∃ v, publicInputSum omega y (ys.take (publicSize sizes (i + 1 + j) ys)) 1 0 = some v ∧
          z.get VARIABLE_BATCH (d.witness + (i + 1 + j)) 0 = some (v * numerator) := by
      constructor
      · intro h
        refine ⟨h 0 xs rfl, fun j ys hj => ?_⟩
        have := h (j + 1) ys (by simpa using hj)
        rwa [show i + (j + 1) = i + 1 + j by omega] at this
      · rintro ⟨h1, h2⟩ j ys hj
        cases j with
        | zero =>
          simp only [List.getElem?_cons_zero, Option.some.injEq] at hj
          subst hj; exact h1
        | succ j =>
          rw [show i + (j + 1) = i + 1 + j by omega]
          exact h2 j ys (by simpa using hj)
    rw [hstep, ← ih (i + 1), hsize]
    by_cases hc : sizes ≠ [] → i < sizes.length
    · rw [if_pos hc]
      simp only [Option.bind_eq_bind, Option.bind_some]
      cases hs : publicInputSum omega y (xs.take (publicSize sizes i xs)) 1 0 with
      | none => simp
      | some v =>
        simp only [Option.bind_some]
        cases hg : z.get VARIABLE_BATCH (d.witness + i) 0 with
        | none => simp
        | some o =>
          simp only [Option.bind_some]
          by_cases he : v * numerator = o
          · rw [if_neg (not_not.2 he)]
            simp [hc, he]
            intro _; exact hc
          · rw [if_pos he]
            simp only [Option.some.injEq, Bool.false_eq_true, false_iff]
            rintro ⟨⟨-, v', hv', hv''⟩, -⟩
            subst hv'
            exact he hv''.symm
    · rw [if_neg hc]
      simp only [Option.bind_eq_bind, Option.bind_none, reduceCtorEq, false_iff]
      exact fun h => hc h.1.1

/-! ## the rotated column -/

theorem length_rotateColumn (r : Int) (col : List F) : (rotateColumn n r col).length = 2 ^ n := by
  simp [rotateColumn]

theorem root_zpow_mod (hL : L.Lawful A) (hn : n ≤ A) (r : Int) :
    L.root n ^ r = L.root n ^ (r % (2 ^ n : Nat)).toNat := by
  have hne := root_ne_zero hL n hn
  have hpos : (0 : Int) < (2 ^ n : Nat) := by positivity
  have h0 := Int.emod_nonneg r hpos.ne'
  conv_lhs => rw [← Int.emod_add_mul_ediv r (2 ^ n : Nat)]
  rw [zpow_add₀ hne, zpow_mul, zpow_natCast (L.root n) (2 ^ n), root_pow_card hL n hn, one_zpow, mul_one,
    ← zpow_natCast, Int.toNat_of_nonneg h0]

theorem dfsPoly_rotate (hL : L.Lawful A) (hn : n ≤ A) (r : Int) (col : List F) (hc : col.length = 2 ^ n) (y : F) :
    (dfsPoly L (rotateColumn n r col)).eval y = (dfsPoly L col).eval (y * L.root n ^ r) := by
  have hne := root_ne_zero hL n hn
  have hpos : (0 : Int) < (2 ^ n : Nat) := by positivity
  have h : dfsPoly L (rotateColumn n r col) = (dfsPoly L col).comp (X * C (L.root n ^ r)) := by
    refine eq_of_rows hL hn (dfsPoly_degree hL hn _ (length_rotateColumn r col)) ?_ ?_
    · refine lt_of_le_of_lt natDegree_comp_le ?_
      have h1 : (X * C (L.root n ^ r) : F[X]).natDegree ≤ 1 :=
        natDegree_mul_le.trans (by rw [natDegree_X, natDegree_C])
      calc _ ≤ (dfsPoly L col).natDegree * 1 := Nat.mul_le_mul_left _ h1
        _ < 2 ^ n := by rw [mul_one]; exact dfsPoly_degree hL hn col hc
    · intro j hj
      rw [dfsPoly_eval_row hL n hn _ (length_rotateColumn r col) j hj, eval_comp, eval_mul, eval_X, eval_C,
        ← zpow_natCast, ← zpow_add₀ hne, root_zpow_mod hL hn, dfsPoly_eval_row hL n hn col hc]
      · simp [rotateColumn, List.getD_eq_getElem _ _, hj]
      · have h1 := Int.emod_nonneg ((j : Int) + r) hpos.ne'
        have h2 := Int.emod_lt_of_pos ((j : Int) + r) hpos
        omega
  rw [h, eval_comp, eval_mul, eval_X, eval_C]

theorem rotateColumn_zero (col : List F) (hc : col.length = 2 ^ n) : rotateColumn n 0 col = col := by
  apply List.ext_getElem (by simp [rotateColumn, hc])
  intro i h1 h2
  have : ((i : Int) % (2 ^ n : Nat)).toNat = i := by
    rw [Int.emod_eq_of_lt (by omega) (by omega)]; simp
  simp only [rotateColumn, List.getElem_map, List.getElem_range, add_zero, this]
  rw [List.getD_eq_getElem _ _ h2]

/-- Two columns whose polynomials agree outside of few points are equal. -/
theorem columns_bad (hL : L.Lawful A) (hn : n ≤ A) (v w : List F) (hv : v.length = 2 ^ n) (hw : w.length = 2 ^ n) :
    ∃ bad : Finset F, bad.card < 2 ^ n ∧
      ∀ y ∉ bad, (dfsPoly L v).eval y = (dfsPoly L w).eval y → v = w := by
  have hd : (dfsPoly L v - dfsPoly L w).natDegree < 2 ^ n :=
    lt_of_le_of_lt (natDegree_sub_le _ _) (max_lt (dfsPoly_degree hL hn v hv) (dfsPoly_degree hL hn w hw))
  by_cases h0 : dfsPoly L v - dfsPoly L w = 0
  · refine ⟨∅, by simp, fun _ _ _ => ?_⟩
    apply List.ext_getElem (by omega)
    intro j h1 h2
    have e := congrArg (eval (L.root n ^ j)) (sub_eq_zero.1 h0)
    rwa [dfsPoly_eval_row hL n hn v hv j (by omega), dfsPoly_eval_row hL n hn w hw j (by omega),
      List.getD_eq_getElem _ _ h1, List.getD_eq_getElem _ _ h2] at e
  · refine ⟨(dfsPoly L v - dfsPoly L w).roots.toFinset,
      lt_of_le_of_lt ((Multiset.toFinset_card_le _).trans (card_roots' _)) hd, fun y hy he => ?_⟩
    exfalso
    apply hy
    rw [Multiset.mem_toFinset, mem_roots h0, IsRoot.def, eval_sub, he, sub_self]

end Crypto3Zk
