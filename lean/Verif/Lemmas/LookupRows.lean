import Verif.Lemmas.LookupArg

/-!
# The lookup argument on the rows of the table
-/

namespace Crypto3Zk

set_option linter.unusedSectionVars false

open Polynomial

variable {F : Type} [Field F] [DecidableEq F] {S Com : Type} {L : FftLib F} {A n : Nat}
    {t : PlonkTable F} {sys : LookupSystem F} {pre : LookupData F}

/-! ## compressed columns -/

theorem map_rows_eq {X Y : Type} (M : Nat) (hM : 0 < M) (ls : List X) (xs : List Y) (f : Nat → X → F)
    (g : Nat → Y → F) (h : ∀ j < M, ls.map (f j) = xs.map (g j)) :
    (ls.map fun p => (List.range M).map fun j => f j p) =
      xs.map fun x => (List.range M).map fun j => g j x := by
  have hl : ls.length = xs.length := by simpa using congrArg List.length (h 0 hM)
  apply List.ext_getElem
  · simpa using hl
  · intro i h1 h2
    simp only [List.getElem_map]
    apply List.map_congr_left
    intro j hj
    have := congrArg (fun l => l[i]?) (h j (List.mem_range.1 hj))
    simp only [List.getElem?_map] at this
    rw [List.getElem?_eq_getElem (by simpa using h1), List.getElem?_eq_getElem (by simpa using h2)] at this
    simpa using this

theorem columnPoly_selector_row (h : LookupSetup L A n t sys pre) (i : Nat) (hi : i < t.selectors.length)
    (j : Nat) (hj : j < 2 ^ n) : (columnPoly L t i .selector).eval (L.root n ^ j) = t.selectorAt i j := by
  have hlen : (t.selectors.getD i []).length = 2 ^ n := by
    rw [List.getD_eq_getElem _ _ hi]; exact h.rect.2.2.2 _ (List.getElem_mem hi)
  simp only [columnPoly, PlonkTable.columnsOf, Option.getD_some]
  rw [dfsPoly_eval_row h.lib n h.small _ hlen j hj]
  rfl

theorem columnPoly_constant_row (h : LookupSetup L A n t sys pre) (i : Nat) (hi : i < t.constants.length)
    (j : Nat) (hj : j < 2 ^ n) : (columnPoly L t i .constant).eval (L.root n ^ j) = t.constantAt i j := by
  have hlen : (t.constants.getD i []).length = 2 ^ n := by
    rw [List.getD_eq_getElem _ _ hi]; exact h.rect.2.2.1 _ (List.getElem_mem hi)
  simp only [columnPoly, PlonkTable.columnsOf, Option.getD_some]
  rw [dfsPoly_eval_row h.lib n h.small _ hlen j hj]
  rfl

theorem LookupSetup.qLast_row (h : LookupSetup L A n t sys pre) (j : Nat) (hj : j < 2 ^ n) :
    pre.qLast.eval (L.root n ^ j) = if j = pre.usable then 1 else 0 := by
  rw [h.qLast, dfsPoly_eval_row h.lib n h.small _ (by simp [lagrangeValues]) j hj]
  simp [lagrangeValues, List.getD_eq_getElem?_getD, List.getElem?_range hj]

theorem LookupSetup.qBlind_row (h : LookupSetup L A n t sys pre) (j : Nat) (hj : j < 2 ^ n) :
    pre.qBlind.eval (L.root n ^ j) = if pre.usable + 1 ≤ j then 1 else 0 := by
  rw [h.qBlind, dfsPoly_eval_row h.lib n h.small _ (by simp [blindValues]) j hj]
  simp [blindValues, List.getD_eq_getElem?_getD, List.getElem?_range hj]

theorem LookupSetup.lagrange0_row (h : LookupSetup L A n t sys pre) (j : Nat) (hj : j < 2 ^ n) :
    pre.lagrange0.eval (L.root n ^ j) = if j = 0 then 1 else 0 := by
  rw [h.lagrange0, dfsPoly_eval_row h.lib n h.small _ (by simp [lagrangeValues]) j hj]
  simp [lagrangeValues, List.getD_eq_getElem?_getD, List.getElem?_range hj]

theorem LookupSetup.mask_row (h : LookupSetup L A n t sys pre) (j : Nat) (hj : j < 2 ^ n) :
    1 - (pre.qLast.eval (L.root n ^ j) + pre.qBlind.eval (L.root n ^ j)) =
      if j < pre.usable then 1 else 0 := by
  rw [h.qLast_row j hj, h.qBlind_row j hj]
  rcases lt_trichotomy j pre.usable with h1 | h1 | h1
  · rw [if_neg h1.ne, if_neg (by omega), if_pos h1]; ring
  · rw [if_pos h1, if_neg (by omega), if_neg (by omega)]; ring
  · rw [if_neg h1.ne', if_pos (by omega), if_neg (by omega)]; ring

theorem mem_tables_of_zipIdx {X : Type} (l : List X) (e : X × Nat) (he : e ∈ l.zipIdx) : e.1 ∈ l :=
  List.mem_of_getElem? (List.mem_zipIdx_iff_getElem?.1 he)

/-- The compressed inputs at a row. -/
theorem inputsAt_row (h : LookupSetup L A n t sys pre) (theta : F) (j : Nat) (hj : j < 2 ^ n) :
    inputsAt sys theta (fun v => (varPoly L n t v).eval (L.root n ^ j)) =
      (sys.gates.flatMap fun g => g.constraints.map fun c => (g, c)).map fun x =>
        t.selectorAt x.1.tagIndex j *
          evalPoly ((x.2.tableId : F) :: x.2.input.map fun e => e.eval (t.cyclicCell (2 ^ n) j)) theta := by
  simp only [inputsAt, List.map_flatMap, List.map_map]
  apply List.flatMap_congr
  intro g hg
  apply List.map_congr_left
  intro c hc
  obtain ⟨h1, h2⟩ := h.inTable.1 g hg
  have hs : (varPoly L n t ⟨g.tagIndex, 0, false, .selector⟩).eval (L.root n ^ j) =
      t.selectorAt g.tagIndex j := by
    rw [varPoly, shiftDfs_eval]
    simp only [zpow_zero, one_mul]
    exact columnPoly_selector_row h g.tagIndex h1 j hj
  simp only [Function.comp_apply]
  rw [hs]
  congr 2
  congr 1
  apply List.map_congr_left
  intro e he
  apply C12_eval_congr
  intro v hv
  exact varPoly_eval_row h.lib n h.small t h.rect v (h2 c hc e he v hv) j

theorem valuesAt_row (h : LookupSetup L A n t sys pre) (theta : F) (j : Nat) (hj : j < 2 ^ n) :
    (valuesAt sys theta (fun i => (columnPoly L t i .selector).eval (L.root n ^ j))
        (fun i => (columnPoly L t i .constant).eval (L.root n ^ j))).map
      (· * (1 - pre.qLast - pre.qBlind).eval (L.root n ^ j)) =
      (sys.tables.zipIdx.flatMap fun e => e.1.options.map fun o => (e, o)).map fun x =>
        if j < pre.usable then
          t.selectorAt x.1.1.tagIndex j * evalPoly (((x.1.2 + 1 : Nat) : F) :: optionRow t x.2 j) theta
        else 0 := by
  simp only [valuesAt, List.map_flatMap, List.map_map]
  apply List.flatMap_congr
  intro e he
  apply List.map_congr_left
  intro o ho
  obtain ⟨h1, h2⟩ := h.inTable.2 e.1 (mem_tables_of_zipIdx _ _ he)
  simp only [Function.comp_apply]
  have hm := h.mask_row j hj
  have hm' : (1 - pre.qLast - pre.qBlind).eval (L.root n ^ j) =
      1 - (pre.qLast.eval (L.root n ^ j) + pre.qBlind.eval (L.root n ^ j)) := by
    simp only [eval_sub, eval_one]; ring
  rw [hm', hm, columnPoly_selector_row h _ h1 j hj]
  have hopt : (o.map fun v => (columnPoly L t v.index .constant).eval (L.root n ^ j)) = optionRow t o j := by
    apply List.map_congr_left
    intro v hv
    exact columnPoly_constant_row h v.index ((h2 o ho).2 v hv) j hj
  rw [hopt]
  split_ifs <;> simp

theorem inputRows_eq (h : LookupSetup L A n t sys pre) (theta : F) (ls : List F[X])
    (hl : ∀ y, ls.map (eval y) = inputsAt sys theta fun v => (varPoly L n t v).eval y) :
    ls.map (rowsOf L n) = compressedInputs t sys n theta := by
  have := map_rows_eq (2 ^ n) (Nat.two_pow_pos n) ls
    (sys.gates.flatMap fun g => g.constraints.map fun c => (g, c))
    (fun j p => p.eval (L.root n ^ j)) (fun j x => t.selectorAt x.1.tagIndex j *
          evalPoly ((x.2.tableId : F) :: x.2.input.map fun e => e.eval (t.cyclicCell (2 ^ n) j)) theta)
    (fun j hj => (hl _).trans (inputsAt_row h theta j hj))
  rw [show ls.map (rowsOf L n) = ls.map fun p => (List.range (2 ^ n)).map fun j => p.eval (L.root n ^ j)
    from rfl, this]
  simp only [compressedInputs, List.map_flatMap, List.map_map]
  rfl

theorem valueRows_eq (h : LookupSetup L A n t sys pre) (theta : F) (vs : List F[X])
    (hv : ∀ y, vs.map (eval y) = (valuesAt sys theta (fun i => (columnPoly L t i .selector).eval y)
        (fun i => (columnPoly L t i .constant).eval y)).map
      (· * (1 - pre.qLast - pre.qBlind).eval y)) :
    vs.map (rowsOf L n) = compressedValues t sys n pre.usable theta := by
  have := map_rows_eq (2 ^ n) (Nat.two_pow_pos n) vs
    (sys.tables.zipIdx.flatMap fun e => e.1.options.map fun o => (e, o))
    (fun j p => p.eval (L.root n ^ j)) (fun j x => if j < pre.usable then
          t.selectorAt x.1.1.tagIndex j * evalPoly (((x.1.2 + 1 : Nat) : F) :: optionRow t x.2 j) theta
        else 0)
    (fun j hj => (hv _).trans (valuesAt_row h theta j hj))
  rw [show vs.map (rowsOf L n) = vs.map fun p => (List.range (2 ^ n)).map fun j => p.eval (L.root n ^ j)
    from rfl, this]
  simp only [compressedValues, List.map_flatMap, List.map_map]
  rfl

/-! ## the running product -/

/-- The factor of a pair of neighbouring entries. -/
def pairFactor (beta gamma : F) (x : F × F) : F := (1 + beta) * gamma + x.1 + beta * x.2

theorem foldl_mul_eq_prod {X : Type} (f : X → F) (l : List X) (a : F) :
    l.foldl (fun g c => g * f c) a = a * (l.map f).prod := by
  induction l generalizing a with
  | nil => simp
  | cons x l ih => rw [List.foldl_cons, ih, List.map_cons, List.prod_cons, mul_assoc]

theorem lookupDen_eq (sorted : List (List F)) (beta gamma : F) (j : Nat) :
    lookupDen sorted beta gamma j =
      (sorted.map fun c => pairFactor beta gamma (c.getD j 0, c.getD (j + 1) 0)).prod := by
  unfold lookupDen
  rw [foldl_mul_eq_prod, one_mul]
  rfl

theorem lookupNum_eq (inputs values : List (List F)) (beta gamma : F) (j : Nat) :
    lookupNum inputs values beta gamma j =
      (inputs.map fun c => pairFactor beta gamma (c.getD j 0, c.getD j 0)).prod *
        (values.map fun c => pairFactor beta gamma (c.getD j 0, c.getD (j + 1) 0)).prod := by
  unfold lookupNum
  simp only
  rw [foldl_mul_eq_prod, foldl_mul_eq_prod]
  have : (1 + beta) ^ inputs.length * (inputs.map fun c => gamma + c.getD j 0).prod =
      (inputs.map fun c => pairFactor beta gamma (c.getD j 0, c.getD j 0)).prod := by
    generalize inputs = ins
    induction ins with
    | nil => simp
    | cons c ins ih =>
      rw [List.length_cons, List.map_cons, List.prod_cons, List.map_cons, List.prod_cons, ← ih,
        pairFactor]
      ring
  rw [this]
  rfl

theorem prod_cellPairs (cols : List (List F)) (U : Nat) (f : F × F → F) :
    ∏ j ∈ Finset.range U, (cols.map fun c => f (c.getD j 0, c.getD (j + 1) 0)).prod =
      ((cellPairs cols U).map f).prod := by
  induction cols with
  | nil => simp [cellPairs]
  | cons c cols ih =>
    simp only [List.map_cons, List.prod_cons, Finset.prod_mul_distrib, ih]
    simp only [cellPairs, List.flatMap_cons, List.map_append, List.prod_append, List.map_map]
    rw [list_prod_range (0 : Nat), List.length_range]
    congr 1
    apply Finset.prod_congr rfl
    intro j hj
    have hj' := Finset.mem_range.1 hj
    rw [show (List.range U).getD j 0 = j by simp [List.getD_eq_getElem?_getD, hj']]
    rfl

theorem prod_cells (cols : List (List F)) (U : Nat) (hl : ∀ c ∈ cols, U ≤ c.length) (f : F → F) :
    ∏ j ∈ Finset.range U, (cols.map fun c => f (c.getD j 0)).prod = ((cells cols U).map f).prod := by
  have := prod_cellPairs cols U (fun x => f x.1)
  rw [this, ← map_fst_cellPairs cols U hl, List.map_map]
  rfl

/-- The two products over all usable rows. -/
theorem prod_num_den {inputs values sorted : List (List F)} {size usable : Nat}
    (h : Sortable inputs values size usable)
    (hs : sortPolynomials inputs values size usable = some sorted) (beta gamma : F) :
    ∏ j ∈ Finset.range usable, lookupNum inputs values beta gamma j =
      ∏ j ∈ Finset.range usable, lookupDen sorted beta gamma j := by
  have hp := finished_pairs h
  rw [sortPolynomials_eq h, Option.some_inj] at hs
  rw [hs] at hp
  simp only [lookupNum_eq, lookupDen_eq, Finset.prod_mul_distrib]
  rw [prod_cellPairs values, prod_cellPairs sorted,
    prod_cells inputs usable (fun c hc => by rw [h.inputSize c hc]; exact h.spare.le)
      (fun a => pairFactor beta gamma (a, a)), (hp.map _).prod_eq, List.map_append, List.prod_append,
    List.map_map, mul_comm]
  rfl

theorem lookupV_spec {inputs values sorted : List (List F)} {size usable : Nat} {beta gamma : F}
    {V : List F} (h : lookupV sorted inputs values size usable beta gamma = some V) :
    V.length = size ∧ V.getD 0 0 = 1 ∧ (∀ j < usable, lookupDen sorted beta gamma j ≠ 0) ∧
      ∀ j < usable, V.getD (j + 1) 0 * lookupDen sorted beta gamma j =
        V.getD j 0 * lookupNum inputs values beta gamma j := by
  unfold lookupV at h
  by_cases hu : usable < size
  · rw [if_pos hu] at h
    obtain ⟨vs, hvs, h⟩ := Option.bind_eq_some_iff.1 h
    simp only [Option.some.injEq] at h
    obtain ⟨h1, h2, h3⟩ := runningProduct_spec _ _ _ _ _ _ hvs
    subst h
    have hget : ∀ i, i ≤ usable → (1 :: vs ++ List.replicate (size - 1 - usable) 0).getD i 0 =
        (1 :: vs).getD i 0 := by
      intro i hi
      rw [List.getD_append _ _ _ _ (by simp; omega)]
    refine ⟨by simp; omega, by simp, fun j hj => by simpa using h2 j hj, fun j hj => ?_⟩
    rw [hget _ (by omega), hget _ (by omega)]
    simpa using h3 j hj
  · rw [if_neg hu] at h; simp at h

theorem lookupV_defined {inputs values sorted : List (List F)} {size usable : Nat} {beta gamma : F}
    (hu : usable < size) (h : ∀ j < usable, lookupDen sorted beta gamma j ≠ 0) :
    ∃ V, lookupV sorted inputs values size usable beta gamma = some V := by
  obtain ⟨r, hr⟩ := runningProduct_defined (lookupNum inputs values beta gamma)
    (lookupDen sorted beta gamma) usable 0 1 (fun i hi => by simpa using h i hi)
  unfold lookupV
  rw [if_pos hu, hr]
  exact ⟨_, rfl⟩

theorem lookupV_closes {inputs values sorted : List (List F)} {size usable : Nat} {beta gamma : F}
    {V : List F} (hsort : Sortable inputs values size usable)
    (hs : sortPolynomials inputs values size usable = some sorted)
    (h : lookupV sorted inputs values size usable beta gamma = some V) : V.getD usable 0 = 1 := by
  obtain ⟨h1, h2, h3, h4⟩ := lookupV_spec h
  have htot := runningProduct_total (lookupNum inputs values beta gamma) (lookupDen sorted beta gamma)
    (fun j => V.getD j 0) usable h4
  rw [prod_num_den hsort hs, h2, one_mul] at htot
  have hne : ∏ j ∈ Finset.range usable, lookupDen sorted beta gamma j ≠ 0 := by
    rw [Finset.prod_ne_zero_iff]
    intro j hj
    exact h3 j (Finset.mem_range.1 hj)
  exact mul_right_cancel₀ hne (htot.trans (one_mul _).symm)

/-! ## the finished columns -/

theorem getElem?_finished {N size usable : Nat} (xs : List F) (i : Nat) (hi : i < N) :
    (finished N size usable xs)[i]? = some ((List.range size).map fun j =>
      if j ≤ usable then xs.getD (i * usable + j) 0 else 0) := by
  simp [finished, hi]

theorem finished_getD {N size usable : Nat} (xs : List F) (i j : Nat) (hi : i < N) (hj : j < size)
    (hu : j ≤ usable) :
    ((finished N size usable xs).getD i []).getD j 0 = xs.getD (i * usable + j) 0 := by
  rw [List.getD_eq_getElem?_getD (l := finished N size usable xs), getElem?_finished xs i hi,
    Option.getD_some, List.getD_eq_getElem _ _ (by simpa using hj)]
  simp [hu]

theorem length_finished_col {N size usable : Nat} (xs : List F) (c : List F)
    (hc : c ∈ finished N size usable xs) : c.length = size := by
  simp only [finished, List.mem_map] at hc
  obtain ⟨i, _, rfl⟩ := hc
  simp

/-! ## completeness -/

theorem updateLookupPart_spec {usable : Nat} {g h : F[X]} {prev cur cur' : List F}
    (he : updateLookupPart L n usable g h prev cur = some cur') :
    cur'.length = cur.length ∧ usable ≤ cur.length ∧ ∀ j < usable, h.eval (L.root n ^ j) ≠ 0 ∧
      cur'.getD j 0 * h.eval (L.root n ^ j) = prev.getD j 0 * g.eval (L.root n ^ j) := by
  unfold updateLookupPart at he
  by_cases hu : cur.length < usable
  · rw [if_pos hu] at he; simp at he
  rw [if_neg hu] at he
  have hl := length_mapM _ _ _ he
  rw [List.length_range] at hl
  refine ⟨hl, by omega, fun j hj => ?_⟩
  have hf := forall₂_of_mapM _ _ _ he
  have hj' : j < cur.length := by omega
  have := (List.forall₂_iff_get.1 hf).2 j (by simpa using hj') (by omega)
  simp only [List.get_eq_getElem, List.getElem_range, if_pos hj] at this
  by_cases h0 : h.eval (L.root n ^ j) = 0
  · rw [if_pos h0] at this; simp at this
  · rw [if_neg h0] at this
    obtain ⟨p, hp, hp'⟩ := Option.bind_eq_some_iff.1 this
    simp only [Option.some.injEq] at hp'
    refine ⟨h0, ?_⟩
    rw [List.getD_eq_getElem _ _ (show j < cur'.length by omega), ← hp',
      List.getD_eq_getElem?_getD, hp, Option.getD_some]
    field_simp

theorem lookupPartLoop_rows (hL : L.Lawful A) (hn : n ≤ A) (usable : Nat) (hu : usable ≤ 2 ^ n) :
    ∀ (alphas : List F) (gs hs : List F[X]) (prev cur : List F) (f : F[X])
      (r : List (List F) × F[X] × List F), prev.length = 2 ^ n → cur.length = 2 ^ n →
      alphas.length ≤ gs.length → alphas.length ≤ hs.length →
      lookupPartLoop L n usable ((gs.zip hs).zip alphas) prev cur f = some r →
      r.2.2.length = 2 ^ n ∧ ∀ j < usable,
        r.2.1.eval (L.root n ^ j) = f.eval (L.root n ^ j) ∧
        (((hs.take alphas.length).map (eval (L.root n ^ j))).prod ≠ 0) ∧
        r.2.2.getD j 0 * ((hs.take alphas.length).map (eval (L.root n ^ j))).prod =
          prev.getD j 0 * ((gs.take alphas.length).map (eval (L.root n ^ j))).prod := by
  intro alphas
  induction alphas with
  | nil =>
    intro gs hs prev cur f r hp _ _ _ h
    simp only [List.zip_nil_right, lookupPartLoop, Option.some.injEq] at h
    subst h
    exact ⟨hp, fun j _ => by simp⟩
  | cons a as ih =>
    intro gs hs prev cur f r hp hc hg hh h
    cases gs with
    | nil => simp at hg
    | cons g gs =>
      cases hs with
      | nil => simp at hh
      | cons hd hs =>
        simp only [List.zip_cons_cons, lookupPartLoop, Option.bind_eq_bind, Option.bind_eq_some_iff,
          Option.some.injEq] at h
        obtain ⟨cur', hcu, r', hr, rfl⟩ := h
        obtain ⟨u1, _, u3⟩ := updateLookupPart_spec hcu
        obtain ⟨h1, h2⟩ := ih gs hs cur' cur' _ r' (by omega) (by omega) (by simpa using hg)
          (by simpa using hh) hr
        refine ⟨h1, fun j hj => ?_⟩
        obtain ⟨k1, k2, k3⟩ := h2 j hj
        obtain ⟨v1, v2⟩ := u3 j hj
        simp only [List.length_cons, List.take_succ_cons, List.map_cons, List.prod_cons]
        refine ⟨?_, mul_ne_zero v1 k2, ?_⟩
        · rw [k1]
          simp only [eval_add, eval_mul, eval_sub, eval_C]
          rw [dfsPoly_eval_row hL n hn prev hp j (by omega),
            dfsPoly_eval_row hL n hn cur' (by omega) j (by omega), v2]
          ring
        · linear_combination (eval (L.root n ^ j) hd) * k3 +
            (List.map (eval (L.root n ^ j)) (List.take as.length gs)).prod * v2

theorem overlapSum_zero (usable : Nat) (l0 : F[X]) (y : F) : ∀ (sorted : List (List F)) (alphas : List F),
    (∀ i a b, sorted[i]? = some a → sorted[i + 1]? = some b →
      (dfsPoly L b).eval y = (dfsPoly L a).eval (L.root n ^ usable * y)) →
    (overlapSum L n usable l0 sorted alphas).eval y = 0 := by
  intro sorted
  induction sorted with
  | nil => intro alphas _; simp [overlapSum]
  | cons a sorted ih =>
    intro alphas h
    cases sorted with
    | nil => simp [overlapSum]
    | cons b rest =>
      cases alphas with
      | nil => simp [overlapSum]
      | cons al als =>
        simp only [overlapSum, eval_add, eval_mul, eval_sub, eval_C, shiftDfs_eval, zpow_natCast]
        rw [h 0 a b rfl rfl, sub_self, zero_mul, zero_add]
        apply ih
        intro i a' b' h1 h2
        exact h (i + 1) a' b' h1 h2

theorem flatten_prod_eval (gg : List (List F[X])) (y : F) :
    (gg.map fun g => (dfsProduct g).eval y).prod = (gg.flatten.map (eval y)).prod := by
  induction gg with
  | nil => rfl
  | cons g gg ih =>
    rw [List.map_cons, List.prod_cons, ih, dfsProduct_eval, List.flatten_cons, List.map_append,
      List.prod_append]

theorem root_mul_pow (j : Nat) : L.root n * L.root n ^ j = L.root n ^ (j + 1) := by
  rw [pow_succ, mul_comm]

theorem rowsOf_getD (p : F[X]) (j : Nat) (hj : j < 2 ^ n) :
    (rowsOf L n p).getD j 0 = p.eval (L.root n ^ j) := by
  rw [List.getD_eq_getElem _ _ (by simpa [rowsOf] using hj)]
  simp [rowsOf]

section complete

variable {ch : S → F × S} {absorb : Com → S → S} {commit : List (List F) → Com} {st st' : S}
    {res : LookupResult F} {theta beta gamma : F} {alphas alphas3 : List F} {values inputs : List F[X]}
    {gg hh : List (List F[X])}

theorem LookupRun.valueRows (R : LookupRun ch absorb commit L n t sys pre st res st' theta beta gamma
      alphas alphas3 values inputs gg hh) (h : LookupSetup L A n t sys pre) :
    values.map (rowsOf L n) = compressedValues t sys n pre.usable theta := by
  obtain ⟨vs, hvs, hve⟩ := lookupValues_eval (L := L) (n := n) h.inTable theta (1 - pre.qLast - pre.qBlind)
  obtain rfl : vs = values := Option.some_inj.1 (hvs.symm.trans R.h_values)
  exact valueRows_eq h theta _ hve

theorem LookupRun.inputRows (R : LookupRun ch absorb commit L n t sys pre st res st' theta beta gamma
      alphas alphas3 values inputs gg hh) (h : LookupSetup L A n t sys pre) :
    inputs.map (rowsOf L n) = compressedInputs t sys n theta := by
  obtain ⟨ls, hls, hle⟩ := lookupInputs_eval (L := L) (n := n) h.inTable theta
  obtain rfl : ls = inputs := Option.some_inj.1 (hls.symm.trans R.h_inputs)
  exact inputRows_eq h theta _ hle

theorem prod_gFactors_row (inputs values : List F[X]) (j : Nat) (hj : j + 1 < 2 ^ n) :
    ((gFactors (L.root n) inputs values beta gamma).map (eval (L.root n ^ j))).prod =
      lookupNum (inputs.map (rowsOf L n)) (values.map (rowsOf L n)) beta gamma j := by
  rw [gFactors_eval, List.prod_append, lookupNum_eq]
  simp only [List.map_map, root_mul_pow]
  congr 2
  · apply List.map_congr_left
    intro p _
    simp only [Function.comp_apply, rowsOf_getD (L := L) (n := n) p j (by omega), pairFactor]
    ring
  · rw [List.zip_map', List.map_map]
    apply List.map_congr_left
    intro p _
    simp only [Function.comp_apply, rowsOf_getD (L := L) (n := n) p j (by omega), rowsOf_getD (L := L) (n := n) p (j + 1) hj, pairFactor]

theorem prod_hFactors_row (hL : L.Lawful A) (hn : n ≤ A) (sorted : List (List F))
    (hl : ∀ c ∈ sorted, c.length = 2 ^ n) (j : Nat) (hj : j + 1 < 2 ^ n) :
    ((hFactors (L.root n) (sorted.map (dfsPoly L)) beta gamma).map (eval (L.root n ^ j))).prod =
      lookupDen sorted beta gamma j := by
  rw [hFactors_eval, lookupDen_eq, List.map_map]
  congr 1
  apply List.map_congr_left
  intro c hc
  simp only [Function.comp_apply, root_mul_pow, pairFactor]
  rw [dfsPoly_eval_row hL n hn c (hl c hc) j (by omega), dfsPoly_eval_row hL n hn c (hl c hc) _ hj]

theorem LookupRun.complete (R : LookupRun ch absorb commit L n t sys pre st res st' theta beta gamma
      alphas alphas3 values inputs gg hh) (h : LookupSetup L A n t sys pre)
    (hsort : Sortable (compressedInputs t sys n theta) (compressedValues t sys n pre.usable theta)
      (2 ^ n) pre.usable) :
    PolyVanishesOnRows L n res.F0 ∧ PolyVanishesOnRows L n res.F1 ∧ PolyVanishesOnRows L n res.F2 ∧
      PolyVanishesOnRows L n res.F3 := by
  have hvr := R.valueRows h
  have hir := R.inputRows h
  have hs := R.h_sorted
  rw [hvr, hir] at hs
  have hV := R.h_V
  rw [hvr, hir] at hV
  obtain ⟨v1, v2, v3, v4⟩ := lookupV_spec hV
  have vU := lookupV_closes hsort hs hV
  have hfin := hs
  rw [sortPolynomials_eq hsort, Option.some_inj] at hfin
  have hcol : ∀ c ∈ res.sorted, c.length = 2 ^ n := by
    intro c hc
    rw [← hfin] at hc
    exact length_finished_col _ _ hc
  have hrow := fun j hj => dfsPoly_eval_row h.lib n h.small res.V v1 j hj
  have hU := h.spare
  refine ⟨fun j hj => ?_, fun j hj => ?_, fun j hj => ?_, fun j hj => ?_⟩
  · rw [R.h_F0]
    simp only [eval_mul, eval_sub, eval_one]
    rw [h.lagrange0_row j hj, hrow j hj]
    by_cases h0 : j = 0
    · rw [h0, v2]; simp
    · rw [if_neg h0]; ring
  · rw [R.h_F1]
    simp only [eval_mul, eval_sub]
    rw [h.qLast_row j hj, hrow j hj]
    by_cases h0 : j = pre.usable
    · rw [h0, vU]; simp
    · rw [if_neg h0]; ring
  · have hm := h.mask_row j hj
    by_cases hju : j < pre.usable
    · have hg : (gg.map fun g => (dfsProduct g).eval (L.root n ^ j)).prod =
          lookupNum (compressedInputs t sys n theta) (compressedValues t sys n pre.usable theta) beta gamma j := by
        rw [flatten_prod_eval, groupByParts_flatten _ _ _ _ R.h_gg, List.nil_append,
          prod_gFactors_row inputs values j (by omega), hvr, hir]
      have hh' : (hh.map fun g => (dfsProduct g).eval (L.root n ^ j)).prod =
          lookupDen res.sorted beta gamma j := by
        rw [flatten_prod_eval, groupByParts_flatten _ _ _ _ R.h_hh, List.nil_append,
          prod_hFactors_row h.lib h.small res.sorted hcol j (by omega)]
      have hstep := v4 j hju
      rw [← hg, ← hh'] at hstep
      rcases R.h_F2 with ⟨h1, h2, g, hd, h3, h4, h5⟩ | ⟨h1, h2, h3, r, g, hd, hr, h4, h5, h6, h7⟩
      · rw [h5]
        simp only [eval_mul, eval_sub, eval_add, eval_one, shiftDfs_eval, zpow_one, root_mul_pow]
        rw [hrow j hj, hrow (j + 1) (by omega)]
        rw [h3, h4] at hstep
        simp only [List.map_cons, List.map_nil, List.prod_singleton] at hstep
        linear_combination -(pre.qLast.eval (L.root n ^ j) + pre.qBlind.eval (L.root n ^ j) - 1) * hstep
      · have hal : alphas.length = (sys.parts pre.mqc).length - 1 := by rw [R.h_alphas, length_drawN]
        have hpos := List.length_pos_of_ne_nil (parts_ne_nil sys pre.mqc)
        obtain ⟨r1, r2⟩ := lookupPartLoop_rows h.lib h.small pre.usable hU.le alphas _ _ _ _ _ r v1 v1
          (by simp; omega) (by simp; omega) hr
        obtain ⟨k1, k2, k3⟩ := r2 j hju
        rw [h7]
        simp only [eval_mul, eval_sub, eval_add, eval_one, shiftDfs_eval, zpow_one, root_mul_pow]
        rw [hrow (j + 1) (by omega), k1, dfsPoly_eval_row h.lib n h.small _ r1 j hj]
        -- the last part
        have split : ∀ (l : List F[X]) (x : F[X]), l.length = alphas.length + 1 → l[alphas.length]? = some x →
            (l.map (eval (L.root n ^ j))).prod =
              ((l.take alphas.length).map (eval (L.root n ^ j))).prod * x.eval (L.root n ^ j) := by
          intro l x hl hx
          conv_lhs => rw [← List.take_append_drop alphas.length l]
          rw [List.map_append, List.prod_append, List.drop_eq_getElem_cons (by omega)]
          rw [List.getElem?_eq_getElem (by omega), Option.some_inj] at hx
          rw [hx, List.drop_eq_nil_of_le (by omega)]
          simp
        have hgs := split (gg.map dfsProduct) g (by simp; omega) h5
        have hhs := split (hh.map dfsProduct) hd (by simp; omega) h6
        simp only [List.map_map, Function.comp_def] at hgs hhs
        rw [hgs, hhs] at hstep
        simp only [← List.map_take, List.map_map, Function.comp_def] at k2 k3 hgs hhs hstep
        have hlast : r.2.2.getD j 0 * g.eval (L.root n ^ j) -
            res.V.getD (j + 1) 0 * hd.eval (L.root n ^ j) = 0 := by
          apply mul_right_cancel₀ k2
          linear_combination (g.eval (L.root n ^ j)) * k3 - hstep
        rw [hlast]
        simp
    · have hz : pre.qLast.eval (L.root n ^ j) + pre.qBlind.eval (L.root n ^ j) - 1 = 0 := by
        rw [if_neg hju] at hm
        linear_combination -hm
      rcases R.h_F2 with ⟨h1, h2, g, hd, h3, h4, h5⟩ | ⟨h1, h2, h3, r, g, hd, hr, h4, h5, h6, h7⟩
      · rw [h5, eval_mul, show (pre.qLast + pre.qBlind - 1).eval (L.root n ^ j) = 0 by
          simpa only [eval_sub, eval_add, eval_one] using hz, mul_zero]
      · rw [h7, eval_mul, show (pre.qLast + pre.qBlind - 1).eval (L.root n ^ j) = 0 by
          simpa only [eval_sub, eval_add, eval_one] using hz, mul_zero]
  · rw [R.h_F3]
    by_cases h0 : j = 0
    · subst h0
      apply overlapSum_zero
      intro i a b ha hb
      rw [pow_zero, mul_one, ← pow_zero (L.root n)]
      have hla := hcol a (List.mem_of_getElem? ha)
      have hlb := hcol b (List.mem_of_getElem? hb)
      rw [dfsPoly_eval_row h.lib n h.small b hlb 0 (Nat.two_pow_pos n),
        dfsPoly_eval_row h.lib n h.small a hla pre.usable hU]
      rw [← hfin] at ha hb
      have hi : i + 1 < (compressedInputs t sys n theta).length +
          (compressedValues t sys n pre.usable theta).length := by
        have := (List.getElem?_eq_some_iff.1 hb).1
        simpa [finished] using this
      have e1 := finished_getD (size := 2 ^ n) (usable := pre.usable) (merged
        (cells (compressedValues t sys n pre.usable theta) pre.usable)
        (cells (compressedInputs t sys n theta) pre.usable)) (i + 1) 0 hi (Nat.two_pow_pos n) (by omega)
      have e2 := finished_getD (size := 2 ^ n) (usable := pre.usable) (merged
        (cells (compressedValues t sys n pre.usable theta) pre.usable)
        (cells (compressedInputs t sys n theta) pre.usable)) i pre.usable (Nat.lt_of_succ_lt hi) hU le_rfl
      rw [List.getD_eq_getElem?_getD (l := finished _ _ _ _), hb, Option.getD_some] at e1
      rw [List.getD_eq_getElem?_getD (l := finished _ _ _ _), ha, Option.getD_some] at e2
      rw [e1, e2]
      congr 1; ring
    · have : ∀ (sorted : List (List F)) (as : List F),
          (overlapSum L n pre.usable pre.lagrange0 sorted as).eval (L.root n ^ j) = 0 := by
        intro sorted
        induction sorted with
        | nil => intro as; simp [overlapSum]
        | cons a sorted ih =>
          intro as
          cases sorted with
          | nil => simp [overlapSum]
          | cons b rest =>
            cases as with
            | nil => simp [overlapSum]
            | cons al als =>
              simp only [overlapSum, eval_add, eval_mul]
              rw [ih, h.lagrange0_row j hj, if_neg h0]
              ring
      exact this _ _

end complete

end Crypto3Zk
