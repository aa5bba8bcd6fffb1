import Verif.Spec.PermutationArg
import Verif.Lemmas.FftExample
import Verif.Lemmas.KZG
import Verif.Lemmas.CycleRepresentation
import Mathlib.Tactic.Ring
import Mathlib.Tactic.LinearCombination

/-!
# Lemmas about the permutation argument: evaluations, groups, running product, parts
-/

namespace Crypto3Zk

set_option linter.unusedSectionVars false

variable {F : Type} [Field F] {S : Type} {L : FftLib F} {A : Nat}

/-! ## evaluation -/

theorem evalPoly_polyAdd (a b : List F) (x : F) :
    evalPoly (polyAdd a b) x = evalPoly a x + evalPoly b x := by
  simp only [← eval_toPoly, toPoly_polyAdd, Polynomial.eval_add]

theorem evalPoly_polyScale (c : F) (a : List F) (x : F) :
    evalPoly (polyScale c a) x = c * evalPoly a x := by
  simp only [← eval_toPoly, toPoly_polyScale, Polynomial.eval_mul, Polynomial.eval_C]

theorem evalPoly_polyMul (a b : List F) (x : F) :
    evalPoly (polyMul a b) x = evalPoly a x * evalPoly b x := by
  simp only [← eval_toPoly, toPoly_polyMul, Polynomial.eval_mul]

theorem evalPoly_single (c x : F) : evalPoly [c] x = c := by simp

theorem evalPoly_shiftPoly (w : F) (p : List F) (x : F) :
    evalPoly (shiftPoly w p) x = evalPoly p (w * x) := by
  simp [shiftPoly, evalPoly_mulByCoset]

theorem evalPoly_permFactor (beta gamma : F) (s c : List F) (x : F) :
    evalPoly (permFactor beta gamma s c) x = evalPoly s x * beta + (evalPoly c x + gamma) := by
  simp only [permFactor, evalPoly_polyAdd, evalPoly_polyScale, evalPoly_single]
  ring

theorem evalPoly_foldl_polyMul (ps : List (List F)) (x : F) : ∀ acc : List F,
    evalPoly (ps.foldl polyMul acc) x = evalPoly acc x * (ps.map (evalPoly · x)).prod := by
  induction ps with
  | nil => intro acc; simp
  | cons p ps ih =>
    intro acc
    rw [List.foldl_cons, ih, evalPoly_polyMul, List.map_cons, List.prod_cons, mul_assoc]

theorem evalPoly_polyProduct (ps : List (List F)) (x : F) :
    evalPoly (polyProduct ps) x = (ps.map (evalPoly · x)).prod := by
  rw [polyProduct, evalPoly_foldl_polyMul, evalPoly_single, one_mul]

theorem foldl_rowMul_eq (f : List F → F) (ps : List (List F)) : ∀ acc : F,
    ps.foldl (fun acc p => acc * f p) acc = acc * (ps.map f).prod := by
  induction ps with
  | nil => intro acc; simp
  | cons p ps ih => intro acc; rw [List.foldl_cons, ih, List.map_cons, List.prod_cons, mul_assoc]

theorem rowProduct_eq (n : Nat) (ps : List (List F)) (j : Nat) :
    rowProduct L n ps j = (ps.map (rowValue L n · j)).prod := by
  rw [rowProduct, foldl_rowMul_eq, one_mul]

/-- The polynomial recovered from a vector of values has these values. -/
theorem rowValue_coefficients (hL : L.Lawful A) (n : Nat) (hn : n ≤ A) (v : List F)
    (hv : v.length = 2 ^ n) (j : Nat) (hj : j < 2 ^ n) :
    rowValue L n (L.coefficients v) j = v.getD j 0 := by
  obtain ⟨c, hc, he⟩ := evals_surjective hL n hn v hv
  have h3 := (hL.coefficients n hn c hc.le).2.2
  rw [he] at h3
  rw [rowValue, h3, ← he]
  have : j < (L.domain n).size := hj
  rw [List.getD_eq_getElem?_getD, getElem?_evals _ _ _ this]
  rfl

theorem root_mul_elem (n j : Nat) : L.root n * (L.domain n).elem j = (L.domain n).elem (j + 1) := by
  simp [FftLib.domain, pow_succ, mul_comm]

/-! ## groups -/

theorem groupFactors_flatten (mqc : Nat) (ps : List (List F)) : ∀ cur : List (List F),
    (groupFactors mqc ps cur).flatten = cur ++ ps := by
  induction ps with
  | nil =>
    intro cur
    cases cur <;> simp [groupFactors]
  | cons p ps ih =>
    intro cur
    simp only [groupFactors]
    split_ifs
    · simp [ih]
    · simp [ih]

theorem groupFactors_prod (mqc : Nat) (ps cur : List (List F)) (x : F) :
    (((groupFactors mqc ps cur).map polyProduct).map (evalPoly · x)).prod =
      (cur.map (evalPoly · x)).prod * (ps.map (evalPoly · x)).prod := by
  rw [← List.prod_append, ← List.map_append, ← groupFactors_flatten mqc ps cur, List.map_flatten,
    List.prod_flatten, List.map_map, List.map_map]
  congr 1
  apply List.map_congr_left
  intro g _
  simp [evalPoly_polyProduct]

theorem groupFactors_length (mqc : Nat) (ps : List (List F)) : ∀ (cur qs cur' : List (List F)),
    ps.length = qs.length → cur.length = cur'.length →
    (groupFactors mqc ps cur).length = (groupFactors mqc qs cur').length := by
  induction ps with
  | nil =>
    intro cur qs cur' h h'
    cases qs with
    | nil => simp only [groupFactors, h']; split_ifs <;> rfl
    | cons _ _ => simp at h
  | cons p ps ih =>
    intro cur qs cur' h h'
    cases qs with
    | nil => simp at h
    | cons q qs =>
      simp only [List.length_cons, Nat.add_right_cancel_iff] at h
      simp only [groupFactors, List.length_append, List.length_singleton, h']
      split_ifs
      · simp only [List.length_cons]; rw [ih [] qs [] h rfl]
      · exact ih _ _ _ h (by simp [h'])

theorem groupFactors_zero (ps : List (List F)) : ∀ cur : List (List F),
    (groupFactors 0 ps cur) = if (cur ++ ps).length = 0 then [] else [cur ++ ps] := by
  induction ps with
  | nil => intro cur; cases cur <;> simp [groupFactors]
  | cons p ps ih => intro cur; simp [groupFactors, ih]

theorem groupFactors_count (k : Nat) (ps : List (List F)) : ∀ cur : List (List F),
    cur.length ≤ k →
    (groupFactors (k + 2) ps cur).length = (ps.length + cur.length + k) / (k + 1) := by
  induction ps with
  | nil =>
    intro cur h
    simp only [groupFactors]
    split_ifs with h0
    · rw [List.length_nil, Nat.zero_add, List.length_singleton]
      symm
      rw [Nat.div_eq_iff (by omega)]
      omega
    · have h0 : cur.length = 0 := by omega
      rw [h0]
      simp only [List.length_nil, Nat.zero_add]
      rw [Nat.div_eq_of_lt (by omega)]
  | cons p ps ih =>
    intro cur h
    simp only [groupFactors, List.length_append, List.length_singleton]
    split_ifs with h0
    · rw [List.length_cons, ih [] (by simp)]
      have hc : cur.length = k := by omega
      simp only [List.length_nil, List.length_cons, hc]
      rw [show ps.length + 1 + k + k = (ps.length + 0 + k) + (k + 1) by omega,
        Nat.add_div_right _ (by omega)]
    · rw [ih _ (by simp only [List.length_append, List.length_singleton]; omega)]
      rw [List.length_append, List.length_singleton, List.length_cons,
        show ps.length + (cur.length + 1) = ps.length + 1 + cur.length by omega]

/-- The number of groups is the number of parts the preprocessor announces. -/
theorem groupFactors_parts (mqc : Nat) (ps : List (List F)) (parts : Nat)
    (h : permutationParts ps.length mqc = some parts) :
    (groupFactors mqc ps []).length = parts := by
  unfold permutationParts at h
  split_ifs at h with h0 h1 h2 h3
  · obtain rfl : ps = [] := by simpa using h0
    simp at h
    subst h
    simp [groupFactors]
  · simp at h
    subst h h1
    rw [groupFactors_zero]
    simp [h0]
  · obtain ⟨k, rfl⟩ : ∃ k, mqc = k + 2 := ⟨mqc - 2, by omega⟩
    simp only [Option.some.injEq] at h
    subst h
    rw [groupFactors_count k ps [] (by simp)]
    simp only [List.length_nil, Nat.add_zero, show k + 2 - 1 = k + 1 by omega] at h3 ⊢
    obtain ⟨q, hq⟩ := Nat.dvd_of_mod_eq_zero h3
    rw [hq, Nat.mul_div_cancel_left _ (by omega), Nat.mul_add_div (by omega),
      Nat.div_eq_of_lt (by omega), Nat.add_zero]
  · obtain ⟨k, rfl⟩ : ∃ k, mqc = k + 2 := ⟨mqc - 2, by omega⟩
    simp only [Option.some.injEq] at h
    subst h
    rw [groupFactors_count k ps [] (by simp)]
    simp only [List.length_nil, Nat.add_zero, show k + 2 - 1 = k + 1 by omega] at h3 ⊢
    have h4 := Nat.div_add_mod ps.length (k + 1)
    have h5 := Nat.mod_lt ps.length (show 0 < k + 1 by omega)
    set q := ps.length / (k + 1)
    set r := ps.length % (k + 1)
    rw [← h4, Nat.add_assoc, Nat.mul_add_div (by omega)]
    congr 1
    rw [Nat.div_eq_iff (by omega)]
    omega

/-- The verifier's groups are the values of the prover's groups. -/
theorem verifyGroups_eq (beta gamma : F) (mqc : Nat) (y : F) (ts : List ((List F × List F) × List F)) :
    ∀ (curG curH : List (List F)), curG.length = curH.length →
    verifyGroups beta gamma mqc
        (ts.map fun t => ((evalPoly t.1.1 y, evalPoly t.1.2 y), evalPoly t.2 y))
        (curG.map (evalPoly · y)).prod (curH.map (evalPoly · y)).prod curG.length =
      (((groupFactors mqc (ts.map fun t => permFactor beta gamma t.1.1 t.2) curG).map
          polyProduct).map (evalPoly · y)).zip
        (((groupFactors mqc (ts.map fun t => permFactor beta gamma t.1.2 t.2) curH).map
          polyProduct).map (evalPoly · y)) := by
  induction ts with
  | nil =>
    intro curG curH h
    simp only [List.map_nil, verifyGroups, groupFactors, ← h]
    split_ifs
    · simp [evalPoly_polyProduct]
    · simp
  | cons t ts ih =>
    intro curG curH h
    obtain ⟨⟨a, b⟩, c⟩ := t
    simp only [List.map_cons, verifyGroups, groupFactors, List.length_append, List.length_singleton,
      ← h]
    have hg : (curG.map (evalPoly · y)).prod * (evalPoly a y * beta + (evalPoly c y + gamma)) =
        ((curG ++ [permFactor beta gamma a c]).map (evalPoly · y)).prod := by
      simp [evalPoly_permFactor]
    have hh : (curH.map (evalPoly · y)).prod * (evalPoly b y * beta + (evalPoly c y + gamma)) =
        ((curH ++ [permFactor beta gamma b c]).map (evalPoly · y)).prod := by
      simp [evalPoly_permFactor]
    rw [hg, hh]
    split_ifs with hc
    · have := ih [] [] rfl
      simp only [List.map_nil, List.prod_nil, List.length_nil] at this
      rw [this]
      simp only [List.map_cons, List.zip_cons_cons, evalPoly_polyProduct]
    · have := ih (curG ++ [permFactor beta gamma a c]) (curH ++ [permFactor beta gamma b c])
        (by simp [h])
      rw [List.length_append, List.length_singleton] at this
      exact this

/-! ## the running product -/

theorem runningProduct_spec [DecidableEq F] (num den : Nat → F) : ∀ (k j : Nat) (v : F) (r : List F),
    runningProduct num den k j v = some r →
    r.length = k ∧ (∀ i < k, den (j + i) ≠ 0) ∧
      ∀ i < k, (v :: r).getD (i + 1) 0 * den (j + i) = (v :: r).getD i 0 * num (j + i) := by
  intro k
  induction k with
  | zero => intro j v r h; simp [runningProduct] at h; subst h; simp
  | succ k ih =>
    intro j v r h
    simp only [runningProduct] at h
    split_ifs at h with h0
    simp only [Option.bind_eq_bind, Option.bind_eq_some_iff, Option.some.injEq] at h
    obtain ⟨rest, hr, rfl⟩ := h
    obtain ⟨h1, h2, h3⟩ := ih _ _ _ hr
    refine ⟨by simp [h1], ?_, ?_⟩
    · intro i hi
      cases i with
      | zero => exact h0
      | succ i => have := h2 i (by omega); rwa [show j + (i + 1) = j + 1 + i by omega]
    · intro i hi
      cases i with
      | zero =>
        simp only [Nat.add_zero, List.getD_cons_succ, List.getD_cons_zero]
        rw [mul_assoc, inv_mul_cancel₀ h0, mul_one]
      | succ i =>
        have := h3 i (by omega)
        rw [show j + (i + 1) = j + 1 + i by omega]
        simpa using this

theorem runningProduct_defined [DecidableEq F] (num den : Nat → F) : ∀ (k j : Nat) (v : F),
    (∀ i < k, den (j + i) ≠ 0) → ∃ r, runningProduct num den k j v = some r := by
  intro k
  induction k with
  | zero => intro j v _; exact ⟨[], rfl⟩
  | succ k ih =>
    intro j v h
    obtain ⟨r, hr⟩ := ih (j + 1) (v * num j * (den j)⁻¹) (fun i hi => by
      have := h (i + 1) (by omega); rwa [show j + 1 + i = j + (i + 1) by omega])
    refine ⟨(v * num j * (den j)⁻¹) :: r, ?_⟩
    simp only [runningProduct]
    rw [if_neg (by simpa using h 0 (by omega))]
    simp [hr]

/-! ## the parts -/

theorem forall₂_of_mapM {α β : Type} (f : α → Option β) : ∀ (l : List α) (r : List β),
    l.mapM f = some r → List.Forall₂ (fun a b => f a = some b) l r := by
  intro l
  induction l with
  | nil => intro r h; simp at h; subst h; exact .nil
  | cons a l ih =>
    intro r h
    simp only [List.mapM_cons, Option.bind_eq_bind, Option.bind_eq_some_iff, Option.pure_def,
      Option.some.injEq] at h
    obtain ⟨b, hb, r', hr, rfl⟩ := h
    exact .cons hb (ih _ hr)

theorem mapM_range_some {α : Type} (f : Nat → Option α) (k : Nat) (l : List α)
    (h : (List.range k).mapM f = some l) : l.length = k ∧ ∀ i < k, f i = l[i]? := by
  have h' := forall₂_of_mapM _ _ _ h
  have hl : l.length = k := by simpa using h'.length_eq.symm
  refine ⟨hl, fun i hi => ?_⟩
  have := (List.forall₂_iff_get.1 h').2 i (by simpa using hi) (by omega)
  rw [List.getElem?_eq_getElem (by omega)]
  simpa using this

theorem updateCurrent_spec [DecidableEq F] (n usable : Nat) (g h prev cur cur' : List F)
    (hp : prev.length = cur.length)
    (e : updateCurrent L n usable g h prev cur = some cur') :
    usable ≤ cur.length ∧ cur'.length = cur.length ∧ ∀ j < usable, rowValue L n h j ≠ 0 ∧
      cur'.getD j 0 * rowValue L n h j = prev.getD j 0 * rowValue L n g j := by
  unfold updateCurrent at e
  split_ifs at e with h0
  obtain ⟨h1, h2⟩ := mapM_range_some _ _ _ e
  refine ⟨by omega, h1, fun j hj => ?_⟩
  have := h2 j (by omega)
  simp only [if_pos hj] at this
  rw [List.getElem?_eq_getElem (show j < cur'.length by omega)] at this
  split_ifs at this with h3
  rw [List.getElem?_eq_getElem (show j < prev.length by omega)] at this
  simp only [Option.bind_eq_bind, Option.bind_some, Option.some.injEq] at this
  refine ⟨h3, ?_⟩
  rw [List.getD_eq_getElem _ _ (show j < cur'.length by omega),
    List.getD_eq_getElem _ _ (show j < prev.length by omega), ← this, mul_assoc,
    inv_mul_cancel₀ h3, mul_one]

theorem updateCurrent_defined [DecidableEq F] (n usable : Nat) (g h prev cur : List F)
    (hp : prev.length = cur.length) (hu : usable ≤ cur.length)
    (hh : ∀ j < usable, rowValue L n h j ≠ 0) :
    ∃ cur', updateCurrent L n usable g h prev cur = some cur' := by
  unfold updateCurrent
  rw [if_neg (by omega)]
  refine ⟨_, mapM_eq_some_map _ (fun j => if j < usable then
    (prev.getD j 0 * rowValue L n g j) * (rowValue L n h j)⁻¹ else cur.getD j 0) _ ?_⟩
  intro j hj
  rw [List.mem_range] at hj
  by_cases h1 : j < usable
  · simp only [if_pos h1, if_neg (hh j h1)]
    rw [List.getElem?_eq_getElem (by omega), List.getD_eq_getElem _ _ (by omega)]
    rfl
  · simp only [if_neg h1]
    rw [List.getElem?_eq_getElem hj, List.getD_eq_getElem _ _ hj]

/-- The verifier's loop over the parts computes the values of the prover's polynomials. -/
theorem partLoop_verify [DecidableEq F] (n usable : Nat) (y : F) : ∀ (alphas : List F)
    (gs hs : List (List F)) (prev cur f1 : List F) (r : List (List F) × List F × List F),
    alphas.length ≤ gs.length → gs.length = hs.length →
    partLoop L n usable ((gs.zip hs).zip alphas) prev cur f1 = some r →
    verifyParts ((gs.map (evalPoly · y)).zip (hs.map (evalPoly · y))) alphas
        ((r.1.map L.coefficients).map (evalPoly · y)) (evalPoly (L.coefficients prev) y)
        (evalPoly f1 y) =
      some (evalPoly r.2.1 y, evalPoly (L.coefficients r.2.2) y) ∧ r.1.length = alphas.length := by
  intro alphas
  induction alphas with
  | nil =>
    intro gs hs prev cur f1 r _ _ e
    simp only [List.zip_nil_right, partLoop, Option.some.injEq] at e
    subst e
    simp [verifyParts]
  | cons alpha alphas ih =>
    intro gs hs prev cur f1 r h1 h2 e
    cases gs with
    | nil => simp at h1
    | cons g gs =>
      cases hs with
      | nil => simp at h2
      | cons h hs =>
        simp only [List.length_cons, Nat.add_le_add_iff_right, Nat.add_right_cancel_iff] at h1 h2
        simp only [List.zip_cons_cons, partLoop, Option.bind_eq_bind, Option.bind_eq_some_iff,
          Option.some.injEq] at e
        obtain ⟨cur', hc, r', hr, rfl⟩ := e
        obtain ⟨i1, i2⟩ := ih gs hs _ _ _ r' h1 h2 hr
        simp only [evalPoly_polyAdd, evalPoly_polyScale, evalPoly_polySub, evalPoly_polyMul] at i1
        refine ⟨?_, by simp [i2]⟩
        simp only [List.map_cons, List.zip_cons_cons, verifyParts]
        exact i1

theorem partLoop_rows [DecidableEq F] (hL : L.Lawful A) (n : Nat) (hn : n ≤ A) (usable : Nat) :
    ∀ (ghas : List ((List F × List F) × F)) (prev cur f1 : List F)
      (r : List (List F) × List F × List F),
    prev.length = 2 ^ n → cur.length = 2 ^ n → usable ≤ 2 ^ n →
    partLoop L n usable ghas prev cur f1 = some r →
    (∀ v ∈ r.1, v.length = 2 ^ n) ∧ r.2.2.length = 2 ^ n ∧ ∀ j < usable,
      rowValue L n r.2.1 j = rowValue L n f1 j ∧
      (ghas.map fun t => rowValue L n t.1.2 j).prod ≠ 0 ∧
      r.2.2.getD j 0 * (ghas.map fun t => rowValue L n t.1.2 j).prod =
        prev.getD j 0 * (ghas.map fun t => rowValue L n t.1.1 j).prod := by
  intro ghas
  induction ghas with
  | nil =>
    intro prev cur f1 r h1 h2 h3 e
    simp only [partLoop, Option.some.injEq] at e
    subst e
    simp [h1]
  | cons t ghas ih =>
    intro prev cur f1 r h1 h2 h3 e
    obtain ⟨⟨g, h⟩, alpha⟩ := t
    simp only [partLoop, Option.bind_eq_bind, Option.bind_eq_some_iff, Option.some.injEq] at e
    obtain ⟨cur', hc, r', hr, rfl⟩ := e
    obtain ⟨c1, c2, c3⟩ := updateCurrent_spec n usable g h prev cur cur' (by omega) hc
    obtain ⟨i1, i2, i3⟩ := ih cur' cur' _ r' (by omega) (by omega) h3 hr
    refine ⟨?_, i2, ?_⟩
    · intro v hv
      rcases List.mem_cons.1 hv with rfl | hv
      · omega
      · exact i1 v hv
    · intro j hj
      obtain ⟨j1, j2, j3⟩ := i3 j hj
      obtain ⟨k1, k2⟩ := c3 j hj
      refine ⟨?_, ?_, ?_⟩
      · rw [j1]
        have hj' : j < 2 ^ n := by omega
        have e1 := rowValue_coefficients hL n hn prev h1 j hj'
        have e2 := rowValue_coefficients hL n hn cur' (by omega) j hj'
        unfold rowValue at e1 e2 k2 ⊢
        rw [evalPoly_polyAdd, evalPoly_polyScale, evalPoly_polySub, evalPoly_polyMul,
          evalPoly_polyMul, e1, e2, k2]
        ring
      · simp only [List.map_cons, List.prod_cons]
        exact mul_ne_zero k1 j2
      · simp only [List.map_cons, List.prod_cons]
        linear_combination rowValue L n h j * j3 +
          (ghas.map fun t => rowValue L n t.1.1 j).prod * k2

theorem partLoop_defined [DecidableEq F] (n usable : Nat) :
    ∀ (ghas : List ((List F × List F) × F)) (prev cur f1 : List F),
    prev.length = 2 ^ n → cur.length = 2 ^ n → usable ≤ 2 ^ n →
    (∀ t ∈ ghas, ∀ j < usable, rowValue L n t.1.2 j ≠ 0) →
    ∃ r, partLoop L n usable ghas prev cur f1 = some r := by
  intro ghas
  induction ghas with
  | nil => intro prev cur f1 _ _ _ _; exact ⟨_, rfl⟩
  | cons t ghas ih =>
    intro prev cur f1 h1 h2 h3 h4
    obtain ⟨⟨g, h⟩, alpha⟩ := t
    obtain ⟨cur', hc⟩ := updateCurrent_defined (L := L) n usable g h prev cur (by omega) (by omega)
      (h4 ((g, h), alpha) (by simp))
    obtain ⟨_, c2, _⟩ := updateCurrent_spec n usable g h prev cur cur' (by omega) hc
    obtain ⟨r, hr⟩ := ih cur' cur' (polyAdd f1 (polyScale alpha
      (polySub (polyMul (L.coefficients prev) g) (polyMul (L.coefficients cur') h))))
      (by omega) (by omega) h3 (fun t ht => h4 t (by simp [ht]))
    exact ⟨(cur' :: r.1, r.2),
      by simp only [partLoop, hc, hr, Option.bind_eq_bind, Option.bind_some]⟩

/-! ## the whole argument -/

theorem length_drawN (ch : S → F × S) : ∀ (k : Nat) (st : S), (drawN ch k st).1.length = k := by
  intro k
  induction k with
  | zero => intro st; rfl
  | succ k ih => intro st; simp [drawN, ih]

theorem zipWith_fst_zip {α β γ δ : Type} (f : α → γ → δ) : ∀ (a : List α) (b : List β) (c : List γ),
    a.length = b.length → List.zipWith f a c = ((a.zip b).zip c).map fun t => f t.1.1 t.2 := by
  intro a
  induction a with
  | nil => intro b c h; simp
  | cons x a ih =>
    intro b c h
    cases b with
    | nil => simp at h
    | cons y b =>
      cases c with
      | nil => simp
      | cons z c => simp at h; simp [ih b c h]

theorem zipWith_snd_zip {α β γ δ : Type} (f : β → γ → δ) : ∀ (a : List α) (b : List β) (c : List γ),
    a.length = b.length → List.zipWith f b c = ((a.zip b).zip c).map fun t => f t.1.2 t.2 := by
  intro a
  induction a with
  | nil => intro b c h; cases b <;> simp_all
  | cons x a ih =>
    intro b c h
    cases b with
    | nil => simp at h
    | cons y b =>
      cases c with
      | nil => simp
      | cons z c => simp at h; simp [ih b c h]

theorem map_zip_zip {α β : Type} (f : α → β) : ∀ (a b c : List α),
    ((a.map f).zip (b.map f)).zip (c.map f) =
      ((a.zip b).zip c).map fun t => ((f t.1.1, f t.1.2), f t.2) := by
  intro a
  induction a with
  | nil => simp
  | cons x a ih => intro b c; cases b <;> cases c <;> simp [ih]

theorem length_mapM {α β : Type} (f : α → Option β) (l : List α) (r : List β)
    (h : l.mapM f = some r) : r.length = l.length := (forall₂_of_mapM f l r h).length_eq.symm

/-- Evaluating the prover's polynomials gives what the verifier computes from the evaluations. -/
theorem permProve_verify [DecidableEq F] (ch : S → F × S) (n : Nat) (pre : PermData F)
    (column : Nat → Option (List F)) (gi : List Nat) (st st' : S) (res : PermResult F)
    (cols : List (List F)) (hcols : gi.mapM column = some cols)
    (h : permProve ch L n pre column gi st = some (res, st')) (y : F) :
    permVerify ch pre.lagrange0 pre.mqc pre.parts
        (trueClaims L n pre cols res.V res.partitions y) y st =
      some ((evalPoly res.F0 y, evalPoly res.F1 y, evalPoly res.F2 y), st') := by
  unfold permProve at h
  simp only [hcols, Option.bind_eq_bind, Option.bind_some] at h
  have hcl := length_mapM _ _ _ hcols
  by_cases h0 : gi.length ≠ pre.sId.length ∨ gi.length ≠ pre.sSigma.length
  · rw [if_pos h0] at h; simp at h
  rw [if_neg h0] at h
  push Not at h0
  obtain ⟨rest, hrest, h⟩ := Option.bind_eq_some_iff.1 h
  by_cases h1 : (((groupFactors pre.mqc (List.zipWith (permFactor (ch st).1 (ch (ch st).2).1) pre.sId
      cols) []).map polyProduct).length ≠ pre.parts ∨
    ((groupFactors pre.mqc (List.zipWith (permFactor (ch st).1 (ch (ch st).2).1) pre.sId
      cols) []).map polyProduct).length ≠
      ((groupFactors pre.mqc (List.zipWith (permFactor (ch st).1 (ch (ch st).2).1) pre.sSigma
      cols) []).map polyProduct).length ∨ pre.parts = 0)
  · rw [if_pos h1] at h; simp at h
  rw [if_neg h1] at h
  push Not at h1
  obtain ⟨h1, h2, h3⟩ := h1
  set beta := (ch st).1
  set gamma := (ch (ch st).2).1
  set gs := (groupFactors pre.mqc (List.zipWith (permFactor beta gamma) pre.sId cols) []).map
    polyProduct with hgs
  set hs := (groupFactors pre.mqc (List.zipWith (permFactor beta gamma) pre.sSigma cols) []).map
    polyProduct with hhs
  have hghs : verifyGroups beta gamma pre.mqc
      (((pre.sId.map (evalPoly · y)).zip (pre.sSigma.map (evalPoly · y))).zip
        (cols.map (evalPoly · y))) 1 1 0 =
      (gs.map (evalPoly · y)).zip (hs.map (evalPoly · y)) := by
    have := verifyGroups_eq beta gamma pre.mqc y ((pre.sId.zip pre.sSigma).zip cols) [] [] rfl
    rw [map_zip_zip]
    simp only [List.map_nil, List.prod_nil, List.length_nil] at this
    rw [this, hgs, hhs, zipWith_fst_zip (permFactor beta gamma) pre.sId pre.sSigma cols (by omega),
      zipWith_snd_zip (permFactor beta gamma) pre.sId pre.sSigma cols (by omega)]
  unfold permVerify trueClaims
  simp only [List.length_map]
  rw [if_neg (by omega)]
  simp only [length_drawN]
  change _ = _ at h
  by_cases hp : pre.parts = 1
  · rw [if_pos hp] at h
    simp only [Option.bind_eq_some_iff, Option.some.injEq, Prod.mk.injEq] at h
    obtain ⟨g, hg, hh, hhh, rfl, rfl⟩ := h
    simp only [List.length_nil]
    rw [if_neg (by omega), if_pos hp]
    change ((verifyGroups beta gamma pre.mqc _ 1 1 0)[0]?).bind _ = _
    rw [hghs]
    have : ((gs.map (evalPoly · y)).zip (hs.map (evalPoly · y)))[0]? =
        some (evalPoly g y, evalPoly hh y) := by
      rw [List.getElem?_zip_eq_some]
      simp [hg, hhh]
    rw [this]
    simp only [Option.bind_some, evalPoly_polyMul, evalPoly_polySub, evalPoly_single,
      evalPoly_shiftPoly, Option.some.injEq, Prod.mk.injEq, and_true]
    refine ⟨by ring, ?_, by ring⟩
    simp only [FftLib.domain, pow_one]
    ring
  · rw [if_neg hp] at h
    simp only [Option.bind_eq_some_iff, Option.some.injEq, Prod.mk.injEq] at h
    obtain ⟨r, hr, g, hg, hh, hhh, rfl, rfl⟩ := h
    obtain ⟨v1, v2⟩ := partLoop_verify (L := L) n pre.usableRows y _ gs hs _ _ _ r
      (by rw [length_drawN]; omega) h2 hr
    rw [length_drawN] at v2 hg hhh
    simp only [v2, List.length_map]
    rw [if_neg (by omega), if_neg hp]
    change (verifyParts (verifyGroups beta gamma pre.mqc _ 1 1 0) _ _ _ _).bind _ = _
    rw [hghs]
    simp only [evalPoly_nil] at v1
    rw [v1]
    have : ((gs.map (evalPoly · y)).zip (hs.map (evalPoly · y)))[pre.parts - 1]? =
        some (evalPoly g y, evalPoly hh y) := by
      rw [List.getElem?_zip_eq_some]
      simp [hg, hhh]
    simp only [Option.bind_eq_bind, Option.bind_some, this]
    simp only [ evalPoly_polyMul, evalPoly_polySub, evalPoly_polyAdd,
      evalPoly_single, evalPoly_shiftPoly, Option.some.injEq, Prod.mk.injEq, and_true]
    refine ⟨by ring, ?_, by ring⟩
    simp only [FftLib.domain, pow_one]

end Crypto3Zk
