import Verif.Model.PolyOps
import Verif.Lemmas.Poly
import Mathlib.Algebra.Polynomial.Div
import Mathlib.Algebra.Polynomial.Roots
import Mathlib.Tactic.Ring
import Mathlib.Tactic.FieldSimp

set_option linter.unusedSectionVars false

namespace Crypto3Zk

open Polynomial

variable {F : Type} [Field F]

theorem toPoly_nil : toPoly ([] : List F) = 0 := by simp [toPoly]

theorem toPoly_cons (c : F) (a : List F) : toPoly (c :: a) = C c + X * toPoly a := by
  simp [toPoly]

theorem toPoly_polyAdd (a b : List F) : toPoly (polyAdd a b) = toPoly a + toPoly b := by
  induction a generalizing b with
  | nil => simp [polyAdd, toPoly_nil]
  | cons x a ih =>
    cases b with
    | nil => simp [polyAdd, toPoly_nil]
    | cons y b => simp only [polyAdd, toPoly_cons, ih, C_add]; ring

theorem length_polyAdd (a b : List F) : (polyAdd a b).length = max a.length b.length := by
  induction a generalizing b with
  | nil => simp [polyAdd]
  | cons x a ih =>
    cases b with
    | nil => simp [polyAdd]
    | cons y b => simp only [polyAdd, List.length_cons, ih]; omega

theorem toPoly_polyScale (c : F) (a : List F) : toPoly (polyScale c a) = C c * toPoly a := by
  induction a with
  | nil => simp [polyScale, toPoly_nil]
  | cons x a ih =>
    have ih' : toPoly (List.map (fun x => c * x) a) = C c * toPoly a := ih
    simp only [polyScale, List.map_cons, toPoly_cons, C_mul, ih']; ring

@[simp] theorem length_polyScale (c : F) (a : List F) : (polyScale c a).length = a.length := by
  simp [polyScale]

theorem toPoly_polySub (a b : List F) : toPoly (polySub a b) = toPoly a - toPoly b := by
  rw [polySub, toPoly_polyAdd, toPoly_polyScale]; simp; ring

theorem length_polySub (a b : List F) : (polySub a b).length = max a.length b.length := by
  simp [polySub, length_polyAdd]

theorem toPoly_polyMul (a b : List F) : toPoly (polyMul a b) = toPoly a * toPoly b := by
  induction a with
  | nil => simp [polyMul, toPoly_nil]
  | cons x a ih =>
    simp only [polyMul, toPoly_polyAdd, toPoly_polyScale, toPoly_cons, ih, C_0]; ring

theorem length_polyMul (a b : List F) (ha : a ≠ []) (hb : b ≠ []) :
    (polyMul a b).length + 1 = a.length + b.length := by
  induction a with
  | nil => exact absurd rfl ha
  | cons x a ih =>
    have hb' : 0 < b.length := List.length_pos_iff.2 hb
    simp only [polyMul, length_polyAdd, length_polyScale, List.length_cons]
    by_cases h : a = []
    · subst h; simp [polyMul]; omega
    · have := ih h
      have ha' : 0 < a.length := List.length_pos_iff.2 h
      omega

theorem length_divModAux (d a : List F) :
    (polyDivModAux d a).1.length = a.length ∧
      (d ≠ [] → (polyDivModAux d a).2.length = d.length - 1) := by
  induction a with
  | nil => simp [polyDivModAux]
  | cons c a ih =>
    refine ⟨by simp [polyDivModAux, ih.1], fun hd => ?_⟩
    have := ih.2 hd
    have hp : 0 < d.length := List.length_pos_iff.2 hd
    simp only [polyDivModAux, List.length_take, List.length_zipWith, List.length_cons, this]
    omega

theorem toPoly_zipWith_sub (t : F) (a b : List F) (h : a.length = b.length) :
    toPoly (List.zipWith (fun x y => x - t * y) a b) = toPoly a - C t * toPoly b := by
  induction a generalizing b with
  | nil =>
    have : b = [] := by simpa [eq_comm] using h
    subst this; simp [toPoly_nil]
  | cons x a ih =>
    cases b with
    | nil => simp at h
    | cons y b =>
      simp only [List.zipWith_cons_cons, toPoly_cons, ih b (by simpa using h), C_sub, C_mul]
      ring

theorem toPoly_take_of_zero (a : List F) (n : Nat) (h : ∀ i, n ≤ i → a.getD i 0 = 0) :
    toPoly (a.take n) = toPoly a := by
  ext i
  rw [coeff_toPoly, coeff_toPoly]
  by_cases hi : i < n
  · rw [List.getD_eq_getElem?_getD, List.getD_eq_getElem?_getD, List.getElem?_take_of_lt hi]
  · rw [h i (by omega), List.getD_eq_getElem?_getD, List.getElem?_eq_none (by simp; omega)]
    rfl

theorem divModAux_spec (d : List F) (hd : d.getLastD 0 = 1) (a : List F) :
    toPoly a = toPoly (polyDivModAux d a).1 * toPoly d + toPoly (polyDivModAux d a).2 := by
  have hd0 : d ≠ [] := by rintro rfl; simp at hd
  induction a with
  | nil =>
    have : toPoly (List.replicate (d.length - 1) (0 : F)) = 0 := by
      ext i; rw [coeff_toPoly]; simp [List.getD_eq_getElem?_getD, List.getElem?_replicate]
      split_ifs <;> rfl
    simp [polyDivModAux, toPoly_nil, this]
  | cons c a ih =>
    have hl := (length_divModAux d a).2 hd0
    have hp : 0 < d.length := List.length_pos_iff.2 hd0
    simp only [polyDivModAux]
    set q := (polyDivModAux d a).1
    set r := (polyDivModAux d a).2
    set t := (c :: r).getLastD 0 / d.getLastD 0 with ht
    have hlen : (c :: r).length = d.length := by simp [hl]; omega
    rw [toPoly_take_of_zero, toPoly_zipWith_sub t _ _ hlen, toPoly_cons, toPoly_cons, ih,
      toPoly_cons]
    · ring
    · intro i hi
      rw [List.getD_eq_getElem?_getD]
      by_cases hid : i < d.length
      · have hie : i = d.length - 1 := by omega
        have h1 : (c :: r)[i]? = some ((c :: r).getLastD 0) := by
          rw [hie, ← hlen, List.getLastD_eq_getLast?, List.getLast?_eq_getElem?]
          cases h : (c :: r)[(c :: r).length - 1]? with
          | none => simp at h
          | some v => rfl
        have h2 : d[i]? = some 1 := by
          rw [hie, ← hd, List.getLastD_eq_getLast?, List.getLast?_eq_getElem?]
          cases h : d[d.length - 1]? with
          | none => rw [List.getElem?_eq_none_iff] at h; omega
          | some v => rfl
        rw [List.getElem?_zipWith, h1, h2, ht, hd]
        show (c :: r).getLastD 0 - (c :: r).getLastD 0 / 1 * 1 = 0
        ring
      · rw [List.getElem?_eq_none (by simp; omega)]; rfl

theorem monic_toPoly (d : List F) (hd : d.getLastD 0 = 1) :
    (toPoly d).Monic ∧ (toPoly d).natDegree = d.length - 1 := by
  have hd0 : d ≠ [] := by rintro rfl; simp at hd
  have hp : 0 < d.length := List.length_pos_iff.2 hd0
  have hc : (toPoly d).coeff (d.length - 1) = 1 := by
    rw [coeff_toPoly, ← hd, List.getLastD_eq_getLast?, List.getLast?_eq_getElem?,
      List.getD_eq_getElem?_getD]
  have hdeg : (toPoly d).natDegree ≤ d.length - 1 := by
    have h1 := degree_toPoly d
    by_cases h0 : toPoly d = 0
    · simp [h0]
    · rw [degree_eq_natDegree h0] at h1
      have : (toPoly d).natDegree < d.length := by exact_mod_cast h1
      omega
  have hge : d.length - 1 ≤ (toPoly d).natDegree :=
    le_natDegree_of_ne_zero (by rw [hc]; exact one_ne_zero)
  have heq : (toPoly d).natDegree = d.length - 1 := le_antisymm hdeg hge
  exact ⟨by rw [Monic, leadingCoeff, heq, hc], heq⟩

theorem toPoly_divMod (a d : List F) (hd : d.getLastD 0 = 1) :
    toPoly (polyDiv a d) = toPoly a /ₘ toPoly d ∧ toPoly (polyMod a d) = toPoly a %ₘ toPoly d := by
  have hd0 : d ≠ [] := by rintro rfl; simp at hd
  have hp : 0 < d.length := List.length_pos_iff.2 hd0
  obtain ⟨hm, hn⟩ := monic_toPoly d hd
  have hspec := divModAux_spec d hd a
  have hl := (length_divModAux d a).2 hd0
  have hrdeg : (toPoly (polyDivModAux d a).2).degree < (toPoly d).degree := by
    refine lt_of_lt_of_le (degree_toPoly _) ?_
    rw [degree_eq_natDegree hm.ne_zero, hn, hl]
  have huniq := div_modByMonic_unique (toPoly (polyDivModAux d a).1) (toPoly (polyDivModAux d a).2)
    (f := toPoly a) hm ⟨by rw [hspec]; ring, hrdeg⟩
  refine ⟨?_, huniq.2.symm⟩
  rw [huniq.1, polyDiv, toPoly_take_of_zero]
  intro i hi
  rw [← coeff_toPoly, ← huniq.1]
  by_cases hla : a.length ≤ d.length - 1
  · have h0 : toPoly a /ₘ toPoly d = 0 := by
      rw [divByMonic_eq_zero_iff hm, degree_eq_natDegree hm.ne_zero, hn]
      exact lt_of_lt_of_le (degree_toPoly a) (by exact_mod_cast hla)
    rw [h0, coeff_zero]
  · apply coeff_eq_zero_of_natDegree_lt
    rw [natDegree_divByMonic _ hm, hn]
    have hna : (toPoly a).natDegree ≤ a.length - 1 := by
      by_cases h0 : toPoly a = 0
      · simp [h0]
      · have h1 := degree_toPoly a
        rw [degree_eq_natDegree h0] at h1
        have : (toPoly a).natDegree < a.length := by exact_mod_cast h1
        omega
    omega

theorem length_polyDiv (a d : List F) :
    (polyDiv a d).length = a.length - (d.length - 1) := by
  simp [polyDiv, (length_divModAux d a).1]

theorem polyIsZero_iff [DecidableEq F] (a : List F) : polyIsZero a = true ↔ toPoly a = 0 := by
  constructor
  · intro h
    ext i
    rw [coeff_toPoly, coeff_zero, List.getD_eq_getElem?_getD]
    cases hi : a[i]? with
    | none => rfl
    | some v =>
      simp only [polyIsZero, List.all_eq_true, beq_iff_eq] at h
      exact h v (List.mem_of_getElem? hi)
  · intro h
    simp only [polyIsZero, List.all_eq_true, beq_iff_eq]
    intro v hv
    obtain ⟨i, hi⟩ := List.getElem?_of_mem hv
    have := congrArg (fun p => p.coeff i) h
    simpa [coeff_toPoly, List.getD_eq_getElem?_getD, hi] using this

/-- the vanishing polynomial of a list of points -/
noncomputable def vanish (l : List F) : F[X] := (l.map fun x => X - C x).prod

theorem toPoly_lin (x : F) : toPoly [-x, 1] = X - C x := by
  simp [toPoly_cons, toPoly_nil]; ring

theorem getV_foldl (l : List F) : ∀ (v : List F), v ≠ [] →
    toPoly (l.foldl (fun v x => polyMul v [-x, 1]) v) = toPoly v * vanish l ∧
    (l.foldl (fun v x => polyMul v [-x, 1]) v).length = v.length + l.length := by
  induction l with
  | nil => intro v hv; exact ⟨by simp [vanish], by simp⟩
  | cons x l ih =>
    intro v hv
    have hlen := length_polyMul v [-x, 1] hv (by simp)
    have hne : polyMul v [-x, 1] ≠ [] := by
      intro h; rw [h] at hlen; simp at hlen
    obtain ⟨h1, h2⟩ := ih (polyMul v [-x, 1]) hne
    refine ⟨?_, ?_⟩
    · rw [List.foldl_cons, h1, toPoly_polyMul, toPoly_lin]
      simp only [vanish, List.map_cons, List.prod_cons]; ring
    · rw [List.foldl_cons, h2]; simp at hlen ⊢; omega

theorem toPoly_getV (l : List F) : toPoly (getV l) = vanish l := by
  rw [getV, (getV_foldl l [1] (by simp)).1]; simp [toPoly_cons, toPoly_nil]

theorem length_getV (l : List F) : (getV l).length = l.length + 1 := by
  rw [getV, (getV_foldl l [1] (by simp)).2]; simp; omega

theorem vanish_monic (l : List F) : (vanish l).Monic ∧ (vanish l).natDegree = l.length := by
  induction l with
  | nil => simp [vanish]
  | cons x l ih =>
    have : vanish (x :: l) = (X - C x) * vanish l := by simp [vanish]
    rw [this]
    refine ⟨(monic_X_sub_C x).mul ih.1, ?_⟩
    rw [(monic_X_sub_C x).natDegree_mul ih.1, natDegree_X_sub_C, ih.2]; simp; omega

theorem getLastD_of_monic (a : List F) (h : (toPoly a).Monic)
    (hn : (toPoly a).natDegree = a.length - 1) : a.getLastD 0 = 1 := by
  have h1 : (toPoly a).coeff (a.length - 1) = 1 := by
    rw [← hn]; exact h
  rw [coeff_toPoly, List.getD_eq_getElem?_getD] at h1
  rw [List.getLastD_eq_getLast?, List.getLast?_eq_getElem?]; exact h1

theorem getV_last (l : List F) : (getV l).getLastD 0 = 1 := by
  apply getLastD_of_monic
  · rw [toPoly_getV]; exact (vanish_monic l).1
  · rw [toPoly_getV, length_getV, (vanish_monic l).2]; rfl

theorem vanish_eval_eq_zero (l : List F) (x : F) : (vanish l).eval x = 0 ↔ x ∈ l := by
  induction l with
  | nil => simp [vanish]
  | cons y l ih =>
    have : vanish (y :: l) = (X - C y) * vanish l := by simp [vanish]
    rw [this, eval_mul, mul_eq_zero, ih]
    simp [sub_eq_zero]

theorem vanish_dvd (l : List F) (hl : l.Nodup) (p : F[X]) (h : ∀ x ∈ l, p.eval x = 0) :
    vanish l ∣ p := by
  induction l generalizing p with
  | nil => simp [vanish]
  | cons y l ih =>
    rw [List.nodup_cons] at hl
    have hv : vanish (y :: l) = (X - C y) * vanish l := by simp [vanish]
    obtain ⟨q, hq⟩ := dvd_iff_isRoot.2 (h y (by simp))
    rw [hv, hq]
    apply mul_dvd_mul_left
    apply ih hl.2
    intro x hx
    have := h x (by simp [hx])
    rw [hq, eval_mul, mul_eq_zero] at this
    rcases this with h0 | h0
    · exfalso
      rw [eval_sub, eval_X, eval_C, sub_eq_zero] at h0
      subst h0; exact hl.1 hx
    · exact h0

theorem vanish_perm {l l' : List F} (h : l.Perm l') : vanish l = vanish l' :=
  (h.map _).prod_eq

/-! ## interpolation -/

theorem lagrangeTerm_spec (xj y : F) (others : List F) :
    toPoly (lagrangeTerm xj y others)
        = C y * (others.map fun x => C (xj - x)⁻¹ * (X - C x)).prod ∧
      (lagrangeTerm xj y others).length = others.length + 1 := by
  have key : ∀ (l : List F) (t : List F), t ≠ [] →
      toPoly (l.foldl (fun t x => polyMul t (polyScale (xj - x)⁻¹ [-x, 1])) t)
        = toPoly t * (l.map fun x => C (xj - x)⁻¹ * (X - C x)).prod ∧
      (l.foldl (fun t x => polyMul t (polyScale (xj - x)⁻¹ [-x, 1])) t).length
        = t.length + l.length := by
    intro l
    induction l with
    | nil => intro t _; simp
    | cons x l ih =>
      intro t ht
      have hlen := length_polyMul t (polyScale (xj - x)⁻¹ [-x, 1]) ht (by simp [polyScale])
      have hne : polyMul t (polyScale (xj - x)⁻¹ [-x, 1]) ≠ [] := by
        intro h; rw [h] at hlen; simp at hlen
      obtain ⟨h1, h2⟩ := ih _ hne
      rw [List.foldl_cons, h1, h2, toPoly_polyMul, toPoly_polyScale, toPoly_lin]
      refine ⟨by simp only [List.map_cons, List.prod_cons]; ring, ?_⟩
      simp at hlen ⊢; omega
  obtain ⟨h1, h2⟩ := key others [y] (by simp)
  refine ⟨by rw [lagrangeTerm, h1]; simp [toPoly_cons, toPoly_nil], ?_⟩
  rw [lagrangeTerm, h2]; simp; omega

theorem lagrangeTerm_self (xj y : F) (others : List F) (h : xj ∉ others) :
    (toPoly (lagrangeTerm xj y others)).eval xj = y := by
  rw [(lagrangeTerm_spec xj y others).1, eval_mul, eval_C]
  suffices hs : ((others.map fun x => C (xj - x)⁻¹ * (X - C x)).prod).eval xj = 1 by
    rw [hs, mul_one]
  induction others with
  | nil => simp
  | cons x l ih =>
    have hx : xj - x ≠ 0 := sub_ne_zero.2 fun h' => h (by simp [h'])
    simp only [List.map_cons, List.prod_cons, eval_mul, eval_C, eval_sub, eval_X,
      ih fun h' => h (by simp [h']), mul_one]
    exact inv_mul_cancel₀ hx

theorem lagrangeTerm_other (xj y : F) (others : List F) (x : F) (h : x ∈ others) :
    (toPoly (lagrangeTerm xj y others)).eval x = 0 := by
  rw [(lagrangeTerm_spec xj y others).1, eval_mul, eval_C]
  suffices hs : ((others.map fun x => C (xj - x)⁻¹ * (X - C x)).prod).eval x = 0 by
    rw [hs, mul_zero]
  induction others with
  | nil => simp at h
  | cons z l ih =>
    simp only [List.map_cons, List.prod_cons, eval_mul, eval_C, eval_sub, eval_X]
    rcases List.mem_cons.1 h with rfl | h
    · simp
    · rw [ih h, mul_zero]

theorem length_lagrangeSum (pts : List (F × F)) : ∀ (before : List F),
    (lagrangeSum before pts).length ≤ before.length + pts.length := by
  induction pts with
  | nil => intro before; simp [lagrangeSum]
  | cons p pts ih =>
    intro before
    obtain ⟨x, y⟩ := p
    have := ih (before ++ [x])
    rw [lagrangeSum, length_polyAdd, (lagrangeTerm_spec _ _ _).2]
    simp at this ⊢; omega

theorem lagrangeSum_eval (pts : List (F × F)) : ∀ (before : List F),
    (before ++ pts.map Prod.fst).Nodup →
    (∀ x ∈ before, (toPoly (lagrangeSum before pts)).eval x = 0) ∧
    ∀ x y, (x, y) ∈ pts → (toPoly (lagrangeSum before pts)).eval x = y := by
  induction pts with
  | nil => intro before _; simp [lagrangeSum, toPoly_nil]
  | cons p pts ih =>
    intro before hn
    obtain ⟨a, b⟩ := p
    have hn' : ((before ++ [a]) ++ pts.map Prod.fst).Nodup := by simpa using hn
    obtain ⟨h1, h2⟩ := ih (before ++ [a]) hn'
    have ha : a ∉ before ++ pts.map Prod.fst := by
      intro h
      rw [List.map_cons, List.nodup_middle] at hn
      exact (List.nodup_cons.1 hn).1 h
    simp only [lagrangeSum, toPoly_polyAdd, eval_add]
    refine ⟨fun x hx => ?_, fun x y hxy => ?_⟩
    · rw [lagrangeTerm_other a b _ x (by simp [hx]), h1 x (by simp [hx]), add_zero]
    · rcases List.mem_cons.1 hxy with he | hm
      · cases he
        rw [lagrangeTerm_self a b _ ha, h1 a (by simp), add_zero]
      · have hx : x ∈ pts.map Prod.fst := List.mem_map.2 ⟨(x, y), hm, rfl⟩
        rw [lagrangeTerm_other a b _ x (by simp [hx]), h2 x y hm, zero_add]

theorem interpolation_eval (pts : List (F × F)) (h : (pts.map Prod.fst).Nodup) (x y : F)
    (hm : (x, y) ∈ pts) : evalPoly (lagrangeInterpolation pts) x = y := by
  rw [← eval_toPoly]; exact (lagrangeSum_eval pts [] (by simpa using h)).2 x y hm

theorem length_interpolation (pts : List (F × F)) :
    (lagrangeInterpolation pts).length ≤ pts.length := by
  simpa [lagrangeInterpolation] using length_lagrangeSum pts []

end Crypto3Zk
