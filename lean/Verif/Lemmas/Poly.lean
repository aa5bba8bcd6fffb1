import Verif.Model.Poly
import Mathlib.LinearAlgebra.Lagrange
import Mathlib.Algebra.Polynomial.Roots
import Mathlib.Tactic.Ring
import Mathlib.Tactic.LinearCombination
import Mathlib.Tactic.NormNum
import Mathlib.Tactic.FieldSimp
import Mathlib.Tactic.IntervalCases
import Mathlib.Data.List.GetD

set_option linter.unusedSectionVars false

namespace Crypto3Zk

variable {F : Type*} [Field F]

open Polynomial

/-! ## coefficient lists as polynomials -/

/-- the polynomial with the given coefficients -/
noncomputable def toPoly : List F → F[X]
  | [] => 0
  | c :: cs => C c + X * toPoly cs

@[simp] theorem evalPoly_nil (x : F) : evalPoly [] x = 0 := rfl
@[simp] theorem evalPoly_cons (c : F) (a : List F) (x : F) :
    evalPoly (c :: a) x = c + x * evalPoly a x := rfl

theorem eval_toPoly (a : List F) (x : F) : (toPoly a).eval x = evalPoly a x := by
  induction a with
  | nil => simp [toPoly]
  | cons c a ih => simp [toPoly, ih]

theorem degree_toPoly (a : List F) : (toPoly a).degree < (a.length : WithBot ℕ) := by
  induction a with
  | nil => simp [toPoly]
  | cons c a ih =>
    have h1 : (C c : F[X]).degree < ((c :: a).length : WithBot ℕ) := by
      refine lt_of_le_of_lt degree_C_le ?_
      simp only [List.length_cons]; exact_mod_cast Nat.succ_pos _
    have h2 : (X * toPoly a).degree < ((c :: a).length : WithBot ℕ) := by
      by_cases h0 : toPoly a = 0
      · rw [h0, mul_zero, degree_zero]; exact WithBot.bot_lt_coe _
      · rw [degree_mul, degree_X, List.length_cons, degree_eq_natDegree h0] at *
        have : (toPoly a).natDegree < a.length := by exact_mod_cast ih
        exact_mod_cast (by omega : 1 + (toPoly a).natDegree < a.length + 1)
    exact lt_of_le_of_lt (degree_add_le _ _) (max_lt h1 h2)

theorem coeff_toPoly (a : List F) (i : Nat) : (toPoly a).coeff i = a.getD i 0 := by
  induction a generalizing i with
  | nil => simp [toPoly]
  | cons c a ih =>
    cases i with
    | zero => simp [toPoly]
    | succ i => simp [toPoly, coeff_C_succ, ih]

theorem toPoly_injective {a b : List F} (hl : a.length = b.length) (h : toPoly a = toPoly b) :
    a = b := by
  apply List.ext_getElem hl
  intro i h1 h2
  have := congrArg (fun p => coeff p i) h
  simpa [coeff_toPoly, List.getElem?_eq_getElem h1, List.getElem?_eq_getElem h2] using this

/-- every polynomial of degree below `n` is given by a coefficient list of length `n` -/
theorem exists_toPoly (p : F[X]) (n : Nat) (h : p.degree < (n : WithBot ℕ)) :
    toPoly ((List.range n).map p.coeff) = p := by
  ext i
  rw [coeff_toPoly]
  by_cases hi : i < n
  · simp [hi]
  · simp only [not_lt] at hi
    rw [coeff_eq_zero_of_degree_lt (lt_of_lt_of_le h (by exact_mod_cast hi))]
    simp [List.getElem?_eq_none, hi]

theorem evalPoly_eq_sum (a : List F) (x : F) :
    evalPoly a x = ∑ i ∈ Finset.range a.length, a.getD i 0 * x ^ i := by
  induction a with
  | nil => simp
  | cons c a ih =>
    rw [evalPoly_cons, ih, List.length_cons, Finset.sum_range_succ']
    simp only [List.getD_cons_succ, List.getD_cons_zero, pow_zero, mul_one, Finset.mul_sum]
    rw [add_comm]
    congr 1
    apply Finset.sum_congr rfl
    intro i _
    ring

theorem evalPoly_append (a b : List F) (x : F) :
    evalPoly (a ++ b) x = evalPoly a x + x ^ a.length * evalPoly b x := by
  induction a with
  | nil => simp
  | cons c a ih => simp [ih]; ring

theorem evalPoly_replicate_zero (n : Nat) (x : F) : evalPoly (List.replicate n 0) x = 0 := by
  induction n with
  | zero => rfl
  | succ n ih => simp [List.replicate_succ, ih]

theorem evalPoly_map_mul (c : F) (a : List F) (x : F) :
    evalPoly (a.map (c * ·)) x = c * evalPoly a x := by
  induction a with
  | nil => simp
  | cons d a ih => simp [ih]; ring

theorem evalPoly_zipWith_add (a b : List F) (h : a.length = b.length) (x : F) :
    evalPoly (List.zipWith (· + ·) a b) x = evalPoly a x + evalPoly b x := by
  induction a generalizing b with
  | nil => cases b <;> simp_all
  | cons c a ih =>
    cases b with
    | nil => simp at h
    | cons d b =>
      simp at h
      simp [ih b h]; ring

theorem evalPoly_mulByCoset (a : List F) (g x : F) :
    evalPoly (mulByCoset a g) x = evalPoly a (g * x) := by
  have key : ∀ (a : List F) (k : Nat),
      evalPoly (a.mapIdx fun i c => c * g ^ (i + k)) x = g ^ k * evalPoly a (g * x) := by
    intro a
    induction a with
    | nil => simp
    | cons c a ih =>
      intro k
      have := ih (k + 1)
      simp only [List.mapIdx_cons, evalPoly_cons, zero_add]
      rw [show (fun i (c : F) => c * g ^ (i + 1 + k)) = fun i c => c * g ^ (i + (k + 1)) by
        funext i c; congr 2; omega]
      rw [this]; ring
  simpa [mulByCoset] using key a 0

@[simp] theorem length_mulByCoset (a : List F) (g : F) : (mulByCoset a g).length = a.length := by
  simp [mulByCoset]

theorem length_powersFrom (t ti : F) (n : Nat) : (powersFrom t ti n).length = n := by
  induction n generalizing ti with
  | zero => rfl
  | succ n ih => simp [powersFrom, ih]

theorem innerProduct_powersFrom (t ti : F) (a : List F) :
    innerProduct (powersFrom t ti a.length) a = ti * evalPoly a t := by
  induction a generalizing ti with
  | nil => simp [innerProduct, powersFrom]
  | cons c a ih =>
    have := ih (ti * t)
    simp only [innerProduct] at this ⊢
    simp only [List.length_cons, powersFrom, List.zipWith_cons_cons, List.sum_cons, this,
      evalPoly_cons]
    ring

/-! ## weighted sums of a vector -/

/-- `Σ_i l[i] · x i` -/
def dot : List F → (Nat → F) → F
  | [], _ => 0
  | a :: l, x => a * x 0 + dot l (fun i => x (i + 1))

theorem dot_eq_sum (l : List F) (x : Nat → F) :
    dot l x = ∑ i ∈ Finset.range l.length, l.getD i 0 * x i := by
  induction l generalizing x with
  | nil => simp [dot]
  | cons a l ih =>
    rw [dot, ih, List.length_cons, Finset.sum_range_succ']
    simp [add_comm]

theorem dot_set (l : List F) (x : Nat → F) (i : Nat) (h : i < l.length) (c : F) :
    dot (l.set i c) x = dot l x + (c - l[i]) * x i := by
  induction l generalizing x i with
  | nil => simp at h
  | cons a l ih =>
    cases i with
    | zero => simp [dot]; ring
    | succ i =>
      simp only [List.set_cons_succ, dot, List.getElem_cons_succ]
      rw [ih (fun i => x (i + 1)) i (by simpa using h)]
      ring

theorem dot_replicate_zero (n : Nat) (x : Nat → F) : dot (List.replicate n 0) x = 0 := by
  induction n generalizing x with
  | zero => rfl
  | succ n ih => simp [List.replicate_succ, dot, ih]

theorem dot_single (l : List F) (j : Nat) :
    dot l (fun i => if i = j then 1 else 0) = l.getD j 0 := by
  rw [dot_eq_sum]
  simp only [mul_ite, mul_one, mul_zero, Finset.sum_ite_eq', Finset.mem_range]
  split
  · rfl
  · rename_i h
    simp only [not_lt] at h
    simp [List.getElem?_eq_none h]

theorem dot_ext {l l' : List F} (hl : l.length = l'.length) (h : ∀ x, dot l x = dot l' x) :
    l = l' := by
  apply List.ext_getElem hl
  intro i h1 h2
  have := h (fun k => if k = i then 1 else 0)
  rw [dot_single, dot_single] at this
  simpa [List.getElem?_eq_getElem h1, List.getElem?_eq_getElem h2] using this

theorem addAt_spec (l : List F) (i : Nat) (c : F) (h : i < l.length) :
    ∃ l', addAt l i c = some l' ∧ l'.length = l.length ∧ ∀ x, dot l' x = dot l x + c * x i := by
  refine ⟨l.set i (l[i] + c), by simp [addAt, h], by simp, fun x => ?_⟩
  rw [dot_set l x i h]; ring

theorem setAt_spec (l : List F) (i : Nat) (c : F) (h : i < l.length) (h0 : l[i] = 0) :
    ∃ l', setAt l i c = some l' ∧ l'.length = l.length ∧ ∀ x, dot l' x = dot l x + c * x i := by
  refine ⟨l.set i c, by simp [setAt, h], by simp, fun x => ?_⟩
  rw [dot_set l x i h, h0]; ring

/-- inner product of `tail` with a vector, plus the head: the dot product with `(1, w)` -/
theorem head_add_innerProduct (a0 : F) (l w : List F) (h : l.length = w.length) (x : Nat → F)
    (hx0 : x 0 = 1) (hx : ∀ i < w.length, x (i + 1) = w.getD i 0) :
    a0 + innerProduct l w = dot (a0 :: l) x := by
  rw [dot, hx0, mul_one]
  congr 1
  clear hx0 a0
  generalize hy : (fun i => x (i + 1)) = y
  have hy' : ∀ i < w.length, y i = w.getD i 0 := by intro i hi; rw [← hy]; exact hx i hi
  clear hy hx
  induction l generalizing w y with
  | nil => simp [innerProduct, dot]
  | cons a l ih =>
    cases w with
    | nil => simp at h
    | cons b w =>
      have h0 := hy' 0 (by simp)
      simp only [List.getD_cons_zero] at h0
      simp only [innerProduct, List.zipWith_cons_cons, List.sum_cons, dot, h0]
      congr 1
      apply ih w (by simpa using h)
      intro i hi
      have := hy' (i + 1) (by simpa using hi)
      simpa using this

/-! ## the contract of evaluation domains -/

namespace EvalDomain

variable {D : EvalDomain F}

theorem Lawful.eval_inverse (h : D.Lawful) (a : List F) (ha : a.length = D.m) (i : Nat)
    (hi : i < D.m) : evalPoly (D.inverseFft a) (D.point i) = a.getD i 0 := by
  have h1 := h.fft_inverse a ha
  rw [h.fft_eq _ (h.inverse_length a ha)] at h1
  have := congrArg (fun l => l.getD i 0) h1
  simpa [hi] using this

/-- interpolation: a polynomial of degree below `m` is determined by its values on the domain -/
theorem Lawful.eval_lagrange (h : D.Lawful) (p : F[X]) (hp : p.degree < (D.m : WithBot ℕ)) (t : F) :
    dot (D.lagrange t) (fun i => p.eval (D.point i)) = p.eval t := by
  have hinj : Set.InjOn D.point (Finset.range D.m) := by
    intro i hi j hj hij
    exact h.inj i (by simpa using hi) j (by simpa using hj) hij
  have hint := Lagrange.eq_interpolate hinj (f := p) (by simpa using hp)
  conv_rhs => rw [hint]
  rw [Lagrange.interpolate_apply, eval_finsetSum, dot_eq_sum, h.lagrange_eq]
  simp only [List.length_map, List.length_range]
  apply Finset.sum_congr rfl
  intro i hi
  have hi' : i < D.m := by simpa using hi
  simp only [eval_mul, eval_C]
  rw [mul_comm]
  congr 1
  simp only [List.getD_eq_getElem?_getD, List.getElem?_map, List.getElem?_range hi', Option.map_some,
    Option.getD_some]
  rw [Lagrange.basis, eval_prod]
  apply Finset.prod_congr rfl
  intro j hj
  simp [Lagrange.basisDivisor, div_eq_inv_mul]

theorem Lawful.dot_lagrange (h : D.Lawful) (a : List F) (ha : a.length = D.m) (t : F) :
    dot (D.lagrange t) (fun i => a.getD i 0) = evalPoly (D.inverseFft a) t := by
  have hl := h.inverse_length a ha
  have hd := degree_toPoly (D.inverseFft a)
  rw [hl] at hd
  rw [← eval_toPoly, ← h.eval_lagrange _ hd t, dot_eq_sum, dot_eq_sum]
  apply Finset.sum_congr rfl
  intro i hi
  rw [h.lagrange_eq] at hi
  rw [eval_toPoly, h.eval_inverse a ha i (by simpa using hi)]

theorem Lawful.length_lagrange (h : D.Lawful) (t : F) : (D.lagrange t).length = D.m := by
  rw [h.lagrange_eq]; simp

/-- at a domain point the Lagrange vector is the indicator -/
theorem Lawful.lagrange_point (h : D.Lawful) (j : Nat) (hj : j < D.m) (x : Nat → F) :
    dot (D.lagrange (D.point j)) x = x j := by
  have hval : ∀ i < D.m, (D.lagrange (D.point j)).getD i 0 = if i = j then 1 else 0 := by
    intro i hi
    rw [h.lagrange_eq]
    simp only [List.getD_eq_getElem?_getD, List.getElem?_map, List.getElem?_range hi,
      Option.map_some, Option.getD_some]
    split
    · rename_i hij
      subst hij
      apply Finset.prod_eq_one
      intro k hk
      have hk' : k ≠ i ∧ k < D.m := by simpa using hk
      apply div_self
      intro h0
      exact hk'.1 (h.inj k hk'.2 i hi (sub_eq_zero.1 h0).symm)
    · rename_i hij
      apply Finset.prod_eq_zero (i := j)
      · simp [hj, Ne.symm hij]
      · simp
  rw [dot_eq_sum, h.length_lagrange]
  rw [Finset.sum_congr rfl (g := fun i => (if i = j then (1 : F) else 0) * x i)]
  · simp [hj]
  · intro i hi
    rw [hval i (by simpa using hi)]

/-- the vanishing polynomial -/
noncomputable def zPoly (D : EvalDomain F) : F[X] := ∏ i ∈ Finset.range D.m, (X - C (D.point i))

theorem Lawful.eval_zPoly (h : D.Lawful) (t : F) : D.zPoly.eval t = D.vanishing t := by
  rw [h.vanishing_eq, zPoly, eval_prod]; simp

theorem zPoly_monic (D : EvalDomain F) : D.zPoly.Monic :=
  monic_prod_of_monic _ _ fun i _ => monic_X_sub_C _

theorem zPoly_natDegree (D : EvalDomain F) : D.zPoly.natDegree = D.m := by
  unfold zPoly
  rw [natDegree_prod_of_monic _ _ fun i _ => monic_X_sub_C _]
  simp

theorem Lawful.vanishing_point (h : D.Lawful) (j : Nat) (hj : j < D.m) :
    D.vanishing (D.point j) = 0 := by
  rw [h.vanishing_eq]
  exact Finset.prod_eq_zero (i := j) (by simpa using hj) (by simp)

theorem Lawful.zPoly_dvd (h : D.Lawful) (p : F[X])
    (hp : ∀ i < D.m, p.eval (D.point i) = 0) : D.zPoly ∣ p := by
  unfold zPoly
  apply Finset.prod_dvd_of_coprime
  · intro i hi j hj hij
    apply Polynomial.pairwise_coprime_X_sub_C (s := fun i : Finset.range D.m => D.point i) _
      (show (⟨i, hi⟩ : Finset.range D.m) ≠ ⟨j, hj⟩ from fun e => hij (by simpa using e))
    intro a b hab
    exact Subtype.ext (h.inj _ (Finset.mem_range.1 a.2) _ (Finset.mem_range.1 b.2) hab)
  · intro i hi
    exact dvd_iff_isRoot.2 (hp i (by simpa using hi))

/-- The quotient computed through the coset: steps (4) and (5) of the witness maps. -/
def quotientOnCoset (D : EvalDomain F) (num : List F) : List F :=
  mulByCoset (D.inverseFft (D.divideByZOnCoset num)) D.generator⁻¹

open Classical in
theorem Lawful.quotient_spec (h : D.Lawful) (p : F[X])
    (hdeg : p.degree < ((2 * D.m : ℕ) : WithBot ℕ))
    (hroot : ∀ i < D.m, p.eval (D.point i) = 0) (num : List F) (hlen : num.length = D.m)
    (hnum : ∀ i < D.m, num.getD i 0 = p.eval (D.generator * D.point i)) :
    (D.quotientOnCoset num).length = D.m ∧
      ∀ t, evalPoly (D.quotientOnCoset num) t * D.vanishing t = p.eval t := by
  have hdl : (D.divideByZOnCoset num).length = D.m := by rw [h.divide_eq _ hlen]; simp [hlen]
  have hql : (D.quotientOnCoset num).length = D.m := by
    unfold quotientOnCoset; rw [length_mulByCoset, h.inverse_length _ hdl]
  refine ⟨hql, ?_⟩
  obtain ⟨q, hq⟩ := h.zPoly_dvd p hroot
  -- the true quotient has degree below m
  have hqdeg : q.degree < (D.m : WithBot ℕ) := by
    by_cases hq0 : q = 0
    · rw [hq0, degree_zero]; exact WithBot.bot_lt_coe _
    · rw [hq, degree_mul, degree_eq_natDegree (zPoly_monic D).ne_zero, zPoly_natDegree,
        degree_eq_natDegree hq0] at hdeg
      rw [degree_eq_natDegree hq0]
      have : D.m + q.natDegree < 2 * D.m := by exact_mod_cast hdeg
      exact_mod_cast (by omega : q.natDegree < D.m)
  have heq : toPoly (D.quotientOnCoset num) = q := by
    apply Polynomial.eq_of_degree_sub_lt_of_eval_finset_eq
      ((Finset.range D.m).image fun i => D.generator * D.point i)
    · rw [Finset.card_image_of_injOn]
      · refine lt_of_le_of_lt (degree_sub_le _ _) (max_lt ?_ (by simpa using hqdeg))
        have := degree_toPoly (D.quotientOnCoset num)
        rw [hql] at this
        simpa using this
      · intro i hi j hj hij
        exact h.inj i (by simpa using hi) j (by simpa using hj)
          (mul_left_cancel₀ h.generator_ne hij)
    · intro y hy
      obtain ⟨i, hi, rfl⟩ := Finset.mem_image.1 hy
      have hi' : i < D.m := by simpa using hi
      rw [eval_toPoly]
      unfold quotientOnCoset
      rw [evalPoly_mulByCoset, ← mul_assoc, inv_mul_cancel₀ h.generator_ne, one_mul,
        h.eval_inverse _ hdl i hi', h.divide_eq _ hlen]
      have hz := h.coset_ne i hi'
      have hni : num[i]'(by omega) = p.eval (D.generator * D.point i) := by
        have := hnum i hi'
        rwa [List.getD_eq_getElem _ _ (by omega)] at this
      rw [List.getD_eq_getElem _ _ (by simpa [hlen] using hi')]
      simp only [List.getElem_zipWith, List.getElem_range, hni]
      rw [hq, eval_mul, h.eval_zPoly]
      field_simp
  intro t
  rw [← eval_toPoly, heq, hq, eval_mul, h.eval_zPoly, mul_comm]

/-! ### the contract is satisfiable -/

open Classical in
/-- A domain built from any sequence of points, by textbook definitions. -/
noncomputable def ofPoints (m : Nat) (pt : Nat → F) (g : F) : EvalDomain F where
  m := m
  point := pt
  fft a := (List.range m).map fun i => evalPoly a (pt i)
  inverseFft a := (List.range m).map
    (Lagrange.interpolate (Finset.range m) pt (fun i => a.getD i 0)).coeff
  vanishing t := ∏ i ∈ Finset.range m, (t - pt i)
  lagrange t := (List.range m).map fun i =>
    ∏ j ∈ (Finset.range m).erase i, (t - pt j) / (pt i - pt j)
  addPolyZ c h := List.zipWith (· + ·) h
    ((List.range (m + 1)).map (C c * ∏ i ∈ Finset.range m, (X - C (pt i))).coeff)
  divideByZOnCoset a := List.zipWith
    (fun v i => v / ∏ j ∈ Finset.range m, (g * pt i - pt j)) a (List.range m)
  generator := g

theorem ofPoints_lawful (m : Nat) (pt : Nat → F) (g : F) (hg : g ≠ 0)
    (hinj : ∀ i < m, ∀ j < m, pt i = pt j → i = j)
    (hco : ∀ i < m, ∀ j < m, g * pt i ≠ pt j) : (ofPoints m pt g).Lawful where
  inj := hinj
  generator_ne := hg
  vanishing_eq := fun _ => rfl
  coset_ne := by
    intro i hi
    exact Finset.prod_ne_zero_iff.2 fun j hj => sub_ne_zero.2 (hco i hi j (Finset.mem_range.1 hj))
  fft_eq := fun _ _ => rfl
  inverse_length := by intro a _; simp [ofPoints]
  fft_inverse := by
    intro a ha
    have hS : Set.InjOn pt (Finset.range m) := by
      intro i hi j hj hij
      exact hinj i (by simpa using hi) j (by simpa using hj) hij
    apply List.ext_getElem
    · simp only [ofPoints, List.length_map, List.length_range] at ha ⊢; omega
    · intro i h1 h2
      have hi : i < m := by simp only [ofPoints] at ha; omega
      simp only [ofPoints, List.getElem_map, List.getElem_range]
      rw [← eval_toPoly, exists_toPoly]
      · rw [Lagrange.eval_interpolate_at_node _ hS (by simpa using hi)]
        simp [List.getElem?_eq_getElem h2]
      · have := Lagrange.degree_interpolate_lt (fun i => a.getD i 0) hS
        simpa using this
  lagrange_eq := fun _ => rfl
  addPolyZ_length := by intro c h hh; simp [ofPoints] at hh ⊢; omega
  addPolyZ_eq := by
    intro c h hh x
    have hm : (ofPoints m pt g).m = m := rfl
    rw [hm] at hh
    simp only [ofPoints]
    rw [evalPoly_zipWith_add _ _ (by simp [hh]), ← eval_toPoly ((List.range (m + 1)).map _),
      exists_toPoly]
    · simp [eval_prod]
    · by_cases hc : c = 0
      · simp [hc]
      · rw [degree_mul, degree_C hc, zero_add]
        have := zPoly_monic (ofPoints m pt g)
        have h2 := zPoly_natDegree (ofPoints m pt g)
        unfold zPoly at this h2
        simp only [ofPoints] at this h2
        rw [degree_eq_natDegree this.ne_zero, h2]
        exact_mod_cast Nat.lt_succ_self m
  divide_eq := fun _ _ => rfl

/-- the two-point domain `{1, -1}` over the rationals, coset shift 2 -/
theorem example_lawful : (ofPoints 2 (fun i => (-1 : ℚ) ^ i) 2).Lawful := by
  apply ofPoints_lawful
  · norm_num
  · intro i hi j hj h
    interval_cases i <;> interval_cases j <;> simp_all <;> norm_num at h
  · intro i hi j hj
    interval_cases i <;> interval_cases j <;> norm_num

end EvalDomain
end Crypto3Zk
