import Verif.Spec.EncryptedLinear
import Verif.Lemmas.EncryptedInput
import Verif.Props.Groth16Linear
import Verif.Props.PGHR13Linear

/-!
# The equations of Groth16 with encrypted inputs as identities in the secrets
-/

set_option linter.unusedSectionVars false

namespace Crypto3Zk

open Finset

variable {F : Type} [Field F] [DecidableEq F] {D : EvalDomain F}
variable {G1 G2 GT : Type} [AddCommGroup G1] [Module F G1] [AddCommGroup G2] [Module F G2]
  [AddCommGroup GT] [Module F GT] [DecidableEq GT]

/-! ### the consistency equation -/

/-- a polynomial of degree at most `d` that vanishes at more than `d · |F|^n` points is zero -/
theorem poly_zero_of_many [Fintype F] (n d : Nat) (p : MvPolynomial (Fin (n + 1)) F) (hdeg : p.totalDegree ≤ d)
    (S : Finset (Fin (n + 1) → F)) (hS : ∀ x ∈ S, MvPolynomial.eval x p = 0)
    (hcard : d * Fintype.card F ^ n < S.card) : p = 0 := by
  classical
  by_contra hp
  have hsz := MvPolynomial.schwartz_zippel_totalDegree hp (Finset.univ : Finset F)
  have hsub : S.card ≤
      (Finset.filter (fun f => MvPolynomial.eval f p = 0) (Fintype.piFinset fun _ => Finset.univ)).card := by
    refine Finset.card_le_card fun x hx => ?_
    simp only [Finset.mem_filter, Fintype.mem_piFinset, Finset.mem_univ, implies_true, true_and]
    exact hS x hx
  have hF : (0 : ℚ≥0) < Fintype.card F := by exact_mod_cast Fintype.card_pos
  rw [Finset.card_univ, div_le_div_iff₀ (pow_pos hF _) hF, pow_succ] at hsz
  have h2 : ((Finset.filter (fun f => MvPolynomial.eval f p = 0)
      (Fintype.piFinset fun _ => Finset.univ)).card : ℚ≥0) ≤ p.totalDegree * (Fintype.card F) ^ n := by
    refine le_of_mul_le_mul_right ?_ hF
    calc _ ≤ _ := hsz
      _ = _ := by ring
  have h3 : (Finset.filter (fun f => MvPolynomial.eval f p = 0)
      (Fintype.piFinset fun _ => Finset.univ)).card ≤ p.totalDegree * (Fintype.card F) ^ n := by
    exact_mod_cast h2
  have h4 : p.totalDegree * (Fintype.card F) ^ n ≤ d * Fintype.card F ^ n := Nat.mul_le_mul_right _ hdeg
  omega

/-- an equation of degree two in many points: its coefficients agree -/
theorem quadratic_of_many [Fintype F] (n : Nat) (w : F) (p u : Fin (n + 1) → F) (v : Fin (n + 1) → Fin (n + 1) → F)
    (S : Finset (Fin (n + 1) → F)) (hS : ∀ x ∈ S, ∑ i, x i * (u i + ∑ j, v i j * x j) = w + ∑ j, p j * x j)
    (hcard : 2 * Fintype.card F ^ n < S.card) :
    w = 0 ∧ (∀ i, u i = p i) ∧ (∀ i, v i i = 0) ∧ ∀ i j, i ≠ j → v i j + v j i = 0 := by
  classical
  let P : MvPolynomial (Fin (n + 1)) F :=
    (∑ i, MvPolynomial.X i * (MvPolynomial.C (u i) + ∑ j, MvPolynomial.C (v i j) * MvPolynomial.X j)) -
      (MvPolynomial.C w + ∑ j, MvPolynomial.C (p j) * MvPolynomial.X j)
  have hlin : ∀ (c : F) (f : Fin (n + 1) → F),
      (MvPolynomial.C c + ∑ j, MvPolynomial.C (f j) * MvPolynomial.X j :
        MvPolynomial (Fin (n + 1)) F).totalDegree ≤ 1 := by
    intro c f
    refine (MvPolynomial.totalDegree_add _ _).trans (max_le (by simp) ?_)
    refine (MvPolynomial.totalDegree_finset_sum _ _).trans (Finset.sup_le fun j _ => ?_)
    refine (MvPolynomial.totalDegree_mul _ _).trans ?_
    simp
  have hdeg : P.totalDegree ≤ 2 := by
    refine (MvPolynomial.totalDegree_sub _ _).trans (max_le ?_ ((hlin _ _).trans (by norm_num)))
    refine (MvPolynomial.totalDegree_finset_sum _ _).trans (Finset.sup_le fun i _ => ?_)
    refine (MvPolynomial.totalDegree_mul _ _).trans ?_
    have := hlin (u i) (v i)
    simp only [MvPolynomial.totalDegree_X]
    omega
  have hP : P = 0 := by
    refine poly_zero_of_many n 2 P hdeg S (fun x hx => ?_) hcard
    have := hS x hx
    simp only [P, map_sub, map_add, map_sum, map_mul, MvPolynomial.eval_X, MvPolynomial.eval_C]
    rw [this, sub_self]
  have key : ∀ x : Fin (n + 1) → Polynomial F,
      ∑ i, x i * (Polynomial.C (u i) + ∑ j, Polynomial.C (v i j) * x j) =
        Polynomial.C w + ∑ j, Polynomial.C (p j) * x j := by
    intro x
    have := congrArg (MvPolynomial.aeval x) hP
    simp only [P, map_sub, map_add, map_sum, map_mul, MvPolynomial.aeval_X, MvPolynomial.aeval_C, map_zero,
      Polynomial.algebraMap_eq] at this
    exact sub_eq_zero.1 this
  have hw : w = 0 := by
    have := congrArg (Polynomial.coeff · 0) (key 0)
    simpa using this.symm
  have hone : ∀ i, Polynomial.X * (Polynomial.C (u i) + Polynomial.C (v i i) * Polynomial.X) =
      Polynomial.C w + Polynomial.C (p i) * Polynomial.X := by
    intro i
    have := key (Pi.single i Polynomial.X)
    simpa [Pi.single_apply, Finset.sum_ite_eq, mul_ite, ite_mul] using this
  have hu : ∀ i, u i = p i := by
    intro i
    have := congrArg (Polynomial.coeff · 1) (hone i)
    simpa [Polynomial.coeff_X_mul, Polynomial.coeff_C] using this
  have hv : ∀ i, v i i = 0 := by
    intro i
    have := congrArg (Polynomial.coeff · 2) (hone i)
    simpa [Polynomial.coeff_X_mul, Polynomial.coeff_C] using this
  refine ⟨hw, hu, hv, fun i j hij => ?_⟩
  have := key (Pi.single i Polynomial.X + Pi.single j 1)
  simp only [Pi.add_apply, add_mul, mul_add, Finset.sum_add_distrib, Pi.single_apply, mul_ite, ite_mul, mul_zero,
    zero_mul, mul_one, one_mul, Finset.sum_ite_eq', Finset.mem_univ, if_true] at this
  have := congrArg (Polynomial.coeff · 1) this
  simp [Polynomial.coeff_C, Polynomial.coeff_X_mul, hv, hu, hij, hij.symm, hw] at this
  linear_combination this

/-- how a combination depends on `t_0, …, t_n`: through `delta_sum_s_g1` and `t_g1` -/
def encSlope {n : Nat} (a : Fin n → F) (b : F) (k : Fin n → F) (delta : F) (s : Fin n → F) : Fin (n + 1) → F :=
  Fin.cons (b * delta) fun j => a j * k j + b * s j * delta

/-- the part of degree two of the consistency equation vanishes -/
def SlopesCancel {n : Nat} (v : Fin (n + 1) → Fin (n + 1) → F) : Prop :=
  (∀ i, v i i = 0) ∧ ∀ i j, i ≠ j → v i j + v j i = 0

/-- either nothing depends on `t_0, …, t_n`, or where the part of degree two vanishes there is a fixed relation
between the elements for the inputs and `delta_g1`, or it vanishes nowhere -/
theorem slopes_relation {n : Nat} (a : Fin (n + 1) → Fin n → F) (b : Fin (n + 1) → F) :
    ((∀ i j, a i j = 0) ∧ ∀ i, b i = 0) ∨
    (∃ (e : Fin n → F) (b' : F), (∃ j, e j ≠ 0) ∧ ∀ k delta s, delta ≠ 0 →
      SlopesCancel (fun i => encSlope (a i) (b i) k delta s) → ∑ j, e j * k j + b' * delta = 0) ∨
    ∀ k delta s, delta ≠ 0 → ¬ SlopesCancel (fun i => encSlope (a i) (b i) k delta s) := by
  have hb0 : ∀ (k : Fin n → F) (delta : F) (s : Fin n → F), delta ≠ 0 →
      SlopesCancel (fun i => encSlope (a i) (b i) k delta s) → b 0 = 0 := by
    intro k delta s hd h
    have := h.1 0
    simpa [encSlope, hd] using this
  have hbj : ∀ (k : Fin n → F) (delta : F) (s : Fin n → F), delta ≠ 0 →
      SlopesCancel (fun i => encSlope (a i) (b i) k delta s) → ∀ j : Fin n, a 0 j * k j + b j.succ * delta = 0 := by
    intro k delta s hd h j
    have := h.2 0 j.succ (Fin.succ_ne_zero j).symm
    simpa [encSlope, hb0 k delta s hd h] using this
  by_cases h0 : ∃ j, a 0 j ≠ 0
  · obtain ⟨j, hj⟩ := h0
    refine Or.inr (Or.inl ⟨Pi.single j (a 0 j), b j.succ, ⟨j, by simpa using hj⟩, fun k delta s hd h => ?_⟩)
    simpa [Pi.single_apply, ite_mul] using hbj k delta s hd h j
  push Not at h0
  by_cases hB : ∃ i, b i ≠ 0
  · refine Or.inr (Or.inr fun k delta s hd h => ?_)
    obtain ⟨i, hi⟩ := hB
    refine hi ?_
    refine Fin.cases (hb0 k delta s hd h) (fun j => ?_) i
    have := hbj k delta s hd h j
    rw [h0 j, zero_mul, zero_add] at this
    exact (mul_eq_zero.1 this).resolve_right hd
  push Not at hB
  by_cases hA : ∃ i j, a (Fin.succ i) j ≠ 0
  · obtain ⟨i, j, hij⟩ := hA
    by_cases he : i = j
    · subst he
      refine Or.inr (Or.inl ⟨Pi.single i (a i.succ i), 0, ⟨i, by simpa using hij⟩, fun k delta s hd h => ?_⟩)
      have := h.1 i.succ
      simp only [encSlope, Fin.cons_succ, hB] at this
      simpa [Pi.single_apply, ite_mul] using this
    · refine Or.inr (Or.inl ⟨Pi.single j (a i.succ j) + Pi.single i (a j.succ i), 0,
        ⟨j, by simp [Pi.single_apply, Ne.symm he, hij]⟩, fun k delta s hd h => ?_⟩)
      have := h.2 i.succ j.succ (fun h => he (Fin.succ_injective _ h))
      simp only [encSlope, Fin.cons_succ, hB] at this
      simp only [Pi.add_apply, add_mul, Finset.sum_add_distrib, Pi.single_apply, ite_mul, zero_mul,
        Finset.sum_ite_eq', Finset.mem_univ, if_true]
      linear_combination this
  · push Not at hA
    refine Or.inl ⟨fun i j => ?_, hB⟩
    exact Fin.cases (h0 j) (fun i => hA i j) i

/-- such a relation holds for few secrets, since the reduction adds a row for each input -/
theorem relation_few [Fintype F] (hD : D.Lawful) (cs : R1CS F) (hr : cs.WellRanged)
    (hm : cs.numConstraints + cs.numInputs + 1 ≤ D.m) (n : Nat) (hn : n ≤ cs.numInputs) (e : Fin n → F) (b : F)
    (he : ∃ j, e j ≠ 0) (S : Finset (F × (Fin 4 → F)))
    (hS : ∀ z ∈ S, z.2 2 ≠ 0 ∧ ∀ q, cs.qapEval D z.1 = some q →
      ∑ j, e j * (kVal q (z.2 0) (z.2 1) (1 + j) * (z.2 2)⁻¹) + b * z.2 3 = 0) :
    S.card ≤ (D.m + 2) * Fintype.card F ^ 4 := by
  classical
  by_contra hcon
  obtain ⟨good, hgood, hslice⟩ := many_slices S D.m (2 * Fintype.card F ^ 3) (by
    rw [Fintype.card_fun, Fintype.card_fin]
    calc _ = (D.m + 2) * Fintype.card F ^ 4 := by ring
      _ < _ := not_le.1 hcon)
  obtain ⟨j, hj⟩ := he
  let x : Nat → F := fun i => if h : i - 1 < n ∧ 1 ≤ i then e ⟨i - 1, h.1⟩ else 0
  have hx : ∀ i : Fin n, x (1 + i) = e i := by
    intro i
    have : (1 + (i : Nat)) - 1 < n ∧ 1 ≤ 1 + (i : Nat) := ⟨by omega, by omega⟩
    simp only [x, dif_pos this]
    congr 1
    exact Fin.ext (by simp)
  have hrow := rows_eq_of_many hD (cs.qapARow D.m x) (List.replicate D.m 0) 0 0
    (R1CS.length_qapARow cs _ D.m hm) (by simp) good hgood (fun t ht => by
      obtain ⟨qi, q, -, hq, -, n1, n2, n3, n4, lA, lB, lC, eH, eZ, dA, dB, dC⟩ := R1CS.qapEval_spec hD cs hr hm t
      have hlin := coefficients_zero_of_many (F := F) 3 2
        (![![0, 1, 0, 0], ![1, 0, 0, 0], ![0, 0, 0, 0], ![0, 0, 1, 1]] : Fin 4 → Fin 4 → Nat) (by decide +kernel)
        (by decide +kernel)
        ![∑ i : Fin n, e i * q.At.getD (1 + i) 0, ∑ i : Fin n, e i * q.Bt.getD (1 + i) 0,
          ∑ i : Fin n, e i * q.Ct.getD (1 + i) 0, b]
        _ (fun y hy => by
          obtain ⟨h2, h⟩ := hS _ (Finset.mem_filter.1 hy).2
          have h := h q hq
          simp only at h h2
          have h' : ∑ i : Fin n, e i * kVal q (y 0) (y 1) (1 + i) + b * y 3 * y 2 = 0 := by
            have := congrArg (· * y 2) h
            simp only [add_mul, Finset.sum_mul, zero_mul] at this
            rw [← this]
            congr 1
            refine Finset.sum_congr rfl fun i _ => ?_
            field_simp
          have hs : ∑ i : Fin n, e i * kVal q (y 0) (y 1) (1 + i) =
              y 1 * (∑ i : Fin n, e i * q.At.getD (1 + i) 0) + y 0 * (∑ i : Fin n, e i * q.Bt.getD (1 + i) 0) +
                ∑ i : Fin n, e i * q.Ct.getD (1 + i) 0 := by
            simp only [kVal, Finset.mul_sum, ← Finset.sum_add_distrib]
            exact Finset.sum_congr rfl fun i _ => by ring
          rw [hs] at h'
          generalize (∑ i : Fin n, e i * q.At.getD (1 + i) 0) = EA at *
          generalize (∑ i : Fin n, e i * q.Bt.getD (1 + i) 0) = EB at *
          generalize (∑ i : Fin n, e i * q.Ct.getD (1 + i) 0) = EC at *
          have ep : ∀ m : Fin 4 → Nat, ∏ k, y k ^ m k = y 0 ^ m 0 * y 1 ^ m 1 * y 2 ^ m 2 * y 3 ^ m 3 :=
            fun m => by rw [Fin.prod_univ_four]
          simp only [ep, Fin.sum_univ_four]
          simp
          linear_combination h') (hslice t ht) 0
      have hlin : ∑ i : Fin n, e i * q.At.getD (1 + i) 0 = 0 := hlin
      rw [← dA, dot_eq_sum, lA]
      have h0 : dot (List.replicate D.m (0 : F)) (fun i => (D.lagrange t).getD i 0) = 0 := by
        rw [dot_eq_sum]
        exact Finset.sum_eq_zero fun i hi => by
          rw [List.getD_eq_getElem _ _ (by simpa using hi), List.getElem_replicate, zero_mul]
      rw [h0, zero_mul, add_zero, add_zero]
      refine Eq.trans ?_ hlin
      have hz : ∀ i ∈ range (cs.numVariables + 1), i ∉ (Finset.univ : Finset (Fin n)).image (fun i : Fin n => 1 + (i : Nat)) →
          q.At.getD i 0 * x i = 0 := by
        intro i _ hi
        have : ¬ (i - 1 < n ∧ 1 ≤ i) := fun h => hi (Finset.mem_image.2 ⟨⟨i - 1, h.1⟩, Finset.mem_univ _, by
          simp; omega⟩)
        simp only [x, dif_neg this, mul_zero]
      rw [← Finset.sum_subset (s₁ := (Finset.univ : Finset (Fin n)).image (fun i : Fin n => 1 + (i : Nat))) ?_ hz,
        Finset.sum_image (by intro a _ b _ h; exact Fin.ext (by simpa using h))]
      · refine Finset.sum_congr rfl fun i _ => ?_
        rw [hx, mul_comm]
      · intro i hi
        obtain ⟨a, -, rfl⟩ := Finset.mem_image.1 hi
        have : cs.numInputs ≤ cs.numVariables := by simp [R1CS.numInputs, R1CS.numVariables]
        have := a.2
        simp only [Finset.mem_range]
        omega)
  have := hrow (cs.numConstraints + (1 + j)) (by have := j.2; omega)
  rw [R1CS.qapARow_input _ _ _ _ (by have := j.2; omega), hx] at this
  refine hj (this.trans ?_)
  rw [List.getD_eq_getElem _ _ (by have := j.2; simp; omega), List.getElem_replicate]

/-! ### the equation of the proof -/

/-- the monomials of the verification equation, when `gamma_g1` is known -/
def encMonomials : Fin 30 → Fin 4 → Nat :=
  ![![1, 1, 1, 1], ![1, 0, 2, 1], ![1, 0, 1, 2], ![1, 0, 1, 1], ![0, 2, 1, 1], ![0, 1, 2, 1],
    ![0, 1, 1, 2], ![0, 1, 1, 1], ![0, 0, 2, 2], ![0, 0, 1, 3], ![0, 0, 1, 2], ![0, 0, 2, 1],
    ![0, 0, 1, 1], ![0, 2, 0, 1], ![0, 1, 0, 2], ![0, 1, 0, 1], ![1, 1, 0, 1], ![1, 0, 0, 2],
    ![1, 0, 0, 1], ![0, 0, 0, 2], ![0, 0, 0, 1], ![0, 2, 1, 0], ![0, 1, 2, 0], ![0, 1, 1, 0],
    ![1, 1, 1, 0], ![1, 0, 2, 0], ![1, 0, 1, 0], ![0, 0, 2, 0], ![0, 0, 1, 0], ![0, 0, 3, 1]]

/-- `groth16_identity`, for provers that also have `gamma_g1` -/
theorem enc_identity [Fintype F] (a11 c11 : F) (A C : Lin1 F) (B : Lin2 F) (pu pv pw : F)
    (S : Finset (Fin 4 → F)) (hcard : 4 * Fintype.card F ^ 3 < S.card)
    (hS : ∀ x ∈ S, x 2 ≠ 0 ∧ x 3 ≠ 0 ∧
      (A.value (x 0) (x 1) (x 2) (x 3) + a11 * x 2) * B.value (x 1) (x 2) (x 3) =
        x 0 * x 1 + (x 1 * pu + x 0 * pv + pw) + (C.value (x 0) (x 1) (x 2) (x 3) + c11 * x 2) * x 3) :
    A.alpha * B.beta = 1 ∧ A.alpha * B.one = pv + C.v2 ∧ A.one * B.beta = pu + C.u2 ∧
      A.one * B.one = pw + C.w2 := by
  obtain ⟨a1, a2, a3, a4, a5, a6, a7, a8, a9, a10⟩ := A
  obtain ⟨c1, c2, c3, c4, c5, c6, c7, c8, c9, c10⟩ := C
  obtain ⟨b1, b2, b3, b4⟩ := B
  simp only [Lin1.value, Lin2.value] at hS ⊢
  have key := coefficients_zero_of_many 3 4 encMonomials (by decide +kernel) (by decide +kernel)
    (![a1 * b1 - 1, a1 * b2, a1 * b3 - c1, a1 * b4 + a6 * b2 + a9 * b3 - pv - c9, a2 * b1, a2 * b2 + a11 * b1,
      a2 * b3 + a3 * b1 - c2, a2 * b4 + a4 * b1 + a5 * b2 + a8 * b3 - pu - c8, a3 * b2 + a11 * b3 - c11, a3 * b3 - c3,
      a3 * b4 + a4 * b3 - c4, a4 * b2 + a11 * b4, a4 * b4 + a7 * b2 + a10 * b3 - pw - c10,
      a5 * b1, a5 * b3 - c5, a5 * b4 + a7 * b1, a6 * b1, a6 * b3 - c6, a6 * b4, a7 * b3 - c7, a7 * b4,
      a8 * b1, a8 * b2, a8 * b4 + a10 * b1, a9 * b1, a9 * b2, a9 * b4, a10 * b2, a10 * b4, a11 * b2] : Fin 30 → F)
    S ?_ hcard
  · have k0 := key 0
    have k4 := key 4
    have k13 := key 13
    have k16 := key 16
    have k15 := key 15
    have k21 := key 21
    have k24 := key 24
    have k23 := key 23
    have k3 := key 3
    have k7 := key 7
    have k12 := key 12
    clear key hS
    change a1 * b1 - 1 = 0 at k0
    change a2 * b1 = 0 at k4
    change a5 * b1 = 0 at k13
    change a6 * b1 = 0 at k16
    change a5 * b4 + a7 * b1 = 0 at k15
    change a8 * b1 = 0 at k21
    change a9 * b1 = 0 at k24
    change a8 * b4 + a10 * b1 = 0 at k23
    change a1 * b4 + a6 * b2 + a9 * b3 - pv - c9 = 0 at k3
    change a2 * b4 + a4 * b1 + a5 * b2 + a8 * b3 - pu - c8 = 0 at k7
    change a4 * b4 + a7 * b2 + a10 * b3 - pw - c10 = 0 at k12
    have hb : b1 ≠ 0 := by rintro rfl; simp at k0
    have z2 : a2 = 0 := (mul_eq_zero.1 k4).resolve_right hb
    have z5 : a5 = 0 := (mul_eq_zero.1 k13).resolve_right hb
    have z6 : a6 = 0 := (mul_eq_zero.1 k16).resolve_right hb
    have z8 : a8 = 0 := (mul_eq_zero.1 k21).resolve_right hb
    have z9 : a9 = 0 := (mul_eq_zero.1 k24).resolve_right hb
    subst z2 z5 z6 z8 z9
    have z7 : a7 = 0 := (mul_eq_zero.1 (by simpa using k15)).resolve_right hb
    have z10 : a10 = 0 := (mul_eq_zero.1 (by simpa using k23)).resolve_right hb
    subst z7 z10
    exact ⟨by linear_combination k0, by linear_combination k3, by linear_combination k7,
      by linear_combination k12⟩
  · intro x hx
    obtain ⟨h2, h3, h⟩ := hS x hx
    have e : ∀ j : Fin 30, ∏ k, x k ^ encMonomials j k =
        x 0 ^ encMonomials j 0 * x 1 ^ encMonomials j 1 * x 2 ^ encMonomials j 2 *
          x 3 ^ encMonomials j 3 := fun j => by rw [Fin.prod_univ_four]
    simp only [e]
    generalize x 0 = α at *
    generalize x 1 = β at *
    generalize x 2 = γ at *
    generalize x 3 = δ at *
    clear e
    simp only [encMonomials, Fin.sum_univ_succ, Fin.sum_univ_zero, Matrix.cons_val_zero,
      Matrix.cons_val_succ, Matrix.cons_val_one, Matrix.cons_val]
    field_simp at h
    linear_combination h

/-- at one evaluation point, for provers that also have `gamma_g1`: a strategy that is accepted for many α, β, γ, δ yields a satisfied
arithmetic program -/
theorem enc_point [Fintype F] (P : Pairing F G1 G2 GT) (hD : D.Lawful) (cs cs' : R1CS F)
    (hs : cs.swapABIfBeneficial = some cs') (hr' : cs'.WellRanged)
    (hm' : cs'.numConstraints + cs'.numInputs + 1 ≤ D.m) (chunks : Nat)
    (g1 : G1) (g2 : G2) (hne : P.e g1 g2 ≠ 0) (p : List F) (hp : p.length = cs'.primaryInputSize)
    (a11 c11 : F) (A C : Groth16Coeffs1 F) (B : Groth16Coeffs2 F) (t : F) (S : Finset (Fin 4 → F))
    (hcard : 4 * Fintype.card F ^ 3 < S.card)
    (hS : ∀ x ∈ S, x 2 ≠ 0 ∧ x 3 ≠ 0 ∧ ∃ pk vk gA gB gC,
      groth16Generate P D cs ⟨t, x 0, x 1, x 2, x 3, g1, g2⟩ chunks = some (pk, vk) ∧
      A.combine g1 pk vk = some gA ∧ B.combine g2 pk vk = some gB ∧ C.combine g1 pk vk = some gC ∧
      Groth16Equation P vk p (gA + (a11 * x 2) • g1) gB (gC + (c11 * x 2) • g1)) :
    ∃ q, cs'.qapEval D t = some q ∧
      q.isSatisfied D ⟨cs'.numVariables, D.m, cs'.numInputs, 0, 0, 0, p ++ C.l, C.h ++ [0, 0]⟩ = true := by
  obtain ⟨qi, q, -, hq, -, n1, n2, n3, n4, lA, lB, lC, eH, eZ, dA, dB, dC⟩ :=
    R1CS.qapEval_spec hD cs' hr' hm' t
  refine ⟨q, hq, ?_⟩
  set nv := cs'.numVariables with hnv0
  set ni := cs'.numInputs with hni0
  have hle : ni ≤ nv := by simp [hni0, hnv0, R1CS.numInputs, R1CS.numVariables]
  have hpi : p.length = ni := by rw [hp]; rfl
  have hgen := fun x : Fin 4 → F =>
    groth16Generate_eq P D cs cs' ⟨t, x 0, x 1, x 2, x 3, g1, g2⟩ chunks hs q hq nv ni n1 n3 hle lA lB lC
  have hm0 : 0 < D.m := by omega
  obtain ⟨x0, hx0⟩ : S.Nonempty := Finset.card_pos.1 (by omega)
  -- the lengths
  have hlen : C.l.length = nv - ni ∧ C.h.length = (q.Ht.take (q.Ht.length - 2)).length := by
    obtain ⟨-, -, pk, vk, gA, gB, gC, hg, -, -, hC, -⟩ := hS x0 hx0
    exact (Groth16Coeffs1.combine_eq P cs' _ q nv ni pk vk hle (hg.symm.trans (hgen x0)) C gC hC).2
  obtain ⟨lL, lHc⟩ := hlen
  have key := enc_identity a11 c11 (A.at q nv ni) (C.at q nv ni) (B.at q)
    (q.At.getD 0 0 + ∑ i ∈ range ni, p.getD i 0 * q.At.getD (1 + i) 0)
    (q.Bt.getD 0 0 + ∑ i ∈ range ni, p.getD i 0 * q.Bt.getD (1 + i) 0)
    (q.Ct.getD 0 0 + ∑ i ∈ range ni, p.getD i 0 * q.Ct.getD (1 + i) 0) S hcard ?_
  · obtain ⟨k1, k2, k3, k4⟩ := key
    have hw : (p ++ C.l).length = nv := by rw [List.length_append, hpi, lL]; omega
    have lHt : (q.Ht.take (q.Ht.length - 2)).length = D.m - 1 := by
      rw [eH]; simp [length_powersFrom]; omega
    rw [QapEval.isSatisfied_iff]
    refine ⟨n1, n2, n3, by rw [n1, hw], by simp [n2, lHc, lHt]; omega, by rw [n1, lA], by rw [n1, lB],
      by rw [n1, lC], by rw [eH, length_powersFrom, n2], by rw [eZ, n4], ?_⟩
    simp only
    rw [ansOf_eq _ _ _ _ (by rw [lA, hw]), ansOf_eq _ _ _ _ (by rw [lB, hw]),
      ansOf_eq _ _ _ _ (by rw [lC, hw]), dot_split _ p C.l (by rw [lA]; omega),
      dot_split _ p C.l (by rw [lB]; omega), dot_split _ p C.l (by rw [lC]; omega), hpi, lL]
    have hip : innerProduct q.Ht (C.h ++ [0, 0]) = innerProduct C.h (q.Ht.take (q.Ht.length - 2)) := by
      obtain ⟨k, hk⟩ : ∃ k, D.m = k + 1 := ⟨D.m - 1, by omega⟩
      have hl : C.h.length = k := by omega
      rw [innerProduct_eq_sum _ _ (by rw [eH, length_powersFrom]; simp [hl, hk]),
        innerProduct_eq_sum _ _ (by rw [lHc]), eH, length_powersFrom, hk, hl, Finset.sum_range_succ,
        Finset.sum_range_succ]
      have z1 : (C.h ++ [0, 0]).getD k 0 = 0 := by simp [hl]
      have z2 : (C.h ++ [0, 0]).getD (k + 1) 0 = 0 := by simp [hl]
      rw [z1, z2, mul_zero, mul_zero, add_zero, add_zero]
      refine Finset.sum_congr rfl fun i hi => ?_
      have hi' : i < k := by simpa using hi
      rw [List.getD_append _ _ _ _ (by omega), mul_comm]
      congr 1
      rw [List.getD_eq_getElem _ _ (by simp [length_powersFrom]; omega),
        List.getD_eq_getElem _ _ (by simp [length_powersFrom]; omega)]
      simp
    rw [hip]
    simp only [Groth16Coeffs1.at, Groth16Coeffs2.at] at k1 k2 k3 k4
    simp only [zero_mul, add_zero]
    exact product_of_parts k1 k2 k3 k4
  · intro x hx
    obtain ⟨h2, h3, pk, vk, gA, gB, gC, hg, hA, hB, hC, hv⟩ := hS x hx
    refine ⟨h2, h3, ?_⟩
    have hkeys := hg.symm.trans (hgen x)
    obtain ⟨rA, -, -⟩ := Groth16Coeffs1.combine_eq P cs' _ q nv ni pk vk hle hkeys A gA hA
    obtain ⟨rC, -, -⟩ := Groth16Coeffs1.combine_eq P cs' _ q nv ni pk vk hle hkeys C gC hC
    simp only [Option.some.injEq, Prod.mk.injEq] at hkeys
    obtain ⟨rfl, rfl⟩ := hkeys
    have rB := Groth16Coeffs2.combine_eq ⟨t, x 0, x 1, x 2, x 3, g1, g2⟩ q _ _ rfl rfl rfl rfl B gB hB
    have hacc := hv
    unfold Groth16Equation at hacc
    rw [List.zipWith_comm] at hacc
    simp only at hacc rA rB rC
    rw [rA, rB, rC, batchExp, zipWith_smul_batch,
      innerProduct_kVal q _ _ _ _ ni (fun i => 1 + i) _ (by simp) (by simp) hpi] at hacc
    simp only [← add_smul] at hacc
    simp only [pair_smul, ← add_smul] at hacc
    have hz := smul_left_injective F hne hacc
    rw [hz, kVal]
    field_simp
    ring

end Crypto3Zk
