import Verif.Model.Pedersen
import Verif.Lemmas.Groups
import Mathlib.LinearAlgebra.Lagrange
import Mathlib.Tactic.FieldSimp
import Mathlib.Tactic.Module

/-!
# Lemmas about Pedersen secret sharing
-/

set_option linter.unusedSectionVars false

namespace Crypto3Zk

open Finset Polynomial

variable {F G : Type} [Field F] [DecidableEq F] [AddCommGroup G] [Module F G] [DecidableEq G]

theorem pedPolyAt_eq (k : Nat) (coeffs : List F) (hc : coeffs.length = k - 1 + 1) (i : Nat) :
    pedPolyAt k coeffs i = some (∑ j ∈ range (k - 1 + 1), coeffs.getD j 0 * (i : F) ^ j) := by
  have key : ∀ m, m ≤ k - 1 → (List.range' 1 m).foldlM (m := Option) (fun (x : F × F) j => do
      let spare := x.1 * (i : F)
      let c ← coeffs[j]?
      return (spare, x.2 + spare * c)) ((1 : F), coeffs.getD 0 0) =
        some ((i : F) ^ m, ∑ j ∈ range (m + 1), coeffs.getD j 0 * (i : F) ^ j) := by
    intro m
    induction m with
    | zero => intro _; simp
    | succ m ih =>
      intro hm
      rw [List.range'_1_concat, List.foldlM_append, ih (by omega)]
      have h1 : coeffs[1 + m]? = some (coeffs.getD (m + 1) 0) := by
        rw [List.getElem?_eq_getElem (by omega), List.getD_eq_getElem _ _ (by omega)]
        congr 2; omega
      simp only [List.foldlM_cons, List.foldlM_nil, Option.bind_eq_bind, Option.bind_some, h1,
        Option.pure_def]
      rw [Finset.sum_range_succ _ (m + 1), pow_succ]
      congr 2
      rw [mul_comm (coeffs.getD (m + 1) 0)]
  have h0 : coeffs[0]? = some (coeffs.getD 0 0) := by
    rw [List.getElem?_eq_getElem (by omega), List.getD_eq_getElem _ _ (by omega)]
  unfold pedPolyAt
  simp only [h0, Option.bind_eq_bind, Option.bind_some]
  have := key (k - 1) le_rfl
  simp only [Option.bind_eq_bind] at this
  rw [this]
  rfl

theorem pedPolyEval_eq (params : PedersenParams G) (coeffs : List F)
    (hc : coeffs.length = params.k - 1 + 1) :
    pedPolyEval params coeffs = some ((List.range' 1 params.n).map fun i : Nat =>
      ∑ j ∈ range (params.k - 1 + 1), coeffs.getD j 0 * (i : F) ^ j) :=
  mapM_eq_some_map _ _ _ fun i _ => pedPolyAt_eq params.k coeffs hc i

/-- The proof an honest prover makes, in closed form. -/
theorem pedProve_eq (params : PedersenParams G) (w : F) (rand : Nat → F) :
    pedProve params w rand = some
      ⟨w • params.g + rand 0 • params.h,
        (List.range' 1 (params.k - 1)).map fun i => rand (2 * i - 1) • params.g + rand (2 * i) • params.h,
        (List.range' 1 params.n).map fun i : Nat =>
          (∑ j ∈ range (params.k - 1 + 1), (if j = 0 then w else rand (2 * j - 1)) * (i : F) ^ j,
            ∑ j ∈ range (params.k - 1 + 1), rand (2 * j) * (i : F) ^ j)⟩ := by
  have hf : ∀ (c : F) (f : Nat → F) (j : Nat), j < params.k - 1 + 1 →
      (c :: (List.range' 1 (params.k - 1)).map f).getD j 0 = if j = 0 then c else f j := by
    intro c f j hj
    cases j with
    | zero => rfl
    | succ j =>
      rw [List.getD_cons_succ, if_neg (by omega), List.getD_eq_getElem _ _ (by simp; omega)]
      simp [Nat.add_comm]
  unfold pedProve
  simp only
  rw [pedPolyEval_eq _ _ (by simp), pedPolyEval_eq _ _ (by simp)]
  simp only [Option.bind_eq_bind, Option.bind_some]
  rw [mapM_eq_some_map (g := fun i =>
    (∑ j ∈ range (params.k - 1 + 1), (if j = 0 then w else rand (2 * j - 1)) * ((1 + i : Nat) : F) ^ j,
      ∑ j ∈ range (params.k - 1 + 1), rand (2 * j) * ((1 + i : Nat) : F) ^ j))]
  · simp only [Option.bind_some]
    rw [mapM_eq_some_map (g := fun i => rand (2 * i - 1) • params.g + rand (2 * i) • params.h)]
    · simp only [Option.bind_some, Option.pure_def, pedCommitment]
      congr 2
      rw [List.range'_eq_map_range, List.map_map]
      rfl
    · intro i hi
      rw [List.mem_range'_1] at hi
      rw [List.getElem?_eq_getElem (by simp; omega), List.getElem?_eq_getElem (by simp; omega)]
      obtain ⟨j, rfl⟩ : ∃ j, i = j + 1 := ⟨i - 1, by omega⟩
      simp [pedCommitment, Nat.add_comm]
  · intro i hi
    rw [List.mem_range] at hi
    rw [List.getElem?_eq_getElem (by simp; omega), List.getElem?_eq_getElem (by simp; omega)]
    simp only [List.getElem_map, List.getElem_range', Option.bind_some, Option.pure_def, one_mul,
      Option.some.injEq, Prod.mk.injEq]
    constructor
    · refine Finset.sum_congr rfl fun j hj => ?_
      rw [hf _ _ _ (Finset.mem_range.1 hj)]
    · refine Finset.sum_congr rfl fun j hj => ?_
      rw [hf _ _ _ (Finset.mem_range.1 hj)]
      by_cases h : j = 0
      · subst h; simp
      · rw [if_neg h]

theorem pedVerifyAt_eq (params : PedersenParams G) (prf : PedersenProof F G) (i : Nat) (pk : F × F)
    (hpk : prf.pk[i - 1]? = some pk) (hE : params.k - 1 ≤ prf.E.length) :
    pedVerifyAt params prf i = some (decide (pk.1 • params.g + pk.2 • params.h =
      ∑ j ∈ range (params.k - 1 + 1), (i : F) ^ j • (prf.E0 :: prf.E).getD j 0)) := by
  have key : ∀ m, m ≤ params.k - 1 → (List.range' 1 m).foldlM (m := Option)
      (fun (x : F × G) j => do
        let power := x.1 * (i : F)
        let e ← prf.E[j - 1]?
        return (power, x.2 + power • e)) ((1 : F), prf.E0) =
        some ((i : F) ^ m, ∑ j ∈ range (m + 1), (i : F) ^ j • (prf.E0 :: prf.E).getD j 0) := by
    intro m
    induction m with
    | zero => intro _; simp
    | succ m ih =>
      intro hm
      rw [List.range'_1_concat, List.foldlM_append, ih (by omega)]
      have h1 : prf.E[1 + m - 1]? = some (prf.E.getD m 0) := by
        rw [show 1 + m - 1 = m by omega, List.getElem?_eq_getElem (by omega),
          List.getD_eq_getElem _ _ (by omega)]
      simp only [List.foldlM_cons, List.foldlM_nil, Option.bind_eq_bind, Option.bind_some, h1,
        Option.pure_def]
      rw [Finset.sum_range_succ _ (m + 1), pow_succ]
      rfl
  unfold pedVerifyAt
  simp only [hpk, Option.bind_eq_bind, Option.bind_some, pedCommitment]
  have := key (params.k - 1) le_rfl
  simp only [Option.bind_eq_bind] at this
  rw [this]
  rfl

theorem foldlM_and_true {α : Type} (f : α → Option Bool) (l : List α) (b : Bool) :
    l.foldlM (fun answer i => do
      let x ← f i
      return (answer && x)) b = some true ↔ b = true ∧ ∀ i ∈ l, f i = some true := by
  induction l generalizing b with
  | nil => simp
  | cons a l ih =>
    rw [List.foldlM_cons]
    cases h : f a with
    | none => simp [h]
    | some x =>
      have := ih (b && x)
      simp only [Option.bind_eq_bind, Option.pure_def, Option.bind_some] at this ⊢
      rw [this]
      simp [h, and_assoc]

theorem pedVerify_true (params : PedersenParams G) (prf : PedersenProof F G) :
    pedVerify params prf = some true ↔
      ∀ i, 1 ≤ i → i ≤ params.n → pedVerifyAt params prf i = some true := by
  unfold pedVerify
  rw [foldlM_and_true]
  simp only [true_and, List.mem_range'_1]
  exact ⟨fun h i h1 h2 => h i ⟨h1, by omega⟩, fun h i hi => h i hi.1 (by omega)⟩

theorem pedVerifyAt_true (params : PedersenParams G) (prf : PedersenProof F G) (i : Nat)
    (h : pedVerifyAt params prf i = some true) :
    ∃ pk, prf.pk[i - 1]? = some pk ∧ params.k - 1 ≤ prf.E.length ∧
      pk.1 • params.g + pk.2 • params.h =
        ∑ j ∈ range (params.k - 1 + 1), (i : F) ^ j • (prf.E0 :: prf.E).getD j 0 := by
  have hE : params.k - 1 ≤ prf.E.length := by
    by_contra hlt
    unfold pedVerifyAt at h
    cases hpk : prf.pk[i - 1]? with
    | none => simp [hpk] at h
    | some pk =>
      simp only [hpk, Option.bind_eq_bind, Option.bind_some] at h
      have hnone : ∀ (a : F × G), (List.range' 1 (params.k - 1)).foldlM (m := Option)
          (fun (x : F × G) j => (prf.E[j - 1]?).bind fun e =>
            some (x.1 * (i : F), x.2 + (x.1 * (i : F)) • e)) a = none := by
        intro a
        have hm : params.k - 1 = prf.E.length + (params.k - 1 - prf.E.length - 1) + 1 := by omega
        have : (prf.E.length + 1) ∈ List.range' 1 (params.k - 1) := by
          rw [List.mem_range'_1]; omega
        generalize List.range' 1 (params.k - 1) = l at this ⊢
        induction l generalizing a with
        | nil => simp at this
        | cons x l ih =>
          rw [List.foldlM_cons]
          rcases List.mem_cons.1 this with rfl | hx
          · simp
          · cases prf.E[x - 1]? with
            | none => simp
            | some e => simp only [Option.bind_eq_bind, Option.bind_some]; exact ih _ hx
      simp only [Option.pure_def] at h
      rw [hnone] at h
      simp at h
  cases hpk : prf.pk[i - 1]? with
  | none => unfold pedVerifyAt at h; simp [hpk] at h
  | some pk =>
    rw [pedVerifyAt_eq params prf i pk hpk hE] at h
    exact ⟨pk, rfl, hE, by simpa using h⟩

/-- the weights of interpolation at zero -/
def zeroWeight (v : Nat → F) (k j : Nat) : F :=
  ∏ l ∈ (range k).erase j, v l * (v l - v j)⁻¹

theorem zeroWeight_eq_basis (v : Nat → F) (k j : Nat) :
    (Lagrange.basis (range k) v j).eval 0 = zeroWeight v k j := by
  unfold zeroWeight Lagrange.basis
  rw [eval_prod]
  refine Finset.prod_congr rfl fun l _ => ?_
  simp only [Lagrange.basisDivisor, eval_mul, eval_C, eval_sub, eval_X]
  rw [← neg_sub (v l) (v j), inv_neg]
  ring

theorem sum_zeroWeight_eval (v : Nat → F) (k : Nat) (hv : Set.InjOn v (range k : Set Nat))
    (f : F[X]) (hf : f.degree < (k : WithBot ℕ)) :
    ∑ j ∈ range k, zeroWeight v k j * f.eval (v j) = f.eval 0 := by
  have h := Lagrange.eq_interpolate hv (f := f) (by simpa using hf)
  conv_rhs => rw [h]
  rw [Lagrange.interpolate_apply, eval_finsetSum]
  refine Finset.sum_congr rfl fun j _ => ?_
  rw [eval_mul, eval_C, zeroWeight_eq_basis, mul_comm]

theorem sum_zeroWeight_smul (v : Nat → F) (k : Nat) (hk : 0 < k)
    (hv : Set.InjOn v (range k : Set Nat)) (E : Nat → G) :
    ∑ j ∈ range k, zeroWeight v k j • ∑ m ∈ range k, v j ^ m • E m = E 0 := by
  have h1 : ∀ m ∈ range k, ∑ j ∈ range k, zeroWeight v k j * v j ^ m = if m = 0 then 1 else 0 := by
    intro m hm
    have := sum_zeroWeight_eval v k hv (X ^ m) (by
      rw [degree_X_pow]; exact_mod_cast Finset.mem_range.1 hm)
    simp only [eval_pow, eval_X] at this
    rw [this, zero_pow_eq]
  simp only [Finset.smul_sum, smul_smul]
  rw [Finset.sum_comm]
  simp only [← Finset.sum_smul]
  rw [Finset.sum_congr rfl fun m hm => by rw [h1 m hm]]
  simp [hk]

theorem pedWeight_eq (k : Nat) (idx : List Int) (hlen : k ≤ idx.length)
    (hd : Set.InjOn (fun j => ((idx.getD j 0 : Int) : F)) (range k : Set Nat)) (j : Nat)
    (hj : j < k) :
    pedWeight k idx j = some (zeroWeight (fun j => ((idx.getD j 0 : Int) : F)) k j) := by
  unfold pedWeight zeroWeight
  have hget : ∀ l < k, idx[l]? = some (idx.getD l 0) := by
    intro l hl
    rw [List.getElem?_eq_getElem (by omega), List.getD_eq_getElem _ _ (by omega)]
  have key : ∀ m, m ≤ k → (List.range m).foldlM (m := Option) (fun mult l =>
      if l ≠ j then do
        let il ← idx[l]?
        let ij ← idx[j]?
        let d : F := ((il - ij : Int) : F)
        if d = 0 then none else some (mult * ((il : F) * d⁻¹))
      else some mult) 1 = some (∏ l ∈ (range m).erase j,
        ((idx.getD l 0 : Int) : F) * (((idx.getD l 0 : Int) : F) - ((idx.getD j 0 : Int) : F))⁻¹) := by
    intro m
    induction m with
    | zero => intro _; simp
    | succ m ih =>
      intro hm
      rw [List.range_succ, List.foldlM_append, ih (by omega)]
      simp only [List.foldlM_cons, List.foldlM_nil, Option.bind_eq_bind, Option.bind_some,
        Option.pure_def]
      by_cases hmj : m = j
      · rw [if_neg (by simpa using hmj)]
        subst hmj
        rw [Finset.range_add_one, Finset.erase_insert (by simp), Finset.erase_eq_of_notMem (by simp)]
        rfl
      · rw [if_pos hmj, hget m (by omega), hget j hj]
        simp only [Option.bind_some, Int.cast_sub]
        have hne : ((idx.getD m 0 : Int) : F) - ((idx.getD j 0 : Int) : F) ≠ 0 := by
          intro h0
          exact hmj (hd (by simp; omega) (by simp; omega) (sub_eq_zero.1 h0))
        rw [if_neg hne]
        simp only [Option.bind_some]
        rw [Finset.range_add_one, Finset.erase_insert_of_ne hmj, Finset.prod_insert (by simp),
          mul_comm]
  exact key k le_rfl

end Crypto3Zk
