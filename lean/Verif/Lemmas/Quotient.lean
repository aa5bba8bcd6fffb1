import Verif.Model.Quotient
import Verif.Lemmas.Poly
import Mathlib.Tactic.Ring

/-!
# Lemmas about quotient splitting
-/

set_option linter.unusedSectionVars false

namespace Crypto3Zk

open Finset

variable {F : Type} [Field F]

theorem splitLoop_flatten (f : List F) (d i : Nat) : (splitLoop f d i).flatten = f.drop i := by
  fun_induction splitLoop f d i with
  | case1 i h last ih =>
    rw [List.flatten_cons, ih]
    have h1 : (f.drop i).take (last - i) = (f.drop i).take (d + 1) := by
      by_cases hle : f.length ≤ i + (d + 1)
      · have : last = f.length := by simp only [last]; omega
        rw [this, List.take_of_length_le (by simp), List.take_of_length_le (by simp; omega)]
      · have : last - i = d + 1 := by simp only [last]; omega
        rw [this]
    rw [h1, show i + (d + 1) = i + (d + 1) from rfl, ← List.drop_drop, List.take_append_drop]
  | case2 i h => simp at h; simp [h]

theorem splitLoop_length_le (f : List F) (d i : Nat) :
    ∀ c ∈ splitLoop f d i, c ≠ [] ∧ c.length ≤ d + 1 := by
  fun_induction splitLoop f d i with
  | case1 i h last ih =>
    intro c hc
    rcases List.mem_cons.1 hc with rfl | hc
    · constructor
      · intro hn
        have := congrArg List.length hn
        simp [last] at this
        omega
      · simp [last]; omega
    · exact ih c hc
  | case2 i h => simp

theorem splitLoop_count (f : List F) (d i : Nat) :
    (splitLoop f d i).length = (f.length - i + d) / (d + 1) := by
  fun_induction splitLoop f d i with
  | case1 i h last ih =>
    rw [List.length_cons, ih]
    by_cases hle : f.length ≤ i + (d + 1)
    · have h1 : f.length - (i + (d + 1)) = 0 := by omega
      rw [h1]
      rw [Nat.zero_add, Nat.div_eq_of_lt (by omega)]
      symm
      rw [Nat.div_eq_iff (by omega)]
      omega
    · have h1 : f.length - i + d = (f.length - (i + (d + 1)) + d) + (d + 1) := by omega
      rw [h1, Nat.add_div_right _ (by omega)]
  | case2 i h =>
    have : f.length - i = 0 := by omega
    rw [this, Nat.zero_add, Nat.div_eq_of_lt (by omega)]
    rfl

/-- Horner recombination of chunk values. -/
def hornerChunks (q : F) (zs : List F) : F := zs.foldr (fun z acc => z + q * acc) 0

theorem consolidate_eq_sum (zs : List F) (rows : Nat) (y : F) :
    consolidateQuotient zs rows y = ∑ i ∈ range zs.length, zs.getD i 0 * y ^ (rows * i) := by
  unfold consolidateQuotient
  generalize zs.length = n
  induction n with
  | zero => simp
  | succ n ih => rw [List.range_succ, List.foldl_append, ih, Finset.sum_range_succ]; rfl

theorem consolidate_cons (z : F) (zs : List F) (rows : Nat) (y : F) :
    consolidateQuotient (z :: zs) rows y = z + y ^ rows * consolidateQuotient zs rows y := by
  rw [consolidate_eq_sum, consolidate_eq_sum, List.length_cons, Finset.sum_range_succ',
    Finset.mul_sum, add_comm]
  congr 1
  · simp
  · refine Finset.sum_congr rfl fun i _ => ?_
    simp only [List.getD_cons_succ]
    rw [Nat.mul_succ, pow_add]; ring

@[simp] theorem consolidate_nil (rows : Nat) (y : F) :
    consolidateQuotient ([] : List F) rows y = 0 := by simp [consolidateQuotient]

theorem consolidate_append_zeros (zs : List F) (n rows : Nat) (y : F) :
    consolidateQuotient (zs ++ List.replicate n 0) rows y = consolidateQuotient zs rows y := by
  induction zs with
  | nil =>
    simp only [List.nil_append, consolidate_nil]
    induction n with
    | zero => simp
    | succ n ih => rw [List.replicate_succ, consolidate_cons, ih]; simp
  | cons z zs ih => rw [List.cons_append, consolidate_cons, consolidate_cons, ih]

theorem splitLoop_recombine (f : List F) (d i : Nat) (y : F) :
    consolidateQuotient ((splitLoop f d i).map (evalPoly · y)) (d + 1) y =
      evalPoly (f.drop i) y := by
  fun_induction splitLoop f d i with
  | case1 i h last ih =>
    rw [List.map_cons, consolidate_cons, ih]
    by_cases hle : f.length ≤ i + (d + 1)
    · have h1 : last = f.length := by simp only [last]; omega
      rw [h1, List.take_of_length_le (by simp), List.drop_eq_nil_of_le hle]
      simp
    · have h1 : last - i = d + 1 := by simp only [last]; omega
      rw [h1]
      conv_rhs => rw [← List.take_append_drop (d + 1) (f.drop i)]
      rw [evalPoly_append, List.drop_drop]
      congr 2
      rw [List.length_take, List.length_drop, Nat.min_eq_left (by omega)]
  | case2 i h =>
    rw [List.drop_eq_nil_of_le (by omega)]; simp

theorem storeChunks_eq (cs : List (List F)) (k : Nat) (acc : List (List F)) (hk : k ≤ acc.length) :
    storeChunks cs k acc = if k + cs.length ≤ acc.length
      then some (acc.take k ++ cs ++ acc.drop (k + cs.length)) else none := by
  induction cs generalizing k acc with
  | nil => simp [storeChunks, hk]
  | cons c cs ih =>
    rw [storeChunks]
    by_cases h : k < acc.length
    · rw [if_pos h, ih (k + 1) _ (by simp; omega)]
      simp only [List.length_set, List.length_cons]
      rw [show k + 1 + cs.length = k + (cs.length + 1) by omega]
      split_ifs with h2
      · congr 1
        rw [List.take_set, List.drop_set]
        rw [if_pos (by omega), List.take_succ_eq_append_getElem h]
        rw [List.set_append_right _ _ (by simp)]
        simp [Nat.min_eq_left (le_of_lt h)]
      · rfl
    · rw [if_neg h, if_neg (by simp; omega)]

theorem splitPolynomialSize_rows (p l g rows c : Nat) (hr : 0 < rows)
    (hc : c = 0 ∨ splitPolynomialSize p l g rows 0 ≤ c) :
    max (max (p + 2) (l + 1)) (g + 1) * (rows - 1) ≤ rows * splitPolynomialSize p l g rows c := by
  have key : ∀ s : Nat, s ≤ rows * (if s % rows ≠ 0 then s / rows + 1 else s / rows) := by
    intro s
    have h := Nat.div_add_mod s rows
    split_ifs with h0
    · have := Nat.mod_lt s hr
      rw [Nat.mul_add]
      omega
    · push Not at h0
      omega
  have hcap : splitPolynomialSize p l g rows c = splitPolynomialSize p l g rows 0 := by
    rcases hc with rfl | hc
    · rfl
    · unfold splitPolynomialSize at hc ⊢
      simp only [ne_eq, not_true_eq_false, false_and, if_false] at hc ⊢
      rw [if_neg (by omega)]
  rw [hcap]
  unfold splitPolynomialSize
  simp only [ne_eq, not_true_eq_false, false_and, if_false]
  rw [max_mul_of_nonneg _ _ (Nat.zero_le _), max_mul_of_nonneg _ _ (Nat.zero_le _)]
  exact key _

end Crypto3Zk
