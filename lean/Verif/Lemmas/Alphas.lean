import Verif.Model.Alphas
import Mathlib.Data.List.Induction
import Mathlib.Tactic.Ring

/-!
# Lemmas about the alpha-power registry
-/

set_option linter.unusedSectionVars false

namespace Crypto3Zk

variable {K : Type} [DecidableEq K] {F : Type} [Field F]

theorem registerAll_append (regs : List (K × Nat)) (r : K × Nat) :
    (registerAll (regs ++ [r]) : Alphas K F) = (registerAll regs).register r.1 r.2 := by
  simp [registerAll]

theorem registerAll_nextPower (regs : List (K × Nat)) :
    (registerAll regs : Alphas K F).nextPower = (regs.map (·.2)).sum := by
  induction regs using List.reverseRecOn with
  | nil => rfl
  | append_singleton regs r ih =>
    rw [registerAll_append]
    simp [Alphas.register, ih]

theorem Alphas.find_register (a : Alphas K F) (arg k : K) (p : Nat) :
    (a.register arg p).find k =
      if k = arg ∧ a.find arg = none then some (a.nextPower, p) else a.find k := by
  by_cases h : a.find arg = none
  · have h1 : (a.register arg p).mapping = a.mapping ++ [(arg, (a.nextPower, p))] := by
      simp [Alphas.register, h]
    unfold Alphas.find at h ⊢
    rw [h1, List.find?_append]
    by_cases hk : k = arg
    · subst hk
      simp only [Option.map_eq_none_iff] at h
      simp [h]
    · rw [if_neg (by tauto)]
      have : ¬ arg = k := fun h => hk h.symm
      simp [List.find?_cons, this]
  · have h1 : (a.register arg p).mapping = a.mapping := by
      simp [Alphas.register, Option.isNone_iff_eq_none, h]
    rw [if_neg (by tauto)]
    unfold Alphas.find
    rw [h1]

theorem alphaPowersLoop_eq (alpha last : F) (n : Nat) :
    alphaPowersLoop alpha last n = (List.range n).map fun i => last * alpha ^ (i + 1) := by
  induction n generalizing last with
  | zero => rfl
  | succ n ih =>
    rw [alphaPowersLoop, ih, List.range_succ_eq_map, List.map_cons, List.map_map]
    congr 1
    · ring
    · apply List.map_congr_left
      intro i _
      simp only [Function.comp, Nat.succ_eq_add_one]
      ring

theorem Alphas.instantiate_alphas (a : Alphas K F) (alpha : F) :
    (a.instantiate alpha).alphas = (List.range (max 1 a.nextPower)).map (alpha ^ ·) := by
  unfold Alphas.instantiate
  simp only
  rw [alphaPowersLoop_eq]
  rcases Nat.eq_zero_or_pos a.nextPower with h | h
  · simp [h]
  · rw [Nat.max_eq_right h]
    conv_rhs => rw [← Nat.sub_add_cancel h]
    rw [List.range_succ_eq_map, List.map_cons, List.map_map]
    simp [Function.comp_def]

end Crypto3Zk
