import Verif.Model.LinearVariable
import Verif.Props.LinearCombination

/-!
# C01: terms and variables as operands, and appended terms
-/

namespace Crypto3Zk

open LinComb

variable {F : Type*} [Field F] [DecidableEq F]

private theorem evaluate_snoc (x : LinComb F) (t : LinearTerm F) (a : List F) (ht : t.index ≤ a.length) :
    evaluate (x ++ [t]) a = (evaluate x a).map fun u => u + envOf a t.index * t.coeff := by
  have hp : (x ++ [t]).Perm (t :: x) := List.perm_append_comm (l₂ := [t])
  rw [evaluate_perm hp, evaluate_cons, readVar_eq_some ht]
  cases evaluate x a with
  | none => rfl
  | some u => simp [add_comm]

/-- C01 (terms): a negated term, a scaled term and a scaled variable have the negated and the scaled
value. -/
theorem C01_evaluate_term (t : LinearTerm F) (c : F) (a : List F) (ht : t.index ≤ a.length) :
    evaluate [t] a = some (envOf a t.index * t.coeff) ∧
    evaluate [termNeg t] a = some (-(envOf a t.index * t.coeff)) ∧
    evaluate [termScale t c] a = some (c * (envOf a t.index * t.coeff)) ∧
    evaluate [varScale t.index c] a = some (c * envOf a t.index) := by
  have h : ∀ s : LinearTerm F, s.index = t.index → evaluate [s] a = some (envOf a t.index * s.coeff) := by
    intro s hs
    have := evaluate_snoc [] s a (by omega)
    rw [List.nil_append] at this
    rw [this, hs]
    simp [evaluate_nil]
  refine ⟨h t rfl, ?_, ?_, ?_⟩
  · rw [h (termNeg t) rfl]; simp [termNeg, termScale, ofVar]
  · rw [h (termScale t c) rfl]; simp [termScale]; ring
  · rw [h (varScale t.index c) rfl]; simp [varScale, termScale, ofVar, mul_comm]

/-- C01 (appended terms): `add_term` adds the value of the term. -/
theorem C01_evaluate_addTerm (x : LinComb F) (i : Nat) (c : F) (a : List F) (hi : i ≤ a.length) :
    evaluate (addVar x i) a = (evaluate x a).map (fun u => u + envOf a i) ∧
    evaluate (addVarCoeff x i c) a = (evaluate x a).map (fun u => u + c * envOf a i) ∧
    evaluate (addTerm x ⟨i, c⟩) a = (evaluate x a).map (fun u => u + c * envOf a i) := by
  refine ⟨?_, ?_, ?_⟩
  · rw [addVar, evaluate_snoc _ _ _ hi]; simp [ofVar]
  · rw [addVarCoeff, evaluate_snoc _ _ _ hi]; simp [ofVar, termScale, mul_comm]
  · rw [addTerm, evaluate_snoc _ _ _ hi]; simp [mul_comm]

/-- C01 (constant plus and minus a variable). -/
theorem C01_evaluate_constVar (c : F) (i : Nat) (a : List F) (hi : i ≤ a.length) :
    evaluate (constAddVar c i) a = some (c + envOf a i) ∧
    evaluate (constSubVar c i) a = some (c - envOf a i) := by
  have h1 : evaluate (ofConst c) a = some c := by
    simp [ofConst, evaluate_cons, evaluate_nil, termScale, ofVar, readVar]
  have h2 : evaluate [(ofVar i : LinearTerm F)] a = some (envOf a i) := by
    have := (C01_evaluate_term (ofVar i : LinearTerm F) 0 a hi).1
    simpa [ofVar] using this
  refine ⟨?_, ?_⟩
  · rw [constAddVar, (C01_evaluate_varAdd i _ a hi).1, h1]
    simp [add_comm]
  · rw [constSubVar, C01_evaluate_sub, h1, h2]
    rfl

/-- C01, what is not kept: `variable + combination` and `add_term` put the new term last. The result is
in canonical form exactly when the operand is and the variable comes after all of its variables; otherwise
`is_valid` rejects it, and a further `operator+` on it may leave a variable in two terms. -/
theorem C01_varAdd_canonical (i : Nat) (x : LinComb F) :
    Canonical (varAdd i x) ↔ Canonical x ∧ ∀ t ∈ x, t.index < i := by
  unfold Canonical varAdd
  rw [List.pairwise_append]
  simp [ofVar]

/-- `x1 + 5·x1` is rejected for every number of variables, although its value is right -/
example (n : Nat) : isValid (varAdd 1 [⟨1, 5⟩] : LinComb ℚ) n = some false ∧
    evaluate (varAdd 1 [⟨1, 5⟩] : LinComb ℚ) [7] = some 42 := by
  refine ⟨?_, by norm_num [varAdd, ofVar, evaluate_cons, evaluate_nil, readVar]⟩
  rw [C04_isValid_partial _ _ (by simp [varAdd])]
  exact congrArg some (decide_eq_false fun h => absurd (((C01_varAdd_canonical (F := ℚ) 1 [⟨1, 5⟩]).1 h.1).2 _
    (List.mem_singleton.2 rfl)) (by simp))

example : evaluate [termNeg ⟨2, 5⟩] [3, (4 : ℚ)] = some (-20) := by
  rw [(C01_evaluate_term _ 0 _ (by decide)).2.1]; norm_num [envOf]

end Crypto3Zk
