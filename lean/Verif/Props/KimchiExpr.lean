import Verif.Spec.KimchiExpr
import Mathlib.GroupTheory.OrderOfElement
import Mathlib.RingTheory.RootsOfUnity.PrimitiveRoots
import Mathlib.Algebra.Field.Rat
import Mathlib.Tactic.Ring
import Mathlib.Tactic.FieldSimp
import Mathlib.Tactic.NormNum
import Mathlib.Tactic.IntervalCases
import Mathlib.Tactic.NormNum.Prime
import Mathlib.Algebra.Field.ZMod

/-!
# C81: expressions in Polish notation
-/

namespace Crypto3Zk

set_option linter.unusedSectionVars false

variable {F : Type} [Field F] [DecidableEq F]

theorem polish_fold (env : KEnv F) (e : KExpr F) (st m : List F) (rest : List (PolishToken F)) :
    (e.polish ++ rest).foldlM (polishStep env) (st, m) =
      (e.value env m).bind fun x => rest.foldlM (polishStep env) (x.1 :: st, x.2) := by
  induction e generalizing st m rest with
  | alpha => simp [KExpr.polish, KExpr.value, polishStep]
  | beta => simp [KExpr.polish, KExpr.value, polishStep]
  | gamma => simp [KExpr.polish, KExpr.value, polishStep]
  | jointCombiner => simp [KExpr.polish, KExpr.value, polishStep]
  | endoCoefficient => simp [KExpr.polish, KExpr.value, polishStep]
  | mds i j => simp [KExpr.polish, KExpr.value, polishStep]
  | literal x => simp [KExpr.polish, KExpr.value, polishStep]
  | cell v =>
    simp only [KExpr.polish, KExpr.value, List.singleton_append, List.foldlM_cons, polishStep]
    cases variableEvaluate v env.cur env.nxt <;> rfl
  | vanishesOnLast4Rows => simp [KExpr.polish, KExpr.value, polishStep]
  | unnormalizedLagrangeBasis i =>
    simp only [KExpr.polish, KExpr.value, List.singleton_append, List.foldlM_cons, polishStep]
    cases Crypto3Zk.unnormalizedLagrangeBasis env.domain i env.pt <;> rfl
  | add a b iha ihb | mul a b iha ihb | sub a b iha ihb =>
    rw [KExpr.polish, List.append_assoc, List.append_assoc, iha, KExpr.value]
    cases a.value env m with
    | none => rfl
    | some x =>
      simp only [Option.bind_some, Option.bind_eq_bind]
      rw [ihb]
      cases b.value env x.2 <;> rfl
  | pow a n iha | double a iha | square a iha | share a iha =>
    rw [KExpr.polish, List.append_assoc, iha, KExpr.value]
    cases a.value env m with
    | none => rfl
    | some x =>
      simp [polishStep, two_mul, pow_two]
  | shared i =>
    simp only [KExpr.polish, KExpr.value, List.singleton_append, List.foldlM_cons, polishStep]
    cases m[i]? <;> rfl

/-- C81: evaluating the Polish notation of an expression yields the value of the expression, and is
undefined exactly if the expression has no value. -/
theorem C81_evaluate (env : KEnv F) (e : KExpr F) :
    polishEvaluate env e.polish = (e.value env []).map (·.1) := by
  have h := polish_fold env e [] [] []
  rw [List.append_nil] at h
  rw [polishEvaluate, Option.bind_eq_bind, h]
  cases e.value env [] <;> rfl

/-- C81: tokens that leave an operand without operator, or take one too many, have no value: for example
two expressions one after the other, or an operator alone. -/
theorem C81_malformed (env : KEnv F) (a b : KExpr F) :
    polishEvaluate env (a.polish ++ b.polish) = none ∧
    polishEvaluate env (a.polish ++ [.add]) = none := by
  constructor
  · rw [polishEvaluate, Option.bind_eq_bind, polish_fold]
    cases a.value env [] with
    | none => rfl
    | some x =>
      have h := polish_fold env b [x.1] x.2 []
      rw [List.append_nil] at h
      rw [Option.bind_some, h]
      cases b.value env x.2 <;> rfl
  · rw [polishEvaluate, Option.bind_eq_bind, polish_fold]
    cases a.value env [] with
    | none => rfl
    | some x => rfl

/-- C81: the vanishing factor is zero on the last four rows and only there. -/
theorem C81_last_rows (d : KDomain F) (h4 : 4 ≤ d.size) (hw : IsPrimitiveRoot d.omega d.size) (i : Nat)
    (hi : i < d.size) :
    evalVanishesOnLast4Rows d (d.omega ^ i) = 0 ↔ d.size - 4 ≤ i := by
  rw [evalVanishesOnLast4Rows]
  have e4 : d.omega ^ (d.size - (3 + 1)) = d.omega ^ (d.size - 4) := rfl
  have e3 : d.omega * d.omega ^ (d.size - 4) = d.omega ^ (d.size - 3) := by
    rw [← pow_succ', show d.size - 4 + 1 = d.size - 3 by omega]
  have e2 : d.omega * d.omega ^ (d.size - 3) = d.omega ^ (d.size - 2) := by
    rw [← pow_succ', show d.size - 3 + 1 = d.size - 2 by omega]
  have e1 : d.omega * d.omega ^ (d.size - 2) = d.omega ^ (d.size - 1) := by
    rw [← pow_succ', show d.size - 2 + 1 = d.size - 1 by omega]
  rw [e4, e3, e2, e1]
  have hinj : ∀ j, j < d.size → (d.omega ^ i - d.omega ^ j = 0 ↔ i = j) := by
    intro j hj
    rw [sub_eq_zero]
    exact ⟨fun h => hw.pow_inj hi hj h, fun h => by rw [h]⟩
  simp only [mul_eq_zero]
  rw [hinj _ (by omega), hinj _ (by omega), hinj _ (by omega), hinj _ (by omega)]
  omega

/-- C81: the Lagrange basis element of row `i` (negative rows count from the end): on the other rows it
is zero; outside of the rows it is the quotient of the vanishing polynomial; at its row it is undefined. -/
theorem C81_lagrange (d : KDomain F) (hn : 0 < d.size) (hw : IsPrimitiveRoot d.omega d.size) (i : Int) (pt : F) :
    (unnormalizedLagrangeBasis d i pt = none ↔ pt = d.omega ^ i) ∧
    (∀ v, unnormalizedLagrangeBasis d i pt = some v → v * (pt - d.omega ^ i) = pt ^ d.size - 1 ∧
      (pt ^ d.size = 1 → v = 0)) := by
  have e : (if i < 0 then (d.omega ^ (-i).toNat)⁻¹ else d.omega ^ i.toNat) = d.omega ^ i := by
    by_cases h : i < 0
    · rw [if_pos h]
      obtain ⟨k, hk⟩ := Int.eq_ofNat_of_zero_le (show 0 ≤ -i by omega)
      rw [show i = -(k : Int) by omega]
      simp
    · rw [if_neg h]
      obtain ⟨k, hk⟩ := Int.eq_ofNat_of_zero_le (show 0 ≤ i by omega)
      rw [hk]
      simp
  rw [unnormalizedLagrangeBasis]
  simp only [e]
  constructor
  · by_cases h : pt - d.omega ^ i = 0
    · rw [if_pos h]
      exact ⟨fun _ => sub_eq_zero.mp h, fun _ => rfl⟩
    · rw [if_neg h]
      exact ⟨fun hc => absurd hc (by simp), fun hc => absurd (sub_eq_zero.mpr hc) h⟩
  · intro v hv
    by_cases h : pt - d.omega ^ i = 0
    · rw [if_pos h] at hv
      exact absurd hv (by simp)
    · rw [if_neg h, Option.some.injEq] at hv
      subst hv
      exact ⟨div_mul_cancel₀ _ h, fun h1 => by rw [h1, sub_self, zero_div]⟩

/-! ## Example -/

def exKEvals (x : ℚ) : KEvals ℚ :=
  ⟨fun i => x + i, 2, fun _ => 0, ⟨[], 0, 0, 0, false⟩, false, 5, 0⟩

def exKEnv : KEnv ℚ :=
  ⟨⟨4, 3⟩, 10, exKEvals 1, exKEvals 100, ⟨2, 3, 4, 0, 0, fun _ _ => 1⟩⟩

/-- `(w₂ + α)² - shared₀ · w₁(next)`, where `w₂ + α` is shared -/
def exKExpr : KExpr ℚ :=
  .sub (.square (.share (.add (.cell ⟨.witness 2, false⟩) .alpha)))
    (.mul (.shared 0) (.cell ⟨.witness 1, true⟩))

example : polishEvaluate exKEnv exKExpr.polish = some (5 ^ 2 - 5 * 101) := by decide +kernel

instance exFactFive : Fact (Nat.Prime 5) := ⟨by norm_num⟩

/-- the hypotheses of the theorems on rows are met -/
theorem exKRoot : IsPrimitiveRoot (2 : ZMod 5) 4 := by
  refine IsPrimitiveRoot.mk_of_lt 2 (by norm_num) (by decide) ?_
  intro l h0 h4
  interval_cases l <;> decide

example (i : Nat) (hi : i < 4) : evalVanishesOnLast4Rows ⟨4, (2 : ZMod 5)⟩ (2 ^ i) = 0 :=
  (C81_last_rows ⟨4, (2 : ZMod 5)⟩ (by norm_num) exKRoot i hi).mpr (by simp)

example : unnormalizedLagrangeBasis ⟨4, (2 : ZMod 5)⟩ (-1) (2 ^ 3) = none :=
  (C81_lagrange ⟨4, (2 : ZMod 5)⟩ (by norm_num) exKRoot (-1) (2 ^ 3)).1.mpr (by decide +kernel)

end Crypto3Zk
