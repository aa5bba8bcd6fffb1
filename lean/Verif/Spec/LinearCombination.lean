import Verif.Model.R1CS
import Mathlib.Algebra.BigOperators.Group.List.Basic

/-!
# Specification vocabulary for linear combinations and R1CS
-/

namespace Crypto3Zk

variable {F : Type*} [Field F]

/-- The contract of a (possibly unstable) sort by index: a rearrangement with
non-decreasing indices. -/
def IsIndexSort (sort : List (LinearTerm F) → List (LinearTerm F)) : Prop :=
  ∀ l, (sort l).Perm l ∧ (sort l).Pairwise fun s t => s.index ≤ t.index

/-- The mathematical value `Σ coeff · x_index` of a formal sum at a valuation `x`. -/
def formalValue (terms : List (LinearTerm F)) (x : Nat → F) : F :=
  (terms.map fun t => t.coeff * x t.index).sum

/-- The valuation an assignment vector stands for: `x_0 = 1`, `x_i = a_{i-1}`. -/
def envOf (a : List F) : Nat → F
  | 0 => 1
  | i + 1 => a.getD i 0

/-- Indices strictly increasing: canonical form. -/
def Canonical (terms : List (LinearTerm F)) : Prop :=
  terms.Pairwise fun s t => s.index < t.index

instance (terms : List (LinearTerm F)) : Decidable (Canonical terms) :=
  inferInstanceAs (Decidable (terms.Pairwise fun s t => s.index < t.index))

/-- all indices at most `n` -/
def IndicesLE (terms : List (LinearTerm F)) (n : Nat) : Prop := ∀ t ∈ terms, t.index ≤ n

/-- All variables mentioned by the R1CS exist. -/
def R1CS.WellRanged (cs : R1CS F) : Prop :=
  ∀ k ∈ cs.constraints, IndicesLE k.a cs.numVariables ∧ IndicesLE k.b cs.numVariables ∧
    IndicesLE k.c cs.numVariables

/-- What it means for an assignment to satisfy an R1CS. -/
def R1CS.Sat (cs : R1CS F) (primary aux : List F) : Prop :=
  ∀ k ∈ cs.constraints,
    formalValue k.a (envOf (primary ++ aux)) * formalValue k.b (envOf (primary ++ aux))
      = formalValue k.c (envOf (primary ++ aux))

end Crypto3Zk
