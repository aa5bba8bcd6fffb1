import Verif.Spec.FRISound

/-!
# Specification for FRI: how far a committed function is from the polynomials allowed
-/

namespace Crypto3Zk

variable {F : Type} [Field F] [DecidableEq F] {Tree Root Path : Type}

/-- The numbers of the points of the domain of `2 ^ m` points at which `g` and `u` differ. -/
def friMisses (L : FftLib F) (m : Nat) (g u : List F) : Finset Nat :=
  (Finset.range (2 ^ m)).filter fun x =>
    evalPoly g ((L.domain m).elem x) ≠ evalPoly u ((L.domain m).elem x)

/-- On the domain of `2 ^ m` points, `g` differs in at most `e` points from a polynomial with `b`
coefficients. -/
def FriNear (L : FftLib F) (m : Nat) (g : List F) (b e : Nat) : Prop :=
  ∃ u : List F, u.length ≤ b ∧ (friMisses L m g u).card ≤ e

/-- The challenges a prover would have to be lucky to get: folding `g`, given on `2 ^ (m + 1)` points,
brings it, measured in shares of the domain, to less than half of its distance from the polynomials
allowed. -/
def friLucky (L : FftLib F) (m : Nat) (g : List F) (b : Nat) : Set F :=
  {a | ∃ e, FriNear L m (foldList a g) b e ∧ ¬ FriNear L (m + 1) g (2 * b) (4 * e)}

/-- No challenge of the rounds is lucky for the polynomial that it folds; the polynomials `os` are those
that the roots of the rounds commit to, `2 ^ D` is the number of coefficients allowed before all
rounds. -/
def FriSteady (L : FftLib F) (n D : Nat) : List Nat → Nat → List F → List (List F) → Prop
  | s :: rest, t, alphas, o :: os =>
    (∀ k < s, ∀ a, alphas[k]? = some a →
      a ∉ friLucky L (n - (t + k + 1)) (foldAll (alphas.take k) o) (2 ^ (D - (t + k + 1)))) ∧
    FriSteady L n D rest (t + s) (alphas.drop s) os
  | _, _, _, _ => True

/-- The committed function `g` differs in at most `e` points of the domain from a polynomial with `b`
coefficients that has the value `v` at `x`. -/
def FriOpensNear (L : FftLib F) (m : Nat) (g : List F) (b e : Nat) (x v : F) : Prop :=
  ∃ u : List F, u.length ≤ b ∧ evalPoly u x = v ∧ (friMisses L m g u).card ≤ e

end Crypto3Zk
