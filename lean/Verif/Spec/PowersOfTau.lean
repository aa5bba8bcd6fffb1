import Verif.Model.PowersOfTau
import Mathlib.Algebra.BigOperators.Group.List.Basic

/-!
# What the powers-of-tau ceremony is about, independently of how it is computed
-/

namespace Crypto3Zk

variable {F G1 G2 GT : Type} [Field F] [AddCommGroup G1] [Module F G1] [AddCommGroup G2] [Module F G2]
  [AddCommGroup GT] [Module F GT]

/-- The accumulator of the secrets `k`: `τ^i`, `α τ^i`, `β τ^i` and `β`, in the exponents. -/
def tauStructure (P : Pairing F G1 G2 GT) (len : Nat) (k : TauKey F) : TauAccumulator G1 G2 where
  tauG1 := (List.range (2 * len - 1)).map fun i => k.tau ^ i • P.one1
  tauG2 := (List.range len).map fun i => k.tau ^ i • P.one2
  alphaTauG1 := (List.range len).map fun i => (k.alpha * k.tau ^ i) • P.one1
  betaTauG1 := (List.range len).map fun i => (k.beta * k.tau ^ i) • P.one1
  betaG2 := k.beta • P.one2

/-- The products of the secrets of several contributors. -/
def keyProduct (ks : List (TauKey F)) : TauKey F :=
  ⟨(ks.map TauKey.tau).prod, (ks.map TauKey.alpha).prod, (ks.map TauKey.beta).prod⟩

/-- Every entry of the accumulator is what `τ`, `α`, `β` make it, however long the vectors are. -/
structure TauWellFormed (P : Pairing F G1 G2 GT) (acc : TauAccumulator G1 G2) (k : TauKey F) : Prop where
  tauG1 : ∀ (i : Nat) (g : G1), acc.tauG1[i]? = some g → g = k.tau ^ i • P.one1
  tauG2 : ∀ (i : Nat) (g : G2), acc.tauG2[i]? = some g → g = k.tau ^ i • P.one2
  alphaTauG1 : ∀ (i : Nat) (g : G1), acc.alphaTauG1[i]? = some g → g = (k.alpha * k.tau ^ i) • P.one1
  betaTauG1 : ∀ (i : Nat) (g : G1), acc.betaTauG1[i]? = some g → g = (k.beta * k.tau ^ i) • P.one1
  betaG2 : acc.betaG2 = k.beta • P.one2

/-- The pairing groups: generated by the fixed elements, with a pairing that is not trivial. -/
structure Pairing.Cyclic (P : Pairing F G1 G2 GT) : Prop where
  gen1 : ∀ g : G1, ∃ c : F, g = c • P.one1
  gen2 : ∀ g : G2, ∃ c : F, g = c • P.one2
  e_ne : P.e P.one1 P.one2 ≠ 0

/-- The proof of knowledge is about `x`: its elements are in the ratio `x`. -/
structure PokFor (proof : ElementPok G1 G2) (g2s : G2) (x : F) : Prop where
  g1 : proof.g1sx = x • proof.g1s
  g2 : proof.g2sx = x • g2s

/-- The random vectors, given entry by entry; their lengths are those of the vectors of `after`, less one. -/
abbrev TauRandom (F : Type) (after : TauAccumulator G1 G2) : Type :=
  (Fin (after.tauG1.length - 1) → F) × (Fin (after.tauG2.length - 1) → F) ×
    (Fin (after.alphaTauG1.length - 1) → F) × (Fin (after.betaTauG1.length - 1) → F)

def TauRandom.draws {after : TauAccumulator G1 G2} (r : TauRandom F after) : TauDraws F :=
  ⟨List.ofFn r.1, List.ofFn r.2.1, List.ofFn r.2.2.1, List.ofFn r.2.2.2⟩

/-- What the result of the ceremony is for the secrets `k`. -/
def tauResultOf (P : Pairing F G1 G2 GT) (D : EvalDomain F) (m : Nat) (k : TauKey F) : TauResult G1 G2 where
  alphaG1 := k.alpha • P.one1
  betaG1 := k.beta • P.one1
  betaG2 := k.beta • P.one2
  coeffsG1 := (D.lagrange k.tau).map fun x => x • P.one1
  coeffsG2 := (D.lagrange k.tau).map fun x => x • P.one2
  alphaCoeffsG1 := (D.lagrange k.tau).map fun x => (k.alpha * x) • P.one1
  betaCoeffsG1 := (D.lagrange k.tau).map fun x => (k.beta * x) • P.one1
  h := (List.range (m - 1)).map fun i => (k.tau ^ i * D.vanishing k.tau) • P.one1

end Crypto3Zk
