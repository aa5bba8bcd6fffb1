import Verif.Model.KZG

/-!
# What an opening of the KZG schemes claims
-/

namespace Crypto3Zk

variable {F : Type} [Field F] {G1 : Type} [AddCommGroup G1] [Module F G1]

/-- The commitments are, at every position, the polynomial `f k i` evaluated at the trapdoor: this is
what a prover that only combines the elements of the key can produce, and `f k i` are the coefficients
of its combination. -/
def Represents (codec : PointCodec G1) (one : G1) (points : OMap (List (List F)))
    (commitments : OMap (List UInt8)) (f : Nat → Nat → List F) (alpha : F) : Prop :=
  ∀ e ∈ commitments, ∀ i < (points.getD e.1 []).length,
    decodeAt codec e.2 (points.getD e.1 []).length i = some (evalPoly (f e.1 i) alpha • one)

/-- the values of the proof are those of the polynomials at the points -/
def TrueClaims (points : OMap (List (List F))) (z : EvalStorage F) (keys : List Nat)
    (f : Nat → Nat → List F) : Prop :=
  ∀ k ∈ keys, ∀ i pts, (points.getD k [])[i]? = some pts →
    z.getPoly k i = some (pts.map (evalPoly (f k i)))

/-- the number of polynomials that are opened -/
def openedCount (points : OMap (List (List F))) (keys : List Nat) : Nat :=
  (keys.map fun k => (points.getD k []).length).sum

end Crypto3Zk
