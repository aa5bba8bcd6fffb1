import Verif.Spec.PlaceholderKzgSound

/-!
# Specification for C108: the challenges of the second KZG scheme
-/

namespace Crypto3Zk

variable {F : Type} [Field F]

/-- `theta` and `theta2` are the challenges that `verify_eval` of `kzg_commitment_scheme_v2` draws, from the state `st`
of the transcript, if the verifier opens the values `z` at the points for the challenge `y` and `pi1` is the first
element of the proof. -/
def KzgDrawsTwo {S H Pr Data G1 : Type} (C : CommScheme F S (List UInt8) Pr Data (KzgScheme F))
    (KT : KzgTranscript S F) (codec : PointCodec G1) (L : FftLib F) (n : Nat) (d : TableDesc) (c : Circuit F)
    (common : CommonData F H (List UInt8) Data) (o0 : KzgScheme F) (z : EvalStorage F) (y : F)
    (commitments : OMap (List UInt8)) (st : S) (pi1 : G1) (theta theta2 : F) : Prop :=
  ∀ sizes points v ms, sizeOps z c = some sizes → verifierPoints L n d c common y = some points →
    C.run o0 (sizes ++ points) = some v →
    kzgTranscriptAll ⟨z, v.ev.polys, v.ev.locked, v.ev.points⟩ commitments = some ms →
    (KT.draw st ms).1 = theta ∧ (KT.draw (KT.draw st ms).2 [.bytes (codec.enc pi1)]).1 = theta2

end Crypto3Zk
