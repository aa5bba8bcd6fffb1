import Verif.Spec.PlaceholderSound
import Verif.Spec.KZGSound
import Verif.Model.PlaceholderKzg

/-!
# Specification for C102: what is opened when placeholder runs over KZG
-/

namespace Crypto3Zk

variable {F : Type} [Field F]

/-- The batches that are opened. -/
def openedBatches (c : Circuit F) : List Nat :=
  [FIXED_BATCH, VARIABLE_BATCH] ++ (if c.copies = [] ∧ c.lookups.gates = [] then [] else [PERMUTATION_BATCH]) ++
    [QUOTIENT_BATCH] ++ (if c.lookups.gates = [] then [] else [LOOKUP_BATCH])

/-- The proof has values for as many polynomials as were committed to. -/
def ValuesSized (c : Circuit F) (Q : Nat → List (List F)) (z : EvalStorage F) : Prop :=
  ∀ k ∈ openedBatches c, z.batchSize k = some (Q k).length

/-- The state of the transcript after the challenges of `readChallenges`, with the same arguments. -/
def openingState {S H Com : Type} (T : PlonkTranscript S F H Com) (c : Circuit F) (k : Nat)
    (vcom lcom pcom qcom : Com) (st : S) : S :=
  let s0 := T.absorb vcom st
  let s1 := if c.copies = [] then s0 else (T.challenge (T.challenge s0).2).2
  let s2 := if c.lookups.gates = [] then s1 else
    (drawN T.challenge (k - 1) (T.challenge (T.challenge (T.absorb lcom (T.challenge s1).2)).2).2).2
  let s3 := if c.copies = [] ∧ c.lookups.gates = [] then s2 else T.absorb pcom s2
  (T.challenge (T.absorb qcom (drawN T.challenge 8 (T.challenge s3).2).2)).2

/-- `gamma` is the challenge that `verify_eval` draws, from the state `st` of the transcript, if the verifier
opens the values `z` at the points for the challenge `y`. -/
def KzgDraws {S H Pr Data : Type} (C : CommScheme F S (List UInt8) Pr Data (KzgScheme F)) (KT : KzgTranscript S F)
    (L : FftLib F) (n : Nat) (d : TableDesc) (c : Circuit F) (common : CommonData F H (List UInt8) Data)
    (o0 : KzgScheme F) (z : EvalStorage F) (y : F) (commitments : OMap (List UInt8)) (st : S) (gamma : F) : Prop :=
  ∀ sizes points v ms, sizeOps z c = some sizes → verifierPoints L n d c common y = some points →
    C.run o0 (sizes ++ points) = some v →
    kzgTranscriptAll ⟨z, v.ev.polys, v.ev.locked, v.ev.points⟩ commitments = some ms →
    (KT.draw st ms).1 = gamma

/-- The commitment `blob` is, position by position, the polynomials `ps` evaluated at the trapdoor: what a prover
that only combines the elements of the key can commit to, `ps` being the coefficients of the combinations. -/
def CommitsTo {G1 : Type} [AddCommGroup G1] [Module F G1] (codec : PointCodec G1) (one : G1) (alpha : F)
    (blob : List UInt8) (ps : List (List F)) : Prop :=
  ∀ i p, ps[i]? = some p → decodeAt codec blob ps.length i = some (evalPoly p alpha • one)

end Crypto3Zk
