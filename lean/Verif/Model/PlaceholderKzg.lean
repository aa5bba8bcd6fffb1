import Verif.Model.Placeholder
import Verif.Model.KZG

/-!
# The KZG commitment scheme as a commitment scheme of the placeholder proof system

Models the use of `kzg_commitment_scheme` (commitments/polynomial/kzg.hpp:634-867) as the
`commitment_scheme_type` of placeholder (as in test/systems/plonk/placeholder/placeholder.cpp:305-307).
-/

namespace Crypto3Zk

variable {F : Type} [Field F] {S G1 G2 GT : Type} [AddCommGroup G1] [Module F G1] [AddCommGroup G2]
  [Module F G2] [AddCommGroup GT] [Module F GT]

/-- The transcript as the scheme uses it: absorbing a message, drawing a challenge (kzg.hpp:695-731, 785, 831). -/
structure KzgTranscript (S F : Type) where
  absorb : KzgMsg F → S → S
  challenge : S → F × S

/-- absorbing messages and then drawing a challenge (kzg.hpp:780-785, 826-831) -/
def KzgTranscript.draw (T : KzgTranscript S F) (st : S) (ms : List (KzgMsg F)) : F × S :=
  T.challenge (ms.foldl (fun st m => T.absorb m st) st)

/-- A call by the proof system. Polynomials are held by their coefficients, which is what `commit_one` and
`proof_eval` ask them for (kzg.hpp:755, 793); `mark_batch_as_fixed` does nothing (kzg.hpp:742-743). -/
def KzgScheme.call (L : FftLib F) (ck : List G1) (codec : PointCodec G1) (s : KzgScheme F) :
    LpcOp F → Option (KzgScheme F)
  | .append k fs => s.apply ck codec (.append k (fs.map fun f => f.final L))
  | .commit k => s.apply ck codec (.commit k)
  | .points k xs => s.apply ck codec (.points k xs)
  | .pointsTo k i xs => s.apply ck codec (.pointsTo k i xs)
  | .batchSize k m => s.apply ck codec (.batchSize k m)
  | .markFixed _ => some s

/-- `proof_eval` (kzg.hpp:776-815) with the transcript as a state -/
def KzgScheme.proofEvalOn [LinearOrder F] (ck : List G1) (T : KzgTranscript S F) (s : KzgScheme F) (st : S) :
    Option ((EvalStorage F × G1) × S) := do
  let ev ← s.ev.evalPolys
  let ms ← kzgTranscriptAll ev s.commitments
  let proof ← s.proofEval ck fun ms => (T.draw st ms).1
  some (proof, (T.draw st ms).2)

/-- `verify_eval` (kzg.hpp:817-867) with the transcript as a state -/
def KzgScheme.verifyEvalOn [LinearOrder F] [DecidableEq GT] (P : Pairing F G1 G2 GT)
    (pp : BatchedKzgParams G1 G2) (codec : PointCodec G1) (T : KzgTranscript S F) (s : KzgScheme F)
    (proof : EvalStorage F × G1) (commitments : OMap (List UInt8)) (st : S) : Option (Bool × S) := do
  let ev : PolysEvaluator F := ⟨proof.1, s.ev.polys, s.ev.locked, s.ev.points⟩
  let ms ← kzgTranscriptAll ev commitments
  let b ← s.verifyEval P pp codec (fun ms => (T.draw st ms).1) proof commitments
  some (b, (T.draw st ms).2)

/-- `kzg_commitment_scheme` as a commitment scheme (kzg.hpp:634-867); `preprocess` and `setup` do nothing
(kzg.hpp:767-774). -/
def kzgComm [LinearOrder F] [DecidableEq GT] (L : FftLib F) (P : Pairing F G1 G2 GT)
    (pp : BatchedKzgParams G1 G2) (codec : PointCodec G1) (T : KzgTranscript S F) :
    CommScheme F S (List UInt8) G1 Bool (KzgScheme F) where
  new := ⟨PolysEvaluator.empty, [], []⟩
  apply := KzgScheme.call L pp.ck codec
  root s k := s.commitments.find k
  preprocess _ _ := some true
  setup s st _ := (st, s)
  proofEval s st := s.proofEvalOn pp.ck T st
  verifyEval s proof commitments st := s.verifyEvalOn P pp codec T proof commitments st

end Crypto3Zk
