import Verif.Model.PlaceholderKzg

/-!
# The second KZG commitment scheme as a commitment scheme of the placeholder proof system

Models the use of `kzg_commitment_scheme_v2` (commitments/polynomial/kzg_v2.hpp:76-378) as the
`commitment_scheme_type` of placeholder (as in test/systems/plonk/placeholder/placeholder.cpp:1488).
-/

namespace Crypto3Zk

variable {F : Type} [Field F] {S G1 G2 GT : Type} [AddCommGroup G1] [Module F G1] [AddCommGroup G2]
  [Module F G2] [AddCommGroup GT] [Module F GT]

/-- The two challenges (kzg_v2.hpp:245, 268-275, 326-336) as a function of the messages absorbed so far: after `ms` the
first one is drawn, and what comes after `ms` is absorbed by the transcript that has drawn it. -/
def KzgTranscript.drawTwo (T : KzgTranscript S F) (st : S) (ms : List (KzgMsg F)) (l : List (KzgMsg F)) : F :=
  if l.length ≤ ms.length then (T.draw st l).1 else (T.draw (T.draw st ms).2 (l.drop ms.length)).1

/-- The transcript after both challenges were drawn (kzg_v2.hpp:275, 336). -/
def KzgTranscript.afterTwo (T : KzgTranscript S F) (codec : PointCodec G1) (st : S) (ms : List (KzgMsg F))
    (pi1 : G1) : S := (T.draw (T.draw st ms).2 [.bytes (codec.enc pi1)]).2

/-- `proof_eval` (kzg_v2.hpp:236-310) with the transcript as a state; in the end the prover also absorbs the second
element of the proof (kzg_v2.hpp:299-307). -/
def KzgScheme.proofEval2On [LinearOrder F] (ck : List G1) (codec : PointCodec G1) (T : KzgTranscript S F)
    (s : KzgScheme F) (st : S) : Option ((EvalStorage F × G1 × G1) × S) := do
  let ev ← s.ev.evalPolys
  let ms ← kzgTranscriptAll ev s.commitments
  let proof ← s.proofEval2 ck codec (T.drawTwo st ms)
  some (proof, T.absorb (.bytes (codec.enc proof.2.2)) (T.afterTwo codec st ms proof.2.1))

/-- `verify_eval` (kzg_v2.hpp:312-373) with the transcript as a state; the second element of the proof is not
absorbed. -/
def KzgScheme.verifyEval2On [LinearOrder F] [DecidableEq GT] (P : Pairing F G1 G2 GT)
    (pp : BatchedKzgParams G1 G2) (codec : PointCodec G1) (T : KzgTranscript S F) (s : KzgScheme F)
    (proof : EvalStorage F × G1 × G1) (commitments : OMap (List UInt8)) (st : S) : Option (Bool × S) := do
  let ev : PolysEvaluator F := ⟨proof.1, s.ev.polys, s.ev.locked, s.ev.points⟩
  let ms ← kzgTranscriptAll ev commitments
  let b ← s.verifyEval2 P pp codec (T.drawTwo st ms) proof commitments
  some (b, T.afterTwo codec st ms proof.2.1)

/-- `kzg_commitment_scheme_v2` as a commitment scheme (kzg_v2.hpp:76-378); `preprocess`, `setup` and
`mark_batch_as_fixed` do nothing (kzg_v2.hpp:195-197, 227-234). -/
def kzg2Comm [LinearOrder F] [DecidableEq GT] (L : FftLib F) (P : Pairing F G1 G2 GT)
    (pp : BatchedKzgParams G1 G2) (codec : PointCodec G1) (T : KzgTranscript S F) :
    CommScheme F S (List UInt8) (G1 × G1) Bool (KzgScheme F) where
  new := ⟨PolysEvaluator.empty, [], []⟩
  apply := KzgScheme.call L pp.ck codec
  root s k := s.commitments.find k
  preprocess _ _ := some true
  setup s st _ := (st, s)
  proofEval s st := s.proofEval2On pp.ck codec T st
  verifyEval s proof commitments st := s.verifyEval2On P pp codec T proof commitments st

end Crypto3Zk
