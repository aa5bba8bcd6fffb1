import Verif.Model.Transcript

/-!
# Specification: what a transcript is a function of

The state of a transcript is a chain of digests. `chain H s ms` is the digest after feeding the
messages `ms` one by one, starting from the digest `s`; `chainInputs H s ms` are the strings that
were hashed on the way.
-/

namespace Crypto3Zk

/-- the digest after a sequence of messages -/
def chain (H : Bytes → Bytes) : Bytes → List Bytes → Bytes
  | s, [] => s
  | s, m :: ms => chain H (H (s ++ m)) ms

/-- the strings hashed on the way -/
def chainInputs (H : Bytes → Bytes) : Bytes → List Bytes → List Bytes
  | _, [] => []
  | s, m :: ms => (s ++ m) :: chainInputs H (H (s ++ m)) ms

/-- A transcript history as a sequence of messages: a challenge request counts as an empty
message. -/
def messages (ops : List TranscriptOp) : List Bytes :=
  ops.map fun
    | .absorb r => r
    | .challenge => []
    | .intChallenge _ => []

end Crypto3Zk
