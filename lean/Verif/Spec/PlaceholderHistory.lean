import Verif.Model.Placeholder
import Verif.Spec.Transcript

/-!
# Specification: what the challenge of a placeholder proof depends on

What prover and verifier tell the transcript, in order, up to the evaluation point.
-/

namespace Crypto3Zk

/-- What happens to a transcript: it absorbs the digest of the circuit, it absorbs a commitment, or a challenge is
drawn from it. -/
inductive PlonkEvent (H Com : Type) where
  | key (hash : H)
  | com (c : Com)
  | draw

variable {S F H Com Data : Type}

/-- the state of a transcript after a history -/
def PlonkTranscript.after (T : PlonkTranscript S F H Com) (st : S) (events : List (PlonkEvent H Com)) : S :=
  events.foldl (fun st e => match e with
    | .key h => T.hash h st
    | .com c => T.absorb c st
    | .draw => (T.challenge st).2) st

/-- the commitment to a batch, if there is one -/
def batchEvent (commitments : OMap Com) (k : Nat) : List (PlonkEvent H Com) :=
  (commitments.find k).toList.map .com

/-- The history before the evaluation point is drawn: the verification key, the `setup` challenges of the commitment
scheme, the table; then the challenges of the permutation argument, if there are copy constraints; if there are
lookups, one challenge, the commitment to the sorted columns, and `k` further challenges; the grand products; the
challenge of the gates and eight to combine the arguments; the quotient. -/
def placeholderHistory (c : Circuit F) (common : CommonData F H Com Data) (commitments : OMap Com)
    (setup k : Nat) : List (PlonkEvent H Com) :=
  [.key common.hash, .com common.fixedCommitment] ++ List.replicate setup .draw ++
    batchEvent commitments VARIABLE_BATCH ++
    (if c.copies.length = 0 then [] else List.replicate (common.permutationParts + 1) .draw) ++
    (if c.lookups.gates.length = 0 then []
      else [.draw] ++ batchEvent commitments LOOKUP_BATCH ++ List.replicate k .draw) ++
    (if c.copies.length = 0 ∧ c.lookups.gates.length = 0 then [] else batchEvent commitments PERMUTATION_BATCH) ++
    List.replicate 9 .draw ++ batchEvent commitments QUOTIENT_BATCH

/-- The parts of a proof that the verifier of `c` uses are all there. -/
def CommitmentsPresent (c : Circuit F) (m : OMap Com) : Prop :=
  m.find VARIABLE_BATCH ≠ none ∧ m.find QUOTIENT_BATCH ≠ none ∧
    (c.lookups.gates ≠ [] → m.find LOOKUP_BATCH ≠ none) ∧
    (c.copies ≠ [] ∨ c.lookups.gates ≠ [] → m.find PERMUTATION_BATCH ≠ none)

/-- the transcript of fiat_shamir.hpp:133-216 with the hash function `Hash`, which absorbs digests and commitments as
the byte strings `encH` and `encC` -/
def bytesTranscript [Field F] (Hash : Bytes → Bytes) (seed : Bytes) (encH : H → Bytes) (encC : Com → Bytes) :
    PlonkTranscript SeqTranscript F H Com where
  start := SeqTranscript.seeded Hash seed
  hash h st := st.absorb Hash (encH h)
  absorb c st := st.absorb Hash (encC c)
  challenge st := ((st.challenge (F := F) Hash).2, (st.challenge (F := F) Hash).1)

/-- a history as messages; a drawn challenge is an empty one -/
def historyMessages (encH : H → Bytes) (encC : Com → Bytes) (events : List (PlonkEvent H Com)) : List Bytes :=
  events.map fun
    | .key h => encH h
    | .com c => encC c
    | .draw => []

end Crypto3Zk
