import Verif.Spec.PlaceholderParts
import Verif.Spec.PlaceholderKzgSound

/-!
# Specification for C102 and C108: the arguments in any number of parts
-/

namespace Crypto3Zk

variable {F : Type} [Field F]

/-- The state of the transcript after the challenges of `readPartsChallenges`, with the same arguments. -/
def openingStateParts {S H Com : Type} (T : PlonkTranscript S F H Com) (c : Circuit F) (p q k : Nat)
    (vcom lcom pcom qcom : Com) (st : S) : S :=
  let s0 := T.absorb vcom st
  let s1 := if c.copies = [] then s0 else (drawN T.challenge (p - 1) (T.challenge (T.challenge s0).2).2).2
  let s2 := if c.lookups.gates = [] then s1 else
    (drawN T.challenge (k - 1) (drawN T.challenge (q - 1)
      (T.challenge (T.challenge (T.absorb lcom (T.challenge s1).2)).2).2).2).2
  let s3 := if c.copies = [] ∧ c.lookups.gates = [] then s2 else T.absorb pcom s2
  (T.challenge (T.absorb qcom (drawN T.challenge 8 (T.challenge s3).2).2)).2

end Crypto3Zk
