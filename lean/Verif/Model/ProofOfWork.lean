import Verif.Model.Transcript

/-!
# Proof of work (commitments/detail/polynomial/proof_of_work.hpp)

The transcript is any state machine; `std::rand()` and the random engine are replaced by the
starting nonce. The search loop has no bound in the code; here it takes a fuel argument and `none`
means that the fuel ran out (the theorems quantify over the fuel).
-/

namespace Crypto3Zk

/-- The two calls `proof_of_work` makes on a transcript (proof_of_work.hpp:59-60, 65-66, 76-77). -/
structure IntTranscript (S : Type) where
  absorb : S → Bytes → S
  intChallenge : S → S × Nat

/-- The four nonce bytes (proof_of_work.hpp:54-57, 72-75). -/
def nonceBytes (n : Nat) : Bytes :=
  [UInt8.ofNat ((n &&& 0xFF000000) >>> 24), UInt8.ofNat ((n &&& 0x00FF0000) >>> 16),
    UInt8.ofNat ((n &&& 0x0000FF00) >>> 8), UInt8.ofNat (n &&& 0x000000FF)]

/-- The loop of `generate` (proof_of_work.hpp:52-64) for an `OutType` of `bits` bits. -/
def powSearch {S : Type} (T : IntTranscript S) (bits mask : Nat) (t : S) : Nat → Nat → Option Nat
  | 0, _ => none
  | fuel + 1, nonce =>
    let tmp := T.absorb t (nonceBytes nonce)
    let result := (T.intChallenge tmp).2
    if result &&& mask = 0 then some nonce
    else powSearch T bits mask t fuel ((nonce + 1) % 2 ^ bits)

/-- `proof_of_work::generate` (proof_of_work.hpp:47-68) started at `nonce`: the nonce found and the
transcript afterwards. -/
def powGenerate {S : Type} (T : IntTranscript S) (bits mask : Nat) (fuel : Nat) (t : S)
    (nonce : Nat) : Option (Nat × S) := do
  let nonce ← powSearch T bits mask t fuel nonce
  let t := T.absorb t (nonceBytes nonce)
  let (t, _result) := T.intChallenge t
  return (nonce, t)

/-- `proof_of_work::verify` (proof_of_work.hpp:70-79): the verdict and the transcript afterwards. -/
def powVerify {S : Type} (T : IntTranscript S) (mask : Nat) (t : S) (nonce : Nat) : Bool × S :=
  let t := T.absorb t (nonceBytes nonce)
  let (t, result) := T.intChallenge t
  (decide (result &&& mask = 0), t)

/-- The two calls `field_proof_of_work` makes on a transcript over a prime field of `p` elements;
field elements are their representatives below `p` (proof_of_work.hpp:107-108, 113-114, 119-125). -/
structure FieldTranscript (S : Type) where
  absorb : S → Nat → S
  challenge : S → S × Nat

/-- The mask (proof_of_work.hpp:100-103, 120-123). A grinding level above the modulus size shifts by
a negative amount (`none`). -/
def grindingMask (modulusBits grindingBits : Nat) : Option Nat :=
  if grindingBits > 0 then
    if grindingBits ≤ modulusBits then
      some (((1 <<< grindingBits) - 1) <<< (modulusBits - grindingBits))
    else none
  else some 0

/-- The loop of `field_proof_of_work::generate` (proof_of_work.hpp:105-112). -/
def fieldPowSearch {S : Type} (T : FieldTranscript S) (p mask : Nat) (t : S) : Nat → Nat → Option Nat
  | 0, _ => none
  | fuel + 1, nonce =>
    let tmp := T.absorb t nonce
    let result := (T.challenge tmp).2
    if result &&& mask = 0 then some nonce
    else fieldPowSearch T p mask t fuel ((nonce + 1) % p)

/-- `field_proof_of_work::generate` (proof_of_work.hpp:94-116). -/
def fieldPowGenerate {S : Type} (T : FieldTranscript S) (p modulusBits grindingBits fuel : Nat)
    (t : S) (nonce : Nat) : Option (Nat × S) := do
  let mask ← grindingMask modulusBits grindingBits
  let nonce ← fieldPowSearch T p mask t fuel nonce
  let t := T.absorb t nonce
  let (t, _result) := T.challenge t
  return (nonce, t)

/-- `field_proof_of_work::verify` (proof_of_work.hpp:118-127). -/
def fieldPowVerify {S : Type} (T : FieldTranscript S) (modulusBits grindingBits : Nat) (t : S)
    (nonce : Nat) : Option (Bool × S) := do
  let t := T.absorb t nonce
  let mask ← grindingMask modulusBits grindingBits
  let (t, result) := T.challenge t
  return (decide (result &&& mask = 0), t)

end Crypto3Zk
