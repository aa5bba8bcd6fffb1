import Mathlib.Algebra.Field.Defs

/-!
# Fiat-Shamir transcripts (transcript/fiat_shamir.hpp)

The hash function (crypto3-hash) is external: it is a parameter `H` from byte strings to byte
strings. Feeding a state and then a range to one accumulator is hashing their concatenation.
Serialising what is absorbed (`nil::marshalling::pack`) is done by the caller: messages are byte
strings.
-/

namespace Crypto3Zk

/-- A range of bytes (transcript/fiat_shamir.hpp:152) -/
abbrev Bytes := List UInt8

/-- `nil::marshalling::pack(state)` into an integer as wide as the digest
(transcript/fiat_shamir.hpp:183-184, 194): the digest read as a big-endian number. -/
def packBE (s : Bytes) : Nat := s.foldl (fun acc b => acc * 256 + b.toNat) 0

/-- `fiat_shamir_heuristic_sequential` (transcript/fiat_shamir.hpp:133-216): its state is the last
digest. -/
structure SeqTranscript where
  state : Bytes

/-- the default constructor (transcript/fiat_shamir.hpp:139-140): the hash of one zero byte -/
def SeqTranscript.fresh (H : Bytes → Bytes) : SeqTranscript := ⟨H [0]⟩

/-- the constructors from a range (transcript/fiat_shamir.hpp:142-149) -/
def SeqTranscript.seeded (H : Bytes → Bytes) (r : Bytes) : SeqTranscript := ⟨H r⟩

/-- `operator()` (transcript/fiat_shamir.hpp:151-163) -/
def SeqTranscript.absorb (H : Bytes → Bytes) (t : SeqTranscript) (r : Bytes) : SeqTranscript :=
  ⟨H (t.state ++ r)⟩

/-- `challenge<Field>` (transcript/fiat_shamir.hpp:165-188): the new digest, read as a number and
converted to the field (the array `data` filled at lines 174-180 is not used by the code). -/
def SeqTranscript.challenge {F : Type} [Field F] (H : Bytes → Bytes) (t : SeqTranscript) :
    SeqTranscript × F :=
  let s := H t.state
  (⟨s⟩, (packBE s : F))

/-- `int_challenge<Integral>` (transcript/fiat_shamir.hpp:190-199) for an unsigned type of `bits`
bits: the digest masked with `~Integral(0)`. Simplified: for types narrower than `int` the C++ mask
is the promoted `-1`; the code uses only 32- and 64-bit types. -/
def SeqTranscript.intChallenge (H : Bytes → Bytes) (bits : Nat) (t : SeqTranscript) :
    SeqTranscript × Nat :=
  let s := H t.state
  (⟨s⟩, packBE s &&& (2 ^ bits - 1))

/-- the loop of `challenges<Field, N>` (transcript/fiat_shamir.hpp:201-212) -/
def SeqTranscript.challenges {F : Type} [Field F] (H : Bytes → Bytes) :
    Nat → SeqTranscript → SeqTranscript × List F
  | 0, t => (t, [])
  | n + 1, t =>
    let (t, c) := t.challenge (F := F) H
    let (t, cs) := SeqTranscript.challenges H n t
    (t, c :: cs)

/-- A call on a transcript (fiat_shamir.hpp:152, 168, 191). -/
inductive TranscriptOp
  | absorb (r : Bytes)
  | challenge
  | intChallenge (bits : Nat)

/-- What a call returns: nothing, a field element or an integer (fiat_shamir.hpp:152, 168, 191). -/
inductive TranscriptOut (F : Type)
  | field (c : F)
  | int (n : Nat)
  deriving DecidableEq

/-- One call on a sequential transcript (fiat_shamir.hpp:152, 168, 191). -/
def SeqTranscript.step {F : Type} [Field F] (H : Bytes → Bytes) (t : SeqTranscript) :
    TranscriptOp → SeqTranscript × List (TranscriptOut F)
  | .absorb r => (t.absorb H r, [])
  | .challenge => let (t, c) := t.challenge (F := F) H; (t, [.field c])
  | .intChallenge b => let (t, c) := t.intChallenge H b; (t, [.int c])

/-- A history of calls, with everything it returned (fiat_shamir.hpp:152, 168, 191). -/
def SeqTranscript.run {F : Type} [Field F] (H : Bytes → Bytes) :
    SeqTranscript → List TranscriptOp → SeqTranscript × List (TranscriptOut F)
  | t, [] => (t, [])
  | t, op :: ops =>
    let (t, o) := t.step (F := F) H op
    let (t, os) := SeqTranscript.run H t ops
    (t, o ++ os)

/-- `fiat_shamir_heuristic_accumulative` (transcript/fiat_shamir.hpp:72-131): the accumulator holds
everything absorbed so far. -/
structure AccTranscript where
  acc : Bytes

/-- `operator()` (transcript/fiat_shamir.hpp:84-98) -/
def AccTranscript.absorb (t : AccTranscript) (r : Bytes) : AccTranscript := ⟨t.acc ++ r⟩

/-- `challenge` (transcript/fiat_shamir.hpp:100-114): the digest is computed and dropped, the
challenge is one. -/
def AccTranscript.challenge {F : Type} [Field F] (H : Bytes → Bytes) (t : AccTranscript) :
    AccTranscript × F :=
  let _hashRes := H t.acc
  (t, 1)

/-- The loop of the Poseidon specialisation's `int_challenge`
(transcript/fiat_shamir.hpp:290-297). `bits` is the width of `Integral`, so `result` and `factor`
wrap around at `2 ^ bits`; `bytesToFill` is a 64-bit counter. The fuel is the value itself, which
shrinks in every round. -/
def poseidonIntLoop (bits : Nat) : Nat → Nat → Nat → Nat → Nat → Nat
  | 0, _, _, result, _ => result
  | fuel + 1, rest, bytesToFill, result, factor =>
    if rest > 0 ∧ bytesToFill ≠ 0 then
      let lastByte := rest % 0x100
      poseidonIntLoop bits fuel (rest / 0x100) ((bytesToFill + 2 ^ 64 - 2) % 2 ^ 64)
        ((result + factor * lastByte) % 2 ^ bits) ((factor * 0x100) % 2 ^ bits)
    else result

/-- The Poseidon specialisation's `int_challenge` (transcript/fiat_shamir.hpp:280-299), as a function
of the squeezed field element `c` (its canonical representative) and `sizeof(Integral)`. -/
def poseidonIntChallenge (size c : Nat) : Nat := poseidonIntLoop (8 * size) c c size 0 1

end Crypto3Zk
