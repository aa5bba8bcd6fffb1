import Verif.Model.KimchiMapping
import Mathlib.Algebra.Field.ZMod

/-!
# The sponges of the Kimchi transcript (`transcript/kimchi_transcript.hpp`)

Line numbers are those of that file. The scalar field is `ZMod r`, the base field `ZMod q`. The Poseidon
construction is external: `SpongeOps`. The points of the curve are pairs of coordinates.

`pack` (lines 33-44) and `unpack` (lines 46-56) convert between integers and vectors of 64-bit limbs,
lowest first, through the marshalling library; they are read as the conversion they are meant to be. The
vector in `pack` is resized to the number of limbs of the integral type, `limbs`.
-/

namespace Crypto3Zk

/-- `poseidon_sponge_construction` (external, lines 72, 86) -/
structure SpongeOps (B H : Type) where
  absorb : H → B → H
  squeeze : H → B × H

/-- `pack` (lines 33-44) -/
def packLimbs (limbs : Nat) (l : List Nat) : Nat :=
  (l.take limbs).foldr (fun x acc => x + 2 ^ 64 * acc) 0

/-- `unpack` (lines 46-56): the two lowest limbs -/
def unpackLimbs (n : Nat) : List Nat := [n % 2 ^ 64, n / 2 ^ 64 % 2 ^ 64]

/-- `BaseSponge` (lines 58-75) -/
structure KSponge (H : Type) where
  sponge : H
  last : List Nat
deriving DecidableEq

variable {H : Type} {q r : Nat}

/-- `squeeze_limbs` (lines 171-190), and the same code in `DefaultFrSponge::squeeze` (lines 92-111) -/
def squeezeLimbs (ops : SpongeOps (ZMod q) H) (num : Nat) (s : KSponge H) : List Nat × KSponge H :=
  if num ≤ s.last.length then (s.last.take num, ⟨s.sponge, s.last.drop num⟩)
  else
    let sq := ops.squeeze s.sponge
    squeezeLimbs ops num ⟨sq.2, s.last ++ unpackLimbs sq.1.val⟩
termination_by num - s.last.length
decreasing_by
  simp only [List.length_append, unpackLimbs, List.length_cons, List.length_nil]
  omega

/-! ## `DefaultFqSponge` -/

/-- `squeeze` (lines 197-203) -/
def fqSqueeze (ops : SpongeOps (ZMod q) H) (limbs : Nat) (num : Nat) (s : KSponge H) : ZMod r × KSponge H :=
  let l := squeezeLimbs ops num s
  ((packLimbs limbs l.1 : Nat), l.2)

/-- `squeeze_field`, `challenge_fq` (lines 192-195, 258-260) -/
def fqSqueezeField (ops : SpongeOps (ZMod q) H) (s : KSponge H) : ZMod q × KSponge H :=
  let sq := ops.squeeze s.sponge
  (sq.1, ⟨sq.2, []⟩)

/-- `absorb_g` of a point (lines 212-218) -/
def fqAbsorbG (ops : SpongeOps (ZMod q) H) (s : KSponge H) (g : ZMod q × ZMod q) : KSponge H :=
  ⟨ops.absorb (ops.absorb s.sponge g.1) g.2, if s.last ≠ [] then [] else s.last⟩

/-- `absorb_g` of a vector (lines 205-210) -/
def fqAbsorbGs (ops : SpongeOps (ZMod q) H) (s : KSponge H) (gs : List (ZMod q × ZMod q)) : KSponge H :=
  gs.foldl (fqAbsorbG ops) ⟨s.sponge, []⟩

/-- the elements that `absorb_fr` passes on (lines 224-244): the representative itself, or all bits but
the lowest and the lowest one -/
def frElements (q r : Nat) (f : ZMod r) : List (ZMod q) :=
  if r < q then [(f.val : ZMod q)] else [((f.val / 2 : Nat) : ZMod q), ((f.val % 2 : Nat) : ZMod q)]

/-- `absorb_fr` of a scalar (lines 220-245): the limbs are cleared if there are none -/
def fqAbsorbFr (ops : SpongeOps (ZMod q) H) (s : KSponge H) (f : ZMod r) : KSponge H :=
  ⟨(frElements q r f).foldl ops.absorb s.sponge, if s.last = [] then [] else s.last⟩

/-- `absorb_fr` of a vector (lines 246-252) -/
def fqAbsorbFrs (ops : SpongeOps (ZMod q) H) (s : KSponge H) (fs : List (ZMod r)) : KSponge H :=
  fs.foldl (fqAbsorbFr ops) ⟨s.sponge, []⟩

/-- `challenge` (lines 254-256) -/
def fqChallenge (ops : SpongeOps (ZMod q) H) (limbs : Nat) (s : KSponge H) : ZMod r × KSponge H :=
  fqSqueeze ops limbs 2 s

/-- `squeeze_challenge` (lines 262-268) -/
def fqSqueezeChallenge [Fact r.Prime] (ops : SpongeOps (ZMod q) H) (limbs : Nat) (endo : ZMod r)
    (s : KSponge H) : ZMod r × KSponge H :=
  let c : ZMod r × KSponge H := fqChallenge ops limbs s
  (scalarToField c.1.val endo, c.2)

/-- `digest` (lines 270-272) -/
def fqDigest (ops : SpongeOps (ZMod q) H) (s : KSponge H) : ZMod r × KSponge H :=
  let x := fqSqueezeField ops s
  ((x.1.val : ZMod r), x.2)

/-! ## `DefaultFrSponge` -/

/-- `squeeze` (lines 92-111) -/
def frSqueeze (ops : SpongeOps (ZMod r) H) (limbs : Nat) (num : Nat) (s : KSponge H) : ZMod r × KSponge H :=
  let l := squeezeLimbs ops num s
  ((packLimbs limbs l.1 : Nat), l.2)

/-- `absorb` (lines 113-116) -/
def frAbsorb (ops : SpongeOps (ZMod r) H) (s : KSponge H) (x : ZMod r) : KSponge H :=
  ⟨ops.absorb s.sponge x, []⟩

/-- `challenge` (lines 118-120) -/
def frChallenge (ops : SpongeOps (ZMod r) H) (limbs : Nat) (s : KSponge H) : ZMod r × KSponge H :=
  frSqueeze ops limbs 2 s

/-- `shift_scalar` (`plonk/pickles/detail/kimchi_functions.hpp`, lines 13-21); `bits` is the number of bits
of the modulus -/
def shiftScalar (q r bits : Nat) [Fact r.Prime] (x : ZMod r) : ZMod r :=
  if r < q then (x - (2 ^ bits + 1)) / 2 else x - 2 ^ bits

end Crypto3Zk
