import Verif.Model.KZG

/-!
# Aggregation of Groth16 proofs

`commitments/polynomial/kzg_ipp2.hpp` and `snark/systems/ppzksnark/r1cs_gg_ppzksnark/ipp2/`: the
setup, the aggregating prover (a recursive inner-product argument with openings of the final commitment
keys) and the verifier of an aggregate.

Groups and the pairing are those of `Groth16.lean`; the target group is written additively, so
`pow` is scalar multiplication, and a product of Miller values that is exponentiated at the end is a sum
of pairings. A failed assertion, a read out of bounds and a pair of ranges that do not end together
(`boost::zip_iterator` only stops when all its iterators are at the end) are `none`.
`r1cs_gg_ppzksnark_aggregate_proof::is_valid` (ipp2/proof.hpp:118-138) cannot be instantiated (it names
a constant that does not exist and compares a size with a vector) and is called nowhere; it is not
modelled.
-/

namespace Crypto3Zk

variable {F : Type} [Field F] {G1 G2 GT : Type} [AddCommGroup G1] [Module F G1] [AddCommGroup G2]
  [Module F G2] [AddCommGroup GT] [Module F GT]

/-! ## The transcript -/

/-- What the transcript takes from other libraries (ipp2/transcript.hpp): the encodings of
`bincode::curve`, the two encodings of a 64-bit number (lines 105-113 and 126-133), the hash function and
the decoding of a digest. `patience` bounds the attempts of `read_challenge`, whose loop in the code is
unbounded. -/
structure AggHash (F G1 G2 GT : Type) where
  bytesF : F → List UInt8
  bytesG1 : G1 → List UInt8
  bytesG2 : G2 → List UInt8
  bytesGT : GT → List UInt8
  bytesLen : Nat → List UInt8
  bytesNonce : Nat → List UInt8
  hash : List UInt8 → List UInt8
  decode : List UInt8 → Option F
  patience : Nat

/-- The loop of `transcript::read_challenge` (ipp2/transcript.hpp:120-150) on a copy of the bytes
absorbed so far, from attempt number `nonce`: digests that do not decode, zero and one are skipped. -/
def AggHash.attempt [DecidableEq F] (H : AggHash F G1 G2 GT) :
    Nat → Nat → List UInt8 → Option F
  | 0, _, _ => none
  | fuel + 1, nonce, state =>
    let state' := state ++ H.bytesNonce nonce
    match H.decode (H.hash state') with
    | none => H.attempt fuel (nonce + 1) state'
    | some x => if x = 0 ∨ x = 1 then H.attempt fuel (nonce + 1) state' else some x

/-- `transcript::read_challenge` (ipp2/transcript.hpp:120-150). The transcript is the bytes absorbed so
far; reading leaves it as it is. `none`: no attempt succeeds (within `patience`). -/
def AggHash.read [DecidableEq F] (H : AggHash F G1 G2 GT) (tr : List UInt8) : Option F :=
  H.attempt H.patience 1 tr

/-- `transcript::write(first, last)` (ipp2/transcript.hpp:100-118): the length and the bytes -/
def AggHash.writeBytes (H : AggHash F G1 G2 GT) (tr bs : List UInt8) : List UInt8 :=
  tr ++ H.bytesLen bs.length ++ bs

/-- the domain separators 'snarkpack', 'random-r', 'gipa', 'random-z' (prover.hpp:341, 491, 552-554) -/
def tagSnarkpack : List UInt8 := [115, 110, 97, 114, 107, 112, 97, 99, 107]
@[inherit_doc tagSnarkpack] def tagRandomR : List UInt8 := [114, 97, 110, 100, 111, 109, 45, 114]
@[inherit_doc tagSnarkpack] def tagGipa : List UInt8 := [103, 105, 112, 97]
@[inherit_doc tagSnarkpack] def tagRandomZ : List UInt8 := [114, 97, 110, 100, 111, 109, 45, 122]

/-! ## Commitment keys and commitments -/

/-- `kzg_ipp2::commitment_key` (kzg_ipp2.hpp:78-90) -/
structure CKey (G : Type) where
  a : List G
  b : List G

/-- `has_correct_len` (kzg_ipp2.hpp:96-98) -/
def CKey.hasLen {G : Type} (k : CKey G) (n : Nat) : Bool := k.a.length == n && n == k.b.length

section
variable {G : Type} [AddCommGroup G] [Module F G]

/-- `scale` (kzg_ipp2.hpp:106-119) -/
def CKey.scale (k : CKey G) (s : List F) : Option (CKey G) :=
  if k.hasLen s.length then
    some ⟨List.zipWith (fun x g => x • g) s k.a, List.zipWith (fun x g => x • g) s k.b⟩
  else none

/-- `split` (kzg_ipp2.hpp:122-145) -/
def CKey.split (k : CKey G) (at_ : Nat) : Option (CKey G × CKey G) :=
  if k.a.length = k.b.length ∧ 0 < at_ ∧ at_ < k.a.length then
    some (⟨k.a.take at_, k.b.take at_⟩, ⟨k.a.drop at_, k.b.drop at_⟩)
  else none

/-- `compress` (kzg_ipp2.hpp:150-170) -/
def CKey.compress (l r : CKey G) (s : F) : Option (CKey G) :=
  if l.a.length = r.a.length ∧ l.b.length = r.b.length ∧ l.a.length = l.b.length then
    some ⟨List.zipWith (fun x y => x + s • y) l.a r.a, List.zipWith (fun x y => x + s • y) l.b r.b⟩
  else none

/-- `first` (kzg_ipp2.hpp:175-177) -/
def CKey.first (k : CKey G) : Option (G × G) := do
  let a ← k.a.head?
  let b ← k.b.head?
  some (a, b)

/-- `compress` (ipp2/prover.hpp:75-89) for a vector; `vec.resize(split)` -/
def compressVec (v : List G) (split : Nat) (s : F) : Option (List G) :=
  if v.length = 2 * split then
    some (List.zipWith (fun x y => x + s • y) (v.take split) (v.drop split))
  else none

end

/-- a loop that multiplies pairings of two ranges, followed by the final exponentiation
(kzg_ipp2.hpp:223-250, 267-279; ipp2/prover.hpp:364-381, 585-593) -/
def innerPairing (P : Pairing F G1 G2 GT) (a : List G1) (b : List G2) : Option GT :=
  if a.length = b.length then some (List.zipWith (fun x y => P.e x y) a b).sum else none

/-- `kzg_ipp2::pair` (kzg_ipp2.hpp:216-255) -/
def ippPair (P : Pairing F G1 G2 GT) (v : CKey G2) (w : CKey G1) (a : List G1) (b : List G2) :
    Option (GT × GT) :=
  if v.hasLen a.length ∧ w.hasLen b.length ∧ a.length = b.length then do
    let t1 ← innerPairing P a v.a
    let t2 ← innerPairing P w.a b
    let u1 ← innerPairing P a v.b
    let u2 ← innerPairing P w.b b
    some (t1 + t2, u1 + u2)
  else none

/-- `kzg_ipp2::single` (kzg_ipp2.hpp:264-283) -/
def ippSingle (P : Pairing F G1 G2 GT) (v : CKey G2) (a : List G1) : Option (GT × GT) :=
  if v.hasLen a.length then do
    let t1 ← innerPairing P a v.a
    let u1 ← innerPairing P a v.b
    some (t1, u1)
  else none

/-! ## The reference string -/

/-- `r1cs_gg_ppzksnark_aggregate_srs` (ipp2/srs.hpp:122-143) -/
structure AggSrs (G1 G2 : Type) where
  gAlpha : List G1
  hAlpha : List G2
  gBeta : List G1
  hBeta : List G2

/-- `r1cs_gg_ppzksnark_aggregate_proving_srs` (ipp2/srs.hpp:62-96) -/
structure AggProvingSrs (G1 G2 : Type) where
  n : Nat
  gAlpha : List G1
  hAlpha : List G2
  gBeta : List G1
  hBeta : List G2
  vkey : CKey G2
  wkey : CKey G1

/-- `r1cs_gg_ppzksnark_aggregate_verification_srs` (ipp2/srs.hpp:102-112) -/
structure AggVerificationSrs (G1 G2 : Type) where
  n : Nat
  g : G1
  h : G2
  gAlpha : G1
  gBeta : G1
  hAlpha : G2
  hBeta : G2

/-- `structured_generators_scalar_power` (ipp2/srs.hpp:44-55) -/
def structuredGenerators {G : Type} [AddCommGroup G] [Module F G] (one : G) (n : Nat) (s : F) :
    Option (List G) :=
  if 0 < n then some (powerKey s one n) else none

/-- the constructor of `r1cs_gg_ppzksnark_aggregate_srs` (ipp2/srs.hpp:146-152) -/
def aggSetup (P : Pairing F G1 G2 GT) (numProofs : Nat) (alpha beta : F) : Option (AggSrs G1 G2) := do
  let gAlpha ← structuredGenerators P.one1 (2 * numProofs) alpha
  let hAlpha ← structuredGenerators P.one2 (2 * numProofs) alpha
  let gBeta ← structuredGenerators P.one1 (2 * numProofs) beta
  let hBeta ← structuredGenerators P.one2 (2 * numProofs) beta
  some ⟨gAlpha, hAlpha, gBeta, hBeta⟩

/-- `num_proofs > 0 && (num_proofs & (num_proofs - 1)) == 0` (ipp2/srs.hpp:159, prover.hpp:310, 526) -/
def isPow2 (n : Nat) : Bool := decide (0 < n) && (n &&& (n - 1) == 0)

/-- `specialize` (ipp2/srs.hpp:158-204) -/
def AggSrs.specialize (s : AggSrs G1 G2) (n : Nat) :
    Option (AggProvingSrs G1 G2 × AggVerificationSrs G1 G2) :=
  if isPow2 n ∧ 2 * n ≤ s.gAlpha.length ∧ 2 * n ≤ s.hAlpha.length ∧ 2 * n ≤ s.gBeta.length ∧
      2 * n ≤ s.hBeta.length then do
    let v1 ← slice s.hAlpha 0 n
    let v2 ← slice s.hBeta 0 n
    let vkey : CKey G2 := ⟨v1, v2⟩
    guard (vkey.hasLen n)
    let w1 ← slice s.gAlpha n (2 * n)
    let w2 ← slice s.gBeta n (2 * n)
    let wkey : CKey G1 := ⟨w1, w2⟩
    guard (wkey.hasLen n)
    let gA ← slice s.gAlpha 0 (2 * n)
    let hA ← slice s.hAlpha 0 n
    let gB ← slice s.gBeta 0 (2 * n)
    let hB ← slice s.hBeta 0 n
    let g ← s.gAlpha[0]?
    let h ← s.hAlpha[0]?
    let ga ← s.gAlpha[1]?
    let gb ← s.gBeta[1]?
    let ha ← s.hAlpha[1]?
    let hb ← s.hBeta[1]?
    some (⟨n, gA, hA, gB, hB, vkey, wkey⟩, ⟨n, g, h, ga, gb, ha, hb⟩)
  else none

/-- `r1cs_gg_ppzksnark_generator<CurveType, aggregate>::process(num_proofs)` (ipp2/generator.hpp:92-98)
with the two random elements as arguments -/
def aggGenerate (P : Pairing F G1 G2 GT) (numProofs : Nat) (alpha beta : F) :
    Option (AggProvingSrs G1 G2 × AggVerificationSrs G1 G2) := do
  let s ← aggSetup P numProofs alpha beta
  s.specialize numProofs

/-! ## Proofs -/

/-- what one round of the recursion sends: the entries of `comms_ab`, `comms_c`, `z_ab`, `z_c`
(ipp2/proof.hpp:55-61) -/
structure GipaRound (G1 GT : Type) where
  tabL : GT × GT
  tabR : GT × GT
  tucL : GT × GT
  tucR : GT × GT
  zabL : GT
  zabR : GT
  zcL : G1
  zcR : G1

/-- `gipa_proof` (ipp2/proof.hpp:46-81) -/
structure GipaProof (G1 G2 GT : Type) where
  nproofs : Nat
  commsAB : List ((GT × GT) × (GT × GT))
  commsC : List ((GT × GT) × (GT × GT))
  zAB : List (GT × GT)
  zC : List (G1 × G1)
  finalA : G1
  finalB : G2
  finalC : G1
  finalVkey : G2 × G2
  finalWkey : G1 × G1

/-- `r1cs_gg_ppzksnark_aggregate_proof` with its `tipp_mipp_proof` (ipp2/proof.hpp:84-114) -/
structure AggProof (G1 G2 GT : Type) where
  comAB : GT × GT
  comC : GT × GT
  ipAB : GT
  aggC : G1
  gipa : GipaProof G1 G2 GT
  vkeyOpening : G2 × G2
  wkeyOpening : G1 × G1

/-! ## The prover -/

/-- `structured_scalar_power` (ipp2/prover.hpp:62-70): at least one entry -/
def scalarPowers (num : Nat) (s : F) : List F := powerKey s (1 : F) (max 1 num)

/-- the loop of `polynomial_evaluation_product_form_from_transcript` (ipp2/prover.hpp:108-119) -/
def productFormLoop (res pw : F) : List F → F
  | [] => res
  | x :: xs => productFormLoop (res * (1 + x * pw)) (pw * pw) xs

/-- `polynomial_evaluation_product_form_from_transcript` (ipp2/prover.hpp:95-122). The first challenge is
read without a test: `none` if there is none. -/
def productForm (xs : List F) (z rShift : F) : Option F :=
  match xs with
  | [] => none
  | x :: xs => some (productFormLoop (1 + x * (z * rShift)) (z * rShift * (z * rShift)) xs)

/-- the loop of `polynomial_coefficients_from_transcript` (ipp2/prover.hpp:143-155) -/
def coefficientsLoop (cs : List F) (pw : F) : List F → List F
  | [] => cs
  | x :: xs => coefficientsLoop (cs ++ cs.map fun c => c * (x * pw)) (pw * pw) xs

/-- `polynomial_coefficients_from_transcript` (ipp2/prover.hpp:136-158) -/
def transcriptCoefficients (xs : List F) (rShift : F) : List F := coefficientsLoop [1] rShift xs

/-- `prove_commitment_key_kzg_opening` (ipp2/prover.hpp:162-215) -/
def proveKeyOpening {G : Type} [AddCommGroup G] [Module F G] (powersAlpha powersBeta : List G)
    (poly : List F) (evalPoly_ z : F) : Option (G × G) :=
  if poly.length = powersAlpha.length ∧ poly.length = powersBeta.length then do
    let q := polyDiv (polySub poly [evalPoly_]) [-z, 1]
    let q := q ++ List.replicate (poly.length - q.length) 0
    guard (q.length = poly.length)
    let oa ← multiexp powersAlpha q
    let ob ← multiexp powersBeta q
    some (oa, ob)
  else none

/-- `condense` (external): trailing zeros are removed (ipp2/prover.hpp:234) -/
def polyCondense [DecidableEq F] (p : List F) : List F := (p.reverse.dropWhile (· = 0)).reverse

/-- `prove_commitment_v` (ipp2/prover.hpp:217-245) -/
def proveCommitmentV [DecidableEq F] (hAlpha hBeta : List G2) (xs : List F) (z : F) :
    Option (G2 × G2) := do
  let poly := polyCondense (transcriptCoefficients xs 1)
  guard (polyIsZero poly = false)
  let v ← productForm xs z 1
  proveKeyOpening hAlpha hBeta poly v z

/-- `prove_commitment_w` (ipp2/prover.hpp:247-283) -/
def proveCommitmentW (gAlpha gBeta : List G1) (xs : List F) (rShift z : F) : Option (G1 × G1) := do
  let n := gBeta.length / 2
  guard (2 * n = gAlpha.length)
  let f := List.replicate n 0 ++ transcriptCoefficients xs rShift
  let fz ← productForm xs z rShift
  proveKeyOpening gAlpha gBeta f (fz * z ^ n) z

/-- the vectors of `gipa_tipp_mipp` (ipp2/prover.hpp:315-324) -/
structure GipaVecs (F G1 G2 : Type) where
  a : List G1
  b : List G2
  c : List G1
  r : List F
  vkey : CKey G2
  wkey : CKey G1

/-- the values of one round (ipp2/prover.hpp:348-397) -/
def gipaRound (P : Pairing F G1 G2 GT) (s : GipaVecs F G1 G2) : Option (GipaRound G1 GT) := do
  let split := s.a.length / 2
  let (vl, vr) ← s.vkey.split split
  let (wl, wr) ← s.wkey.split split
  let aL ← slice s.a 0 split
  let aR ← slice s.a split s.a.length
  let bL ← slice s.b 0 split
  let bR ← slice s.b split s.b.length
  let cL ← slice s.c 0 split
  let cR ← slice s.c split s.c.length
  let rL ← slice s.r 0 split
  let rR ← slice s.r split s.r.length
  let tabL ← ippPair P vl wr aR bL
  let tabR ← ippPair P vr wl aL bR
  let zabL ← innerPairing P aR bL
  let zabR ← innerPairing P aL bR
  let zcL ← multiexp cR rL
  let zcR ← multiexp cL rR
  let tucL ← ippSingle P vl cR
  let tucR ← ippSingle P vr cL
  some ⟨tabL, tabR, tucL, tucR, zabL, zabR, zcL, zcR⟩

/-- what is absorbed in one round, by the prover (ipp2/prover.hpp:401-412) and by the verifier
(ipp2/verifier.hpp:358-381) -/
def AggHash.writeRound (H : AggHash F G1 G2 GT) (tr : List UInt8) (m : GipaRound G1 GT) : List UInt8 :=
  tr ++ H.bytesGT m.zabL ++ H.bytesGT m.zabR ++ H.bytesG1 m.zcL ++ H.bytesG1 m.zcR ++
    H.bytesGT m.tabL.1 ++ H.bytesGT m.tabL.2 ++ H.bytesGT m.tabR.1 ++ H.bytesGT m.tabR.2 ++
    H.bytesGT m.tucL.1 ++ H.bytesGT m.tucL.2 ++ H.bytesGT m.tucR.1 ++ H.bytesGT m.tucR.2

/-- the vectors after a round with the challenges `c` and `cInv` (ipp2/prover.hpp:420-433) -/
def GipaVecs.fold (s : GipaVecs F G1 G2) (c cInv : F) : Option (GipaVecs F G1 G2) := do
  let split := s.a.length / 2
  let (vl, vr) ← s.vkey.split split
  let (wl, wr) ← s.wkey.split split
  let a ← compressVec s.a split c
  let b ← compressVec s.b split cInv
  let c' ← compressVec s.c split c
  let r ← compressVec s.r split cInv
  let vkey ← vl.compress vr cInv
  let wkey ← wl.compress wr c
  some ⟨a, b, c', r, vkey, wkey⟩

/-- what the loop of `gipa_tipp_mipp` leaves: the messages of the rounds, the challenges and their
inverses in the order of drawing, the folded vectors and the transcript (ipp2/prover.hpp:302) -/
structure GipaOut (F G1 G2 GT : Type) where
  rounds : List (GipaRound G1 GT)
  challenges : List F
  challengesInv : List F
  vecs : GipaVecs F G1 G2
  tr : List UInt8

/-- the loop of `gipa_tipp_mipp` (ipp2/prover.hpp:345-441); the fuel is the length of the vector, which
every round reduces -/
def gipaLoop [DecidableEq F] (P : Pairing F G1 G2 GT) (H : AggHash F G1 G2 GT) :
    Nat → GipaVecs F G1 G2 → List UInt8 → Option (GipaOut F G1 G2 GT)
  | fuel, s, tr =>
    if s.a.length ≤ 1 then some ⟨[], [], [], s, tr⟩
    else match fuel with
      | 0 => none
      | fuel + 1 => do
        let m ← gipaRound P s
        let tr := H.writeRound tr m
        let cInv ← H.read tr
        let c := cInv⁻¹
        let s' ← s.fold c cInv
        let out ← gipaLoop P H fuel s' tr
        some ⟨m :: out.rounds, c :: out.challenges, cInv :: out.challengesInv, out.vecs, out.tr⟩

/-- the only element of a vector (ipp2/prover.hpp:443-450) -/
def onlyElement {α : Type} : List α → Option α
  | [x] => some x
  | _ => none

/-- `gipa_tipp_mipp` (ipp2/prover.hpp:289-451). The challenge read at line 343 is not used. -/
def gipaProve [DecidableEq F] (P : Pairing F G1 G2 GT) (H : AggHash F G1 G2 GT) (tr : List UInt8)
    (s : GipaVecs F G1 G2) :
    Option (GipaProof G1 G2 GT × List F × List F × List UInt8) :=
  let n := s.a.length
  if 2 ≤ n ∧ isPow2 n ∧ n = s.b.length ∧ n = s.r.length ∧ n = s.c.length then do
    let tr := tr ++ tagGipa
    let _ ← H.read tr
    let out ← gipaLoop P H n s tr
    let a ← onlyElement out.vecs.a
    let b ← onlyElement out.vecs.b
    let c ← onlyElement out.vecs.c
    let _ ← onlyElement out.vecs.r
    let va ← onlyElement out.vecs.vkey.a
    let vb ← onlyElement out.vecs.vkey.b
    let wa ← onlyElement out.vecs.wkey.a
    let wb ← onlyElement out.vecs.wkey.b
    some (⟨n, out.rounds.map fun m => (m.tabL, m.tabR), out.rounds.map fun m => (m.tucL, m.tucR),
        out.rounds.map fun m => (m.zabL, m.zabR), out.rounds.map fun m => (m.zcL, m.zcR), a, b, c,
        (va, vb), (wa, wb)⟩,
      out.challenges, out.challengesInv, out.tr)
  else none

/-- what is absorbed before the point `z` is drawn, by the prover (ipp2/prover.hpp:491-497) and by the
verifier (ipp2/verifier.hpp:478-484) -/
def AggHash.writeFinal (H : AggHash F G1 G2 GT) (tr : List UInt8) (c : F) (v : G2 × G2) (w : G1 × G1) :
    List UInt8 :=
  tr ++ tagRandomZ ++ H.bytesF c ++ H.bytesG2 v.1 ++ H.bytesG2 v.2 ++ H.bytesG1 w.1 ++ H.bytesG1 w.2

/-- `prove_tipp_mipp` (ipp2/prover.hpp:459-509) -/
def proveTippMipp [DecidableEq F] (P : Pairing F G1 G2 GT) (H : AggHash F G1 G2 GT)
    (srs : AggProvingSrs G1 G2) (tr : List UInt8) (a : List G1) (b : List G2) (c : List G1)
    (wkey : CKey G1) (r : List F) :
    Option (GipaProof G1 G2 GT × (G2 × G2) × (G1 × G1)) := do
  let rShift ← r[1]?
  let (proof, challenges, challengesInv, tr) ← gipaProve P H tr ⟨a, b, c, r, srs.vkey, wkey⟩
  let challenges := challenges.reverse
  let challengesInv := challengesInv.reverse
  let rInverse := rShift⁻¹
  let c0 ← challenges[0]?
  let tr := H.writeFinal tr c0 proof.finalVkey proof.finalWkey
  let z ← H.read tr
  let ov ← proveCommitmentV srs.hAlpha srs.hBeta challengesInv z
  let ow ← proveCommitmentW srs.gAlpha srs.gBeta challenges rInverse z
  some (proof, ov, ow)

/-- what is absorbed before `r` is drawn, by the prover (ipp2/prover.hpp:552-561) and by the verifier
(ipp2/verifier.hpp:583-592) -/
def AggHash.writeStart (H : AggHash F G1 G2 GT) (comAB comC : GT × GT) (incl : List UInt8) :
    List UInt8 :=
  H.writeBytes (tagSnarkpack ++ tagRandomR ++ H.bytesGT comAB.1 ++ H.bytesGT comAB.2 ++
    H.bytesGT comC.1 ++ H.bytesGT comC.2) incl

/-- `aggregate_proofs` (ipp2/prover.hpp:512-615). The assertion on `com_ab` at the end (611-612) is
included. -/
def aggregateProofs [DecidableEq F] [DecidableEq GT] (P : Pairing F G1 G2 GT) (H : AggHash F G1 G2 GT)
    (srs : AggProvingSrs G1 G2) (incl : List UInt8) (proofs : List (Groth16Proof G1 G2)) :
    Option (AggProof G1 G2 GT) :=
  let n := proofs.length
  if 2 ≤ n ∧ isPow2 n ∧ srs.vkey.hasLen n ∧ srs.wkey.hasLen n then do
    let a := proofs.map Groth16Proof.gA
    let b := proofs.map Groth16Proof.gB
    let c := proofs.map Groth16Proof.gC
    let comAB ← ippPair P srs.vkey srs.wkey a b
    let comC ← ippSingle P srs.vkey c
    let tr := H.writeStart comAB comC incl
    let r ← H.read tr
    let rVec := scalarPowers n r
    let rInv := rVec.map fun x => x⁻¹
    let bR := List.zipWith (fun x s => s • x) b rVec
    let ipAB ← innerPairing P a bR
    let aggC ← multiexp c rVec
    let tr := tr ++ H.bytesGT ipAB ++ H.bytesG1 aggC
    let wkeyR ← srs.wkey.scale rInv
    let (gipa, ov, ow) ← proveTippMipp P H srs tr a bR c wkeyR rVec
    let again ← ippPair P srs.vkey wkeyR a bR
    guard (comAB = again)
    some ⟨comAB, comC, ipAB, aggC, gipa, ov, ow⟩
  else none

/-! ## The verifier -/

/-- `pairing_check` (ipp2/verifier.hpp:95-116) -/
structure PairingCheck (GT : Type) where
  left : GT
  right : GT
  nonRandomDone : Bool
  valid : Bool

/-- the default constructor (ipp2/verifier.hpp:113-116) -/
def PairingCheck.empty : PairingCheck GT := ⟨0, 0, false, true⟩

/-- `merge_random` (ipp2/verifier.hpp:149-167) with the random coefficient as an argument -/
def PairingCheck.mergeRandom [DecidableEq GT] (P : Pairing F G1 G2 GT) (pc : PairingCheck GT) (coeff : F)
    (a : List G1) (b : List G2) (out : GT) : Option (PairingCheck GT) :=
  if 0 < a.length ∧ a.length = b.length then
    if pc.valid = false then some pc
    else some { pc with
      left := (List.zipWith (fun x y => P.e (coeff • x) y) a b).foldl (· + ·) pc.left
      right := pc.right + (if out = 0 then out else coeff • out) }
  else none

/-- `merge_nonrandom` (ipp2/verifier.hpp:172-186) -/
def PairingCheck.mergeNonrandom (pc : PairingCheck GT) (a : List GT) (out : GT) :
    Option (PairingCheck GT) :=
  if pc.nonRandomDone = false ∧ 0 < a.length then
    if pc.valid = false then some pc
    else some { pc with
      left := a.foldl (· + ·) pc.left
      right := pc.right + out
      nonRandomDone := true }
  else none

/-- `verify` (ipp2/verifier.hpp:188-190) -/
def PairingCheck.verify [DecidableEq GT] (pc : PairingCheck GT) : Bool :=
  pc.valid && decide (pc.left = pc.right)

/-- `verify_kzg_v` (ipp2/verifier.hpp:211-263); `rho` are the random coefficients of the merges -/
def verifyKzgV [DecidableEq GT] (P : Pairing F G1 G2 GT) (s : AggVerificationSrs G1 G2)
    (finalVkey opening : G2 × G2) (xs : List F) (z : F) (rho : Nat → F) (pc : PairingCheck GT) :
    Option (PairingCheck GT) := do
  let v ← productForm xs z 1
  let pc ← pc.mergeRandom P (rho 0) [-s.g, s.gAlpha - z • s.g] [finalVkey.1 - v • s.h, opening.1] 0
  pc.mergeRandom P (rho 1) [-s.g, s.gBeta - z • s.g] [finalVkey.2 - v • s.h, opening.2] 0

/-- `verify_kzg_w` (ipp2/verifier.hpp:268-315) -/
def verifyKzgW [DecidableEq GT] (P : Pairing F G1 G2 GT) (s : AggVerificationSrs G1 G2)
    (finalWkey opening : G1 × G1) (xs : List F) (rShift z : F) (rho : Nat → F) (pc : PairingCheck GT) :
    Option (PairingCheck GT) := do
  let f ← productForm xs z rShift
  let fwz := f * z ^ s.n
  let pc ← pc.mergeRandom P (rho 2) [finalWkey.1 - fwz • s.g, opening.1] [-s.h, s.hAlpha - z • s.h] 0
  pc.mergeRandom P (rho 3) [finalWkey.2 - fwz • s.g, opening.2] [-s.h, s.hBeta - z • s.h] 0

/-- `gipa_tuz` (ipp2/verifier.hpp:46-82) -/
structure GipaTuz (G1 GT : Type) where
  tab : GT
  uab : GT
  zab : GT
  tc : GT
  uc : GT
  zc : G1

/-- `merge` (ipp2/verifier.hpp:74-81) -/
def GipaTuz.merge (x y : GipaTuz G1 GT) : GipaTuz G1 GT :=
  ⟨x.tab + y.tab, x.uab + y.uab, x.zab + y.zab, x.tc + y.tc, x.uc + y.uc, x.zc + y.zc⟩

/-- the body of the second loop of `gipa_verify_tipp_mipp` (ipp2/verifier.hpp:421-445) -/
def GipaTuz.step (t : GipaTuz G1 GT) (e : GipaRound G1 GT × F × F) : GipaTuz G1 GT :=
  let m := e.1
  let c := e.2.1
  let cInv := e.2.2
  { tab := t.tab + c • m.tabL.1 + cInv • m.tabR.1
    uab := t.uab + c • m.tabL.2 + cInv • m.tabR.2
    zab := t.zab + c • m.zabL + cInv • m.zabR
    tc := t.tc + c • m.tucL.1 + cInv • m.tucR.1
    uc := t.uc + c • m.tucL.2 + cInv • m.tucR.2
    zc := t.zc + c • m.zcL + cInv • m.zcR }

/-- the four vectors of the proof walked together (ipp2/verifier.hpp:342-349) -/
def GipaProof.rounds (p : GipaProof G1 G2 GT) : Option (List (GipaRound G1 GT)) :=
  if p.commsAB.length = p.zAB.length ∧ p.commsAB.length = p.commsC.length ∧
      p.commsAB.length = p.zC.length then
    some (((p.commsAB.zip p.commsC).zip (p.zAB.zip p.zC)).map fun e =>
      ⟨e.1.1.1, e.1.1.2, e.1.2.1, e.1.2.2, e.2.1.1, e.2.1.2, e.2.2.1, e.2.2.2⟩)
  else none

/-- the first loop of `gipa_verify_tipp_mipp` (ipp2/verifier.hpp:342-384): the inverse challenges in the
order of drawing, and the transcript -/
def gipaChallenges [DecidableEq F] (H : AggHash F G1 G2 GT) (tr : List UInt8) :
    List (GipaRound G1 GT) → Option (List F × List UInt8)
  | [] => some ([], tr)
  | m :: ms => do
    let tr := H.writeRound tr m
    let cInv ← H.read tr
    let (xs, tr) ← gipaChallenges H tr ms
    some (cInv :: xs, tr)

/-- `gipa_verify_tipp_mipp` (ipp2/verifier.hpp:326-460): the combined values, the folded `r`, the
challenges and their inverses in reverse order, and the transcript -/
def gipaVerify [DecidableEq F] (H : AggHash F G1 G2 GT) (tr : List UInt8) (p : AggProof G1 G2 GT)
    (rShift : F) : Option (GipaTuz G1 GT × F × List F × List F × List UInt8) := do
  let tr := tr ++ tagGipa
  let ms ← p.gipa.rounds
  let (challengesInv, tr) ← gipaChallenges H tr ms
  let challenges := challengesInv.map fun x => x⁻¹
  let start : GipaTuz G1 GT := ⟨p.comAB.1, p.comAB.2, p.ipAB, p.comC.1, p.comC.2, p.aggC⟩
  let res := (ms.zip (challenges.zip challengesInv)).foldl GipaTuz.step ⟨0, 0, 0, 0, 0, 0⟩
  let challenges := challenges.reverse
  let challengesInv := challengesInv.reverse
  let finalR ← productForm challengesInv rShift 1
  some (start.merge res, finalR, challenges, challengesInv, tr)

/-- `verify_tipp_mipp` (ipp2/verifier.hpp:465-545) -/
def verifyTippMipp [DecidableEq F] [DecidableEq G1] [DecidableEq GT] (P : Pairing F G1 G2 GT)
    (H : AggHash F G1 G2 GT) (tr : List UInt8) (s : AggVerificationSrs G1 G2) (p : AggProof G1 G2 GT)
    (rShift : F) (rho : Nat → F) (pc : PairingCheck GT) : Option (PairingCheck GT) := do
  let (res, finalR, challenges, challengesInv, tr) ← gipaVerify H tr p rShift
  let c0 ← challenges[0]?
  let z ← H.read (H.writeFinal tr c0 p.gipa.finalVkey p.gipa.finalWkey)
  let pc ← verifyKzgV P s p.gipa.finalVkey p.vkeyOpening challengesInv z rho pc
  let pc ← verifyKzgW P s p.gipa.finalWkey p.wkeyOpening challenges rShift⁻¹ z rho pc
  let pc ← pc.mergeRandom P (rho 4) [p.gipa.finalA] [p.gipa.finalB] res.zab
  let pc ← pc.mergeRandom P (rho 5) [p.gipa.finalA, p.gipa.finalWkey.1]
    [p.gipa.finalVkey.1, p.gipa.finalB] res.tab
  let pc ← pc.mergeRandom P (rho 6) [p.gipa.finalA, p.gipa.finalWkey.2]
    [p.gipa.finalVkey.2, p.gipa.finalB] res.uab
  let finalZ := finalR • p.gipa.finalC
  let pc ← pc.mergeRandom P (rho 7) [p.gipa.finalC] [p.gipa.finalVkey.1] res.tc
  let pc ← pc.mergeRandom P (rho 8) [p.gipa.finalC] [p.gipa.finalVkey.2] res.uc
  some (if finalZ ≠ res.zc then { pc with valid := false } else pc)

/-- `r1cs_gg_ppzksnark_aggregate_verification_key` (ipp2/verification_key.hpp:38-46) -/
structure AggVK (G1 G2 : Type) where
  alphaG1 : G1
  betaG2 : G2
  gammaG2 : G2
  deltaG2 : G2
  gammaABC : AccVec G1

/-- the conversion to `r1cs_gg_ppzksnark_verification_key` (ipp2/verification_key.hpp:65-68) -/
def AggVK.toVK (P : Pairing F G1 G2 GT) (vk : AggVK G1 G2) : Groth16VK G1 G2 GT :=
  ⟨P.e vk.alphaG1 vk.betaG2, vk.gammaG2, vk.deltaG2, vk.gammaABC⟩

/-- the entry of `multi_r_vec` for column `i` of the public inputs (ipp2/verifier.hpp:632-636) -/
def multiREntry (inputs : List (List F)) (powers : List F) (i : Nat) : Option F := do
  let first ← inputs[0]?
  let c ← first[i]?
  (List.range' 1 (inputs.length - 1)).foldlM (fun c j => do
    let row ← inputs[j]?
    let x ← row[i]?
    let p ← powers[j]?
    some (c + x * p)) c

/-- `verify_aggregate_proof` (ipp2/verifier.hpp:560-666); `rho` are the random coefficients of the
pairing check -/
def verifyAggregate [DecidableEq F] [DecidableEq G1] [DecidableEq GT] (P : Pairing F G1 G2 GT)
    (H : AggHash F G1 G2 GT) (s : AggVerificationSrs G1 G2) (vk : AggVK G1 G2)
    (inputs : List (List F)) (p : AggProof G1 G2 GT) (incl : List UInt8) (rho : Nat → F) :
    Option Bool :=
  if inputs.all fun x => x.length == vk.gammaABC.domainSize then do
    let tr := H.writeStart p.comAB p.comC incl
    let r ← H.read tr
    let tr := tr ++ H.bytesGT p.ipAB ++ H.bytesG1 p.aggC
    let pc ← verifyTippMipp P H tr s p r rho PairingCheck.empty
    let rSum := (r ^ inputs.length - 1) * (r - 1)⁻¹
    let powers := scalarPowers inputs.length r
    let first ← inputs[0]?
    let multiR ← (List.range first.length).mapM (multiREntry inputs powers)
    let left := P.e (rSum • vk.alphaG1) vk.betaG2
    let right := P.e p.aggC vk.deltaG2
    let gIc := rSum • vk.gammaABC.first
    let acc ← vk.gammaABC.accumulate multiR
    let totsi := acc - vk.gammaABC.first
    let middle := P.e (gIc + totsi) vk.gammaG2
    let pc ← pc.mergeNonrandom [left, middle, right] p.ipAB
    some pc.verify
  else none

end Crypto3Zk
