import Verif.Model.Groth16

/-!
# The powers-of-tau ceremony (commitments/polynomial/powers_of_tau.hpp and what it uses)

Randomness is a parameter: the random `g1_s` of a proof of knowledge and the random vectors of
`merge_pairs`. Serialisation, the hash functions and the derivation of a group element from a seed are
parameters too. `generate_private_key` and `rng_from_beacon` only draw secrets and are not modelled.
-/

namespace Crypto3Zk

variable {F G1 G2 GT : Type} [Field F] [AddCommGroup G1] [Module F G1] [AddCommGroup G2] [Module F G2]
  [AddCommGroup GT] [Module F GT]

/-- The checks of a verification function in their order: it returns `false` at the first that fails, and
what is after that is not evaluated; `none` is a read out of bounds (as in powers_of_tau.hpp:138-150). -/
def firstFailure : List (Option Bool) → Option Bool
  | [] => some true
  | c :: cs => match c with
    | none => none
    | some false => some false
    | some true => firstFailure cs

/-! ## proofs of knowledge -/

/-- `element_pok` (detail/polynomial/element_proof_of_knowledge.hpp:34-48) -/
structure ElementPok (G1 G2 : Type) where
  g1s : G1
  g1sx : G1
  g2sx : G2

/-- The external functions used for the challenge: `blake2b<256>`, and `random_element<g2_type>` with an
`mt19937` seeded with a byte. -/
structure PokLib (G2 : Type) where
  hash : List UInt8 → List UInt8
  random : UInt8 → G2

/-- `proof_of_knowledge::compute_g2_s` (polynomial/proof_of_knowledge.hpp:77-105). The copies at lines 90 and
93 append `g1_s_blob` and `g1_s_x_blob` to themselves (through iterators that are invalidated on the way)
and not to the hashed vector: the arguments are not used. The generator is seeded with the first byte of
the hash (line 102). -/
def pokChallenge (K : PokLib G2) (_g1s _g1sx : G1) (transcript : List UInt8) (personalization : UInt8) :
    Option G2 :=
  (K.hash (personalization :: transcript))[0]?.map K.random

/-- `proof_of_knowledge::proof_eval` (proof_of_knowledge.hpp:52-63), `g1s` is random. -/
def pokProve (K : PokLib G2) (x : F) (transcript : List UInt8) (personalization : UInt8) (g1s : G1) :
    Option (ElementPok G1 G2) := do
  let g1sx := x • g1s
  let g2s ← pokChallenge K g1s g1sx transcript personalization
  pure ⟨g1s, g1sx, x • g2s⟩

variable [DecidableEq G1] [DecidableEq G2] [DecidableEq GT]

/-- `proof_of_knowledge::verify_eval` (proof_of_knowledge.hpp:72-75) -/
def pokVerify (P : Pairing F G1 G2 GT) (proof : ElementPok G1 G2) (g2s : G2) : Bool :=
  P.e proof.g1s proof.g2sx = P.e proof.g1sx g2s

/-- `is_same_ratio` (powers_of_tau.hpp:158-163, r1cs_gg_ppzksnark_mpc.hpp:193-198) -/
def isSameRatio (P : Pairing F G1 G2 GT) (a : G1 × G1) (b : G2 × G2) : Bool :=
  P.e a.1 b.2 = P.e a.2 b.1

/-- `merge_pairs` (detail/polynomial/vector_pairs.hpp:28-62); `r` is random, one element for each of the
first vector. `none` is the failed assertion. -/
def mergePairs {G : Type} [AddCommGroup G] [Module F G] (v1 v2 : List G) (r : List F) : Option (G × G) := do
  let a ← multiexp v1 r
  let b ← multiexp v2 r
  pure (a, b)

/-- `power_pairs` (vector_pairs.hpp:64-71); `none` if there is no last element. -/
def powerPairs {G : Type} [AddCommGroup G] [Module F G] (v : List G) (r : List F) : Option (G × G) :=
  if v = [] then none else mergePairs v.dropLast v.tail r

/-! ## the accumulator -/

/-- `powers_of_tau_private_key` (detail/polynomial/powers_of_tau/private_key.hpp) (lines 35-42) -/
structure TauKey (F : Type) where
  tau : F
  alpha : F
  beta : F

/-- `powers_of_tau_public_key` (detail/polynomial/powers_of_tau/public_key.hpp) (lines 36-48) -/
structure TauPublicKey (G1 G2 : Type) where
  tau : ElementPok G1 G2
  alpha : ElementPok G1 G2
  beta : ElementPok G1 G2

/-- `powers_of_tau_accumulator` (detail/polynomial/powers_of_tau/accumulator.hpp:55-65) -/
structure TauAccumulator (G1 G2 : Type) where
  tauG1 : List G1
  tauG2 : List G2
  alphaTauG1 : List G1
  betaTauG1 : List G1
  betaG2 : G2

/-- the constructor (accumulator.hpp:67-73); `len` is the template argument `TauPowersLength`, which is
positive. -/
def TauAccumulator.new (P : Pairing F G1 G2 GT) (len : Nat) : TauAccumulator G1 G2 :=
  ⟨List.replicate (2 * len - 1) P.one1, List.replicate len P.one2, List.replicate len P.one1,
    List.replicate len P.one1, P.one2⟩

/-- `naive_batch_exp` (accumulator.hpp:124-138); `none` is the failed assertion. -/
def naiveBatchExp {G : Type} [AddCommGroup G] [Module F G] (bases : List G) (pows : List F) :
    Option (List G) :=
  if bases.length ≤ pows.length then some (List.zipWith (fun b p => p • b) bases pows) else none

/-- `naive_batch_exp_with_coeff` (accumulator.hpp:140-155) -/
def naiveBatchExpWithCoeff {G : Type} [AddCommGroup G] [Module F G] (bases : List G) (pows : List F)
    (coeff : F) : Option (List G) :=
  if bases.length ≤ pows.length then some (List.zipWith (fun b p => (coeff * p) • b) bases pows) else none

/-- `transform` (accumulator.hpp:89-121) -/
def TauAccumulator.transform (len : Nat) (acc : TauAccumulator G1 G2) (key : TauKey F) :
    Option (TauAccumulator G1 G2) := do
  let taupowers := powersFrom key.tau 1 (2 * len - 1)
  let tauG1 ← naiveBatchExp acc.tauG1 taupowers
  let tauG2 ← naiveBatchExp acc.tauG2 taupowers
  let alphaTauG1 ← naiveBatchExpWithCoeff acc.alphaTauG1 taupowers key.alpha
  let betaTauG1 ← naiveBatchExpWithCoeff acc.betaTauG1 taupowers key.beta
  pure ⟨tauG1, tauG2, alphaTauG1, betaTauG1, key.beta • acc.betaG2⟩

/-! ## contributions -/

/-- `proof_eval` (powers_of_tau.hpp:67-80); `transcript` is `compute_transcript` (165-183), the hash of the
serialised accumulator, and `s` are the three random elements. -/
def tauProve (K : PokLib G2) (transcript : TauAccumulator G1 G2 → List UInt8) (key : TauKey F)
    (before : TauAccumulator G1 G2) (s : G1 × G1 × G1) : Option (TauPublicKey G1 G2) := do
  let tr := transcript before
  let tau ← pokProve K key.tau tr 0 s.1
  let alpha ← pokProve K key.alpha tr 1 s.2.1
  let beta ← pokProve K key.beta tr 2 s.2.2
  pure ⟨tau, alpha, beta⟩

/-- The random vectors of the four calls of `power_pairs` (powers_of_tau.hpp:138-150). -/
structure TauDraws (F : Type) where
  tauG1 : List F
  tauG2 : List F
  alpha : List F
  beta : List F

/-- `verify_eval` (powers_of_tau.hpp:82-156). -/
def tauVerify (P : Pairing F G1 G2 GT) (K : PokLib G2) (transcript : TauAccumulator G1 G2 → List UInt8)
    (pk : TauPublicKey G1 G2) (before after : TauAccumulator G1 G2) (r : TauDraws F) : Option Bool := do
  let tr := transcript before
  let tauS ← pokChallenge K pk.tau.g1s pk.tau.g1sx tr 0
  let alphaS ← pokChallenge K pk.alpha.g1s pk.alpha.g1sx tr 1
  let betaS ← pokChallenge K pk.beta.g1s pk.beta.g1sx tr 2
  firstFailure [
    some (pokVerify P pk.tau tauS),
    some (pokVerify P pk.alpha alphaS),
    some (pokVerify P pk.beta betaS),
    after.tauG1[0]?.map fun g => g = P.one1,
    after.tauG2[0]?.map fun g => g = P.one2,
    do let b ← before.tauG1[1]?
       let a ← after.tauG1[1]?
       pure (isSameRatio P (b, a) (tauS, pk.tau.g2sx)),
    do let b ← before.alphaTauG1[0]?
       let a ← after.alphaTauG1[0]?
       pure (isSameRatio P (b, a) (alphaS, pk.alpha.g2sx)),
    do let b ← before.betaTauG1[0]?
       let a ← after.betaTauG1[0]?
       pure (isSameRatio P (b, a) (betaS, pk.beta.g2sx)),
    do let b ← before.betaTauG1[0]?
       let a ← after.betaTauG1[0]?
       pure (isSameRatio P (b, a) (before.betaG2, after.betaG2)),
    do let p ← powerPairs after.tauG1 r.tauG1
       let x ← after.tauG2[0]?
       let y ← after.tauG2[1]?
       pure (isSameRatio P p (x, y)),
    do let x ← after.tauG1[0]?
       let y ← after.tauG1[1]?
       let p ← powerPairs after.tauG2 r.tauG2
       pure (isSameRatio P (x, y) p),
    do let p ← powerPairs after.alphaTauG1 r.alpha
       let x ← after.tauG2[0]?
       let y ← after.tauG2[1]?
       pure (isSameRatio P p (x, y)),
    do let p ← powerPairs after.betaTauG1 r.beta
       let x ← after.tauG2[0]?
       let y ← after.tauG2[1]?
       pure (isSameRatio P p (x, y))]

/-! ## the result -/

/-- `math::evaluation_domain` over a group (external): `evaluate_all_lagrange_polynomials` applied to the
powers of a point, in either group, and `get_vanishing_polynomial` (used in powers_of_tau/result.hpp:81-89). -/
structure TauDomain (F G1 G2 : Type) where
  dom : EvalDomain F
  lagrange1 : List G1 → Option (List G1)
  lagrange2 : List G2 → Option (List G2)
  Z : List F

/-- The contract: from `t ^ i * g` for at least `m` exponents, the Lagrange polynomials at `t` times `g`. -/
structure TauDomain.Lawful (D : TauDomain F G1 G2) : Prop where
  dom : D.dom.Lawful
  lagrange1 : ∀ (t : F) (g : G1) (k : Nat), D.dom.m ≤ k →
    D.lagrange1 (batchExp g (powersFrom t 1 k)) = some (batchExp g (D.dom.lagrange t))
  lagrange2 : ∀ (t : F) (g : G2) (k : Nat), D.dom.m ≤ k →
    D.lagrange2 (batchExp g (powersFrom t 1 k)) = some (batchExp g (D.dom.lagrange t))
  Z_length : D.Z.length = D.dom.m + 1
  Z_eval : ∀ x, evalPoly D.Z x = D.dom.vanishing x

/-- `powers_of_tau_result` (detail/polynomial/powers_of_tau/result.hpp:50-57) -/
structure TauResult (G1 G2 : Type) where
  alphaG1 : G1
  betaG1 : G1
  betaG2 : G2
  coeffsG1 : List G1
  coeffsG2 : List G2
  alphaCoeffsG1 : List G1
  betaCoeffsG1 : List G1
  h : List G1

/-- `h[i]` (result.hpp:102-109) -/
def tauH [DecidableEq F] (Z : List F) (tauG1 : List G1) (i : Nat) : Option G1 :=
  Z.zipIdx.foldlM (fun h (z, j) => if z ≠ 0 then tauG1[i + j]?.map fun g => h + z • g else some h) 0

/-- `from_accumulator` (result.hpp:72-119); `m` is its argument, for which the caller has made the domain `D`;
`m` is positive. -/
def TauResult.fromAccumulator [DecidableEq F] (D : TauDomain F G1 G2) (len m : Nat)
    (acc : TauAccumulator G1 G2) : Option (TauResult G1 G2) := do
  let alphaG1 ← acc.alphaTauG1[0]?
  let betaG1 ← acc.betaTauG1[0]?
  guard (D.dom.m ≤ len)
  let coeffsG1 ← D.lagrange1 acc.tauG1
  let coeffsG2 ← D.lagrange2 acc.tauG2
  let alphaCoeffsG1 ← D.lagrange1 acc.alphaTauG1
  let betaCoeffsG1 ← D.lagrange1 acc.betaTauG1
  let h ← (List.range (m - 1)).mapM (tauH D.Z acc.tauG1)
  pure ⟨alphaG1, betaG1, acc.betaG2, coeffsG1, coeffsG2, alphaCoeffsG1, betaCoeffsG1, h⟩

end Crypto3Zk
