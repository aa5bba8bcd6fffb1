import Verif.Model.PGHR13

/-!
# The argument on authenticated data (`r1cs_ppzkadsnark`)

`systems/ppzkadsnark/r1cs_ppzkadsnark/detail/basic_policy.hpp`. Same conventions as for PGHR13: the
randomness is a parameter and the pairing is a bilinear map into an additively written group. The
header is not compiled by any target of the repository (it includes a `prf.hpp` that exists under
`test/` only, and uses its own nested classes as templates); what is modelled is what its functions
say.
-/

namespace Crypto3Zk

/-- the pseudorandom function and the signature scheme the argument is instantiated with: `prfCompute`,
`sigSign`, `sigVerif` and `sigBatchVerif` (signature.hpp:44-60; the instances in
`test/systems/ppzkadsnark/r1cs_ppzkadsnark/{prf,signature}` call AES and Ed25519). External. -/
structure AdPrimitives (F G2 Label Seed SK VK Sig : Type) where
  prf : Seed → Label → F
  sign : SK → Label → G2 → Sig
  verify : VK → Label → G2 → Sig → Bool
  batchVerify : VK → List Label → List G2 → List Sig → Bool

/-- `pub_auth_prms` (basic_policy.hpp:127-141): `I1` -/
structure AdPubParams (G1 : Type) where
  I1 : G1

/-- `sec_auth_key` (basic_policy.hpp:148-168) -/
structure AdSecKey (F Seed SK : Type) where
  i : F
  skp : SK
  S : Seed

/-- `pub_auth_key` (basic_policy.hpp:175-192) -/
structure AdPubKey (G2 VK : Type) where
  minusI2 : G2
  vkp : VK

/-- `auth_data` (basic_policy.hpp:216-239) -/
structure AdAuthData (F G2 Sig : Type) where
  mu : F
  Lambda : G2
  sigma : Sig

/-- `proving_key` (basic_policy.hpp:246-310) -/
structure AdPK (F G1 G2 : Type) [Field F] where
  aQuery : KcVec (G1 × G1)
  bQuery : KcVec (G2 × G1)
  cQuery : KcVec (G1 × G1)
  hQuery : List G1
  kQuery : List G1
  rAiZG1 : G1
  cs : R1CS F

/-- `verification_key` (basic_policy.hpp:317-369) and `processed_verification_key` (380-417): the
processed key built by `verifier_process_vk` (929-960) holds the same values, precomputed for the
pairing. -/
structure AdVK (G1 G2 : Type) where
  alphaAG2 : G2
  alphaBG1 : G1
  alphaCG2 : G2
  gammaG2 : G2
  gammaBetaG1 : G1
  gammaBetaG2 : G2
  rCZG2 : G2
  A0 : G1
  Ain : List G1

/-- `proof` (basic_policy.hpp:447-512) -/
structure AdProof (G1 G2 : Type) where
  gA : G1 × G1
  gB : G2 × G1
  gC : G1 × G1
  gH : G1
  gK : G1
  gAau : G1 × G1
  muA : G1

section

variable {F G1 G2 GT : Type} [Field F] [DecidableEq F] [AddCommGroup G1] [Module F G1]
  [AddCommGroup G2] [Module F G2] [AddCommGroup GT] [Module F GT]
variable {Label Seed SK VK Sig : Type}

/-- `auth_generator` (basic_policy.hpp:519-532); the signature key pair, the seed and `i` are the
results of `sigGen`, `prfGen` and `random_element`. -/
def adAuthGenerate (P : Pairing F G1 G2 GT) (skp : SK) (vkp : VK) (S : Seed) (i : F) :
    AdPubParams G1 × AdPubKey G2 VK × AdSecKey F Seed SK :=
  (⟨i • P.one1⟩, ⟨0 - i • P.one2, vkp⟩, ⟨i, skp, S⟩)

/-- one iteration of `auth_sign` (basic_policy.hpp:546-553) -/
def adSignOne (A : AdPrimitives F G2 Label Seed SK VK Sig) (P : Pairing F G1 G2 GT)
    (sk : AdSecKey F Seed SK) (x : F) (label : Label) : AdAuthData F G2 Sig :=
  let lambda := A.prf sk.S label
  let Lambda := lambda • P.one2
  ⟨lambda + sk.i * x, Lambda, A.sign sk.skp label Lambda⟩

/-- `auth_sign` (basic_policy.hpp:537-556). `none` is the failed assertion of line 542. -/
def adSign (A : AdPrimitives F G2 Label Seed SK VK Sig) (P : Pairing F G1 G2 GT)
    (ins : List F) (sk : AdSecKey F Seed SK) (labels : List Label) :
    Option (List (AdAuthData F G2 Sig)) :=
  if labels.length = ins.length then some (List.zipWith (adSignOne A P sk) ins labels) else none

/-- `auth_verify` with the secret key (basic_policy.hpp:562-576). `none` is the failed assertion of
line 567. -/
def adVerifySym (A : AdPrimitives F G2 Label Seed SK VK Sig) (data : List F)
    (auth : List (AdAuthData F G2 Sig)) (sak : AdSecKey F Seed SK) (labels : List Label) :
    Option Bool :=
  if data.length = labels.length ∧ auth.length = labels.length then
    (List.range data.length).foldlM (fun res i => do
      let l ← labels[i]?
      let x ← data[i]?
      let a ← auth[i]?
      let lambda := A.prf sak.S l
      let mup := lambda + sak.i * x
      pure (res && decide (a.mu = mup))) true
  else none

/-- `auth_verify` with the public key (basic_policy.hpp:579-595). `none` is the failed assertion of
line 584. -/
def adVerifyPub [DecidableEq G2] (A : AdPrimitives F G2 Label Seed SK VK Sig)
    (P : Pairing F G1 G2 GT) (data : List F) (auth : List (AdAuthData F G2 Sig))
    (pak : AdPubKey G2 VK) (labels : List Label) : Option Bool :=
  if data.length = labels.length ∧ data.length = auth.length then
    (List.range auth.length).foldlM (fun res i => do
      let l ← labels[i]?
      let x ← data[i]?
      let a ← auth[i]?
      let Mup := a.Lambda - x • pak.minusI2
      let res := res && decide (a.mu • P.one2 = Mup)
      pure (res && A.verify pak.vkp l a.Lambda a.sigma)) true
  else none

/-- `generator` (basic_policy.hpp:603-765). Unlike PGHR13 the prefix of `At` is not zeroed. The
window tables, the counts of nonzero entries and the messages do not change results and are left
out. -/
def adGenerate (P : Pairing F G1 G2 GT) (D : EvalDomain F) (cs : R1CS F) (prms : AdPubParams G1)
    (T : Pghr13Trapdoor F) (chunks : Nat) : Option (AdPK F G1 G2 × AdVK G1 G2) := do
  let csCopy ← cs.swapABIfBeneficial
  let q ← csCopy.qapEval D T.t
  let At := q.At ++ [q.Zt]
  let Bt := q.Bt ++ [q.Zt]
  let Ct := q.Ct ++ [q.Zt]
  let rC := T.rA * T.rB
  let Kt0 ← (List.range (q.numVariables + 1)).mapM (pghr13K T rC At Bt Ct)
  let Kt := Kt0 ++ [T.beta * T.rA * q.Zt, T.beta * T.rB * q.Zt, T.beta * rC * q.Zt]
  let aQuery ← kcBatchExp P.one1 P.one1 T.rA (T.rA * T.alphaA) At chunks
  let bQuery ← kcBatchExp P.one2 P.one1 T.rB (T.rB * T.alphaB) Bt chunks
  let cQuery ← kcBatchExp P.one1 P.one1 rC (rC * T.alphaC) Ct chunks
  pure (
    { aQuery, bQuery, cQuery
      hQuery := batchExp P.one1 q.Ht
      kQuery := batchExp P.one1 Kt
      rAiZG1 := (T.rA * q.Zt) • prms.I1
      cs := csCopy },
    { alphaAG2 := T.alphaA • P.one2
      alphaBG1 := T.alphaB • P.one1
      alphaCG2 := T.alphaC • P.one2
      gammaG2 := T.gamma • P.one2
      gammaBetaG1 := (T.gamma * T.beta) • P.one1
      gammaBetaG2 := (T.gamma * T.beta) • P.one2
      rCZG2 := (rC * q.Zt) • P.one2
      A0 := (aQuery.get 0).1
      Ain := (List.range q.numInputs).map fun i => (aQuery.get (1 + i)).1 })

/-- the exponent of the authentication check: `muA` (basic_policy.hpp:884-898). `none` is a read
beyond the authentication data. -/
def adMuA (pk : AdPK F G1 G2) (numInputs : Nat) (auth : List (AdAuthData F G2 Sig)) (dauth : F) :
    Option G1 := do
  let mus ← (List.range numInputs).mapM fun i => do
    let a ← auth[i]?
    pure a.mu
  let Ains := (List.range numInputs).map fun i => (pk.aQuery.get (i + 1)).1
  let m ← multiexp Ains mus
  pure (dauth • pk.rAiZG1 + m)

/-- `prover` (basic_policy.hpp:775-911) with the random `d1, d2, d3, dauth` as arguments. -/
def adProve (D : EvalDomain F) (pk : AdPK F G1 G2) (primary aux : List F)
    (auth : List (AdAuthData F G2 Sig)) (d1 d2 d3 dauth : F) : Option (AdProof G1 G2) := do
  let wit ← pk.cs.qapWitness D primary aux (d1 + dauth) d2 d3
  let n := wit.numVariables
  let ni := wit.numInputs
  let gA := d1 • pk.aQuery.get (n + 1)
  let gB := pk.bQuery.get 0 + wit.d2 • pk.bQuery.get (n + 1)
  let gC := pk.cQuery.get 0 + wit.d3 • pk.cQuery.get (n + 1)
  let gAin := dauth • pk.aQuery.get (n + 1)
  let k0 ← pk.kQuery[0]?
  let k1 ← pk.kQuery[n + 1]?
  let k2 ← pk.kQuery[n + 2]?
  let k3 ← pk.kQuery[n + 3]?
  let gK := k0 + wit.d1 • k1 + wit.d2 • k2 + wit.d3 • k3
  let sAux ← slice wit.coefficientsForABCs ni n
  let sIn ← slice wit.coefficientsForABCs 0 ni
  let sAll ← slice wit.coefficientsForABCs 0 n
  let mA ← kcMultiexp pk.aQuery (1 + ni) (1 + n) sAux sAux.length
  let mAin ← kcMultiexp pk.aQuery 1 (1 + ni) sIn sIn.length
  let mB ← kcMultiexp pk.bQuery 1 (1 + n) sAll sAll.length
  let mC ← kcMultiexp pk.cQuery 1 (1 + n) sAll sAll.length
  let hBases ← slice pk.hQuery 0 (wit.degree + 1)
  let hScalars ← slice wit.coefficientsForH 0 (wit.degree + 1)
  let mH ← multiexp hBases hScalars
  let kBases ← slice pk.kQuery 1 (1 + n)
  let mK ← multiexp kBases sAll
  let muA ← adMuA pk ni auth dauth
  pure ⟨gA + mA, gB + mB, gC + mC, 0 + mH, gK + mK, gAin + mAin, muA⟩

/-- `proof::is_well_formed` (basic_policy.hpp:500-505) -/
def AdProof.wellFormed (P : Pairing F G1 G2 GT) (π : AdProof G1 G2) : Bool :=
  P.wf1 π.gA.1 && P.wf1 π.gA.2 && P.wf2 π.gB.1 && P.wf1 π.gB.2 && P.wf1 π.gC.1 && P.wf1 π.gC.2 &&
    P.wf1 π.gH && P.wf1 π.gK && P.wf1 π.gAau.1 && P.wf1 π.gAau.2 && P.wf1 π.muA

/-- the knowledge check of the authenticated part (basic_policy.hpp:1002-1015 and 1172-1184) -/
def adAuthKc [DecidableEq GT] (P : Pairing F G1 G2 GT) (vk : AdVK G1 G2) (π : AdProof G1 G2)
    (resultAuth : Bool) : Bool :=
  let kcAau := P.e π.gAau.1 vk.alphaAG2 - P.e π.gAau.2 P.one2
  if kcAau ≠ 0 then false else resultAuth

/-- the checks shared by both verifiers (basic_policy.hpp:1019-1088 and 1188-1257, the same text) -/
def adChecks [DecidableEq GT] (P : Pairing F G1 G2 GT) (vk : AdVK G1 G2) (π : AdProof G1 G2)
    (result : Bool) : Bool :=
  let kcA := P.e π.gA.1 vk.alphaAG2 - P.e π.gA.2 P.one2
  let result := if kcA ≠ 0 then false else result
  let kcB := P.e vk.alphaBG1 π.gB.1 - P.e π.gB.2 P.one2
  let result := if kcB ≠ 0 then false else result
  let kcC := P.e π.gC.1 vk.alphaCG2 - P.e π.gC.2 P.one2
  let result := if kcC ≠ 0 then false else result
  let Aacc := vk.A0 + π.gAau.1 + π.gA.1
  let qap := P.e Aacc π.gB.1 - (P.e π.gH vk.rCZG2 + P.e π.gC.1 P.one2)
  let result := if qap ≠ 0 then false else result
  let k := P.e π.gK vk.gammaG2
    - (P.e (Aacc + π.gC.1) vk.gammaBetaG2 + P.e vk.gammaBetaG1 π.gB.1)
  let result := if k ≠ 0 then false else result
  result

/-- `verifier` and `online_verifier` with the secret key (basic_policy.hpp:967-1102). `none` is the
iterator range of line 993 leaving `Ain`. -/
def adVerifierSym [DecidableEq G1] [DecidableEq GT] (A : AdPrimitives F G2 Label Seed SK VK Sig)
    (P : Pairing F G1 G2 GT) (vk : AdVK G1 G2) (π : AdProof G1 G2) (sak : AdSecKey F Seed SK)
    (labels : List Label) : Option Bool := do
  let result := π.wellFormed P
  let lambdas := labels.map (A.prf sak.S)
  let bases ← slice vk.Ain 0 labels.length
  let m ← multiexp bases lambdas
  let prodA := sak.i • π.gAau.1 + m
  let resultAuth := if prodA ≠ π.muA then false else true
  let resultAuth := adAuthKc P vk π resultAuth
  let result := result && resultAuth
  pure (adChecks P vk π result)

/-- lines 1145-1150: with an odd number of elements the pairing of the first two is computed and thrown
away, and `accum` keeps the value `gtDefault` of a default-constructed element -/
def adAccumInit (gtDefault : Option GT) (Ain : List G1) (Lambdas : List G2) : Option (Option GT) :=
  if Lambdas.length % 2 = 1 then
    Ain[0]?.bind fun _ => Lambdas[0]?.bind fun _ => some gtDefault
  else some (some 0)

/-- the loop of lines 1151-1155: `accum = accum * double_miller_loop(..[i], ..[i], ..[i+1], ..[i+1])`
for `i = start, start + 2, ..` while `i < size`. The accumulator is an element of the field the
target group lies in; `none` inside is its zero, which absorbs. The outer `none` is an access out of
bounds. -/
def adAccum (P : Pairing F G1 G2 GT) (Ain : List G1) (Lambdas : List G2) (size : Nat) :
    Nat → Nat → Option GT → Option (Option GT)
  | 0, _, accum => some accum
  | fuel + 1, i, accum =>
    if i < size then do
      let a ← Ain[i]?
      let L ← Lambdas[i]?
      let a' ← Ain[i + 1]?
      let L' ← Lambdas[i + 1]?
      adAccum P Ain Lambdas size fuel (i + 2) (accum.map fun x => x + (P.e a L + P.e a' L'))
    else some accum

/-- `verifier` and `online_verifier` with the public key (basic_policy.hpp:1109-1274). `gtDefault` is
the value of a default-constructed element of the target field (line 1145; `none` its zero). `final_exponentiation` maps zero to zero. The outer `none` is the failed assertion of line 1123 or
an access out of bounds. -/
def adVerifierPub [DecidableEq GT] (A : AdPrimitives F G2 Label Seed SK VK Sig)
    (P : Pairing F G1 G2 GT) (gtDefault : Option GT) (vk : AdVK G1 G2)
    (auth : List (AdAuthData F G2 Sig)) (π : AdProof G1 G2) (pak : AdPubKey G2 VK)
    (labels : List Label) : Option Bool := do
  let result := π.wellFormed P
  guard (labels.length = auth.length)
  let Lambdas := auth.map (·.Lambda)
  let sigs := auth.map (·.sigma)
  let resultAuth := A.batchVerify pak.vkp labels Lambdas sigs
  let accum0 ← adAccumInit gtDefault vk.Ain Lambdas
  let accum ← adAccum P vk.Ain Lambdas labels.length (labels.length + 1) (auth.length % 2) accum0
  let accum2 := P.e π.muA P.one2 + P.e π.gAau.1 pak.minusI2
  let authPair := accum.map fun x => x - accum2
  let resultAuth := if authPair ≠ some 0 then false else resultAuth
  let resultAuth := adAuthKc P vk π resultAuth
  let result := result && resultAuth
  pure (adChecks P vk π result)

end

end Crypto3Zk
