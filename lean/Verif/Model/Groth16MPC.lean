import Verif.Model.PowersOfTau

/-!
# Phase two of the Groth16 ceremony (commitments/polynomial/r1cs_gg_ppzksnark_mpc.hpp)

Serialisation and the hash function that make the transcript are parameters, and so is randomness.
-/

namespace Crypto3Zk

variable {F G1 G2 GT : Type} [Field F] [DecidableEq F] [AddCommGroup G1] [Module F G1] [AddCommGroup G2]
  [Module F G2] [AddCommGroup GT] [Module F GT]

/-- The loops `x = x + coeff * u[lag]` over the entries of one map
(detail/polynomial/r1cs_gg_ppzksnark_mpc/crs_operations.hpp:59-72). -/
def addMapG {G : Type} [AddCommGroup G] [Module F G] (u : List G) (m : List (Nat × F)) (x : G) : Option G :=
  m.foldlM (fun acc el => u[el.1]?.map fun ui => acc + el.2 • ui) x

/-- `beta_a_alpha_b_c[i]` (crs_operations.hpp:58-73) -/
def mpcEntry (q : QapInstance F) (res : TauResult G1 G2) (i : Nat) : Option G1 := do
  let a ← q.A[i]?
  let b ← q.B[i]?
  let c ← q.C[i]?
  let x ← addMapG res.betaCoeffsG1 a 0
  let x ← addMapG res.alphaCoeffsG1 b x
  addMapG res.coeffsG1 c x

/-- `b_kc[i]` (crs_operations.hpp:64-66); the two components are added separately. -/
def mpcEntryB (q : QapInstance F) (res : TauResult G1 G2) (i : Nat) : Option (G2 × G1) := do
  let b ← q.B[i]?
  let x ← addMapG res.coeffsG2 b 0
  let y ← addMapG res.coeffsG1 b 0
  pure (x, y)

/-- `make_r1cs_gg_ppzksnark_keypair_from_powers_of_tau` (crs_operations.hpp:20-111). `none` is a failed
assertion (43-52) or a read out of bounds. `B_query` is made from a vector, so every position is present.
The domain has at least one point. -/
def mpcInitial (P : Pairing F G1 G2 GT) (D : EvalDomain F) (cs : R1CS F) (res : TauResult G1 G2) :
    Option (Groth16PK F G1 G2 × Groth16VK G1 G2 GT) := do
  let r1cs ← cs.swapABIfBeneficial
  let q ← r1cs.qapInstance D
  guard (res.coeffsG1.length = D.m ∧ res.coeffsG2.length = D.m ∧ res.alphaCoeffsG1.length = D.m ∧
    res.betaCoeffsG1.length = D.m ∧ res.h.length = D.m - 1)
  let k ← (List.range (q.numVariables + 1)).mapM (mpcEntry q res)
  let a ← (List.range (q.numVariables + 1)).mapM fun i => q.A[i]?.bind (addMapG res.coeffsG1 · 0)
  let b ← (List.range (q.numVariables + 1)).mapM (mpcEntryB q res)
  let abc0 ← k[0]?
  let abc ← slice k 1 (1 + q.numInputs)
  let h ← slice res.h 0 (q.degree - 1)
  let l ← slice k (q.numInputs + 1) k.length
  pure (
    { alphaG1 := res.alphaG1
      betaG1 := res.betaG1
      betaG2 := res.betaG2
      deltaG1 := P.one1
      deltaG2 := P.one2
      aQuery := a
      bQuery := ⟨b.length, b.zipIdx.map fun (x, i) => (i, x)⟩
      hQuery := h
      lQuery := l
      cs := r1cs },
    { alphaBeta := P.e res.alphaG1 res.betaG2
      gammaG2 := P.one2
      deltaG2 := P.one2
      gammaABC := ⟨abc0, abc⟩ })

/-- `transform_keypair` (crs_operations.hpp:113-128); `none` is the inverse of zero. -/
def mpcTransform (kp : Groth16PK F G1 G2 × Groth16VK G1 G2 GT) (delta : F) :
    Option (Groth16PK F G1 G2 × Groth16VK G1 G2 GT) :=
  if delta = 0 then none else some (
    { kp.1 with
      hQuery := kp.1.hQuery.map fun g => delta⁻¹ • g
      lQuery := kp.1.lQuery.map fun g => delta⁻¹ • g
      deltaG1 := delta • kp.1.deltaG1
      deltaG2 := delta • kp.1.deltaG2 },
    { kp.2 with deltaG2 := delta • kp.2.deltaG2 })

/-- `r1cs_gg_ppzksnark_mpc_public_key` (detail/polynomial/r1cs_gg_ppzksnark_mpc/public_key.hpp:36-47) -/
structure MpcPublicKey (G1 G2 : Type) where
  deltaAfter : G1
  pok : ElementPok G1 G2

/-- The external functions of `compute_transcript` (r1cs_gg_ppzksnark_mpc.hpp:200-243). -/
structure MpcTranscript (F G1 G2 : Type) where
  hash : List UInt8 → List UInt8
  cs : R1CS F → List UInt8
  key : MpcPublicKey G1 G2 → List UInt8

/-- `compute_transcript` (r1cs_gg_ppzksnark_mpc.hpp:200-211) -/
def MpcTranscript.compute (M : MpcTranscript F G1 G2) (cs : R1CS F) (pk : Option (MpcPublicKey G1 G2)) :
    List UInt8 :=
  M.hash (M.cs cs ++ match pk with
    | some pk => M.key pk
    | none => [])

/-- `proof_eval` (r1cs_gg_ppzksnark_mpc.hpp:76-86); `s` is random. -/
def mpcProve (P : Pairing F G1 G2 GT) (K : PokLib G2) (M : MpcTranscript F G1 G2) (delta : F)
    (previous : Option (MpcPublicKey G1 G2)) (kp : Groth16PK F G1 G2 × Groth16VK G1 G2 GT) (s : G1) :
    Option (MpcPublicKey G1 G2) := do
  let transcript := M.compute kp.1.cs previous
  let pok ← pokProve K delta transcript 0 s
  pure ⟨delta • (match previous with
    | some pk => pk.deltaAfter
    | none => P.one1), pok⟩

/-- `container::sparse_vector::operator==` (external): the same values, where absent ones are zero
(used in r1cs_gg_ppzksnark_mpc.hpp:118). -/
def KcVec.same {G : Type} [AddCommGroup G] [DecidableEq G] (v w : KcVec G) : Bool :=
  v.domainSize = w.domainSize ∧ ∀ e ∈ v.entries ++ w.entries, v.get e.1 = w.get e.1

/-- `r1cs_constraint_system::operator==` (r1cs.hpp:89-91 and 220-224). -/
def R1CS.beq (sort : List (LinearTerm F) → List (LinearTerm F)) (x y : R1CS F) : Bool :=
  x.constraints.length = y.constraints.length &&
    (x.constraints.zip y.constraints).all (fun (k, l) =>
      LinComb.beq sort k.a l.a && LinComb.beq sort k.b l.b && LinComb.beq sort k.c l.c) &&
    decide (x.primaryInputSize = y.primaryInputSize) && decide (x.auxiliaryInputSize = y.auxiliaryInputSize)

variable [DecidableEq G1] [DecidableEq G2] [DecidableEq GT]

/-- The loop over the public keys (r1cs_gg_ppzksnark_mpc.hpp:142-157): the last `delta_after`, or that one of
the checks failed. -/
def mpcChain (P : Pairing F G1 G2 GT) (K : PokLib G2) (M : MpcTranscript F G1 G2) (cs : R1CS F) :
    List UInt8 → G1 → List (MpcPublicKey G1 G2) → Option (Option G1)
  | _, current, [] => some (some current)
  | transcript, current, pk :: pks => do
    let g2s ← pokChallenge K pk.pok.g1s pk.pok.g1sx transcript 0
    if pokVerify P pk.pok g2s then
      if isSameRatio P (current, pk.deltaAfter) (g2s, pk.pok.g2sx) then
        mpcChain P K M cs (M.compute cs (some pk)) pk.deltaAfter pks
      else some none
    else some none

/-- `verify_eval` (r1cs_gg_ppzksnark_mpc.hpp:88-191); `rH` and `rL` are the random vectors of the two calls of
`merge_pairs`, `sort` the `std::sort` in the comparison of linear combinations. -/
def mpcVerify (sort : List (LinearTerm F) → List (LinearTerm F)) (P : Pairing F G1 G2 GT) (K : PokLib G2) (M : MpcTranscript F G1 G2)
    (D : EvalDomain F) (kp : Groth16PK F G1 G2 × Groth16VK G1 G2 GT) (pubkeys : List (MpcPublicKey G1 G2))
    (cs : R1CS F) (res : TauResult G1 G2) (rH rL : List F) : Option Bool := do
  let init ← mpcInitial P D cs res
  firstFailure [
    some (init.1.hQuery.length = kp.1.hQuery.length),
    some (init.1.lQuery.length = kp.1.lQuery.length),
    some (init.1.alphaG1 = kp.1.alphaG1),
    some (init.1.betaG1 = kp.1.betaG1),
    some (init.1.betaG2 = kp.1.betaG2),
    some (init.1.aQuery = kp.1.aQuery),
    some (init.1.bQuery.same kp.1.bQuery),
    some (init.1.cs.beq sort kp.1.cs),
    some (init.2.alphaBeta = kp.2.alphaBeta),
    some (init.2.gammaG2 = kp.2.gammaG2),
    some (init.2.gammaABC.first = kp.2.gammaABC.first ∧ init.2.gammaABC.rest = kp.2.gammaABC.rest),
    do
      let current ← mpcChain P K M kp.1.cs (M.compute kp.1.cs none) P.one1 pubkeys
      match current with
      | none => some false
      | some current => firstFailure [
          some (current = kp.1.deltaG1),
          some (isSameRatio P (P.one1, current) (P.one2, kp.1.deltaG2)),
          some (kp.1.deltaG2 = kp.2.deltaG2),
          do
            let p ← mergePairs init.1.hQuery kp.1.hQuery rH
            pure (isSameRatio P p (kp.1.deltaG2, P.one2)),
          do
            let p ← mergePairs init.1.lQuery kp.1.lQuery rL
            pure (isSameRatio P p (kp.1.deltaG2, P.one2))]]

end Crypto3Zk
