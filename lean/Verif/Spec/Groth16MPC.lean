import Verif.Model.Groth16MPC
import Verif.Spec.PowersOfTau

/-!
# What the second phase of the Groth16 ceremony is about
-/

namespace Crypto3Zk

variable {F G1 G2 GT : Type} [Field F] [DecidableEq F] [AddCommGroup G1] [Module F G1] [AddCommGroup G2]
  [Module F G2] [AddCommGroup GT] [Module F GT]

/-- Two sparse vectors hold the same values; which zeros are stored does not matter. -/
def KcVec.Same {G : Type} [AddCommGroup G] (v w : KcVec G) : Prop :=
  v.domainSize = w.domainSize ∧ ∀ i, v.get i = w.get i

/-- Two proving keys are the same, except for which zeros of the `B` query are stored. -/
structure SameProvingKey (a b : Groth16PK F G1 G2) : Prop where
  alphaG1 : a.alphaG1 = b.alphaG1
  betaG1 : a.betaG1 = b.betaG1
  betaG2 : a.betaG2 = b.betaG2
  deltaG1 : a.deltaG1 = b.deltaG1
  deltaG2 : a.deltaG2 = b.deltaG2
  aQuery : a.aQuery = b.aQuery
  bQuery : a.bQuery.Same b.bQuery
  hQuery : a.hQuery = b.hQuery
  lQuery : a.lQuery = b.lQuery
  cs : a.cs = b.cs

/-- A ceremony: each contributor publishes a key for their `delta` and then applies it. The contributors are given
by `delta` and the random element of the proof; `previous` is the last public key. -/
def mpcCeremony (P : Pairing F G1 G2 GT) (K : PokLib G2) (M : MpcTranscript F G1 G2) :
    Groth16PK F G1 G2 × Groth16VK G1 G2 GT → Option (MpcPublicKey G1 G2) → List (F × G1) →
      Option ((Groth16PK F G1 G2 × Groth16VK G1 G2 GT) × List (MpcPublicKey G1 G2))
  | kp, _, [] => some (kp, [])
  | kp, previous, c :: cs => do
    let pk ← mpcProve P K M c.1 previous kp c.2
    let kp' ← mpcTransform kp c.1
    let (final, pks) ← mpcCeremony P K M kp' (some pk) cs
    pure (final, pk :: pks)

/-- Public keys that claim the factors `xs`: each proof of knowledge is about its factor, for the challenge that
belongs to the preceding key, and each `delta_after` is the preceding one times the factor. -/
inductive FactorChain (K : PokLib G2) (M : MpcTranscript F G1 G2) (cs : R1CS F) :
    Option (MpcPublicKey G1 G2) → G1 → List (MpcPublicKey G1 G2) → List F → G1 → Prop
  | nil (previous : Option (MpcPublicKey G1 G2)) (current : G1) : FactorChain K M cs previous current [] [] current
  | cons (previous : Option (MpcPublicKey G1 G2)) (current last : G1) (pk : MpcPublicKey G1 G2)
      (pks : List (MpcPublicKey G1 G2)) (x : F) (xs : List F) (g2s : G2)
      (challenge : pokChallenge K pk.pok.g1s pk.pok.g1sx (M.compute cs previous) 0 = some g2s)
      (pok : PokFor pk.pok g2s x) (after : pk.deltaAfter = x • current)
      (rest : FactorChain K M cs (some pk) pk.deltaAfter pks xs last) :
      FactorChain K M cs previous current (pk :: pks) (x :: xs) last

/-- What is not changed in the second phase. -/
structure Unchanged (sort : List (LinearTerm F) → List (LinearTerm F))
    (a b : Groth16PK F G1 G2 × Groth16VK G1 G2 GT) : Prop where
  alphaG1 : a.1.alphaG1 = b.1.alphaG1
  betaG1 : a.1.betaG1 = b.1.betaG1
  betaG2 : a.1.betaG2 = b.1.betaG2
  aQuery : a.1.aQuery = b.1.aQuery
  bQuery : a.1.bQuery.Same b.1.bQuery
  cs : a.1.cs.beq sort b.1.cs = true
  alphaBeta : a.2.alphaBeta = b.2.alphaBeta
  gammaG2 : a.2.gammaG2 = b.2.gammaG2
  gammaABC : a.2.gammaABC = b.2.gammaABC

end Crypto3Zk
