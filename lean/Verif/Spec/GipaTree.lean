import Verif.Spec.Groth16Aggregate
import Mathlib.Algebra.BigOperators.Group.Finset.Basic

/-!
# Specification: trees of transcripts of the aggregation argument

What the challenges of the rounds leave of a key, and trees of transcripts with four continuations
after each message.
-/

set_option linter.unusedSectionVars false

namespace Crypto3Zk

variable {F : Type} [Field F]

/-- the entries `i` and `i + 2^k` of a vector of `2^(k+1)` entries, combined with `c` -/
def foldHalf {M : Type} [AddCommGroup M] [Module F M] (k : Nat) (c : F) (u : Nat → M) (i : Nat) : M :=
  u i + c • u (i + 2 ^ k)

/-- What is left of a vector of `2^k` entries after folding it with `k` challenges, the first one
combining the two halves. -/
def foldVector {M : Type} [AddCommGroup M] [Module F M] : List F → (Nat → M) → M
  | [], u => u 0
  | x :: xs, u => foldVector xs (foldHalf xs.length x u)

/-- A tree of transcripts with `k` rounds: after each message four continuations for four challenges,
at the end a last answer. -/
inductive RoundTree (F Msg Leaf : Type) : Nat → Type
  | leaf (a : Leaf) : RoundTree F Msg Leaf 0
  | node {k : Nat} (m : Msg) (x : Fin 4 → F) (sub : Fin 4 → RoundTree F Msg Leaf k) :
      RoundTree F Msg Leaf (k + 1)

variable {Msg Leaf : Type}

/-- the four challenges after each message are distinct and not zero -/
def RoundTree.Distinct : {k : Nat} → RoundTree F Msg Leaf k → Prop
  | _, .leaf _ => True
  | _, .node _ x sub => Function.Injective x ∧ (∀ i, x i ≠ 0) ∧ ∀ i, (sub i).Distinct

/-- a predicate on transcripts (messages, challenges, last answer) holds on all paths of the tree -/
def RoundTree.AllPaths : {k : Nat} → RoundTree F Msg Leaf k →
    (List Msg → List F → Leaf → Prop) → Prop
  | _, .leaf a, Q => Q [] [] a
  | _, .node m x sub, Q => ∀ i, (sub i).AllPaths fun ms xs => Q (m :: ms) (x i :: xs)

/-! ## The key of the aggregation argument -/

variable {G1 G2 GT : Type} [AddCommGroup G1] [Module F G1] [AddCommGroup G2] [Module F G2]
  [AddCommGroup GT] [Module F GT]

/-- the powers in the reference string: of `α` and `β` in the second group, of `α` and `β` in the first -/
structure AggPowers (G1 G2 : Type) where
  v1 : Nat → G2
  v2 : Nat → G2
  w1 : Nat → G1
  w2 : Nat → G1

/-- The powers belong to the verifier's part of a reference string for `n` proofs: each is the previous
one multiplied by `α` (or `β`), as far as the pairing shows. -/
structure AggPowers.Of (K : AggPowers G1 G2) (P : Pairing F G1 G2 GT) (s : AggVerificationSrs G1 G2)
    (n : Nat) : Prop where
  size : s.n = n
  v1_zero : K.v1 0 = s.h
  v2_zero : K.v2 0 = s.h
  w1_zero : K.w1 0 = s.g
  w2_zero : K.w2 0 = s.g
  v1_succ : ∀ i, i + 1 < n → P.e s.g (K.v1 (i + 1)) = P.e s.gAlpha (K.v1 i)
  v2_succ : ∀ i, i + 1 < n → P.e s.g (K.v2 (i + 1)) = P.e s.gBeta (K.v2 i)
  w1_succ : ∀ i, i + 1 < 2 * n → P.e (K.w1 (i + 1)) s.h = P.e (K.w1 i) s.hAlpha
  w2_succ : ∀ i, i + 1 < 2 * n → P.e (K.w2 (i + 1)) s.h = P.e (K.w2 i) s.hBeta

/-- `(T, U)` is the commitment to the vectors `A` and `B` of `n` entries. -/
def AggPowers.CommitsAB (K : AggPowers G1 G2) (P : Pairing F G1 G2 GT) (n : Nat) (TU : GT × GT)
    (A : Nat → G1) (B : Nat → G2) : Prop :=
  TU.1 = ∑ i ∈ Finset.range n, (P.e (A i) (K.v1 i) + P.e (K.w1 (n + i)) (B i)) ∧
  TU.2 = ∑ i ∈ Finset.range n, (P.e (A i) (K.v2 i) + P.e (K.w2 (n + i)) (B i))

/-- `(T, U)` is the commitment to the vector `C` of `n` entries. -/
def AggPowers.CommitsC (K : AggPowers G1 G2) (P : Pairing F G1 G2 GT) (n : Nat) (TU : GT × GT)
    (C : Nat → G1) : Prop :=
  TU.1 = ∑ i ∈ Finset.range n, P.e (C i) (K.v1 i) ∧ TU.2 = ∑ i ∈ Finset.range n, P.e (C i) (K.v2 i)

/-- What the prover cannot do: commit to non-zero vectors with the commitment zero, or divide a non-zero
element by `α - z` (or `β - z`) for more than `d` values of `z`. -/
structure AggBinding (K : AggPowers G1 G2) (P : Pairing F G1 G2 GT) (s : AggVerificationSrs G1 G2)
    (n d : Nat) : Prop where
  commit : ∀ A B, K.CommitsAB P n (0, 0) A B → ∀ i < n, A i = 0 ∧ B i = 0
  v1 : ∀ D : G2, D ≠ 0 → ∃ S : Finset F, S.card ≤ d ∧
    ∀ z O, P.e s.g D = P.e (s.gAlpha - z • s.g) O → z ∈ S
  v2 : ∀ D : G2, D ≠ 0 → ∃ S : Finset F, S.card ≤ d ∧
    ∀ z O, P.e s.g D = P.e (s.gBeta - z • s.g) O → z ∈ S
  w1 : ∀ D : G1, D ≠ 0 → ∃ S : Finset F, S.card ≤ d ∧
    ∀ z O, P.e D s.h = P.e O (s.hAlpha - z • s.h) → z ∈ S
  w2 : ∀ D : G1, D ≠ 0 → ∃ S : Finset F, S.card ≤ d ∧
    ∀ z O, P.e D s.h = P.e O (s.hBeta - z • s.h) → z ∈ S

/-- There is an aggregate with the given commitments, combined values, messages of the rounds and final
keys that satisfies the verifier's equations for the challenges `r`, `xs` and `z`. -/
def AggAccepted (P : Pairing F G1 G2 GT) (s : AggVerificationSrs G1 G2) (vk : AggVK G1 G2)
    (inputs : List (List F)) (comAB comC : GT × GT) (ipAB : GT) (aggC : G1) (r : F)
    (ms : List (GipaRound G1 GT)) (xs : List F) (keys : (G2 × G2) × (G1 × G1)) (z : F) : Prop :=
  ∃ p : AggProof G1 G2 GT, p.comAB = comAB ∧ p.comC = comC ∧ p.ipAB = ipAB ∧ p.aggC = aggC ∧
    p.gipa.rounds = some ms ∧ p.gipa.finalVkey = keys.1 ∧ p.gipa.finalWkey = keys.2 ∧ AggEquations P s vk inputs p r xs z

/-- A prover that has committed to `comAB` and `comC` and has been given `r` sends combined values and
then answers, in a tree of transcripts with four challenges after the messages of every round, and at
the end of every path for more than `d` last challenges `z`. -/
def AnswersTree (P : Pairing F G1 G2 GT) (s : AggVerificationSrs G1 G2) (vk : AggVK G1 G2)
    (inputs : List (List F)) (comAB comC : GT × GT) (k d : Nat) (r : F) : Prop :=
  ∃ (ipAB : GT) (aggC : G1) (t : RoundTree F (GipaRound G1 GT) ((G2 × G2) × (G1 × G1)) k),
    t.Distinct ∧ t.AllPaths fun ms xs keys => ∃ S : Finset F, d < S.card ∧
      ∀ z ∈ S, AggAccepted P s vk inputs comAB comC ipAB aggC r ms xs keys z

end Crypto3Zk
