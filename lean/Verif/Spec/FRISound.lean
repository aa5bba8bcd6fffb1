import Verif.Spec.FRI

/-!
# Specification for FRI: what an accepted proof shows
-/

namespace Crypto3Zk

/-- Trees without collisions: a path that has the root of a tree and validates a leaf belongs to the
leaf of that tree at the path's place. The place is not part of the library's interface (and the
verifier does not ask for it); it is given by `pos`. -/
def MerkleLib.Binding {F Tree Root Path : Type} (M : MerkleLib F Tree Root Path) (pos : Path → Nat) : Prop :=
  ∀ (k : Nat) (leaves : List (List F)) (path : Path) (leaf : List F), leaves.length = 2 ^ k →
    M.pathRoot path = M.root (M.build leaves) → M.validate path leaf = true →
    leaves[pos path]? = some leaf

variable {F : Type} [Field F] {Tree Root Path : Type}

/-- The path `path` has the root `root` and validates the leaf that the tree over the polynomials `cs`,
evaluated on the domain of `2 ^ n` points in cosets of `2 ^ s` points, has at the place of the coset of
point number `x`. -/
def FriShows (L : FftLib F) (M : MerkleLib F Tree Root Path) (n s : Nat) (cs : List (List F)) (x : Nat)
    (root : Root) (path : Path) : Prop :=
  M.pathRoot path = root ∧ ∃ leaves leaf,
    friLeaves (cs.map (L.domain n).evals) (2 ^ n) s = some leaves ∧
    leaves[x % 2 ^ (n - s)]? = some leaf ∧ M.validate path leaf = true

/-- The rounds of a query at point number `x`, over the remaining steps, from the domain of
`2 ^ (n - t)` points on. In each round the path shows, under the root of the round, the values of the
current polynomial `c` on the coset of `x`; the next polynomial has, at the image of `x`, the value of
`c` folded with the challenges of the round; the last one has there the value of the final
polynomial. -/
def FriChain (L : FftLib F) (M : MerkleLib F Tree Root Path) (n : Nat) (final : List F) (x : Nat) :
    List Nat → Nat → List F → List Root → List (FriRoundProof F Path) → List F → Prop
  | [], t, _, _, _, c =>
    evalPoly c ((L.domain (n - t)).elem x) = evalPoly final ((L.domain (n - t)).elem x)
  | s :: rest, t, alphas, roots, rps, c => ∃ root rp c', roots.head? = some root ∧
    rps.head? = some rp ∧ FriShows L M (n - t) s [c] x root rp.p ∧
    evalPoly c' ((L.domain (n - (t + s))).elem x) =
      evalPoly (foldAll (alphas.take s) c) ((L.domain (n - (t + s))).elem x) ∧
    FriChain L M n final x rest (t + s) (alphas.drop s) roots.tail rps.tail c'

/-- What an accepted query at point number `x` shows: there are polynomials `P` for the batches of the
initial proof, whose values on the coset of `x` the paths show under the commitments; all polynomials
the openings refer to are among them, and no opening point is in the coset; and there is a polynomial
`c` that has on the coset the values of the combined quotient and starts the rounds. -/
def FriQueryShows (L : FftLib F) (M : MerkleLib F Tree Root Path) (n s0 : Nat) (steps : List Nat)
    (commitments : OMap Root) (theta : F) (items : List (List (Nat × Nat) × F × List F))
    (alphas : List F) (roots : List Root) (final : List F) (q : FriQueryProof F Path) (x : Nat) :
    Prop :=
  ∃ (P : OMap (List (List F))) (c : List F),
    List.Forall₂ (fun ip b => ip.1 = b.1 ∧ ∃ root, commitments.find ip.1 = some root ∧
      FriShows L M n s0 b.2 x root ip.2.p) q.initialProof P ∧
    (∀ it ∈ items, ∀ id ∈ it.1, ∃ c, batchPoly P id = some c) ∧
    (∀ i, i % 2 ^ (n - s0) = x % 2 ^ (n - s0) →
      (∀ it ∈ items, evalPoly it.2.2 ((L.domain n).elem i) ≠ 0) ∧
      evalPoly c ((L.domain n).elem i) = quotientValue P theta ((L.domain n).elem i) items 1) ∧
    FriChain L M n final x steps 0 alphas roots q.roundProofs c

/-- The challenges that hide a degree: folding `c`, which has a nonzero coefficient from `2 * b` on,
leaves none from `b` on. -/
def friBad (c : List F) (b : Nat) : Set F :=
  {a | (∃ i, 2 * b ≤ i ∧ c.getD i 0 ≠ 0) ∧ ∀ i, b ≤ i → (foldList a c).getD i 0 = 0}

/-- The roots of the rounds are those of trees over the polynomials `os`, each one small enough for its
domain. -/
def FriOracles (L : FftLib F) (M : MerkleLib F Tree Root Path) (n : Nat) :
    List Nat → Nat → List Root → List (List F) → Prop
  | [], _, _, os => os = []
  | s :: rest, t, roots, os => ∃ root o leaves, roots.head? = some root ∧ os.head? = some o ∧
    o.length ≤ 2 ^ (n - t) ∧ friLeaves [(L.domain (n - t)).evals o] (2 ^ (n - t)) s = some leaves ∧
    root = M.root (M.build leaves) ∧ FriOracles L M n rest (t + s) roots.tail os.tail

/-- The commitments are the roots of trees over the batches `P`. -/
def FriCommitted (L : FftLib F) (M : MerkleLib F Tree Root Path) (n s0 : Nat)
    (commitments : OMap Root) (P : OMap (List (List F))) : Prop :=
  ∀ k root, commitments.find k = some root → ∃ cs leaves, P.find k = some cs ∧
    friLeaves (cs.map (L.domain n).evals) (2 ^ n) s0 = some leaves ∧ root = M.root (M.build leaves)

/-- The paths of a query stand at the places of the coset of point number `x`. This is what the verifier
does not check. -/
def FriPlaced (pos : Path → Nat) (n s0 : Nat) (steps : List Nat) (q : FriQueryProof F Path)
    (x : Nat) : Prop :=
  (∀ ip ∈ q.initialProof, pos ip.2.p = x % 2 ^ (n - s0)) ∧
  ∀ j rp, q.roundProofs[j]? = some rp → pos rp.p = x % 2 ^ (n - (steps.take (j + 1)).sum)

/-- The committed polynomials `os` fold into each other, and the last one into the final polynomial,
at the images of point number `x`. -/
def FriFolds (L : FftLib F) (n : Nat) (final : List F) (x : Nat) :
    List Nat → Nat → List F → List (List F) → Prop
  | s :: rest, t, alphas, o :: os =>
    evalPoly (foldAll (alphas.take s) o) ((L.domain (n - (t + s))).elem x) =
      evalPoly (os.headD final) ((L.domain (n - (t + s))).elem x) ∧
    FriFolds L n final x rest (t + s) (alphas.drop s) os
  | _, _, _, _ => True

/-- Query number `i` of a proof, verified from the transcript state `st`, is made at point number `x`:
the challenges of the rounds are drawn, the proof of work is checked if it is asked for, and then the
query challenges are drawn; challenge `i`, raised to the power that maps to the domain, is the
point. -/
def FriQueryPoint {S : Type} [DecidableEq F] (T : FriTranscript S F Root) (L : FftLib F)
    (prm : FriParams F) (proof : FriProof F Root Path) (n : Nat) (st : S) (i x : Nat) : Prop :=
  ∃ st1 alphas st2 ch, friAlphas T prm.stepList proof.friRoots st = some (st1, alphas) ∧
    (if prm.useGrinding then
      powVerify T.toIntTranscript prm.grindingParameter st1 proof.proofOfWork = (true, st2)
    else st2 = st1) ∧
    (friChallenges T prm.lambda st2).2[i]? = some ch ∧
    (L.domain n).elem x = ch ^ ((prm.modulus - 1) / 2 ^ n)

end Crypto3Zk
