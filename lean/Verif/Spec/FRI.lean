import Verif.Model.FRI

/-!
# Specification for FRI: contracts of the external libraries, and the folding equation
-/

namespace Crypto3Zk

variable {F : Type} {Tree Root Path : Type}

/-- The contract of the Merkle trees: the path of a leaf has the root of the tree and validates the
leaf. -/
structure MerkleLib.Lawful (M : MerkleLib F Tree Root Path) : Prop where
  root : ∀ (k : Nat) (leaves : List (List F)) (i : Nat), leaves.length = 2 ^ k → i < 2 ^ k →
    M.pathRoot (M.path (M.build leaves) i) = M.root (M.build leaves)
  validate : ∀ (k : Nat) (leaves : List (List F)) (i : Nat) (h : i < leaves.length),
    leaves.length = 2 ^ k → M.validate (M.path (M.build leaves) i) leaves[i] = true

variable [Field F]

/-- The contract of crypto3-math as FRI uses it, for a field with roots of unity of order
`2 ^ adicity`: each root is the square of the next one, the one of order two is minus one, and
`coefficients()` recovers a polynomial from its values, without superfluous coefficients (but with at
least one). -/
structure FftLib.Lawful (L : FftLib F) (adicity : Nat) : Prop where
  two_ne : (2 : F) ≠ 0
  root_zero : L.root 0 = 1
  root_one : 1 ≤ adicity → L.root 1 = -1
  root_sq : ∀ k < adicity, L.root (k + 1) * L.root (k + 1) = L.root k
  coefficients : ∀ n ≤ adicity, ∀ c : List F, c.length ≤ 2 ^ n →
    L.coefficients ((L.domain n).evals c) ≠ [] ∧
      (L.coefficients ((L.domain n).evals c)).length ≤ max 1 c.length ∧
      ∀ x, evalPoly (L.coefficients ((L.domain n).evals c)) x = evalPoly c x

/-- The folding of the function `f` with the challenge `alpha`, as seen at the point `x`: the value at
`x²` of the polynomial whose even and odd parts are combined with `alpha`. -/
def foldedValue (f : F → F) (alpha x : F) : F :=
  (f x + f (-x)) / 2 + alpha * (f x - f (-x)) / (2 * x)

/-- The folded polynomial: coefficient `i` is `c (2 i) + alpha * c (2 i + 1)`. -/
def foldList (alpha : F) : List F → List F
  | [] => []
  | [a] => [a]
  | a :: b :: l => (a + alpha * b) :: foldList alpha l

/-- The polynomial after folding with all challenges in turn. -/
def foldAll (as : List F) (c : List F) : List F := as.foldl (fun c a => foldList a c) c

/-- A polynomial in one of its two forms is the one with the coefficients `c`, given on the domain
`D` if it is in evaluation form. -/
def FriPoly.Represents (D : FriDomain F) (c : List F) : FriPoly F → Prop
  | .coeff c' => c' = c
  | .dfs v => v = D.evals c

/-- A polynomial in one of its two forms is the one with the coefficients `c`, given on any domain
large enough for it and of at most `2 ^ n` points. -/
def FriPoly.Has (L : FftLib F) (n : Nat) (c : List F) : FriPoly F → Prop
  | .coeff c' => c' = c ∧ c.length ≤ 2 ^ n
  | .dfs v => ∃ k ≤ n, v = (L.domain k).evals c ∧ c.length ≤ 2 ^ k

/-- The polynomials behind the batches `g`: batch by batch, polynomial by polynomial, the coefficients
`P`. -/
def FriBatches (L : FftLib F) (n : Nat) (g : OMap (List (FriPoly F))) (P : OMap (List (List F))) :
    Prop :=
  List.Forall₂ (fun a b => a.1 = b.1 ∧ List.Forall₂ (fun f c => f.Has L n c) a.2 b.2) g P

/-- The polynomial number `id.2` of batch `id.1`. -/
def batchPoly (P : OMap (List (List F))) (id : Nat × Nat) : Option (List F) :=
  (P.find id.1).bind fun cs => cs[id.2]?

/-- The linear combination of the polynomials `ids` at `x`, with the powers of `theta` from `acc`
on. -/
def thetaSum (P : OMap (List (List F))) (theta x : F) : List (Nat × Nat) → F → F
  | [], _ => 0
  | id :: ids, acc =>
    acc * evalPoly ((batchPoly P id).getD []) x + thetaSum P theta x ids (acc * theta)

/-- The value at `x` that the openings claim for the combined quotient: item by item, the linear
combination of the polynomials minus the claimed value, over the vanishing polynomial of the opening
point. -/
def quotientValue (P : OMap (List (List F))) (theta x : F) :
    List (List (Nat × Nat) × F × List F) → F → F
  | [], _ => 0
  | (ids, u, den) :: rest, acc =>
    (thetaSum P theta x ids acc - u) / evalPoly den x +
      quotientValue P theta x rest (acc * theta ^ ids.length)

/-- The prover's and the verifier's inputs belong together: `D` is the set of domains from `2 ^ n`
points down; the batches `g` are the polynomials `P`; every batch was committed to by `precommit`, and
the verifier holds the roots; every polynomial the openings refer to exists; no opening point lies in
the first domain; and `cQ` has there the values of the combined quotient. -/
structure FriSetup (L : FftLib F) (M : MerkleLib F Tree Root Path) (prm : FriParams F) (A n : Nat)
    (g : OMap (List (FriPoly F))) (P : OMap (List (List F))) (gTrees : OMap Tree)
    (commitments : OMap Root) (theta : F) (items : List (List (Nat × Nat) × F × List F))
    (cQ : List F) : Prop where
  adicity : n ≤ A
  rounds : prm.r ≤ n
  domains : ∀ t < prm.r, prm.D[t]? = some (L.domain (n - t))
  batches : FriBatches L n g P
  trees : ∀ k fs, (k, fs) ∈ g → ∃ tree s0, prm.stepList[0]? = some s0 ∧
    friPrecommitBatch L M fs (L.domain n) s0 = some tree ∧ gTrees.find k = some tree ∧
    commitments.find k = some (M.root tree)
  ids : ∀ it ∈ items, ∀ id ∈ it.1, ∃ c, batchPoly P id = some c
  dens : ∀ it ∈ items, ∀ i, evalPoly it.2.2 ((L.domain n).elem i) ≠ 0
  quotient : ∀ i, evalPoly cQ ((L.domain n).elem i) =
    quotientValue P theta ((L.domain n).elem i) items 1

end Crypto3Zk
