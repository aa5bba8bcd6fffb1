import Verif.Model.KimchiPedersen
import Mathlib.Algebra.BigOperators.Group.Finset.Basic

/-!
# What an honest use of the inner-product commitment is
-/

namespace Crypto3Zk

variable {F : Type} [Field F] {G : Type} [AddCommGroup G] [Module F G] {S : Type}

/-! ## Linear combinations -/

section

variable {M : Type} [AddCommGroup M] [Module F M]

/-- `Σ xsᵢ • msᵢ`, over the shorter length -/
def lin : List F → List M → M
  | x :: xs, m :: ms => x • m + lin xs ms
  | _, _ => 0

/-- `v₀ + x v₁ + x² v₂ + …` -/
def powSum (x : F) : List M → M
  | [] => 0
  | v :: vs => v + x • powSum x vs

end

/-- the vector `s` of the argument: entry `i` is the product of the challenges selected by the bits of
`i`, the first challenge by the highest bit -/
def coefRec : List F → List F
  | [] => [1]
  | c :: cs => coefRec cs ++ (coefRec cs).map fun x => x * c

/-! ## Honest use -/

/-- the number of chunks of `n` coefficients -/
def chunkCount (n len : Nat) : Nat := (len + n - 1) / n

/-- the value of chunk `j` of a polynomial: `Σ_{i < n} p_{jn+i} xⁱ` -/
def chunkEval (n : Nat) (poly : List F) (j : Nat) (x : F) : F :=
  ∑ i ∈ Finset.range n, poly.getD (j * n + i) 0 * x ^ i

/-- an `int` converted to `std::size_t` -/
def sizeOfInt (b : Int) : Nat := if b < 0 then (2 ^ 64 + b).toNat else b.toNat

variable [DecidableEq F] [DecidableEq G]

/-- The claim `e` about a polynomial and the data `p` given to the prover are honest: the commitment
and the blinding factors are those of `commitment` for some randomness, and the evaluations are those
of the chunks. -/
structure HonestClaim (prm : IpaParams G) (points : List F) (e : IpaEval F G) (p : IpaPoly F) : Prop where
  commit : ∃ ws w, ipaCommit prm p.coeffs e.bound ws w = some (e.commit, p.commit)
  bound : p.bound = sizeOfInt e.bound
  evaluations : e.evaluations = points.map fun x =>
    (List.range (chunkCount prm.g.length p.coeffs.length)).map fun j =>
      chunkEval prm.g.length p.coeffs j x
  /-- either no degree bound; or one that leads to a shifted commitment; or one that is so large that
  none is needed -/
  bounded : (e.bound < 0 ∧ p.coeffs.length + prm.g.length ≤ sizeOfInt e.bound) ∨
    (0 ≤ e.bound ∧ (e.commit.shifted ≠ 0 ∨
      p.coeffs.length ≤ e.bound.toNat - e.bound.toNat % prm.g.length))

/-- the batch has an opening by `proof_eval` for honest claims, with enough random elements -/
def HonestBatch (sp : IpaSponge F G S) (prm : IpaParams G) (b : IpaBatch F G S) : Prop :=
  b.points ≠ [] ∧ ∃ plms rnd d rDelta, List.Forall₂ (HonestClaim prm b.points) b.evaluation plms ∧
    Nat.clog 2 prm.g.length ≤ rnd.length ∧
    ipaProve sp prm plms b.points b.xi b.r rnd d rDelta b.sponge = some b.opening

omit [DecidableEq F] in
/-- the value the verifier computes from the claimed evaluations: `combined_inner_product` as it is
called at lines 664-675 -/
def IpaBatch.cip (n : Nat) (b : IpaBatch F G S) : Option F :=
  (ipaCombined b.points b.xi b.r n
    (b.evaluation.map fun e => (e, if e.commit.shifted ≠ 0 then e.bound else -1)) (0, 1)).map Prod.fst

/-- the challenges of the rounds, as the verifier derives them (lines 677-680) -/
def IpaBatch.chals (sp : IpaSponge F G S) (b : IpaBatch F G S) (cip : F) : List F :=
  (ipaChallenges sp b.opening.lr (sp.point (sp.absorbFr b.sponge cip)).2).1

/-! ## What the verifier's equations say -/

/-- the commitments of an evaluation claim which the verifier combines -/
def IpaEval.comms (e : IpaEval F G) : List G :=
  e.commit.unshifted ++ if 0 ≤ e.bound ∧ e.commit.shifted ≠ 0 then [e.commit.shifted] else []

/-- the point `u` and the sponge after it -/
def IpaBatch.u (sp : IpaSponge F G S) (b : IpaBatch F G S) (cip : F) : G × S :=
  sp.point (sp.absorbFr b.sponge cip)

/-- the last challenge -/
def IpaBatch.c (sp : IpaSponge F G S) (b : IpaBatch F G S) (cip : F) : F :=
  (sp.challenge (sp.absorbG (ipaChallenges sp b.opening.lr (b.u sp cip).2).2 b.opening.delta)).1

/-- `Σ cᵢ⁻¹ Lᵢ + cᵢ Rᵢ` -/
def lrSum : List (G × G) → List F → G
  | (l, r) :: lr, c :: cs => c⁻¹ • l + c • r + lrSum lr cs
  | _, _ => 0

/-- the equation of the argument, as a difference -/
def IpaBatch.defect (sp : IpaSponge F G S) (h : G) (b : IpaBatch F G S) (cip : F) : G :=
  b.c sp cip • (powSum b.xi (b.evaluation.flatMap IpaEval.comms) + cip • (b.u sp cip).1 +
      lrSum b.opening.lr (b.chals sp cip)) + b.opening.delta -
    b.opening.z1 • (b.opening.sg + powSum b.r (b.points.map (bPoly (b.chals sp cip))) • (b.u sp cip).1) -
    b.opening.z2 • h

/-- the equation for `sg`, as a difference -/
def IpaBatch.sgDefect (sp : IpaSponge F G S) (g : List G) (b : IpaBatch F G S) (cip : F) : G :=
  lin (coefRec (b.chals sp cip)) g - b.opening.sg

/-- the generators, padded to a power of two -/
def IpaParams.padded (prm : IpaParams G) : List G :=
  prm.g ++ List.replicate (2 ^ Nat.clog 2 prm.g.length - prm.g.length) 0

/-- a batch the verifier can process: the evaluations can be read, and there are not more rounds than
the number of generators asks for -/
def IpaBatch.Readable (prm : IpaParams G) (b : IpaBatch F G S) : Prop :=
  (b.cip prm.g.length).isSome ∧ b.opening.lr.length ≤ Nat.clog 2 prm.g.length

def IpaBatch.defect' (sp : IpaSponge F G S) (prm : IpaParams G) (b : IpaBatch F G S) : G :=
  b.defect sp prm.h ((b.cip prm.g.length).getD 0)

def IpaBatch.sgDefect' (sp : IpaSponge F G S) (prm : IpaParams G) (b : IpaBatch F G S) : G :=
  b.sgDefect sp prm.padded ((b.cip prm.g.length).getD 0)

/-! ## Trees of transcripts -/

/-- A tree of transcripts of the argument with `k` rounds: after each pair `(l, r)` four continuations
for four challenges, and at the end two answers to two challenges. -/
inductive IpaTree (F G : Type) : Nat → Type
  | leaf (delta : G) (c c' z1 z1' z2 z2' : F) : IpaTree F G 0
  | node {k : Nat} (l r : G) (x : Fin 4 → F) (sub : Fin 4 → IpaTree F G k) : IpaTree F G (k + 1)

/-- the challenges at every node are distinct, those of the rounds not zero -/
def IpaTree.Distinct : {k : Nat} → IpaTree F G k → Prop
  | _, .leaf _ c c' _ _ _ _ => c ≠ c'
  | _, .node _ _ x sub => Function.Injective x ∧ (∀ i, x i ≠ 0) ∧ ∀ i, (sub i).Distinct

/-- a predicate on transcripts (pairs, challenges of the rounds, `delta`, last challenge, `z1`, `z2`)
holds on all paths of the tree -/
def IpaTree.AllPaths : {k : Nat} → IpaTree F G k →
    (List (G × G) → List F → G → F → F → F → Prop) → Prop
  | _, .leaf delta c c' z1 z1' z2 z2', Q => Q [] [] delta c z1 z2 ∧ Q [] [] delta c' z1' z2'
  | _, .node l r x sub, Q => ∀ i, (sub i).AllPaths fun lr cs => Q ((l, r) :: lr) (x i :: cs)

/-- There is a run of the verifier, with some sponge, on the given claims, in which the point is `u`
and the transcript is the given one, and both equations hold. -/
def AcceptedRun (prm : IpaParams G) (es : List (IpaEval F G)) (points : List F) (xi r : F) (u : G)
    (lr : List (G × G)) (cs : List F) (delta : G) (c z1 z2 : F) : Prop :=
  ∃ (S : Type) (sp : IpaSponge F G S) (b : IpaBatch F G S) (cip : F), b.evaluation = es ∧
    b.points = points ∧ b.xi = xi ∧ b.r = r ∧ b.cip prm.g.length = some cip ∧ (b.u sp cip).1 = u ∧
    b.opening.lr = lr ∧ b.chals sp cip = cs ∧ b.opening.delta = delta ∧ b.c sp cip = c ∧
    b.opening.z1 = z1 ∧ b.opening.z2 = z2 ∧ b.defect sp prm.h cip = 0 ∧ b.sgDefect sp prm.padded cip = 0

/-- the generators, `u` and `h` satisfy no linear relation -/
def NoRelation (F : Type) [Field F] {G : Type} [AddCommGroup G] [Module F G] (g : List G) (u h : G) : Prop :=
  ∀ (f : Nat → F) (s t : F), ∑ j ∈ Finset.range g.length, f j • g.getD j 0 + s • u + t • h = 0 →
    (∀ j < g.length, f j = 0) ∧ s = 0 ∧ t = 0

end Crypto3Zk
