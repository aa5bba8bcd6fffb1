import Verif.Spec.PlaceholderTotal
import Mathlib.Data.Finset.Card

/-!
# Specification for C66: soundness of the placeholder proof system

The proof system is regarded as an interaction: the prover commits to polynomials, and the verifier draws
challenges. The commitments are taken to be binding: for some polynomials that are fixed before the next
challenge is drawn, the opened values are their values (`OpenedTruly`). The challenges are those that the
verifier reads off the transcript (`readChallenges`). For each of them there is a set of bad values that
depends only on what was fixed before (`BadChallenges`), and is small (`BadChallenges.Small`).
-/

namespace Crypto3Zk

variable {F : Type} [Field F] [DecidableEq F]

/-- What a prover commits to after the table: the running product `V` of the permutation argument (by its
coefficients), the sorted columns of the lookup argument (by their values), its running product (by its
values), the chunks of the quotient (by their coefficients). -/
structure ProverMessages (F : Type) where
  V : List F
  sorted : List (List F)
  lookupV : List F
  chunks : List (List F)

/-- The polynomials have degree less than `2 ^ n`. -/
structure ProverMessages.Sized (n : Nat) (m : ProverMessages F) : Prop where
  V : m.V.length ≤ 2 ^ n
  sorted : ∀ c ∈ m.sorted, c.length = 2 ^ n
  lookupV : m.lookupV.length = 2 ^ n
  chunks : ∀ c ∈ m.chunks, c.length ≤ 2 ^ n

/-- The coefficients of the polynomials in each batch, for one part of the permutation argument and one part
of the lookup argument. -/
def committedPolys (L : FftLib F) (c : Circuit F) (pre : PermData F) (t : PlonkTable F)
    (m : ProverMessages F) (k : Nat) : List (List F) :=
  if k = FIXED_BATCH then pre.sId ++ pre.sSigma ++ [pre.qLast, pre.qBlind] ++
    t.constants.map L.coefficients ++ t.selectors.map L.coefficients
  else if k = VARIABLE_BATCH then t.witnesses.map L.coefficients ++ t.publicInputs.map L.coefficients
  else if k = PERMUTATION_BATCH then (if c.copies = [] then [] else [m.V]) ++
    (if c.lookups.gates = [] then [] else [L.coefficients m.lookupV])
  else if k = QUOTIENT_BATCH then m.chunks
  else m.sorted.map L.coefficients

/-- The values in the proof are those of the polynomials, at the points the verifier asks for. -/
def OpenedTruly {H Com Data Pr : Type} (L : FftLib F) (n : Nat) (d : TableDesc) (c : Circuit F)
    (common : CommonData F H Com Data) (pre : PermData F) (t : PlonkTable F) (m : ProverMessages F)
    (proof : PlaceholderProof F Com Pr) : Prop :=
  ∀ pts, verifierPoints L n d c common proof.challenge = some pts →
    ∀ k, (k = FIXED_BATCH ∨ k = VARIABLE_BATCH ∨ (c.lookups.gates ≠ [] ∧ k = LOOKUP_BATCH) ∨
        ((c.copies ≠ [] ∨ c.lookups.gates ≠ []) ∧ k = PERMUTATION_BATCH) ∨ k = QUOTIENT_BATCH) →
      proof.eval.1.find k = some ((committedPolys L c pre t m k).mapIdx fun i p =>
        (lpcRequested k i pts).map (evalPoly p))

/-- The challenges of the verifier, in the order in which they are drawn. -/
structure Challenges (F : Type) where
  beta : F
  gamma : F
  theta : F
  lookupBeta : F
  lookupGamma : F
  lookupAlphas : List F
  gateTheta : F
  alphas : List F
  y : F

/-- The challenges that the verifier reads off the transcript `st`, with the commitments to the witness
columns (`vcom`), the sorted columns (`lcom`), the running products (`pcom`) and the quotient (`qcom`), and
with `k` sorted columns. -/
def readChallenges {S H Com : Type} (T : PlonkTranscript S F H Com) (c : Circuit F) (k : Nat)
    (vcom lcom pcom qcom : Com) (st : S) : Challenges F :=
  let s0 := T.absorb vcom st
  let b := T.challenge s0
  let g := T.challenge b.2
  let s1 := if c.copies = [] then s0 else g.2
  let th := T.challenge s1
  let lb := T.challenge (T.absorb lcom th.2)
  let lg := T.challenge lb.2
  let la := drawN T.challenge (k - 1) lg.2
  let s2 := if c.lookups.gates = [] then s1 else la.2
  let s3 := if c.copies = [] ∧ c.lookups.gates = [] then s2 else T.absorb pcom s2
  let gt := T.challenge s3
  let as := drawN T.challenge 8 gt.2
  { beta := b.1
    gamma := g.1
    theta := th.1
    lookupBeta := lb.1
    lookupGamma := lg.1
    lookupAlphas := la.1
    gateTheta := gt.1
    alphas := as.1
    y := (T.challenge (T.absorb qcom as.2)).1 }

/-- Bad values for each challenge. The arguments of each set are what was fixed before the challenge is drawn
(besides the circuit and the table): the earlier challenges and the polynomials committed so far. -/
structure BadChallenges (F : Type) where
  beta : Finset F
  gamma : (beta : F) → Finset F
  theta : Finset F
  lookupBeta : (theta : F) → (sorted : List (List F)) → Finset F
  lookupGamma : (theta : F) → (sorted : List (List F)) → (beta : F) → Finset F
  lookupAlpha : (theta : F) → (sorted : List (List F)) → (beta gamma : F) → (earlier : List F) → Finset F
  gateTheta : Finset F
  alpha : (beta gamma theta : F) → (sorted : List (List F)) → (lookupBeta lookupGamma : F) →
    (lookupAlphas V lookupV : List F) → (gateTheta : F) → (earlier : List F) → Finset F
  y : (beta gamma theta : F) → (sorted : List (List F)) → (lookupBeta lookupGamma : F) →
    (lookupAlphas V lookupV : List F) → (gateTheta : F) → (alphas : List F) →
    (chunks : List (List F)) → Finset F

/-- The sizes of the sets: `cols` columns are permuted, `dg` bounds the degrees of the constraints of the
gates, `w` bounds one more than the numbers of columns of the lookup tables. -/
structure BadChallenges.Small (B : BadChallenges F) (c : Circuit F) (n usable cols dg w : Nat) : Prop where
  beta : B.beta.card ≤ cols * usable
  gamma : ∀ b, (B.gamma b).card ≤ 2 * (cols * usable)
  theta : B.theta.card ≤
    c.lookups.inputCount * usable * (c.lookups.optionCount * usable + 1) * w
  lookupBeta : ∀ th s, (B.lookupBeta th s).card ≤
    (2 * ((c.lookups.inputCount + c.lookups.optionCount) * usable)) ^ 2 + 1
  lookupGamma : ∀ th s b, (B.lookupGamma th s b).card ≤
    3 * ((c.lookups.inputCount + c.lookups.optionCount) * usable)
  lookupAlpha : ∀ th s b g l, (B.lookupAlpha th s b g l).card ≤ 1
  gateTheta : B.gateTheta.card ≤ usable * constraintCount c.gates
  alpha : ∀ b g th s lb lg la V lV gt l, (B.alpha b g th s lb lg la V lV gt l).card ≤ 1
  y : ∀ b g th s lb lg la V lV gt as ch, (B.y b g th s lb lg la V lV gt as ch).card ≤
    max (max (cols + 2) (max (dg + 2) (max (c.lookupCosts.sum + 2) 3)) * (2 ^ n - 1)) (2 ^ n * (ch.length + 1))

/-- No challenge of those that are used is bad. -/
structure BadChallenges.Avoided (B : BadChallenges F) (c : Circuit F) (m : ProverMessages F)
    (x : Challenges F) : Prop where
  beta : c.copies ≠ [] → x.beta ∉ B.beta
  gamma : c.copies ≠ [] → x.gamma ∉ B.gamma x.beta
  theta : c.lookups.gates ≠ [] → x.theta ∉ B.theta
  lookupBeta : c.lookups.gates ≠ [] → x.lookupBeta ∉ B.lookupBeta x.theta m.sorted
  lookupGamma : c.lookups.gates ≠ [] → x.lookupGamma ∉ B.lookupGamma x.theta m.sorted x.lookupBeta
  lookupAlpha : c.lookups.gates ≠ [] → ∀ i a, x.lookupAlphas[i]? = some a →
    a ∉ B.lookupAlpha x.theta m.sorted x.lookupBeta x.lookupGamma (x.lookupAlphas.take i)
  gateTheta : x.gateTheta ∉ B.gateTheta
  alpha : ∀ i a, x.alphas[i]? = some a → a ∉ B.alpha x.beta x.gamma x.theta m.sorted x.lookupBeta
    x.lookupGamma x.lookupAlphas m.V m.lookupV x.gateTheta (x.alphas.take i)
  y : x.y ∉ B.y x.beta x.gamma x.theta m.sorted x.lookupBeta x.lookupGamma x.lookupAlphas m.V m.lookupV
    x.gateTheta x.alphas m.chunks

/-- The lookups can be checked with one compressed value for each entry: constraints fit their tables,
selectors and tags are zero or one, there is at least one option; `w` bounds the widths. -/
structure LookupsCheckable (t : PlonkTable F) (sys : LookupSystem F) (usable w : Nat) : Prop where
  wellFormed : LookupsWellFormed sys
  tags : TagsBoolean t sys usable
  options : 0 < sys.optionCount
  columns : ∀ tab ∈ sys.tables, tab.columnsNumber + 1 ≤ w

/-- The powers of `delta` separate the permuted columns. -/
def DeltaSeparates (n cols : Nat) (delta : F) : Prop :=
  delta ≠ 0 ∧ ∀ m, 0 < m → m < cols → delta ^ (2 ^ n * m) ≠ 1

end Crypto3Zk
