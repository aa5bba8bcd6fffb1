import Verif.Spec.PlaceholderSound

/-!
# Specification for C66: placeholder with the arguments in any number of parts

As `Spec/PlaceholderSound`, where each argument has one part. Here the prover also commits to the partial products of
both arguments, and the verifier draws a challenge for each of them.
-/

namespace Crypto3Zk

variable {F : Type} [Field F] [DecidableEq F]

/-- What a prover commits to after the table and before the quotient: the running product of the permutation argument
and its partial products (by their coefficients), the sorted columns of the lookup argument, its running product and
its partial products (by their values). -/
structure PartsMessages (F : Type) where
  V : List F
  partitions : List (List F)
  sorted : List (List F)
  lookupV : List F
  lookupPartitions : List (List F)

/-- There are as many polynomials as the verifier reads, and they have degree less than `2 ^ n`. -/
structure PartsMessages.Sized (n : Nat) (c : Circuit F) (mqc parts : Nat) (m : PartsMessages F) : Prop where
  V : m.V.length ≤ 2 ^ n
  partitions : ∀ p ∈ m.partitions, p.length ≤ 2 ^ n
  count : c.copies ≠ [] → m.partitions.length + 1 = parts
  sorted : ∀ s ∈ m.sorted, s.length = 2 ^ n
  sortedCount : c.lookups.gates ≠ [] → m.sorted.length = c.lookups.inputCount + c.lookups.optionCount
  lookupV : m.lookupV.length = 2 ^ n
  lookupPartitions : ∀ p ∈ m.lookupPartitions, p.length = 2 ^ n
  lookupCount : c.lookups.gates ≠ [] → m.lookupPartitions.length + 1 = (c.lookups.parts mqc).length

/-- The coefficients of the polynomials in each batch. -/
def committedParts (L : FftLib F) (c : Circuit F) (pre : PermData F) (t : PlonkTable F)
    (m : PartsMessages F) (chunks : List (List F)) (k : Nat) : List (List F) :=
  if k = FIXED_BATCH then pre.sId ++ pre.sSigma ++ [pre.qLast, pre.qBlind] ++
    t.constants.map L.coefficients ++ t.selectors.map L.coefficients
  else if k = VARIABLE_BATCH then t.witnesses.map L.coefficients ++ t.publicInputs.map L.coefficients
  else if k = PERMUTATION_BATCH then (if c.copies = [] then [] else m.V :: m.partitions) ++
    (if c.lookups.gates = [] then [] else (m.lookupV :: m.lookupPartitions).map L.coefficients)
  else if k = QUOTIENT_BATCH then chunks
  else m.sorted.map L.coefficients

/-- The values in the proof are those of the polynomials, at the points the verifier asks for. -/
def OpenedParts {H Com Data Pr : Type} (L : FftLib F) (n : Nat) (d : TableDesc) (c : Circuit F)
    (common : CommonData F H Com Data) (pre : PermData F) (t : PlonkTable F) (m : PartsMessages F)
    (chunks : List (List F)) (proof : PlaceholderProof F Com Pr) : Prop :=
  ∀ pts, verifierPoints L n d c common proof.challenge = some pts →
    ∀ k, (k = FIXED_BATCH ∨ k = VARIABLE_BATCH ∨ (c.lookups.gates ≠ [] ∧ k = LOOKUP_BATCH) ∨
        ((c.copies ≠ [] ∨ c.lookups.gates ≠ []) ∧ k = PERMUTATION_BATCH) ∨ k = QUOTIENT_BATCH) →
      proof.eval.1.find k = some ((committedParts L c pre t m chunks k).mapIdx fun i p =>
        (lpcRequested k i pts).map (evalPoly p))

/-- The challenges that are drawn before the prover commits to the quotient, up to the one for the gates; `parts` and
`lookupParts` are those for the parts of the two arguments. -/
structure EarlyChallenges (F : Type) where
  beta : F
  gamma : F
  parts : List F
  theta : F
  lookupBeta : F
  lookupGamma : F
  lookupParts : List F
  lookupAlphas : List F
  gateTheta : F

/-- All challenges: the early ones, those for the linear combination, and the point. -/
structure PartsChallenges (F : Type) where
  early : EarlyChallenges F
  alphas : List F
  y : F

/-- The challenges that the verifier reads off the transcript `st`, with the commitments to the witness
columns (`vcom`), the sorted columns (`lcom`), the running and partial products (`pcom`) and the quotient (`qcom`), with
`p` parts of the permutation argument, `q` parts of the lookup argument and `k` sorted columns. -/
def readPartsChallenges {S H Com : Type} (T : PlonkTranscript S F H Com) (c : Circuit F) (p q k : Nat)
    (vcom lcom pcom qcom : Com) (st : S) : PartsChallenges F :=
  let s0 := T.absorb vcom st
  let b := T.challenge s0
  let g := T.challenge b.2
  let pa := drawN T.challenge (p - 1) g.2
  let s1 := if c.copies = [] then s0 else pa.2
  let th := T.challenge s1
  let lb := T.challenge (T.absorb lcom th.2)
  let lg := T.challenge lb.2
  let qa := drawN T.challenge (q - 1) lg.2
  let la := drawN T.challenge (k - 1) qa.2
  let s2 := if c.lookups.gates = [] then s1 else la.2
  let s3 := if c.copies = [] ∧ c.lookups.gates = [] then s2 else T.absorb pcom s2
  let gt := T.challenge s3
  let as := drawN T.challenge 8 gt.2
  { early := { beta := b.1, gamma := g.1, parts := pa.1, theta := th.1, lookupBeta := lb.1, lookupGamma := lg.1,
               lookupParts := qa.1, lookupAlphas := la.1, gateTheta := gt.1 }
    alphas := as.1
    y := (T.challenge (T.absorb qcom as.2)).1 }

/-- Bad values for each challenge. The arguments of each set are what was fixed before the challenge is drawn (besides
the circuit and the table). -/
structure PartsBad (F : Type) where
  beta : Finset F
  gamma : (beta : F) → Finset F
  theta : Finset F
  lookupBeta : (theta : F) → (sorted : List (List F)) → Finset F
  lookupGamma : (theta : F) → (sorted : List (List F)) → (beta : F) → Finset F
  lookupAlpha : (sorted : List (List F)) → (earlier : List F) → Finset F
  gateTheta : Finset F
  alpha : PartsMessages F → EarlyChallenges F → (earlier : List F) → Finset F
  y : PartsMessages F → EarlyChallenges F → (alphas : List F) → (chunks : List (List F)) → Finset F

/-- The sizes of the sets, as `BadChallenges.Small`. -/
structure PartsBad.Small (B : PartsBad F) (c : Circuit F) (n usable cols dg w : Nat) : Prop where
  beta : B.beta.card ≤ cols * usable
  gamma : ∀ b, (B.gamma b).card ≤ 2 * (cols * usable)
  theta : B.theta.card ≤
    c.lookups.inputCount * usable * (c.lookups.optionCount * usable + 1) * w
  lookupBeta : ∀ th s, (B.lookupBeta th s).card ≤
    (2 * ((c.lookups.inputCount + c.lookups.optionCount) * usable)) ^ 2 + 1
  lookupGamma : ∀ th s b, (B.lookupGamma th s b).card ≤
    3 * ((c.lookups.inputCount + c.lookups.optionCount) * usable)
  lookupAlpha : ∀ s l, (B.lookupAlpha s l).card ≤ 1
  gateTheta : B.gateTheta.card ≤ usable * constraintCount c.gates
  alpha : ∀ m e l, (B.alpha m e l).card ≤ 1
  y : ∀ m e as ch, (B.y m e as ch).card ≤
    max (max (cols + 2) (max (dg + 2) (max (c.lookupCosts.sum + 2) 3)) * (2 ^ n - 1)) (2 ^ n * (ch.length + 1))

/-- The challenges of the permutation argument are not bad. -/
def PartsBad.CopiesAvoided (B : PartsBad F) (x : EarlyChallenges F) : Prop :=
  x.beta ∉ B.beta ∧ x.gamma ∉ B.gamma x.beta

/-- The challenges of the lookup argument are not bad. -/
def PartsBad.LookupsAvoided (B : PartsBad F) (sorted : List (List F)) (x : EarlyChallenges F) : Prop :=
  x.theta ∉ B.theta ∧ x.lookupBeta ∉ B.lookupBeta x.theta sorted ∧
    x.lookupGamma ∉ B.lookupGamma x.theta sorted x.lookupBeta ∧
    ∀ i a, x.lookupAlphas[i]? = some a → a ∉ B.lookupAlpha sorted (x.lookupAlphas.take i)

/-- The challenges that all arguments share, and that of the gates, are not bad. -/
def PartsBad.GatesAvoided (B : PartsBad F) (m : PartsMessages F) (chunks : List (List F)) (x : PartsChallenges F) :
    Prop :=
  x.early.gateTheta ∉ B.gateTheta ∧
    (∀ i a, x.alphas[i]? = some a → a ∉ B.alpha m x.early (x.alphas.take i)) ∧
    x.y ∉ B.y m x.early x.alphas chunks

end Crypto3Zk
