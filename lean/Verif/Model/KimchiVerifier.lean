import Verif.Model.KimchiPedersen
import Verif.Model.KimchiExpr
import Verif.Model.Alphas
import Mathlib.Data.List.FinRange

/-!
# The Kimchi verifier (`plonk/pickles/oracles.hpp`, `verifier.hpp`, `constraints.hpp`, `proof.hpp`,
`detail.hpp`)

`none` is undefined behaviour: an access outside a vector, `front()` of an empty one, a division by zero, or
what the commitment scheme leaves undefined. The assertions on the number of chunks of the quotient
(`oracles.hpp`, line 226), on the pre-computed Lagrange bases and their number 512 (`verifier.hpp`, lines 78-80) and
on the presence of lookup commitments are not enforced, as in a release build.

`math::polynomial::evaluate` is `hornerEval`. The sponges are a parameter. Members that are not read are
left out; `combined_inner_product` of the oracles (lines 401-441) is computed there but used nowhere.
-/

namespace Crypto3Zk

/-- the sponges: that over the base field as in the commitment scheme, its raw challenge and digest
(`kimchi_transcript.hpp`), `ScalarChallenge::to_field` with `endo_r` fixed, and the sponge over the
scalar field -/
structure KimchiSponges (F G S R : Type) where
  ipa : IpaSponge F G S
  init : S
  absorbGs : S → List G → S
  challenge : S → F × S
  digest : S → F
  toField : F → F
  frInit : R
  frAbsorb : R → F → R
  frAbsorbs : R → List F → R
  frChallenge : R → F × R

/-- `argument_type` (`detail.hpp`, lines 92-101) -/
inductive KArgument where
  | gate | permutation | lookup
deriving DecidableEq

/-- `lookup_verifier_index` (`detail.hpp`, lines 123-138) -/
structure LookupIndex (G : Type) where
  joint : Bool
  lookupTable : List (PolyComm G)
  lookupSelectors : List (PolyComm G)
  tableIds : PolyComm G
  maxJointSize : Nat
  runtimeSelector : PolyComm G
  runtimeSelectorUsed : Bool

/-- `verifier_index` (`verifier_index.hpp`, lines 60-103); `lagrange` is `srs.lagrange_bases[domain.size()]` -/
structure KIndex (F G : Type) where
  domain : KDomain F
  maxPolySize : Nat
  srs : IpaParams G
  lagrange : List G
  sigmaComm : Fin 7 → PolyComm G
  coefficientsComm : Fin 15 → PolyComm G
  genericComm : PolyComm G
  psmComm : PolyComm G
  completeAddComm : PolyComm G
  mulComm : PolyComm G
  emulComm : PolyComm G
  endomulScalarComm : PolyComm G
  chachaComm : Fin 4 → PolyComm G
  rangeCheckComm : List (PolyComm G)
  shift : Fin 7 → F
  zkpm : List F
  w : F
  endo : F
  lookupIndex : LookupIndex G
  lookupIndexUsed : Bool
  constantTerm : List (PolishToken F)
  indexTerm : List (KColumn × List (PolishToken F))
  powersOfAlpha : Alphas KArgument F
  mds : Fin 3 → Fin 3 → F

/-- `proof_type` (`proof.hpp`, lines 137-188), with the members of `proof_commitment_type` and
`lookup_commitment_type` -/
structure KProof (F G : Type) where
  wComm : Fin 15 → PolyComm G
  zComm : PolyComm G
  tComm : PolyComm G
  lookupSorted : List (PolyComm G)
  lookupAggreg : PolyComm G
  lookupRuntime : PolyComm G
  lookupUsed : Bool
  opening : IpaProof F G
  evals0 : KEvals (List F)
  evals1 : KEvals (List F)
  ftEval1 : F
  publicInput : List F
  prevChallenges : List (List F × PolyComm G)

section

variable {F : Type} [Field F] [DecidableEq F] {G : Type} [AddCommGroup G] [Module F G] [DecidableEq G]
variable {S R : Type}

/-- `combine` (`proof.hpp`, lines 88-134). The combined values of the sorted lookup polynomials are written
into a vector that is empty (line 122). -/
def KEvals.combine (e : KEvals (List F)) (pt : F) : Option (KEvals F) :=
  if e.lookupUsed = true ∧ e.lookup.sorted ≠ [] then none
  else
    let lookup : LookupEvals F :=
      if e.lookupUsed then
        ⟨[], hornerEval e.lookup.aggreg pt, hornerEval e.lookup.table pt,
          if e.lookup.runtimeUsed then hornerEval e.lookup.runtime pt else 0, false⟩
      else ⟨[], 0, 0, 0, false⟩
    some
      { w := fun i => hornerEval (e.w i) pt, z := hornerEval e.z pt, s := fun i => hornerEval (e.s i) pt,
        lookup := lookup, lookupUsed := false, genericSelector := hornerEval e.genericSelector pt,
        poseidonSelector := hornerEval e.poseidonSelector pt }

/-- `prev_chal_evals` (`oracles.hpp`, lines 89-137) for one pair of challenges and commitment: for every
point the values of the chunks. `1 << chals.size()` is taken as the power of two. -/
def prevChalEvals (maxPolySize : Nat) (points : List (F × F)) (chals : List F) : List (List F) :=
  let bLen := 2 ^ chals.length
  points.map fun (pt, ptPow) =>
    let full := bPoly chals pt
    if maxPolySize = bLen then [full]
    else
      let b := bPolyCoefficients chals
      let diff := ((List.range' maxPolySize (bLen - maxPolySize)).foldl (fun (s : F × F) j =>
        (s.1 + s.2 * b.getD j 0, s.2 * pt)) (0, 1)).1
      [full - diff * ptPow, diff]

/-- `absorb_evaluations` (`kimchi_transcript.hpp`, lines 122-156) -/
def absorbEvaluations (sp : KimchiSponges F G S R) (st : R) (p : List F) (e : KEvals (List F)) : R :=
  let st := sp.frAbsorbs st p
  let st := sp.frAbsorbs st e.z
  let st := sp.frAbsorbs st e.genericSelector
  let st := sp.frAbsorbs st e.poseidonSelector
  let st := (List.finRange 15).foldl (fun st i => sp.frAbsorbs st (e.w i)) st
  let st := (List.finRange 6).foldl (fun st i => sp.frAbsorbs st (e.s i)) st
  if e.lookupUsed then
    let st := e.lookup.sorted.foldl sp.frAbsorbs st
    let st := sp.frAbsorbs (sp.frAbsorbs st e.lookup.aggreg) e.lookup.table
    if e.lookup.runtimeUsed then sp.frAbsorbs st e.lookup.runtime else st
  else st

/-- `OraclesResult` (`oracles.hpp`, lines 62-87), with the members of `RandomOracles` -/
structure KOracles (F G S : Type) where
  sponge : S
  jointCombiner : F
  beta : F
  gamma : F
  alpha : F
  zeta : F
  v : F
  u : F
  alphas : Alphas KArgument F
  pEval : List (List F)
  pow0 : F
  pow1 : F
  polys : List (PolyComm G × List (List F))
  zeta1 : F
  ftEval0 : F

/-- the evaluation of `ft` at `zeta` (`oracles.hpp`, lines 359-398) -/
def ftEval0 (idx : KIndex F G) (e0 e1 : KEvals F) (pEval0 alpha beta gamma zeta zeta1 joint : F)
    (alphaPowers : List F) : Option F := do
  let zkp := hornerEval idx.zkpm zeta
  let zeta1m1 := zeta1 - 1
  let alpha0 ← alphaPowers[0]?
  let alpha1 ← alphaPowers[1]?
  let alpha2 ← alphaPowers[2]?
  let ft := (e0.w 6 + gamma) * e1.z * alpha0 * zkp
  let ft := (List.finRange 6).foldl (fun ft i => ft * (beta * e0.s i + e0.w (i.castLE (by decide)) + gamma)) ft
  let ft := ft - pEval0
  let tmp := alpha0 * zkp * e0.z
  let tmp := (List.finRange 7).foldl
    (fun tmp i => tmp * (gamma + beta * zeta * idx.shift i + e0.w (i.castLE (by decide)))) tmp
  let ft := ft - tmp
  let numerator := (zeta1m1 * alpha1 * (zeta - idx.w) + zeta1m1 * alpha2 * (zeta - 1)) * (1 - e0.z)
  let denominator := (zeta - idx.w) * (zeta - 1)
  if denominator = 0 then none else
    let ft := ft + numerator * denominator⁻¹
    let c ← polishEvaluate ⟨idx.domain, zeta, e0, e1, ⟨alpha, beta, gamma, joint, idx.endo, idx.mds⟩⟩
      idx.constantTerm
    pure (ft - c)

/-- `oracles` (`oracles.hpp`, lines 139-450). With public input the evaluations are appended to vectors
that do not exist (lines 298-299). -/
def kimchiOracles (sp : KimchiSponges F G S R) (idx : KIndex F G) (p : KProof F G) (pComm : PolyComm G) :
    Option (KOracles F G S) := do
  let st := sp.absorbGs sp.init pComm.unshifted
  let st := (List.finRange 15).foldl (fun st i => sp.absorbGs st (p.wComm i).unshifted) st
  let (joint, st) :=
    if idx.lookupIndexUsed then
      let st := if idx.lookupIndex.runtimeSelectorUsed then sp.absorbGs st p.lookupRuntime.unshifted else st
      let (c, st) := if idx.lookupIndex.joint then sp.challenge st else (0, st)
      (sp.toField c, p.lookupSorted.foldl (fun st c => sp.absorbGs st c.unshifted) st)
    else (0, st)
  let (beta, st) := sp.challenge st
  let (gamma, st) := sp.challenge st
  let st := if p.lookupUsed then sp.absorbGs st p.lookupAggreg.unshifted else st
  let st := sp.absorbGs st p.zComm.unshifted
  let (alphaChal, st) := sp.challenge st
  let alpha := sp.toField alphaChal
  let st := sp.absorbGs st p.tComm.unshifted
  let (zetaChal, st) := sp.challenge st
  let zeta := sp.toField zetaChal
  let fr := sp.frAbsorb sp.frInit (sp.digest st)
  let n := idx.domain.size
  let zeta1 := zeta ^ n
  let zetaw := zeta * idx.domain.omega
  let alphas := idx.powersOfAlpha.instantiate alpha
  if p.publicInput ≠ [] then none else
    let pEval : List (List F) := [[], []]
    let fr := absorbEvaluations sp fr [] p.evals0
    let fr := absorbEvaluations sp fr [] p.evals1
    let fr := sp.frAbsorb fr p.ftEval1
    let (vChal, fr) := sp.frChallenge fr
    let v := sp.toField vChal
    let (uChal, _) := sp.frChallenge fr
    let u := sp.toField uChal
    let pow0 := zeta ^ idx.maxPolySize
    let pow1 := zetaw ^ idx.maxPolySize
    let polys := p.prevChallenges.map fun c => (c.2, prevChalEvals idx.maxPolySize [(zeta, pow0), (zetaw, pow1)] c.1)
    let e0 ← p.evals0.combine pow0
    let e1 ← p.evals1.combine pow1
    let alphaPowers ← alphas.getAlphas .permutation 3
    let ft ← ftEval0 idx e0 e1 0 alpha beta gamma zeta zeta1 joint alphaPowers
    pure { sponge := st, jointCombiner := joint, beta := beta, gamma := gamma, alpha := alpha, zeta := zeta,
           v := v, u := u, alphas := alphas, pEval := pEval, pow0 := pow0, pow1 := pow1, polys := polys,
           zeta1 := zeta1, ftEval0 := ft }

/-- `perm_scalars` (`constraints.hpp`, lines 20-29) -/
def permScalars (e0 e1 : KEvals F) (beta gamma alpha0 zkp : F) : F :=
  -((List.finRange 6).foldl (fun res i => res * (gamma + beta * e0.s i + e0.w (i.castLE (by decide))))
    (e1.z * beta * alpha0 * zkp))

/-- `generic_gate` (`constraints.hpp`, lines 31-47) with `register_offset` 0 or 3 -/
def genericGate (alphaPow genericZeta w0 w1 w2 : F) : List F :=
  let a := alphaPow * genericZeta
  [a * w0, a * w1, a * w2, a * w0 * w1, a]

/-- `gnrc_scalars` (`constraints.hpp`, lines 48-57) -/
def gnrcScalars (alpha0 alpha1 : F) (w : Fin 15 → F) (genericZeta : F) : List F :=
  genericGate alpha0 genericZeta (w 0) (w 1) (w 2) ++ genericGate alpha1 genericZeta (w 3) (w 4) (w 5)

/-- the selector of a gate (`verifier.hpp`, lines 204-241); for the remaining gates the commitment stays
default-constructed -/
def selectorComm (idx : KIndex F G) : KGate → Option (PolyComm G)
  | .completeAdd => some idx.completeAddComm
  | .varBaseMul => some idx.mulComm
  | .endoMul => some idx.emulComm
  | .endoMulScalar => some idx.endomulScalarComm
  | .poseidon => some idx.psmComm
  | .chaCha0 => some (idx.chachaComm 0)
  | .chaCha1 => some (idx.chachaComm 1)
  | .chaCha2 => some (idx.chachaComm 2)
  | .chaChaFinal => some (idx.chachaComm 3)
  | .rangeCheck0 => idx.rangeCheckComm[0]?
  | .rangeCheck1 => idx.rangeCheckComm[1]?
  | _ => some ⟨[], 0⟩

/-- what one index term contributes (`verifier.hpp`, lines 162-245) -/
def indexTermComms (idx : KIndex F G) (p : KProof F G) (joint : F) (col : KColumn) (scalar : F) :
    Option (List (F × PolyComm G)) :=
  match col with
  | .witness i => if h : i < 15 then some [(scalar, p.wComm ⟨i, h⟩)] else none
  | .coefficient i => if h : i < 15 then some [(scalar, idx.coefficientsComm ⟨i, h⟩)] else none
  | .z => some [(scalar, p.zComm)]
  | .lookupSorted i => p.lookupSorted[i]?.map fun c => [(scalar, c)]
  | .lookupAggreg => some [(scalar, p.lookupAggreg)]
  | .lookupKindIndex k =>
    if idx.lookupIndexUsed then some [] else idx.lookupIndex.lookupSelectors[k]?.map fun c => [(scalar, c)]
  | .lookupTable =>
    if idx.lookupIndexUsed then some []
    else
      match idx.lookupIndex.lookupTable with
      | [] => none
      | c :: cs => some ((scalar, c) :: (cs.foldl (fun (s : List (F × PolyComm G) × F) d =>
          (s.1 ++ [(scalar * (s.2 * joint), d)], s.2 * joint)) ([], 1)).1)
  | .index g => (selectorComm idx g).map fun c => [(scalar, c)]
  | .lookupRuntimeSelector => some []
  | .lookupRuntimeTable => some []

/-- `combine_table` (`detail.hpp`, lines 140-166) -/
def combineTable (columns : List (PolyComm G)) (columnCombiner tableIdCombiner : F)
    (tableIds runtime : PolyComm G) : Option (PolyComm G) :=
  let s := columns.foldl (fun (s : List F × F) _ => (s.1 ++ [s.2], s.2 * columnCombiner)) ([], 1)
  let scalars := s.1
  let comms := columns
  let (scalars, comms) := if tableIds.unshifted.length ≠ 0 then
    (scalars ++ [tableIdCombiner], comms ++ [tableIds]) else (scalars, comms)
  let (scalars, comms) := if runtime.unshifted.length ≠ 0 then
    (scalars ++ [columnCombiner], comms ++ [runtime]) else (scalars, comms)
  multiScalarMul comms scalars

/-- the public input commitment (`verifier.hpp`, lines 77-94) -/
def publicComm (idx : KIndex F G) (p : KProof F G) : Option (PolyComm G) := do
  let com ← (List.range p.publicInput.length).mapM fun i => do
    let g ← idx.lagrange[i]?
    pure (⟨[g], 0⟩ : PolyComm G)
  multiScalarMul com (p.publicInput.map fun x => -x)

/-- the commitment to the linearised polynomial `f` (`verifier.hpp`, lines 119-250). The powers of alpha
of the generic gate are those of the permutation argument (lines 123, 131-132). -/
def linearizedComm (idx : KIndex F G) (p : KProof F G) (o : KOracles F G S) (e0 e1 : KEvals F) :
    Option (PolyComm G) := do
  let zkp := hornerEval idx.zkpm o.zeta
  let alphas ← o.alphas.getAlphas .permutation 3
  let alpha0 ← alphas[0]?
  let alpha1 ← alphas[1]?
  let generic := gnrcScalars alpha0 alpha1 e0.w e0.genericSelector
  let genericCom := (List.finRange 10).map fun i : Fin 10 => idx.coefficientsComm (i.castLE (by decide))
  let terms ← idx.indexTerm.mapM fun t => do
    let scalar ← polishEvaluate
      ⟨idx.domain, o.zeta, e0, e1, ⟨o.alpha, o.beta, o.gamma, o.jointCombiner, idx.endo, idx.mds⟩⟩ t.2
    indexTermComms idx p o.jointCombiner t.1 scalar
  multiScalarMul ([idx.sigmaComm 6] ++ genericCom ++ terms.flatten.map (·.2))
    ([permScalars e0 e1 o.beta o.gamma alpha0 zkp] ++ generic ++ terms.flatten.map (·.1))

/-- the commitment to `ft` (`verifier.hpp`, lines 252-257) -/
def ftComm (idx : KIndex F G) (p : KProof F G) (o : KOracles F G S) (f : PolyComm G) : PolyComm G :=
  let z := o.zeta ^ idx.maxPolySize
  (f.chunkCommitment z).sub ((p.tComm.chunkCommitment z).scale (o.zeta1 - 1))

/-- the evaluations for lookups (`verifier.hpp`, lines 307-353) -/
def lookupEvaluations (idx : KIndex F G) (p : KProof F G) (joint : F) : Option (List (IpaEval F G)) :=
  if idx.lookupIndexUsed then do
    let l0 := p.evals0.lookup
    let l1 := p.evals1.lookup
    let sorted := (List.zip p.lookupSorted (List.zip l0.sorted l1.sorted)).map fun x =>
      (⟨x.1, [x.2.1, x.2.2], -1⟩ : IpaEval F G)
    let table ← combineTable idx.lookupIndex.lookupTable joint (joint ^ idx.lookupIndex.maxJointSize)
      idx.lookupIndex.tableIds p.lookupRuntime
    let runtime : List (IpaEval F G) := if idx.lookupIndex.runtimeSelectorUsed then
      [⟨idx.lookupIndex.runtimeSelector, [l0.runtime, l1.runtime], -1⟩] else []
    pure (sorted ++ [⟨p.lookupAggreg, [l0.aggreg, l1.aggreg], -1⟩, ⟨table, [l0.table, l1.table], -1⟩] ++ runtime)
  else some []

/-- `to_batch` (`verifier.hpp`, lines 68-366) -/
def kimchiToBatch (sp : KimchiSponges F G S R) (idx : KIndex F G) (p : KProof F G) :
    Option (IpaBatch F G S) := do
  let pComm ← publicComm idx p
  let o ← kimchiOracles sp idx p pComm
  let e0 ← p.evals0.combine o.pow0
  let e1 ← p.evals1.combine o.pow1
  let f ← linearizedComm idx p o e0 e1
  let lookups ← lookupEvaluations idx p o.jointCombiner
  pure
    { sponge := o.sponge
      evaluation :=
        o.polys.map (fun c => ⟨c.1, c.2, -1⟩) ++
        [⟨pComm, o.pEval, -1⟩, ⟨ftComm idx p o f, [[o.ftEval0], [p.ftEval1]], -1⟩,
          ⟨p.zComm, [p.evals0.z, p.evals1.z], -1⟩,
          ⟨idx.genericComm, [p.evals0.genericSelector, p.evals1.genericSelector], -1⟩,
          ⟨idx.psmComm, [p.evals0.poseidonSelector, p.evals1.poseidonSelector], -1⟩] ++
        (List.finRange 15).map (fun i => ⟨p.wComm i, [p.evals0.w i, p.evals1.w i], -1⟩) ++
        (List.finRange 6).map (fun i : Fin 6 =>
          ⟨idx.sigmaComm (i.castLE (by decide)), [p.evals0.s i, p.evals1.s i], -1⟩) ++ lookups
      points := [o.zeta, o.zeta * idx.domain.omega]
      xi := o.v
      r := o.u
      opening := p.opening }

/-- `batch_verify` (`verifier.hpp`, lines 368-378): the parameters are those of the first index -/
def kimchiBatchVerify (sp : KimchiSponges F G S R) (rand sgRand : F) (proofs : List (KIndex F G × KProof F G)) :
    Option Bool := do
  let first ← proofs.head?
  let batch ← proofs.mapM fun x => kimchiToBatch sp x.1 x.2
  ipaVerify sp.ipa first.1.srs rand sgRand batch

/-- `verify` (`verifier.hpp`, lines 380-387) -/
def kimchiVerify (sp : KimchiSponges F G S R) (rand sgRand : F) (idx : KIndex F G) (p : KProof F G) :
    Option Bool :=
  kimchiBatchVerify sp rand sgRand [(idx, p)]

end

end Crypto3Zk
