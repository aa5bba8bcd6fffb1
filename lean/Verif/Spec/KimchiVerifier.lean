import Verif.Model.KimchiVerifier
import Verif.Spec.KimchiPedersen
import Verif.Spec.KimchiExpr
import Mathlib.Algebra.BigOperators.Fin

/-!
# What an honest Kimchi proof is

Without public input, lookups and zero-knowledge details: polynomials, their values at the challenge, and
the equation of the protocol between these values.
-/

namespace Crypto3Zk

open Finset

variable {F : Type} [Field F] [DecidableEq F] {G : Type} [AddCommGroup G] [Module F G] [DecidableEq G]
variable {S R : Type}

/-! ## The challenges -/

structure KChallenges (F S : Type) where
  beta : F
  gamma : F
  alpha : F
  zeta : F
  v : F
  u : F
  sponge : S

/-- The transcript of a proof: the witness commitments give `β` and `γ`, with the permutation polynomial
`α`, with the quotient `ζ`; then the digest, the evaluations at both points and `ft(ζω)` give `v`, `u`. The
(absent) public input is absorbed as an empty list. -/
def kimchiChallenges (sp : KimchiSponges F G S R) (p : KProof F G) : KChallenges F S :=
  let s0 := (List.ofFn p.wComm).foldl (fun s c => sp.absorbGs s c.unshifted) (sp.absorbGs sp.init [])
  let s1 := (sp.challenge s0).2
  let s2 := (sp.challenge s1).2
  let s3 := sp.absorbGs s2 p.zComm.unshifted
  let s4 := sp.absorbGs (sp.challenge s3).2 p.tComm.unshifted
  let s5 := (sp.challenge s4).2
  let values (e : KEvals (List F)) : List (List F) :=
    [[], e.z, e.genericSelector, e.poseidonSelector] ++ List.ofFn e.w ++ List.ofFn e.s
  let r0 := (values p.evals0 ++ values p.evals1).foldl sp.frAbsorbs (sp.frAbsorb sp.frInit (sp.digest s5))
  let r1 := sp.frAbsorb r0 p.ftEval1
  { beta := (sp.challenge s0).1
    gamma := (sp.challenge s1).1
    alpha := sp.toField (sp.challenge s3).1
    zeta := sp.toField (sp.challenge s4).1
    v := sp.toField (sp.frChallenge r1).1
    u := sp.toField (sp.frChallenge (sp.frChallenge r1).2).1
    sponge := s5 }

/-! ## Polynomials -/

/-- the value of a polynomial -/
def polyVal (p : List F) (x : F) : F := ∑ i ∈ range p.length, p.getD i 0 * x ^ i

/-- `c` is the commitment to `q`, without degree bound -/
def Committed (prm : IpaParams G) (c : PolyComm G) (q : IpaPoly F) : Prop :=
  (∃ ws w, ipaCommit prm q.coeffs (-1) ws w = some (c, q.commit)) ∧ q.bound = 2 ^ 64 - 1 ∧
    q.coeffs.length + prm.g.length ≤ 2 ^ 64 - 1

/-- the polynomials of a circuit and of a proof -/
structure KPolys (F : Type) where
  sigma : Fin 7 → IpaPoly F
  coefficient : Fin 15 → IpaPoly F
  selector : KGate → IpaPoly F
  w : Fin 15 → IpaPoly F
  z : IpaPoly F
  t : IpaPoly F

/-- the gates with a selector in the linearisation -/
def KGate.hasSelector : KGate → Bool
  | .completeAdd | .varBaseMul | .endoMul | .endoMulScalar | .poseidon
  | .chaCha0 | .chaCha1 | .chaCha2 | .chaChaFinal | .rangeCheck0 | .rangeCheck1 => true
  | _ => false

/-- the polynomial of a column of the linearisation -/
def KPolys.column (P : KPolys F) : KColumn → Option (IpaPoly F)
  | .witness i => if h : i < 15 then some (P.w ⟨i, h⟩) else none
  | .coefficient i => if h : i < 15 then some (P.coefficient ⟨i, h⟩) else none
  | .z => some P.z
  | .index g => if g.hasSelector then some (P.selector g) else none
  | _ => none

/-- the values of the polynomials at a point -/
def KPolys.valuesAt (P : KPolys F) (x : F) : KEvals F :=
  { w := fun i => polyVal (P.w i).coeffs x
    z := polyVal P.z.coeffs x
    s := fun i => polyVal (P.sigma i.castSucc).coeffs x
    lookup := ⟨[], 0, 0, 0, false⟩
    lookupUsed := false
    genericSelector := polyVal (P.selector .generic).coeffs x
    poseidonSelector := polyVal (P.selector .poseidon).coeffs x }

/-- the values of the chunks of a polynomial -/
def chunkValues (n : Nat) (q : IpaPoly F) (x : F) : List F :=
  (List.range (chunkCount n q.coeffs.length)).map fun j => chunkEval n q.coeffs j x

/-- the evaluations in the proof are those of the chunks -/
structure KTrueEvaluations (n : Nat) (P : KPolys F) (x : F) (e : KEvals (List F)) : Prop where
  w : ∀ i, e.w i = chunkValues n (P.w i) x
  z : e.z = chunkValues n P.z x
  s : ∀ i : Fin 6, e.s i = chunkValues n (P.sigma i.castSucc) x
  generic : e.genericSelector = chunkValues n (P.selector .generic) x
  poseidon : e.poseidonSelector = chunkValues n (P.selector .poseidon) x
  lookup : e.lookupUsed = false

/-! ## The equation -/

/-- the linear part: the factor of the last permutation polynomial, those of the coefficients of the
two generic gates with `a0`, `a1` as powers of `α`, and the index terms -/
def linearPart (P : KPolys F) (e0 e1 : KEvals F) (beta gamma zkp a0 a1 : F) (index : List (F × IpaPoly F)) :
    List (F × IpaPoly F) :=
  let g := e0.genericSelector
  [(-(e1.z * beta * a0 * zkp * ∏ i : Fin 6, (gamma + beta * e0.s i + e0.w (i.castLE (by decide)))), P.sigma 6),
    (a0 * g * e0.w 0, P.coefficient 0), (a0 * g * e0.w 1, P.coefficient 1), (a0 * g * e0.w 2, P.coefficient 2),
    (a0 * g * e0.w 0 * e0.w 1, P.coefficient 3), (a0 * g, P.coefficient 4),
    (a1 * g * e0.w 3, P.coefficient 5), (a1 * g * e0.w 4, P.coefficient 6), (a1 * g * e0.w 5, P.coefficient 7),
    (a1 * g * e0.w 3 * e0.w 4, P.coefficient 8), (a1 * g, P.coefficient 9)] ++ index

/-- the permutation constraint between neighbouring rows -/
def permConstraint (e0 e1 : KEvals F) (sigma6 beta gamma zeta : F) (shift : Fin 7 → F) : F :=
  e0.z * ∏ i : Fin 7, (gamma + beta * zeta * shift i + e0.w (i.castLE (by decide))) -
    e1.z * ((∏ i : Fin 6, (gamma + beta * e0.s i + e0.w (i.castLE (by decide)))) *
      (gamma + beta * sigma6 + e0.w 6))

/-- the first and the second generic gate of a row: `q₀a + q₁b + q₂c + q₃ab + q₄` -/
def genericConstraint (q0 q1 q2 q3 q4 a b c : F) : F := q0 * a + q1 * b + q2 * c + q3 * (a * b) + q4

/-- The equation of the protocol at `zeta`, `zn = zeta ^ n`, `t` the value of the quotient: permutation
constraint, its boundary conditions at the rows of `1` and `w`, generic gates, other gates. `a0 a1 a2` are
the powers of `α` of the permutation argument, `g0 g1` those of the generic gates. -/
def KimchiEquation (e0 e1 : KEvals F) (sigma6 : F) (q : Fin 15 → F) (shift : Fin 7 → F)
    (zkp beta gamma zeta zn w a0 a1 a2 g0 g1 others t : F) : Prop :=
  a0 * (zkp * permConstraint e0 e1 sigma6 beta gamma zeta shift) +
    a1 * ((zn - 1) / (zeta - 1) * (e0.z - 1)) + a2 * ((zn - 1) / (zeta - w) * (e0.z - 1)) +
    e0.genericSelector * (g0 * genericConstraint (q 0) (q 1) (q 2) (q 3) (q 4) (e0.w 0) (e0.w 1) (e0.w 2) +
      g1 * genericConstraint (q 5) (q 6) (q 7) (q 8) (q 9) (e0.w 3) (e0.w 4) (e0.w 5)) +
    others = t * (zn - 1)

/-! ## The polynomial `ft` -/

/-- the chunks of a polynomial, combined with powers of `x`: coefficient `i` is `Σⱼ xʲ q_{jn+i}` -/
def foldCoeffs (n : Nat) (x : F) (q : List F) : List F :=
  (List.range n).map fun i => ∑ j ∈ range (chunkCount n q.length), x ^ j * q.getD (j * n + i) 0

/-- `ft`, the linear part minus the multiple of the quotient, with the blinding factor that follows -/
def ftPoly (n : Nat) (zetaN zn : F) (linear : List (F × IpaPoly F)) (t : IpaPoly F) : IpaPoly F :=
  { coeffs := (List.range n).map fun i =>
      (linear.map fun l => l.1 * (foldCoeffs n zetaN l.2.coeffs).getD i 0).sum -
        (zn - 1) * (foldCoeffs n zetaN t.coeffs).getD i 0
    bound := 2 ^ 64 - 1
    commit := ⟨[(linear.map fun l => l.1 * powSum zetaN l.2.commit.unshifted).sum -
      (zn - 1) * powSum zetaN t.commit.unshifted], 0⟩ }

/-! ## Honest proofs -/

/-- what the expressions of the linearisation refer to -/
def KPolys.env (P : KPolys F) (sp : KimchiSponges F G S R) (idx : KIndex F G) (p : KProof F G) : KEnv F :=
  let c := kimchiChallenges sp p
  ⟨idx.domain, c.zeta, P.valuesAt c.zeta, P.valuesAt (c.zeta * idx.domain.omega),
    ⟨c.alpha, c.beta, c.gamma, 0, idx.endo, idx.mds⟩⟩

/-- the linear part at the challenges, `start` the first power of the permutation argument -/
def KPolys.linear (P : KPolys F) (sp : KimchiSponges F G S R) (idx : KIndex F G) (p : KProof F G)
    (index : List (F × IpaPoly F)) (start : Nat) : List (F × IpaPoly F) :=
  let c := kimchiChallenges sp p
  linearPart P (P.valuesAt c.zeta) (P.valuesAt (c.zeta * idx.domain.omega)) c.beta c.gamma
    (polyVal idx.zkpm c.zeta) (c.alpha ^ start) (c.alpha ^ (start + 1)) index

/-- the equation at the challenges; the generic gates have the first two powers of the permutation
argument -/
def KPolys.Equation (P : KPolys F) (sp : KimchiSponges F G S R) (idx : KIndex F G) (p : KProof F G)
    (start : Nat) (others : F) : Prop :=
  let c := kimchiChallenges sp p
  KimchiEquation (P.valuesAt c.zeta) (P.valuesAt (c.zeta * idx.domain.omega))
    (polyVal (P.sigma 6).coeffs c.zeta) (fun i => polyVal (P.coefficient i).coeffs c.zeta) idx.shift
    (polyVal idx.zkpm c.zeta) c.beta c.gamma c.zeta (c.zeta ^ idx.domain.size) idx.w
    (c.alpha ^ start) (c.alpha ^ (start + 1)) (c.alpha ^ (start + 2)) (c.alpha ^ start)
    (c.alpha ^ (start + 1)) others (polyVal P.t.coeffs c.zeta)

/-- `ft` at the challenges -/
def KPolys.ft (P : KPolys F) (sp : KimchiSponges F G S R) (idx : KIndex F G) (p : KProof F G)
    (index : List (F × IpaPoly F)) (start : Nat) : IpaPoly F :=
  let c := kimchiChallenges sp p
  ftPoly idx.srs.g.length (c.zeta ^ idx.srs.g.length) (c.zeta ^ idx.domain.size)
    (P.linear sp idx p index start) P.t

/-- The circuit and the proof consist of commitments to polynomials, the evaluations are true, and the
linearisation of the circuit is given by expressions. -/
structure KimchiClaims (sp : KimchiSponges F G S R) (idx : KIndex F G) (p : KProof F G) where
  P : KPolys F
  prev : List (IpaPoly F)
  constant : KExpr F
  terms : List (KColumn × KExpr F)
  constantValue : F
  index : List (F × IpaPoly F)
  start : Nat
  number : Nat
  regs : List (KArgument × Nat)
  chunks : Nat
  -- the circuit
  size : idx.maxPolySize = idx.srs.g.length
  generators : 0 < idx.srs.g.length
  sigma : ∀ i, Committed idx.srs (idx.sigmaComm i) (P.sigma i)
  coefficient : ∀ i, Committed idx.srs (idx.coefficientsComm i) (P.coefficient i)
  generic : Committed idx.srs idx.genericComm (P.selector .generic)
  poseidon : Committed idx.srs idx.psmComm (P.selector .poseidon)
  completeAdd : Committed idx.srs idx.completeAddComm (P.selector .completeAdd)
  varBaseMul : Committed idx.srs idx.mulComm (P.selector .varBaseMul)
  endoMul : Committed idx.srs idx.emulComm (P.selector .endoMul)
  endoMulScalar : Committed idx.srs idx.endomulScalarComm (P.selector .endoMulScalar)
  chaCha : Committed idx.srs (idx.chachaComm 0) (P.selector .chaCha0) ∧
    Committed idx.srs (idx.chachaComm 1) (P.selector .chaCha1) ∧
    Committed idx.srs (idx.chachaComm 2) (P.selector .chaCha2) ∧
    Committed idx.srs (idx.chachaComm 3) (P.selector .chaChaFinal)
  rangeCheck : List.Forall₂ (Committed idx.srs) idx.rangeCheckComm
    [P.selector .rangeCheck0, P.selector .rangeCheck1]
  noLookup : idx.lookupIndexUsed = false
  constant_eq : idx.constantTerm = constant.polish
  terms_eq : idx.indexTerm = terms.map fun t => (t.1, t.2.polish)
  alphas : idx.powersOfAlpha = registerAll regs
  permutation : (registerAll regs : Alphas KArgument F).find .permutation = some (start, number)
  enough : 3 ≤ number
  -- the proof
  w : ∀ i, Committed idx.srs (p.wComm i) (P.w i)
  z : Committed idx.srs p.zComm P.z
  t : Committed idx.srs p.tComm P.t
  noPublic : p.publicInput = []
  noLookupProof : p.lookupUsed = false
  evals0 : KTrueEvaluations idx.srs.g.length P (kimchiChallenges sp p).zeta p.evals0
  evals1 : KTrueEvaluations idx.srs.g.length P ((kimchiChallenges sp p).zeta * idx.domain.omega) p.evals1
  previous : List.Forall₂ (fun (c : List F × PolyComm G) q => Committed idx.srs c.2 q ∧
    q.coeffs = coefRec c.1 ∧ idx.srs.g.length ≤ 2 ^ c.1.length ∧ 2 ^ c.1.length ≤ 2 * idx.srs.g.length)
    p.prevChallenges prev
  -- the linearisation
  constantValue_eq : ∃ m, constant.value (P.env sp idx p) [] = some (constantValue, m)
  index_eq : List.Forall₂ (fun t l => (∃ m, t.2.value (P.env sp idx p) [] = some (l.1, m)) ∧
    P.column t.1 = some l.2) terms index
  sameChunks : ∀ l ∈ P.linear sp idx p index start, chunkCount idx.srs.g.length l.2.coeffs.length = chunks
  zeta_one : (kimchiChallenges sp p).zeta ≠ 1
  zeta_w : (kimchiChallenges sp p).zeta ≠ idx.w

/-- the polynomials that are opened: those of the previous challenges, the (absent) public input, `ft`, the
permutation polynomial, two selectors, the witness columns and all but one permutation column -/
def KimchiClaims.opened {sp : KimchiSponges F G S R} {idx : KIndex F G} {p : KProof F G}
    (c : KimchiClaims sp idx p) : List (IpaPoly F) :=
  c.prev ++ [⟨[], 2 ^ 64 - 1, ⟨[], 0⟩⟩, c.P.ft sp idx p c.index c.start, c.P.z, c.P.selector .generic,
    c.P.selector .poseidon] ++ List.ofFn c.P.w ++ List.ofFn fun i : Fin 6 => c.P.sigma i.castSucc

/-- the equation at the challenges, with the values of the expressions of the circuit -/
def KimchiClaims.Satisfied {sp : KimchiSponges F G S R} {idx : KIndex F G} {p : KProof F G}
    (c : KimchiClaims sp idx p) : Prop :=
  c.P.Equation sp idx p c.start
    (c.constantValue + (c.index.map fun l => l.1 * polyVal l.2.coeffs (kimchiChallenges sp p).zeta).sum)

/-- the proof contains the value of `ft` at the second point -/
def KimchiClaims.TrueFt {sp : KimchiSponges F G S R} {idx : KIndex F G} {p : KProof F G}
    (c : KimchiClaims sp idx p) : Prop :=
  p.ftEval1 = polyVal (c.P.ft sp idx p c.index c.start).coeffs
    ((kimchiChallenges sp p).zeta * idx.domain.omega)

/-- An honest proof: moreover the equation holds at the challenges of the transcript, and the opening is
made by `proof_eval` for these polynomials. -/
structure KimchiRun (sp : KimchiSponges F G S R) (idx : KIndex F G) (p : KProof F G) extends
    KimchiClaims sp idx p where
  rnd : List (F × F)
  d : F
  rDelta : F
  equation : toKimchiClaims.Satisfied
  ftEval1 : toKimchiClaims.TrueFt
  random : Nat.clog 2 idx.srs.g.length ≤ rnd.length
  opening : ipaProve sp.ipa idx.srs toKimchiClaims.opened
    [(kimchiChallenges sp p).zeta, (kimchiChallenges sp p).zeta * idx.domain.omega]
    (kimchiChallenges sp p).v (kimchiChallenges sp p).u rnd d rDelta (kimchiChallenges sp p).sponge =
    some p.opening

end Crypto3Zk
