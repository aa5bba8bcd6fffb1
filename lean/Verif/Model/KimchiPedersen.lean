import Verif.Model.Groups
import Mathlib.Data.Nat.Log

/-!
# The inner-product polynomial commitment (`commitments/polynomial/kimchi_pedersen.hpp`)

All line numbers are those of that file. The group is a module over the scalar field. Random elements
are arguments. The sponge and the map from the base field to the group are a parameter (`IpaSponge`);
see `Verif/Spec/KimchiPedersen.lean` for what is assumed of them.

`int` and `std::size_t` are not limited here, except where a comparison mixes them (see `bound`).
Default-constructed field and group elements are zero. `add_lagrange_basis` is not modelled.
-/

namespace Crypto3Zk

/-- what the protocol uses of `DefaultFqSponge` and `group_map`, with the parameters `endo_q` and
`endo_r` fixed: `absorb_fr(shift_scalar(x))` (lines 476, 677), `to_group(challenge_fq())` (lines 477,
678-679), `absorb_g`, `squeeze_challenge(endo_r)` -/
structure IpaSponge (F G S : Type) where
  absorbFr : S → F → S
  point : S → G × S
  absorbG : S → G → S
  challenge : S → F × S

/-- `params_type` (lines 63-106): the members used for commitments -/
structure IpaParams (G : Type) where
  g : List G
  h : G

/-- `poly_comm` (lines 108-117) -/
structure PolyComm (V : Type) where
  unshifted : List V
  shifted : V
deriving DecidableEq

/-- `poly_type_single` (lines 253-263): `bound` is a `std::size_t`, `-1` (no bound) is `2 ^ 64 - 1` -/
structure IpaPoly (F : Type) where
  coeffs : List F
  bound : Nat
  commit : PolyComm F

/-- `proof_type` (lines 267-275) -/
structure IpaProof (F G : Type) where
  lr : List (G × G)
  delta : G
  z1 : F
  z2 : F
  sg : G
deriving DecidableEq

/-- `evaluation_type` (lines 292-304): `evaluations[j]` are the values of the chunks at point `j` -/
structure IpaEval (F G : Type) where
  commit : PolyComm G
  evaluations : List (List F)
  bound : Int

/-- `batchproof_type` (lines 306-327) -/
structure IpaBatch (F G S : Type) where
  sponge : S
  evaluation : List (IpaEval F G)
  points : List F
  xi : F
  r : F
  opening : IpaProof F G

section

variable {F : Type} [Field F] {G : Type} [AddCommGroup G] [Module F G]

/-! ## Operations on commitments -/

/-- the inner loop of `multi_scalar_mul` for chunk `i` (lines 144-155) -/
def mulChunk (commits : List (PolyComm G)) (elm : List F) (i : Nat) : Option G := do
  let rows ← ((commits.zipIdx.filter fun c => i < c.1.unshifted.length).mapM fun c => do
    let x ← elm[c.2]?
    let g ← c.1.unshifted[i]?
    pure (g, x))
  multiexp (rows.map Prod.fst) (rows.map Prod.snd)

/-- `multi_scalar_mul` (lines 119-159): the number of chunks of the result is the smallest one of the
arguments -/
def multiScalarMul (commits : List (PolyComm G)) (elm : List F) : Option (PolyComm G) :=
  match commits with
  | [] => some ⟨[], 0⟩
  | c :: cs => do
    let shifted ← multiexp ((c :: cs).map PolyComm.shifted) elm
    let n := cs.foldl (fun n d => if n > d.unshifted.length then d.unshifted.length else n)
      c.unshifted.length
    let unshifted ← (List.range n).mapM (mulChunk (c :: cs) elm)
    pure ⟨unshifted, shifted⟩

/-- `chunk_commitment` (lines 161-173) -/
def PolyComm.chunkCommitment (c : PolyComm G) (zetaN : F) : PolyComm G :=
  ⟨[c.unshifted.reverse.foldl (fun res x => zetaN • res + x) 0], c.shifted⟩

/-- `operator-` (lines 175-204) -/
def PolyComm.sub [DecidableEq G] (c d : PolyComm G) : PolyComm G :=
  let n := min c.unshifted.length d.unshifted.length
  ⟨List.zipWith (· - ·) c.unshifted d.unshifted ++ c.unshifted.drop n ++ d.unshifted.drop n,
    if c.shifted = 0 then d.shifted else if d.shifted = 0 then c.shifted else c.shifted - d.shifted⟩

/-- `operator+` (lines 206-235); `!shifted` is read as a test for zero -/
def PolyComm.add [DecidableEq G] (c d : PolyComm G) : PolyComm G :=
  let n := min c.unshifted.length d.unshifted.length
  ⟨List.zipWith (· + ·) c.unshifted d.unshifted ++ c.unshifted.drop n ++ d.unshifted.drop n,
    if c.shifted = 0 then d.shifted else if d.shifted = 0 then c.shifted else c.shifted + d.shifted⟩

/-- `scale` (lines 237-246) -/
def PolyComm.scale (c : PolyComm G) (x : F) : PolyComm G :=
  ⟨c.unshifted.map fun a => x • a, x • c.shifted⟩

/-! ## Commitment -/

/-- the loop over the chunks of a polynomial (lines 340-354): pieces of `n` coefficients, the last one
with what is left, none for no coefficients -/
def ipaChunks (n : Nat) (poly : List F) : List (List F) :=
  if _h : 0 < n ∧ n < poly.length then poly.take n :: ipaChunks n (poly.drop n)
  else if 0 < poly.length then [poly] else []
termination_by poly.length
decreasing_by simp; omega

/-- `commitment` (lines 334-383) with the random elements `ws` for the chunks and `w` for the shifted
part. `none`: without generators the loop of lines 345-350 does not end on a non-empty polynomial; or
the two ranges of the multi-exponentiation at lines 359-362 differ in length. -/
def ipaCommit [DecidableEq F] [DecidableEq G] (prm : IpaParams G) (poly : List F) (bound : Int)
    (ws : Nat → F) (w : F) : Option (PolyComm G × PolyComm F) := do
  let n := prm.g.length
  guard (0 < n ∨ poly = [])
  let unshifted ← (ipaChunks n poly).mapM fun c => multiexp (prm.g.take c.length) c
  let shifted ← (if 0 ≤ bound then
      let b := bound.toNat
      let start := b - b % n
      if ¬ poly.all (· = 0) ∧ start < poly.length then
        multiexp (prm.g.drop (n - b % n)) (poly.drop start)
      else some 0
    else some 0)
  pure (⟨unshifted.zipIdx.map fun c => c.1 + ws c.2 • prm.h,
      if shifted ≠ 0 then shifted + w • prm.h else shifted⟩,
    ⟨(List.range unshifted.length).map ws, if shifted ≠ 0 then w else 0⟩)

/-! ## Opening -/

/-- `a[i + off] += seg[i] * s` for all `i` (lines 421-423, 430-432, 446-448, 706-708) -/
def addInto (a : List F) (off : Nat) (s : F) (seg : List F) : List F :=
  a.mapIdx fun i x => if off ≤ i ∧ i < off + seg.length then x + seg.getD (i - off) 0 * s else x

/-- the loop over the chunks of one polynomial (lines 414-437); `polynom.bound >= 0` (line 413) holds
for every `std::size_t`, so the other branch (lines 439-454) is not reached. State: `a`, the blinding
factor, the scale. `none` is a range whose end is before its begin. -/
def ipaAddPoly (n : Nat) (polyscale : F) (p : IpaPoly F) :
    List F → Nat → List F × F × F → Option (List F × F × F)
  | [], _, s => some s
  | blind :: rest, offset, (a, blinding, scale) =>
    if offset ≤ p.coeffs.length then
      let segment := (p.coeffs.drop offset).take n
      let a := addInto a 0 scale segment
      let blinding := blinding + blind * scale
      let scale := scale * polyscale
      let offset := offset + n
      if offset > p.bound then
        ipaAddPoly n polyscale p rest offset
          (addInto a (n - segment.length) scale segment, blinding + p.commit.shifted * scale,
            scale * polyscale)
      else ipaAddPoly n polyscale p rest offset (a, blinding, scale)
    else none

/-- `b` (lines 460-470): the powers of the evaluation points, combined with powers of `evalscale` -/
def ipaB (size : Nat) (evalscale : F) (elm : List F) : List F :=
  (elm.foldl (fun (s : List F × F) e =>
    (s.1.mapIdx fun i x => x + s.2 * e ^ i, s.2 * evalscale)) (List.replicate size 0, 1)).1

/-- `algebra::inner_product` (external) (lines 472, 500, 505) -/
def innerProd (a b : List F) : F := (List.zipWith (· * ·) a b).sum

/-- the state of the folding loop (lines 485-535) -/
structure IpaFold (F G : Type) where
  g : List G
  a : List F
  b : List F

/-- the loop of lines 485-535 with `k` iterations left: the pairs `(l, r)`, the challenges, the folded
vectors and the sponge. `rnd` are the random elements. -/
def ipaRounds {S : Type} (sp : IpaSponge F G S) (h u : G) :
    Nat → List (F × F) → IpaFold F G → S → Option (List (G × G) × List F × IpaFold F G × S)
  | 0, _, s, st => some ([], [], s, st)
  | k + 1, rnd, s, st => do
    let half := 2 ^ k
    let (randL, randR) ← rnd.head?
    let lg ← multiexp (s.g.take half) (s.a.drop half)
    let l := lg + randL • h + innerProd (s.a.drop half) (s.b.take half) • u
    let rg ← multiexp (s.g.drop half) (s.a.take half)
    let r := rg + randR • h + innerProd (s.a.take half) (s.b.drop half) • u
    let (c, st) := sp.challenge (sp.absorbG (sp.absorbG st l) r)
    let (lr, cs, s, st) ← ipaRounds sp h u k rnd.tail
      ⟨List.zipWith (fun hi lo => c • hi + lo) (s.g.drop half) (s.g.take half),
        List.zipWith (fun hi lo => hi * c⁻¹ + lo) (s.a.drop half) (s.a.take half),
        List.zipWith (fun hi lo => hi * c + lo) (s.b.drop half) (s.b.take half)⟩ st
    pure ((l, r) :: lr, c :: cs, s, st)

/-- `r_prime` (lines 540-544) -/
def ipaBlind (blinding : F) (rnd : List (F × F)) (cs : List F) : F :=
  (List.zipWith (fun (x : F × F) c => x.1 * c⁻¹ + x.2 * c) rnd cs).foldl (· + ·) blinding

/-- `proof_eval` (lines 385-559). `rnd` are the random elements of the rounds, `d` and `rDelta` those
of the last step. -/
def ipaProve {S : Type} (sp : IpaSponge F G S) (prm : IpaParams G) (plms : List (IpaPoly F))
    (elm : List F) (polyscale evalscale : F) (rnd : List (F × F)) (d rDelta : F) (st : S) :
    Option (IpaProof F G) := do
  -- lines 398-399: the smallest power of two that is not below the number of generators
  let k := Nat.clog 2 prm.g.length
  let g := prm.g ++ List.replicate (2 ^ k - prm.g.length) 0
  let (a, blinding, _) ← plms.foldlM (fun s p => ipaAddPoly prm.g.length polyscale p p.commit.unshifted 0 s)
    (List.replicate prm.g.length 0, 0, 1)
  let a := a ++ List.replicate (2 ^ k - prm.g.length) 0
  let b := ipaB (2 ^ k) evalscale elm
  let (u, st) := sp.point (sp.absorbFr st (innerProd a b))
  let (lr, cs, s, st) ← ipaRounds sp prm.h u k rnd ⟨g, a, b⟩ st
  let a0 ← s.a[0]?
  let b0 ← s.b[0]?
  let g0 ← s.g[0]?
  let rPrime := ipaBlind blinding rnd cs
  let delta := d • (g0 + b0 • u) + rDelta • prm.h
  let (c, _) := sp.challenge (sp.absorbG st delta)
  pure ⟨lr, delta, a0 * c + d, c * rPrime + rDelta, g0⟩

/-! ## Verification -/

/-- `proof_type::challenges` (lines 277-288); the inverses are taken where they are used -/
def ipaChallenges {S : Type} (sp : IpaSponge F G S) : List (G × G) → S → List F × S
  | [], st => ([], st)
  | (l, r) :: lr, st =>
    let (c, st) := sp.challenge (sp.absorbG (sp.absorbG st l) r)
    let (cs, st) := ipaChallenges sp lr st
    (c :: cs, st)

/-- `math::polynomial::evaluate` (external) (lines 583, 603) -/
def hornerEval (p : List F) (x : F) : F := p.foldr (fun c acc => c + x * acc) 0

/-- the transposition of lines 570-579: for every chunk the values at all points; `none` if some point
has fewer values than the first one -/
def ipaTranspose (ev : List (List F)) : Option (List (List F)) :=
  match ev with
  | [] => some []
  | row :: _ => (List.range row.length).mapM fun i => ev.mapM fun r => r[i]?

/-- `combined_inner_product` (lines 561-609); state: the sum and the power of `xi`. `none` is a read
outside a vector. -/
def ipaCombined (points : List F) (xi r : F) (n : Nat) :
    List (IpaEval F G × Int) → F × F → Option (F × F)
  | [], s => some s
  | (e, bound) :: rest, s => do
    let evals ← ipaTranspose e.evaluations
    let s := evals.foldl (fun (s : F × F) ev => (s.1 + s.2 * hornerEval ev r, s.2 * xi)) s
    if bound ≠ -1 then
      let b := bound.toNat
      -- a negative bound is converted to a large unsigned number by the comparison of line 590
      let lastEvals ← (if 0 ≤ bound ∧ b ≤ evals.length * n then evals.getLast? else
        some (List.replicate points.length 0))
      let shifted ← lastEvals.zipIdx.mapM fun (x : F × Nat) => do
        let p ← points[x.2]?
        pure (p ^ (n - b % n) * x.1)
      ipaCombined points xi r n rest (s.1 + s.2 * hornerEval shifted r, s.2 * xi)
    else ipaCombined points xi r n rest s

/-- `b_poly` (lines 611-627): `pow_twos` is built first, then the product -/
def bPoly (chals : List F) (x : F) : F :=
  let powTwos := (List.range (chals.length - 1)).foldl
    (fun (l : List F) _ => l ++ [(l.getLastD 0) ^ 2]) [x]
  (List.range chals.length).foldl
    (fun res i => res * (1 + chals.getD i 0 * powTwos.getD (chals.length - 1 - i) 0)) 1

/-- one iteration of the loop of `b_poly_coefficents` (lines 637-641); state: `s`, `k`, `pow` -/
def bCoeffStep (chals : List F) (st : List F × Nat × Nat) (i : Nat) : List F × Nat × Nat :=
  let k := if i = st.2.2 then st.2.1 + 1 else st.2.1
  let pow := if i = st.2.2 then 2 * st.2.2 else st.2.2
  (st.1.set i (st.1.getD (i - pow / 2) 0 * chals.getD (chals.length - 1 - (k - 1)) 0), k, pow)

/-- `b_poly_coefficents` (lines 629-643) -/
def bPolyCoefficients (chals : List F) : List F :=
  ((List.range' 1 (2 ^ chals.length - 1)).foldl (bCoeffStep chals)
    (List.replicate (2 ^ chals.length) 1, 0, 1)).1

/-- the state of the loop of `verify_eval` (lines 652-661) -/
structure IpaAcc (F G : Type) where
  points : List G
  scalars : List F
  randI : F
  sgRandI : F

/-- the scalars and points for the commitments of one batch (lines 724-741); state: the two vectors
and the power of `xi` -/
def ipaCommitTerms [DecidableEq G] (xi c : F) :
    List (IpaEval F G) → List G × List F × F → List G × List F × F
  | [], s => s
  | e :: rest, s =>
    let s := e.commit.unshifted.foldl (fun (s : List G × List F × F) g =>
      (s.1 ++ [g], s.2.1 ++ [c * s.2.2], s.2.2 * xi)) s
    if 0 ≤ e.bound ∧ e.commit.shifted ≠ 0 then
      ipaCommitTerms xi c rest (s.1 ++ [e.commit.shifted], s.2.1 ++ [c * s.2.2], s.2.2 * xi)
    else ipaCommitTerms xi c rest s

/-- the body of the loop of `verify_eval` (lines 664-749). `none` is a write outside `scalars` (line
707), or a read outside a vector in `combined_inner_product`. -/
def ipaVerifyStep {S : Type} [DecidableEq G] (sp : IpaSponge F G S) (n : Nat) (rand sgRand : F)
    (acc : IpaAcc F G) (b : IpaBatch F G S) : Option (IpaAcc F G) := do
  let es := b.evaluation.map fun e => (e, if e.commit.shifted ≠ 0 then e.bound else -1)
  let (cip, _) ← ipaCombined b.points b.xi b.r n es (0, 1)
  let (u, st) := sp.point (sp.absorbFr b.sponge cip)
  let (chals, st) := ipaChallenges sp b.opening.lr st
  let (c, _) := sp.challenge (sp.absorbG st b.opening.delta)
  let b0 := (b.points.foldl (fun (s : F × F) e => (s.1 + s.2 * bPoly chals e, s.2 * b.r)) (0, 1)).1
  let s := bPolyCoefficients chals
  let negRand := -acc.randI
  let points := acc.points ++ [b.opening.sg]
  let scalars := acc.scalars ++ [negRand * b.opening.z1 - acc.sgRandI]
  guard (1 + s.length ≤ scalars.length)
  let scalars := addInto scalars 1 acc.sgRandI s
  let scalars := scalars.modify 0 (· - acc.randI * b.opening.z2)
  let scalars := scalars ++ [negRand * b.opening.z1 * b0]
  let points := points ++ [u]
  let rc := c * acc.randI
  let (points, scalars) := (List.zip b.opening.lr chals).foldl (fun (s : List G × List F) x =>
    (s.1 ++ [x.1.1, x.1.2], s.2 ++ [rc * x.2⁻¹, rc * x.2])) (points, scalars)
  let (points, scalars, _) := ipaCommitTerms b.xi rc b.evaluation (points, scalars, 1)
  let scalars := scalars ++ [rc * cip, acc.randI]
  let points := points ++ [u, b.opening.delta]
  pure ⟨points, scalars, acc.randI * rand, acc.sgRandI * sgRand⟩

/-- `verify_eval` (lines 645-755) with the random elements `rand` and `sgRand` -/
def ipaVerify {S : Type} [DecidableEq G] (sp : IpaSponge F G S) (prm : IpaParams G) (rand sgRand : F)
    (batches : List (IpaBatch F G S)) : Option Bool := do
  let size := 2 ^ Nat.clog 2 prm.g.length
  let acc ← batches.foldlM (ipaVerifyStep sp prm.g.length rand sgRand)
    ⟨prm.h :: prm.g ++ List.replicate (size - prm.g.length) 0, List.replicate (size + 1) 0, 1, 1⟩
  let total ← multiexp acc.points acc.scalars
  pure (decide (total = 0))

end

end Crypto3Zk
