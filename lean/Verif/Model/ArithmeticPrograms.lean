import Verif.Model.Poly
import Verif.Model.R1CS
import Verif.Model.Circuits

/-!
# Model of the QAP, SAP and SSP reductions

* `snark/reductions/r1cs_to_qap.hpp`, `snark/arithmetization/arithmetic_programs/qap.hpp`
* `snark/reductions/r1cs_to_sap.hpp`, `snark/arithmetization/arithmetic_programs/sap.hpp`
* `snark/reductions/uscs_to_ssp.hpp`, `snark/arithmetization/arithmetic_programs/ssp.hpp`

The evaluation domain is the parameter `D : EvalDomain F` (see `Verif/Model/Poly.lean`). The loops
that fill `At`, `A_in_Lagrange_basis`, `aA`, … are written as the list of their writes, in program
order, followed by an interpreter that performs the writes with bounds checks; each of the three
vectors `A`, `B`, `C` is filled by its own list because the writes to different vectors do not
interact. `none` is an out-of-bounds access. The `assert`s are debug-only and not modelled.
-/

namespace Crypto3Zk

variable {F : Type*} [Field F]

/-- One write `X[target][row] += coeff` (Lagrange basis) or `Xt[target] += u[row] * coeff`
(evaluated) (r1cs_to_qap.hpp:103-113, 166). -/
structure Upd (F : Type*) where
  target : Nat
  row : Nat
  coeff : F

/-- performing the writes `Xt[target] += u[row] * coeff` (as in r1cs_to_qap.hpp:166) -/
def runEval (u : List F) (l : List F) (ups : List (Upd F)) : Option (List F) :=
  ups.foldlM (fun acc w => u[w.row]?.bind fun ui => addAt acc w.target (ui * w.coeff)) l

/-- `m[k] += c` on a `std::map` (an absent key starts from zero). The map is an association list;
the iteration order of `std::map` only changes the order of a sum (the maps of qap.hpp:135-147). -/
def mapAdd : List (Nat × F) → Nat → F → List (Nat × F)
  | [], k, c => [(k, c)]
  | (k', v) :: r, k, c => if k' = k then (k', v + c) :: r else (k', v) :: mapAdd r k c

/-- performing the writes `X[target][row] += coeff` on a vector of maps (as in r1cs_to_qap.hpp:103-113) -/
def runMaps (v : List (List (Nat × F))) (ups : List (Upd F)) : Option (List (List (Nat × F))) :=
  ups.foldlM (fun acc w => acc[w.target]?.map fun m => acc.set w.target (mapAdd m w.row w.coeff)) v

/-- performing the writes `aX[row] += value` of a witness map (as in r1cs_to_qap.hpp:246) -/
def runRows (l : List F) (ups : List (Nat × F)) : Option (List F) :=
  ups.foldlM (fun acc w => addAt acc w.1 w.2) l

/-- `Xt[i] += u[el.first] * el.second` over the entries of one map, from zero
(qap.hpp:135-147). -/
def evalMap (u : List F) (m : List (Nat × F)) : Option F :=
  m.foldlM (fun acc el => u[el.1]?.map fun ui => acc + ui * el.2) 0

/-- the loop over all variables (qap.hpp:135-147, sap.hpp:131-139, ssp.hpp:125-129) -/
def evalMaps (u : List F) (v : List (List (Nat × F))) (n : Nat) : Option (List F) :=
  (List.range n).mapM fun i => v[i]?.bind fun m => evalMap u m

/-- `times_four` (r1cs_to_sap.hpp:71-74) -/
def timesFour (x : F) : F := (x + x) + (x + x)

/-! ## QAP -/

/-- `qap_instance` without the domain (qap.hpp:76-102) -/
structure QapInstance (F : Type*) where
  numVariables : Nat
  degree : Nat
  numInputs : Nat
  A : List (List (Nat × F))
  B : List (List (Nat × F))
  C : List (List (Nat × F))

/-- `qap_instance_evaluation` without the domain (qap.hpp:183-213) -/
structure QapEval (F : Type*) where
  numVariables : Nat
  degree : Nat
  numInputs : Nat
  t : F
  At : List F
  Bt : List F
  Ct : List F
  Ht : List F
  Zt : F

/-- `qap_witness` (qap.hpp:309-335) -/
structure QapWitness (F : Type*) where
  numVariables : Nat
  degree : Nat
  numInputs : Nat
  d1 : F
  d2 : F
  d3 : F
  coefficientsForABCs : List F
  coefficientsForH : List F

/-- `ans_X` (qap.hpp:270-289): `Xt[0] + d * Zt + inner_product(Xt[1..], w)`; the sizes have been
checked by the caller. -/
def ansOf (Xt : List F) (d Zt : F) (w : List F) : F :=
  (Xt.getD 0 0 + d * Zt) + innerProduct (Xt.drop 1) w

/-- `qap_instance_evaluation::is_satisfied` (qap.hpp:235-300) -/
def QapEval.isSatisfied [DecidableEq F] (D : EvalDomain F) (q : QapEval F) (w : QapWitness F) :
    Bool :=
  if q.numVariables ≠ w.numVariables then false
  else if q.degree ≠ w.degree then false
  else if q.numInputs ≠ w.numInputs then false
  else if q.numVariables ≠ w.coefficientsForABCs.length then false
  else if q.degree + 1 ≠ w.coefficientsForH.length then false
  else if q.At.length ≠ q.numVariables + 1 ∨ q.Bt.length ≠ q.numVariables + 1 ∨
      q.Ct.length ≠ q.numVariables + 1 then false
  else if q.Ht.length ≠ q.degree + 1 then false
  else if q.Zt ≠ D.vanishing q.t then false
  else
    let ansA := ansOf q.At w.d1 q.Zt w.coefficientsForABCs
    let ansB := ansOf q.Bt w.d2 q.Zt w.coefficientsForABCs
    let ansC := ansOf q.Ct w.d3 q.Zt w.coefficientsForABCs
    let ansH := 0 + innerProduct q.Ht w.coefficientsForH
    if ansA * ansB - ansC ≠ ansH * q.Zt then false else true

/-- `qap_instance::is_satisfied` (qap.hpp:123-166) with the random point `t` as a parameter:
the instance evaluated at `t`. -/
def QapInstance.evalAt (D : EvalDomain F) (q : QapInstance F) (t : F) : Option (QapEval F) := do
  let u := D.lagrange t
  let At ← evalMaps u q.A (q.numVariables + 1)
  let Bt ← evalMaps u q.B (q.numVariables + 1)
  let Ct ← evalMaps u q.C (q.numVariables + 1)
  pure { numVariables := q.numVariables, degree := q.degree, numInputs := q.numInputs, t,
         At, Bt, Ct, Ht := powersFrom t 1 (q.degree + 1), Zt := D.vanishing t }

namespace R1CS

/-- the writes of one side of the constraints: `X[index][i] += coeff`
(r1cs_to_qap.hpp:101-116) -/
def qapSideWrites (side : R1CSConstraint F → LinComb F) (cs : R1CS F) : List (Upd F) :=
  cs.constraints.zipIdx.flatMap fun (k, i) => (side k).map fun lt => ⟨lt.index, i, lt.coeff⟩

/-- the writes to `A_in_Lagrange_basis` (r1cs_to_qap.hpp:97-116). The assignments
`A[i][num_constraints + i] = 1` are to entries that do not exist yet, hence written as `+=`. -/
def qapAWrites (cs : R1CS F) : List (Upd F) :=
  ((List.range (cs.numInputs + 1)).map fun i => ⟨i, cs.numConstraints + i, 1⟩) ++
    cs.qapSideWrites R1CSConstraint.a

/-- `r1cs_to_qap::instance_map` (r1cs_to_qap.hpp:80-121) -/
def qapInstance (D : EvalDomain F) (cs : R1CS F) : Option (QapInstance F) := do
  let A ← runMaps (List.replicate (cs.numVariables + 1) []) cs.qapAWrites
  let B ← runMaps (List.replicate (cs.numVariables + 1) []) (cs.qapSideWrites R1CSConstraint.b)
  let C ← runMaps (List.replicate (cs.numVariables + 1) []) (cs.qapSideWrites R1CSConstraint.c)
  pure { numVariables := cs.numVariables, degree := D.m, numInputs := cs.numInputs, A, B, C }

/-- the writes `Xt[index] += u[i] * coeff` (r1cs_to_qap.hpp:164-176) -/
def qapSideEvalWrites (side : R1CSConstraint F → LinComb F) (cs : R1CS F) : List (Upd F) :=
  cs.constraints.zipIdx.flatMap fun (k, i) => (side k).map fun lt => ⟨lt.index, i, lt.coeff⟩

/-- the writes to `At` (r1cs_to_qap.hpp:160-176); `At[i] = u[num_constraints + i]` assigns to an
entry that is still zero. -/
def qapAEvalWrites (cs : R1CS F) : List (Upd F) :=
  ((List.range (cs.numInputs + 1)).map fun i => ⟨i, cs.numConstraints + i, 1⟩) ++
    cs.qapSideEvalWrites R1CSConstraint.a

/-- `r1cs_to_qap::instance_map_with_evaluation` (r1cs_to_qap.hpp:138-187) -/
def qapEval (D : EvalDomain F) (cs : R1CS F) (t : F) : Option (QapEval F) := do
  let u := D.lagrange t
  let At ← runEval u (List.replicate (cs.numVariables + 1) 0) cs.qapAEvalWrites
  let Bt ← runEval u (List.replicate (cs.numVariables + 1) 0)
    (cs.qapSideEvalWrites R1CSConstraint.b)
  let Ct ← runEval u (List.replicate (cs.numVariables + 1) 0)
    (cs.qapSideEvalWrites R1CSConstraint.c)
  pure { numVariables := cs.numVariables, degree := D.m, numInputs := cs.numInputs, t,
         At, Bt, Ct, Ht := powersFrom t 1 (D.m + 1), Zt := D.vanishing t }

/-- `aX[i] += constraints[i].x.evaluate(full)` (r1cs_to_qap.hpp:245-248, 288-291) -/
def qapSideRows (side : R1CSConstraint F → LinComb F) (cs : R1CS F) (full : List F) :
    Option (List (Nat × F)) :=
  cs.constraints.zipIdx.mapM fun (k, i) => (LinComb.evaluate (side k) full).map fun v => (i, v)

/-- `aA[i + num_constraints] = (i > 0 ? full[i - 1] : 1)` (r1cs_to_qap.hpp:240-243) -/
def qapInputRows (cs : R1CS F) (full : List F) : Option (List (Nat × F)) :=
  (List.range (cs.numInputs + 1)).mapM fun i =>
    (if i > 0 then full[i - 1]? else some 1).map fun v => (i + cs.numConstraints, v)

end R1CS

/-- The part of the witness maps that is common to the three reductions: given the numerator on
the coset, divide by `Z`, interpolate, shift back and add to the patch polynomial
(r1cs_to_qap.hpp:308-321, r1cs_to_sap.hpp:450-463, uscs_to_ssp.hpp:227-240). -/
def finishH (D : EvalDomain F) (patch num : List F) : List F :=
  let hTmp := D.divideByZOnCoset num
  let hTmp := D.inverseFft hTmp
  let hTmp := mulByCoset hTmp D.generator⁻¹
  List.zipWith (· + ·) patch (hTmp ++ [0])

/-- coefficients to values on the coset (r1cs_to_qap.hpp:266-276) -/
def toCoset (D : EvalDomain F) (a : List F) : List F := D.fft (mulByCoset a D.generator)

/-- `h[0] -= d` on a non-empty vector -/
def subHead (h : List F) (d : F) : List F :=
  match h with
  | [] => []
  | x :: r => (x - d) :: r

/-- `r1cs_to_qap::witness_map` (r1cs_to_qap.hpp:219-325) -/
def R1CS.qapWitness (D : EvalDomain F) (cs : R1CS F) (primary aux : List F) (d1 d2 d3 : F) :
    Option (QapWitness F) := do
  let full := primary ++ aux
  let zero := List.replicate D.m (0 : F)
  let aA ← runRows zero ((← cs.qapInputRows full) ++ (← cs.qapSideRows R1CSConstraint.a full))
  let aB ← runRows zero (← cs.qapSideRows R1CSConstraint.b full)
  let aA := D.inverseFft aA
  let aB := D.inverseFft aB
  let h := List.zipWith (fun a b => d2 * a + d1 * b) aA aB ++ [0]
  let h := subHead h d3
  let h := D.addPolyZ (d1 * d2) h
  let aA := toCoset D aA
  let aB := toCoset D aB
  let hTmp := List.zipWith (· * ·) aA aB
  let aC ← runRows zero (← cs.qapSideRows R1CSConstraint.c full)
  let aC := D.inverseFft aC
  let aC := toCoset D aC
  let hTmp := List.zipWith (· - ·) hTmp aC
  pure { numVariables := cs.numVariables, degree := D.m, numInputs := cs.numInputs, d1, d2, d3,
         coefficientsForABCs := full, coefficientsForH := finishH D h hTmp }

/-! ## SAP -/

/-- `sap_instance` (sap.hpp:76-110) -/
structure SapInstance (F : Type*) where
  numVariables : Nat
  degree : Nat
  numInputs : Nat
  A : List (List (Nat × F))
  C : List (List (Nat × F))

/-- `sap_instance_evaluation` (sap.hpp:174-198) -/
structure SapEval (F : Type*) where
  numVariables : Nat
  degree : Nat
  numInputs : Nat
  t : F
  At : List F
  Ct : List F
  Ht : List F
  Zt : F

/-- `sap_witness` (sap.hpp:285-305) -/
structure SapWitness (F : Type*) where
  numVariables : Nat
  degree : Nat
  numInputs : Nat
  d1 : F
  d2 : F
  coefficientsForACs : List F
  coefficientsForH : List F

/-- `sap_instance_evaluation::is_satisfied` (sap.hpp:219-276) -/
def SapEval.isSatisfied [DecidableEq F] (D : EvalDomain F) (q : SapEval F) (w : SapWitness F) :
    Bool :=
  if q.numVariables ≠ w.numVariables then false
  else if q.degree ≠ w.degree then false
  else if q.numInputs ≠ w.numInputs then false
  else if q.numVariables ≠ w.coefficientsForACs.length then false
  else if q.degree + 1 ≠ w.coefficientsForH.length then false
  else if q.At.length ≠ q.numVariables + 1 ∨ q.Ct.length ≠ q.numVariables + 1 then false
  else if q.Ht.length ≠ q.degree + 1 then false
  else if q.Zt ≠ D.vanishing q.t then false
  else
    let ansA := ansOf q.At w.d1 q.Zt w.coefficientsForACs
    let ansC := ansOf q.Ct w.d2 q.Zt w.coefficientsForACs
    let ansH := 0 + innerProduct q.Ht w.coefficientsForH
    if ansA * ansA - ansC ≠ ansH * q.Zt then false else true

/-- `sap_instance::is_satisfied` with the random point as a parameter (sap.hpp:117-157) -/
def SapInstance.evalAt (D : EvalDomain F) (q : SapInstance F) (t : F) : Option (SapEval F) := do
  let u := D.lagrange t
  let At ← evalMaps u q.A (q.numVariables + 1)
  let Ct ← evalMaps u q.C (q.numVariables + 1)
  pure { numVariables := q.numVariables, degree := q.degree, numInputs := q.numInputs, t,
         At, Ct, Ht := powersFrom t 1 (q.degree + 1), Zt := D.vanishing t }

namespace R1CS

/-- `sap_num_variables` (r1cs_to_sap.hpp:101) -/
def sapNumVariables (cs : R1CS F) : Nat := cs.numVariables + cs.numConstraints + cs.numInputs

/-- the size requested from `make_evaluation_domain` (r1cs_to_sap.hpp:81-93) -/
def sapDomainSize (cs : R1CS F) : Nat := 2 * cs.numConstraints + 2 * cs.numInputs + 1

/-- writes to `A_in_Lagrange_basis` (r1cs_to_sap.hpp:123-136, 175, 178-187); `-=` is `+=` of the
negation, and line 175 assigns to an entry that does not exist yet. -/
def sapAWrites (cs : R1CS F) : List (Upd F) :=
  (cs.constraints.zipIdx.flatMap fun (k, i) =>
    (k.a.flatMap fun lt => [⟨lt.index, 2 * i, lt.coeff⟩, ⟨lt.index, 2 * i + 1, lt.coeff⟩]) ++
    (k.b.flatMap fun lt => [⟨lt.index, 2 * i, lt.coeff⟩, ⟨lt.index, 2 * i + 1, -lt.coeff⟩])) ++
  [⟨0, 2 * cs.numConstraints, 1⟩] ++
  (List.range' 1 cs.numInputs).flatMap fun i =>
    [⟨i, 2 * cs.numConstraints + 2 * i - 1, 1⟩, ⟨0, 2 * cs.numConstraints + 2 * i - 1, 1⟩,
     ⟨i, 2 * cs.numConstraints + 2 * i, 1⟩, ⟨0, 2 * cs.numConstraints + 2 * i, -1⟩]

/-- writes to `C_in_Lagrange_basis` (r1cs_to_sap.hpp:138-144, 176, 181-189) -/
def sapCWrites (cs : R1CS F) : List (Upd F) :=
  (cs.constraints.zipIdx.flatMap fun (k, i) =>
    (k.c.map fun lt => ⟨lt.index, 2 * i, timesFour lt.coeff⟩) ++
    [⟨cs.numVariables + 1 + i, 2 * i, 1⟩, ⟨cs.numVariables + 1 + i, 2 * i + 1, 1⟩]) ++
  [⟨0, 2 * cs.numConstraints, 1⟩] ++
  (List.range' 1 cs.numInputs).flatMap fun i =>
    [⟨i, 2 * cs.numConstraints + 2 * i - 1, timesFour 1⟩,
     ⟨cs.numVariables + cs.numConstraints + i, 2 * cs.numConstraints + 2 * i - 1, 1⟩,
     ⟨cs.numVariables + cs.numConstraints + i, 2 * cs.numConstraints + 2 * i, 1⟩]

/-- `r1cs_to_sap::instance_map` (r1cs_to_sap.hpp:98-198) -/
def sapInstance (D : EvalDomain F) (cs : R1CS F) : Option (SapInstance F) := do
  let A ← runMaps (List.replicate (cs.sapNumVariables + 1) []) cs.sapAWrites
  let C ← runMaps (List.replicate (cs.sapNumVariables + 1) []) cs.sapCWrites
  pure { numVariables := cs.sapNumVariables, degree := D.m, numInputs := cs.numInputs, A, C }

/-- writes to `At` (r1cs_to_sap.hpp:226-239, 253, 256-263) -/
def sapAEvalWrites (cs : R1CS F) : List (Upd F) :=
  (cs.constraints.zipIdx.flatMap fun (k, i) =>
    (k.a.flatMap fun lt => [⟨lt.index, 2 * i, lt.coeff⟩, ⟨lt.index, 2 * i + 1, lt.coeff⟩]) ++
    (k.b.flatMap fun lt => [⟨lt.index, 2 * i, lt.coeff⟩, ⟨lt.index, 2 * i + 1, -lt.coeff⟩])) ++
  [⟨0, 2 * cs.numConstraints, 1⟩] ++
  (List.range' 1 cs.numInputs).flatMap fun i =>
    [⟨i, 2 * cs.numConstraints + 2 * i - 1, 1⟩, ⟨0, 2 * cs.numConstraints + 2 * i - 1, 1⟩,
     ⟨i, 2 * cs.numConstraints + 2 * i, 1⟩, ⟨0, 2 * cs.numConstraints + 2 * i, -1⟩]

/-- writes to `Ct` (r1cs_to_sap.hpp:241-247, 254, 259-264); `times_four(u * c)` is written
`u * times_four(c)`. -/
def sapCEvalWrites (cs : R1CS F) : List (Upd F) :=
  (cs.constraints.zipIdx.flatMap fun (k, i) =>
    (k.c.map fun lt => ⟨lt.index, 2 * i, timesFour lt.coeff⟩) ++
    [⟨cs.numVariables + 1 + i, 2 * i, 1⟩, ⟨cs.numVariables + 1 + i, 2 * i + 1, 1⟩]) ++
  [⟨0, 2 * cs.numConstraints, 1⟩] ++
  (List.range' 1 cs.numInputs).flatMap fun i =>
    [⟨i, 2 * cs.numConstraints + 2 * i - 1, timesFour 1⟩,
     ⟨cs.numVariables + cs.numConstraints + i, 2 * cs.numConstraints + 2 * i - 1, 1⟩,
     ⟨cs.numVariables + cs.numConstraints + i, 2 * cs.numConstraints + 2 * i, 1⟩]

/-- `r1cs_to_sap::instance_map_with_evaluation` (r1cs_to_sap.hpp:204-282) -/
def sapEval (D : EvalDomain F) (cs : R1CS F) (t : F) : Option (SapEval F) := do
  let u := D.lagrange t
  let At ← runEval u (List.replicate (cs.sapNumVariables + 1) 0) cs.sapAEvalWrites
  let Ct ← runEval u (List.replicate (cs.sapNumVariables + 1) 0) cs.sapCEvalWrites
  pure { numVariables := cs.sapNumVariables, degree := D.m, numInputs := cs.numInputs, t,
         At, Ct, Ht := powersFrom t 1 (D.m + 1), Zt := D.vanishing t }

/-- the extra variables `(a - b)^2`, one per constraint (r1cs_to_sap.hpp:338-349): evaluated on the
vector as extended so far, exactly as the code does -/
def sapExtend : List (R1CSConstraint F) → List F → Option (List F)
  | [], full => some full
  | k :: ks, full => do
    let extra := (← LinComb.evaluate k.a full) - (← LinComb.evaluate k.b full)
    sapExtend ks (full ++ [extra * extra])

/-- the extra variables `(x_i - 1)^2`, one per input (r1cs_to_sap.hpp:350-360) -/
def sapExtendInputs : List Nat → List F → Option (List F)
  | [], full => some full
  | i :: is, full => do
    let extra := (← full[i - 1]?) - 1
    sapExtendInputs is (full ++ [extra * extra])

/-- the writes to `aA` (r1cs_to_sap.hpp:365-383) -/
def sapARows (cs : R1CS F) (full : List F) : Option (List (Nat × F)) := do
  let rows ← cs.constraints.zipIdx.mapM fun (k, i) => do
    let a ← LinComb.evaluate k.a full
    let b ← LinComb.evaluate k.b full
    pure [(2 * i, a), (2 * i, b), (2 * i + 1, a), (2 * i + 1, -b)]
  let inputs ← (List.range' 1 cs.numInputs).mapM fun i => do
    let x ← full[i - 1]?
    pure [(2 * cs.numConstraints + 2 * i - 1, x), (2 * cs.numConstraints + 2 * i - 1, 1),
      (2 * cs.numConstraints + 2 * i, x), (2 * cs.numConstraints + 2 * i, -1)]
  pure (rows.flatten ++ [(2 * cs.numConstraints, 1)] ++ inputs.flatten)

/-- the writes to `aC` (r1cs_to_sap.hpp:416-433) -/
def sapCRows (cs : R1CS F) (full : List F) : Option (List (Nat × F)) := do
  let rows ← cs.constraints.zipIdx.mapM fun (k, i) => do
    let c ← LinComb.evaluate k.c full
    let e ← full[cs.numVariables + 1 + i - 1]?
    pure [(2 * i, timesFour c), (2 * i, e), (2 * i + 1, e)]
  let inputs ← (List.range' 1 cs.numInputs).mapM fun i => do
    let x ← full[i - 1]?
    let e ← full[cs.numVariables + cs.numConstraints + i - 1]?
    pure [(2 * cs.numConstraints + 2 * i - 1, timesFour x),
      (2 * cs.numConstraints + 2 * i - 1, e), (2 * cs.numConstraints + 2 * i, e)]
  pure (rows.flatten ++ [(2 * cs.numConstraints, 1)] ++ inputs.flatten)

/-- `r1cs_to_sap::witness_map` (r1cs_to_sap.hpp:313-472) -/
def sapWitness (D : EvalDomain F) (cs : R1CS F) (primary aux : List F) (d1 d2 : F) :
    Option (SapWitness F) := do
  let full := primary ++ aux
  let full ← sapExtend cs.constraints full
  let full ← sapExtendInputs (List.range' 1 cs.numInputs) full
  let zero := List.replicate D.m (0 : F)
  let aA ← runRows zero (← cs.sapARows full)
  let aA := D.inverseFft aA
  let h := (aA.map fun a => d1 * a + d1 * a) ++ [0]
  let h := subHead h d2
  let h := D.addPolyZ (d1 * d1) h
  let aA := toCoset D aA
  let hTmp := aA.map fun a => a * a
  let aC ← runRows zero (← cs.sapCRows full)
  let aC := D.inverseFft aC
  let aC := toCoset D aC
  let hTmp := List.zipWith (· - ·) hTmp aC
  pure { numVariables := cs.sapNumVariables, degree := D.m, numInputs := cs.numInputs, d1, d2,
         coefficientsForACs := full, coefficientsForH := finishH D h hTmp }

end R1CS

/-! ## SSP -/

/-- `ssp_instance` (ssp.hpp:75-93) -/
structure SspInstance (F : Type*) where
  numVariables : Nat
  degree : Nat
  numInputs : Nat
  V : List (List (Nat × F))

/-- `ssp_instance_evaluation` (ssp.hpp:162-185) -/
structure SspEval (F : Type*) where
  numVariables : Nat
  degree : Nat
  numInputs : Nat
  t : F
  Vt : List F
  Ht : List F
  Zt : F

/-- `ssp_witness` (ssp.hpp:270-289) -/
structure SspWitness (F : Type*) where
  numVariables : Nat
  degree : Nat
  numInputs : Nat
  d : F
  coefficientsForVs : List F
  coefficientsForH : List F

/-- `ssp_instance_evaluation::is_satisfied` (ssp.hpp:208-261) -/
def SspEval.isSatisfied [DecidableEq F] (D : EvalDomain F) (q : SspEval F) (w : SspWitness F) :
    Bool :=
  if q.numVariables ≠ w.numVariables then false
  else if q.degree ≠ w.degree then false
  else if q.numInputs ≠ w.numInputs then false
  else if q.numVariables ≠ w.coefficientsForVs.length then false
  else if q.degree + 1 ≠ w.coefficientsForH.length then false
  else if q.Vt.length ≠ q.numVariables + 1 then false
  else if q.Ht.length ≠ q.degree + 1 then false
  else if q.Zt ≠ D.vanishing q.t then false
  else
    let ansV := ansOf q.Vt w.d q.Zt w.coefficientsForVs
    let ansH := 0 + innerProduct q.Ht w.coefficientsForH
    if ansV * ansV - 1 ≠ ansH * q.Zt then false else true

/-- `ssp_instance::is_satisfied` with the random point as a parameter (ssp.hpp:114-146) -/
def SspInstance.evalAt (D : EvalDomain F) (q : SspInstance F) (t : F) : Option (SspEval F) := do
  let u := D.lagrange t
  let Vt ← evalMaps u q.V (q.numVariables + 1)
  pure { numVariables := q.numVariables, degree := q.degree, numInputs := q.numInputs, t,
         Vt, Ht := powersFrom t 1 (q.degree + 1), Zt := D.vanishing t }

namespace USCS

/-- writes to `V_in_Lagrange_basis` (uscs_to_ssp.hpp:82-90) -/
def sspWrites (D : EvalDomain F) (cs : USCS F) : List (Upd F) :=
  (cs.constraints.zipIdx.flatMap fun (k, i) => k.map fun lt => ⟨lt.index, i, lt.coeff⟩) ++
  (List.range' cs.numConstraints (D.m - cs.numConstraints)).map fun i => ⟨0, i, 1⟩

/-- `uscs_to_ssp::instance_map` (uscs_to_ssp.hpp:77-94) -/
def sspInstance (D : EvalDomain F) (cs : USCS F) : Option (SspInstance F) := do
  let V ← runMaps (List.replicate (cs.numVariables + 1) []) (cs.sspWrites D)
  pure { numVariables := cs.numVariables, degree := D.m, numInputs := cs.numInputs, V }

/-- writes to `Vt` (uscs_to_ssp.hpp:123-130) -/
def sspEvalWrites (D : EvalDomain F) (cs : USCS F) : List (Upd F) :=
  (cs.constraints.zipIdx.flatMap fun (k, i) => k.map fun lt => ⟨lt.index, i, lt.coeff⟩) ++
  (List.range' cs.numConstraints (D.m - cs.numConstraints)).map fun i => ⟨0, i, 1⟩

/-- `uscs_to_ssp::instance_map_with_evaluation` (uscs_to_ssp.hpp:109-145) -/
def sspEval (D : EvalDomain F) (cs : USCS F) (t : F) : Option (SspEval F) := do
  let u := D.lagrange t
  let Vt ← runEval u (List.replicate (cs.numVariables + 1) 0) (cs.sspEvalWrites D)
  pure { numVariables := cs.numVariables, degree := D.m, numInputs := cs.numInputs, t,
         Vt, Ht := powersFrom t 1 (D.m + 1), Zt := D.vanishing t }

/-- the writes to `aA` (uscs_to_ssp.hpp:192-197) -/
def sspRows (D : EvalDomain F) (cs : USCS F) (full : List F) : Option (List (Nat × F)) := do
  let rows ← cs.constraints.zipIdx.mapM fun (k, i) =>
    (LinComb.evaluate k full).map fun v => (i, v)
  pure (rows ++ (List.range' cs.numConstraints (D.m - cs.numConstraints)).map fun i => (i, 1))

/-- `uscs_to_ssp::witness_map` (uscs_to_ssp.hpp:174-248) -/
def sspWitness (D : EvalDomain F) (cs : USCS F) (primary aux : List F) (d : F) :
    Option (SspWitness F) := do
  let full := primary ++ aux
  let aA ← runRows (List.replicate D.m (0 : F)) (← cs.sspRows D full)
  let aA := D.inverseFft aA
  let h := (aA.map fun a => 2 * d * a) ++ [0]
  let h := D.addPolyZ (d * d) h
  let aA := toCoset D aA
  let hTmp := aA.map fun a => a * a - 1
  pure { numVariables := cs.numVariables, degree := D.m, numInputs := cs.numInputs, d,
         coefficientsForVs := full, coefficientsForH := finishH D h hTmp }

end USCS

end Crypto3Zk
