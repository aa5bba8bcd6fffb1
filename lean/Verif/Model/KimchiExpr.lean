import Mathlib.Algebra.Field.Defs
import Mathlib.Data.Int.Init

/-!
# Expressions in Polish notation (`plonk/pickles/expr.hpp`, `permutation.hpp`)

Line numbers are those of `expr.hpp` unless another file is named. `none` is undefined behaviour or a failed
assertion: reading from an empty stack, an index outside an array, a division by zero.

The constructor of tokens for the Lagrange basis (lines 150-151) initialises the member `token` with
itself; a token is modelled as what it is meant to be.
-/

namespace Crypto3Zk

variable {F : Type} [Field F]

/-- `lookup_evaluation_type` (`proof.hpp`, lines 41-54) -/
structure LookupEvals (V : Type) where
  sorted : List V
  aggreg : V
  table : V
  runtime : V
  runtimeUsed : Bool

/-- `base_proof_evaluation_type` (`proof.hpp`, lines 56-77) -/
structure KEvals (V : Type) where
  w : Fin 15 → V
  z : V
  s : Fin 6 → V
  lookup : LookupEvals V
  lookupUsed : Bool
  genericSelector : V
  poseidonSelector : V

/-- `gate_type` (`detail.hpp`, lines 60-90) -/
inductive KGate where
  | zero | generic | poseidon | completeAdd | varBaseMul | endoMul | endoMulScalar
  | chaCha0 | chaCha1 | chaCha2 | chaChaFinal | lookup
  | cairoClaim | cairoInstruction | cairoFlags | cairoTransition | rangeCheck0 | rangeCheck1
deriving DecidableEq

/-- `Column` (lines 31-59) -/
inductive KColumn where
  | witness (i : Nat)
  | z
  | lookupSorted (i : Nat)
  | lookupAggreg
  | lookupTable
  | lookupKindIndex (k : Nat)
  | lookupRuntimeSelector
  | lookupRuntimeTable
  | index (g : KGate)
  | coefficient (i : Nat)
deriving DecidableEq

/-- `Variable` (lines 66-73); `next` is `row == CurrOrNext::Next` -/
structure KVariable where
  col : KColumn
  next : Bool

/-- `variable_evaluate` (lines 75-105); `cur` and `nxt` are `evals[0]` and `evals[1]` -/
def variableEvaluate (v : KVariable) (cur nxt : KEvals F) : Option F :=
  let e := if v.next then nxt else cur
  match v.col with
  | .witness i => if h : i < 15 then some (e.w ⟨i, h⟩) else none
  | .z => some e.z
  | .lookupSorted i => e.lookup.sorted[i]?
  | .lookupAggreg => some e.lookup.aggreg
  | .lookupTable => some e.lookup.table
  | .lookupRuntimeTable => some e.lookup.runtime
  | .index .poseidon => some e.poseidonSelector
  | .index .generic => some e.genericSelector
  | _ => some 0

/-- what is used of `basic_radix2_domain`: the size and the generator -/
structure KDomain (F : Type) where
  size : Nat
  omega : F

/-- `eval_vanishes_on_last_4_rows` (`permutation.hpp`, lines 10-19); `ZK_ROWS` is 3 -/
def evalVanishesOnLast4Rows (d : KDomain F) (x : F) : F :=
  let w4 := d.omega ^ (d.size - (3 + 1))
  let w3 := d.omega * w4
  let w2 := d.omega * w3
  let w1 := d.omega * w2
  (x - w1) * (x - w2) * (x - w3) * (x - w4)

/-- `unnormalized_lagrange_basis` (lines 14-20) -/
def unnormalizedLagrangeBasis [DecidableEq F] (d : KDomain F) (i : Int) (pt : F) : Option F :=
  let omegaI := if i < 0 then (d.omega ^ (-i).toNat)⁻¹ else d.omega ^ i.toNat
  if pt - omegaI = 0 then none else some ((pt ^ d.size - 1) / (pt - omegaI))

/-- `Constants` (`detail.hpp`, lines 43-58) -/
structure KConstants (F : Type) where
  alpha : F
  beta : F
  gamma : F
  jointCombiner : F
  endoCoefficient : F
  mds : Fin 3 → Fin 3 → F

/-- `PolishToken` (lines 107-151) -/
inductive PolishToken (F : Type) where
  | alpha | beta | gamma | jointCombiner | endoCoefficient
  | mds (row col : Nat)
  | literal (x : F)
  | cell (v : KVariable)
  | dup
  | pow (n : Nat)
  | add | mul | sub
  | vanishesOnLast4Rows
  | unnormalizedLagrangeBasis (i : Int)
  | store
  | load (i : Nat)

/-- what is the same for all tokens of an evaluation (the arguments of `evaluate`, line 153) -/
structure KEnv (F : Type) where
  domain : KDomain F
  pt : F
  cur : KEvals F
  nxt : KEvals F
  c : KConstants F

/-- one iteration of the loop of `evaluate` (lines 159-231); the head of the list is the top of the
stack -/
def polishStep [DecidableEq F] (env : KEnv F) (s : List F × List F) (t : PolishToken F) :
    Option (List F × List F) :=
  let push (x : F) : Option (List F × List F) := some (x :: s.1, s.2)
  match t with
  | .alpha => push env.c.alpha
  | .beta => push env.c.beta
  | .gamma => push env.c.gamma
  | .jointCombiner => push env.c.jointCombiner
  | .endoCoefficient => push env.c.endoCoefficient
  | .mds i j => if h : i < 3 ∧ j < 3 then push (env.c.mds ⟨i, h.1⟩ ⟨j, h.2⟩) else none
  | .vanishesOnLast4Rows => push (evalVanishesOnLast4Rows env.domain env.pt)
  | .unnormalizedLagrangeBasis i => (unnormalizedLagrangeBasis env.domain i env.pt).bind push
  | .literal x => push x
  | .dup => s.1.head?.bind push
  | .cell v => (variableEvaluate v env.cur env.nxt).bind push
  | .pow n =>
    match s.1 with
    | x :: rest => some ((x ^ n) :: rest, s.2)
    | [] => none
  | .add =>
    match s.1 with
    | y :: x :: rest => some ((x + y) :: rest, s.2)
    | _ => none
  | .mul =>
    match s.1 with
    | y :: x :: rest => some ((x * y) :: rest, s.2)
    | _ => none
  | .sub =>
    match s.1 with
    | y :: x :: rest => some ((x - y) :: rest, s.2)
    | _ => none
  | .store =>
    match s.1 with
    | x :: _ => some (s.1, s.2 ++ [x])
    | [] => none
  | .load i => s.2[i]?.bind push

/-- `evaluate` (lines 153-236) -/
def polishEvaluate [DecidableEq F] (env : KEnv F) (toks : List (PolishToken F)) : Option F := do
  let s ← toks.foldlM (polishStep env) ([], [])
  match s.1 with
  | [x] => some x
  | _ => none

end Crypto3Zk
