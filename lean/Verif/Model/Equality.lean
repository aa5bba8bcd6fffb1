import Verif.Model.LPC
import Verif.Model.Placeholder

/-!
# The comparison operators of parameters, proofs and constraint systems

Models the `operator==` of `basic_batched_fri::params_type`, of the FRI, LPC and placeholder proofs and
of `plonk_constraint_system` with its gates, and the counters of `plonk_constraint_system`. `==` on field
elements, Merkle roots and Merkle paths (external) is equality. `math::polynomial::operator==` (external)
compares the vectors of coefficients.
-/

namespace Crypto3Zk

/-- `std::vector::operator==`: the sizes, and then element by element. For a `std::map` the elements are
the pairs of keys and values in the order of the keys (used in plonk/constraint_system.hpp:309-310). -/
def vecEq {α : Type} (eq : α → α → Bool) : List α → List α → Bool
  | [], [] => true
  | a :: as, b :: bs => eq a b && vecEq eq as bs
  | _, _ => false

section fri
variable {F : Type} [Field F] [DecidableEq F]

/-- the loop over the domains (basic_fri.hpp:207-211): the elements number one are compared -/
def domainsEq : List (FriDomain F) → List (FriDomain F) → Bool
  | [], _ => true
  | _, [] => true
  | D :: Ds, E :: Es => if D.elem 1 ≠ E.elem 1 then false else domainsEq Ds Es

/-- `params_type::operator==` (basic_fri.hpp:203-222). `expand` and `expand'` are the members
`expand_factor`, which nothing else reads; the modulus belongs to the type. -/
def FriParams.eqv (p q : FriParams F) (expand expand' : Nat) : Bool :=
  if p.D.length ≠ q.D.length then false
  else if !domainsEq p.D q.D then false
  else if p.useGrinding && q.useGrinding && decide (p.grindingParameter ≠ q.grindingParameter) then false
  else decide (p.r = q.r) && decide (p.maxDegree = q.maxDegree) && decide (p.stepList = q.stepList)
    && decide (expand = expand') && decide (p.lambda = q.lambda) && decide (p.useGrinding = q.useGrinding)

variable {Root Path : Type} [DecidableEq Root] [DecidableEq Path]

/-- `round_proof_type::operator==` (basic_fri.hpp:241-243) -/
def FriRoundProof.eqv (a b : FriRoundProof F Path) : Bool := decide (a.p = b.p) && decide (a.y = b.y)

/-- `initial_proof_type::operator==` (basic_fri.hpp:255-257) -/
def FriInitialProof.eqv (a b : FriInitialProof F Path) : Bool :=
  decide (a.values = b.values) && decide (a.p = b.p)

/-- `query_proof_type::operator==` (basic_fri.hpp:268-270) -/
def FriQueryProof.eqv (a b : FriQueryProof F Path) : Bool :=
  vecEq (fun x y => decide (x.1 = y.1) && x.2.eqv y.2) a.initialProof b.initialProof
    && vecEq FriRoundProof.eqv a.roundProofs b.roundProofs

/-- `proof_type::operator==` of FRI (basic_fri.hpp:280-287). The comparison of `proof_of_work` is
commented out. -/
def FriProof.eqv (a b : FriProof F Root Path) : Bool :=
  decide (a.friRoots = b.friRoots) && vecEq FriQueryProof.eqv a.queryProofs b.queryProofs
    && decide (a.finalPolynomial = b.finalPolynomial)

/-- `proof_type::operator==` of LPC (lpc.hpp:366-368) with `eval_storage::operator==`
(eval_storage.hpp:42-44) -/
def lpcProofEq (a b : EvalStorage F × FriProof F Root Path) : Bool :=
  a.2.eqv b.2 && decide (a.1 = b.1)

/-- `placeholder_proof::operator==` (placeholder/proof.hpp:71-73, 85-89) with the LPC scheme -/
def PlaceholderProof.eqv (a b : PlaceholderProof F Root (FriProof F Root Path)) : Bool :=
  decide (a.commitments = b.commitments)
    && (decide (a.challenge = b.challenge) && lpcProofEq a.eval b.eval)

end fri

section plonk
variable {F : Type} [Field F] [DecidableEq F]

/-- `plonk_gate::operator==` (plonk/gate.hpp:60-62) -/
def Gate.eqv (a b : Gate F) : Bool :=
  decide (a.selectorIndex = b.selectorIndex) && vecEq Expr.beq a.constraints b.constraints

/-- `plonk_copy_constraint` `operator==` (plonk/copy_constraint.hpp:69-72) -/
def copyEq (a b : PlonkVar × PlonkVar) : Bool := a.1.beq b.1 && a.2.beq b.2

/-- `plonk_lookup_constraint::operator==` (plonk/lookup_constraint.hpp:50-52) -/
def LookupConstraint.eqv (a b : LookupConstraint F) : Bool :=
  decide (a.tableId = b.tableId) && vecEq Expr.beq a.input b.input

/-- `plonk_lookup_gate::operator==` (plonk/lookup_gate.hpp:60-62) -/
def LookupGate.eqv (a b : LookupGate F) : Bool :=
  decide (a.tagIndex = b.tagIndex) && vecEq LookupConstraint.eqv a.constraints b.constraints

/-- `plonk_lookup_table::operator==` (plonk/lookup_table.hpp:51-54) -/
def LookupTable.eqv (a b : LookupTable) : Bool :=
  decide (a.tagIndex = b.tagIndex) && decide (a.columnsNumber = b.columnsNumber)
    && vecEq (vecEq PlonkVar.beq) a.options b.options

/-- `plonk_constraint_system::operator==` (plonk/constraint_system.hpp:308-312) -/
def Circuit.eqv (a b : Circuit F) : Bool :=
  vecEq Gate.eqv a.gates b.gates && vecEq copyEq a.copies b.copies
    && vecEq LookupGate.eqv a.lookups.gates b.lookups.gates
    && vecEq LookupTable.eqv a.lookups.tables b.lookups.tables
    && decide (a.publicInputSizes = b.publicInputSizes)

/-! ## counters -/

/-- Conversion of a `std::size_t` to `int` (two's complement) (plonk/constraint_system.hpp:113). -/
def sizeToInt (n : Nat) : Int :=
  if n % 2 ^ 32 < 2 ^ 31 then (n % 2 ^ 32 : Nat) else ((n % 2 ^ 32 : Nat) : Int) - 2 ^ 32

/-- Conversion of an `int` to `std::size_t` (plonk/constraint_system.hpp:113). -/
def intToSize (i : Int) : Nat := (i % 2 ^ 64).toNat

/-- `public_input_total_size` (plonk/constraint_system.hpp:112-114): the initial value `0` makes
`std::accumulate` keep the sum in an `int`. -/
def Circuit.publicInputTotal (c : Circuit F) : Nat :=
  intToSize (c.publicInputSizes.foldl (fun acc s => sizeToInt ((intToSize acc + s) % 2 ^ 64)) 0)

/-- `lookup_options_num` (plonk/constraint_system.hpp:172-178) -/
def LookupSystem.optionsNum (sys : LookupSystem F) : Nat :=
  sys.tables.foldl (fun r t => (r + t.options.length) % 2 ^ 64) 0

/-- `lookup_constraints_num` (plonk/constraint_system.hpp:180-186) -/
def LookupSystem.constraintsNum (sys : LookupSystem F) : Nat :=
  sys.gates.foldl (fun r g => (r + g.constraints.length) % 2 ^ 64) 0

/-- `lookup_expressions_num` (plonk/constraint_system.hpp:188-196) -/
def LookupSystem.expressionsNum (sys : LookupSystem F) : Nat :=
  sys.gates.foldl (fun r g => g.constraints.foldl (fun r c => (r + c.input.length) % 2 ^ 64) r) 0

/-- `lookup_tables_columns_num` (plonk/constraint_system.hpp:198-204); `none` is the access to the first
option of a table without options. -/
def LookupSystem.tablesColumnsNum (sys : LookupSystem F) : Option Nat :=
  sys.tables.foldlM (fun r t => do
    let o ← t.options[0]?
    some ((r + o.length * t.options.length) % 2 ^ 64)) 0

/-- `sorted_lookup_columns_number` (plonk/constraint_system.hpp:165-170) -/
def LookupSystem.sortedColumnsNum (sys : LookupSystem F) : Nat :=
  if sys.gates.length = 0 then 0 else (sys.optionsNum + sys.constraintsNum) % 2 ^ 64

/-- `append_option` (plonk/lookup_table.hpp:63-66); `none` is the failed assertion. -/
def LookupTable.appendOption (t : LookupTable) (o : List PlonkVar) : Option LookupTable :=
  if o.length = t.columnsNumber then some { t with options := t.options ++ [o] } else none

end plonk

end Crypto3Zk
