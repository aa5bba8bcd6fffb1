import Verif.Model.R1CS

/-!
# Model of the circuit satisfaction problems and their reductions

`snark/arithmetization/circuit_satisfaction_problems/{bacs,tbcs}.hpp`,
`snark/arithmetization/constraint_satisfaction_problems/uscs.hpp`,
`snark/reductions/{bacs_to_r1cs,tbcs_to_uscs}.hpp`.

These headers name the types `variable<FieldType>` and `linear_combination<FieldType>`, which in
this commit exist as `linear_variable<FieldType>` and
`linear_combination<linear_variable<FieldType>>`; the model uses those. Asserts are debug-only and
are not part of the model, except that `none` marks every out-of-bounds access.
-/

namespace Crypto3Zk

variable {F : Type*} [Field F] [DecidableEq F]

/-! ## Bilinear arithmetic circuits -/

/-- `bacs_gate` (bacs.hpp:64-81). -/
structure BacsGate (F : Type*) where
  lhs : LinComb F
  rhs : LinComb F
  output : Nat
  isCircuitOutput : Bool

/-- `bacs_gate::evaluate` (bacs.hpp:73-75). -/
def BacsGate.evaluate (g : BacsGate F) (input : List F) : Option F :=
  match LinComb.evaluate g.lhs input, LinComb.evaluate g.rhs input with
  | some l, some r => some (l * r)
  | _, _ => none

/-- `bacs_circuit` (bacs.hpp:110-118). -/
structure Bacs (F : Type*) where
  primaryInputSize : Nat
  auxiliaryInputSize : Nat
  gates : List (BacsGate F)

namespace Bacs

/-- `num_inputs` (bacs.hpp:120-122). -/
def numInputs (c : Bacs F) : Nat := c.primaryInputSize + c.auxiliaryInputSize

/-- `num_gates` (bacs.hpp:124-126). -/
def numGates (c : Bacs F) : Nat := c.gates.length

/-- `num_wires` (bacs.hpp:128-130). -/
def numWires (c : Bacs F) : Nat := c.numInputs + c.numGates

/-- the two inner loops of `wire_depths` over the terms of a side (bacs.hpp:139-145). -/
def maxDepth (depths : List Nat) (lc : LinComb F) (start : Nat) : Option Nat :=
  lc.foldlM (fun m t => (depths[t.index]?).map fun d => max m d) start

/-- one round of the gate loop of `wire_depths` (bacs.hpp:137-148). -/
def depthStep (depths : List Nat) (g : BacsGate F) : Option (List Nat) :=
  match maxDepth depths g.lhs 0 with
  | none => none
  | some m => match maxDepth depths g.rhs m with
    | none => none
    | some m' => some (depths ++ [m' + 1])

/-- `wire_depths` (bacs.hpp:132-151). -/
def wireDepths (c : Bacs F) : Option (List Nat) :=
  c.gates.foldlM depthStep (0 :: List.replicate c.numInputs 1)

/-- `depth` (bacs.hpp:153-156): the maximum; the vector always holds the constant wire. -/
def depth (c : Bacs F) : Option Nat := c.wireDepths.bind fun ds => ds.max?

/-- the loop of `is_valid` from gate number `i` on (bacs.hpp:159-175). -/
def validFrom (numInputs : Nat) (i : Nat) : List (BacsGate F) → Option Bool
  | [] => some true
  | g :: gs =>
    if g.output ≠ 1 + numInputs + i then some false
    else match LinComb.isValid g.lhs g.output with
      | none => none
      | some false => some false
      | some true => match LinComb.isValid g.rhs g.output with
        | none => none
        | some false => some false
        | some true => validFrom numInputs (i + 1) gs

/-- `is_valid` (bacs.hpp:158-178). -/
def isValid (c : Bacs F) : Option Bool := validFrom c.numInputs 0 c.gates

/-- the gate loop of `get_all_wires` (bacs.hpp:223-226). -/
def runGates (wires : List F) (gs : List (BacsGate F)) : Option (List F) :=
  gs.foldlM (fun w g => (g.evaluate w).map fun v => w ++ [v]) wires

/-- `get_all_wires` (bacs.hpp:211-229). -/
def allWires (c : Bacs F) (primary aux : List F) : Option (List F) :=
  runGates (primary ++ aux) c.gates

/-- `get_all_outputs` (bacs.hpp:194-209); `index - 1` of wire 0 wraps around and is out of
bounds. -/
def allOutputs (c : Bacs F) (primary aux : List F) : Option (List F) :=
  (c.allWires primary aux).bind fun wires =>
    (c.gates.filter (·.isCircuitOutput)).mapM fun g =>
      if g.output = 0 then none else wires[g.output - 1]?

/-- `is_satisfied` (bacs.hpp:180-192). -/
def isSatisfied (c : Bacs F) (primary aux : List F) : Option Bool :=
  (c.allOutputs primary aux).map fun outs => outs.all fun v => decide (v = 0)

/-- `bacs_to_r1cs::instance_map` (bacs_to_r1cs.hpp:53-71). -/
def toR1CS (c : Bacs F) : R1CS F where
  primaryInputSize := c.primaryInputSize
  auxiliaryInputSize := c.auxiliaryInputSize + c.gates.length
  constraints :=
    (c.gates.map fun g => ⟨g.lhs, g.rhs, [LinComb.ofVar g.output]⟩) ++
    ((c.gates.filter (·.isCircuitOutput)).map fun g =>
      ⟨LinComb.ofConst 1, [LinComb.ofVar g.output], LinComb.ofConst 0⟩)

/-- `bacs_to_r1cs::witness_map` (bacs_to_r1cs.hpp:76-83). -/
def witnessMap (c : Bacs F) (primary aux : List F) : Option (List F) := c.allWires primary aux

end Bacs

/-! ## Two-input boolean circuits -/

/-- `tbcs_gate_type` (tbcs.hpp:71-88). -/
inductive TbcsGateType
  | const0 | and | xAndNotY | x | notXAndY | y | xor | or
  | nor | equiv | notY | ifYThenX | notX | ifXThenY | nand | const1
deriving DecidableEq, Repr

/-- the numeric value of the enumerator (tbcs.hpp:71-88). -/
def TbcsGateType.code : TbcsGateType → Nat
  | const0 => 0 | and => 1 | xAndNotY => 2 | x => 3 | notXAndY => 4 | y => 5 | xor => 6 | or => 7
  | nor => 8 | equiv => 9 | notY => 10 | ifYThenX => 11 | notX => 12 | ifXThenY => 13
  | nand => 14 | const1 => 15

/-- `tbcs_gate` (tbcs.hpp:103-112). -/
structure TbcsGate where
  leftWire : Nat
  rightWire : Nat
  type : TbcsGateType
  output : Nat
  isCircuitOutput : Bool

/-- a wire read in `tbcs_gate::evaluate` (tbcs.hpp:120-121). -/
def TbcsGate.readWire (input : List Bool) (w : Nat) : Option Bool :=
  if w = 0 then some true else input[w - 1]?

/-- bit selection in `tbcs_gate::evaluate` (tbcs.hpp:123-125). -/
def TbcsGateType.bit (t : TbcsGateType) (x y : Bool) : Bool :=
  (t.code &&& (1 <<< (3 - ((if x then 2 else 0) + (if y then 1 else 0))))) != 0

/-- `tbcs_gate::evaluate` (tbcs.hpp:114-126). -/
def TbcsGate.evaluate (g : TbcsGate) (input : List Bool) : Option Bool :=
  match readWire input g.leftWire, readWire input g.rightWire with
  | some x, some y => some (g.type.bit x y)
  | _, _ => none

/-- `tbcs_circuit` (tbcs.hpp:159-166). -/
structure Tbcs where
  primaryInputSize : Nat
  auxiliaryInputSize : Nat
  gates : List TbcsGate

namespace Tbcs

/-- `num_inputs` (tbcs.hpp:168-170). -/
def numInputs (c : Tbcs) : Nat := c.primaryInputSize + c.auxiliaryInputSize

/-- one round of `wire_depths` (tbcs.hpp:184): both reads use the one-based wire number on a
vector that has no entry for the constant wire. -/
def depthStep (depths : List Nat) (g : TbcsGate) : Option (List Nat) :=
  match depths[g.leftWire]?, depths[g.rightWire]? with
  | some l, some r => some (depths ++ [max l r + 1])
  | _, _ => none

/-- `wire_depths` (tbcs.hpp:180-188). -/
def wireDepths (c : Tbcs) : Option (List Nat) :=
  c.gates.foldlM depthStep (List.replicate c.numInputs 1)

/-- the loop of `is_valid` (tbcs.hpp:196-211). -/
def validFrom (numInputs : Nat) (i : Nat) : List TbcsGate → Bool
  | [] => true
  | g :: gs =>
    if g.output ≠ numInputs + i + 1 then false
    else if g.leftWire ≥ g.output ∨ g.rightWire ≥ g.output then false
    else validFrom numInputs (i + 1) gs

/-- `is_valid` (tbcs.hpp:195-214). -/
def isValid (c : Tbcs) : Bool := validFrom c.numInputs 0 c.gates

/-- the gate loop of `get_all_wires` (tbcs.hpp:239-242). -/
def runGates (wires : List Bool) (gs : List TbcsGate) : Option (List Bool) :=
  gs.foldlM (fun w g => (g.evaluate w).map fun v => w ++ [v]) wires

/-- `get_all_wires` (tbcs.hpp:228-245). -/
def allWires (c : Tbcs) (primary aux : List Bool) : Option (List Bool) :=
  runGates (primary ++ aux) c.gates

/-- `get_all_outputs` (tbcs.hpp:247-259). -/
def allOutputs (c : Tbcs) (primary aux : List Bool) : Option (List Bool) :=
  (c.allWires primary aux).bind fun wires =>
    (c.gates.filter (·.isCircuitOutput)).mapM fun g =>
      if g.output = 0 then none else wires[g.output - 1]?

/-- `is_satisfied` (tbcs.hpp:216-226). -/
def isSatisfied (c : Tbcs) (primary aux : List Bool) : Option Bool :=
  (c.allOutputs primary aux).map fun outs => outs.all fun v => !v

end Tbcs

/-! ## Unitary-square constraint systems -/

/-- `uscs_constraint_system` (uscs.hpp:90-97); a constraint is a linear combination. -/
structure USCS (F : Type*) where
  primaryInputSize : Nat
  auxiliaryInputSize : Nat
  constraints : List (LinComb F)

namespace USCS

/-- `num_inputs` (uscs.hpp:99-101). -/
def numInputs (cs : USCS F) : Nat := cs.primaryInputSize

/-- `num_variables` (uscs.hpp:103-105). -/
def numVariables (cs : USCS F) : Nat := cs.primaryInputSize + cs.auxiliaryInputSize

/-- `num_constraints` (uscs.hpp:107-109). -/
def numConstraints (cs : USCS F) : Nat := cs.constraints.length

/-- the loop of `is_satisfied` (uscs.hpp:133-138). -/
def satisfiedLoop (full : List F) : List (LinComb F) → Option Bool
  | [] => some true
  | k :: ks =>
    match LinComb.evaluate k full with
    | none => none
    | some res => if res * res = 1 then satisfiedLoop full ks else some false

/-- `is_satisfied` (uscs.hpp:124-141). -/
def isSatisfied (cs : USCS F) (primary aux : List F) : Option Bool :=
  satisfiedLoop (primary ++ aux) cs.constraints

end USCS

namespace Tbcs

/-- the coefficients of the gate table of `instance_map` (tbcs_to_uscs.hpp:75-158): the factors
of the left wire, the right wire, the output wire, and the constant. -/
def gateCoeffs : TbcsGateType → ℤ × ℤ × ℤ × ℤ
  | .const0 => (0, 0, 1, 1)
  | .and => (-2, -2, 4, 1)
  | .xAndNotY => (-2, 2, 4, -1)
  | .x => (-1, 0, 1, 1)
  | .notXAndY => (2, -2, 4, -1)
  | .y => (0, 1, 1, -1)
  | .xor => (1, 1, 1, -1)
  | .or => (-2, -2, 4, -1)
  | .nor => (2, 2, 4, -3)
  | .equiv => (1, 1, 1, -2)
  | .notY => (0, -1, 1, 0)
  | .ifYThenX => (-2, 2, 4, -3)
  | .notX => (-1, 0, 1, 0)
  | .ifXThenY => (2, -2, 4, -3)
  | .nand => (2, 2, 4, -5)
  | .const1 => (0, 0, 1, 0)

/-- `a * x + b * y + c * z + d` as built by the operators of `linear_term` and
`linear_combination` (tbcs_to_uscs.hpp:71-79 and the other cases of the switch). -/
def gateConstraint (g : TbcsGate) : LinComb F :=
  let k := gateCoeffs g.type
  LinComb.add
    (LinComb.add
      (LinComb.add [LinComb.termScale (LinComb.ofVar g.leftWire) (k.1 : F)]
        [LinComb.termScale (LinComb.ofVar g.rightWire) (k.2.1 : F)])
      [LinComb.termScale (LinComb.ofVar g.output) (k.2.2.1 : F)])
    (LinComb.ofConst (k.2.2.2 : F))

/-- `2 * variable(i) - 1` (tbcs_to_uscs.hpp:165). -/
def booleanConstraint (i : Nat) : LinComb F :=
  LinComb.sub [LinComb.termScale (LinComb.ofVar i) 2] (LinComb.ofConst 1)

/-- `variable(g.output) + 1` (tbcs_to_uscs.hpp:172). -/
def outputConstraint (g : TbcsGate) : LinComb F := LinComb.varAdd g.output (LinComb.ofConst 1)

/-- `tbcs_to_uscs::instance_map` (tbcs_to_uscs.hpp:63-177). The booleanity loop runs over the
wire numbers `0 .. num_wires - 1`, as in the code (lines 161-166). -/
def toUSCS (F : Type*) [Field F] (c : Tbcs) : USCS F where
  primaryInputSize := c.primaryInputSize
  auxiliaryInputSize := c.auxiliaryInputSize + c.gates.length
  constraints :=
    c.gates.map gateConstraint ++
    (List.range (c.primaryInputSize + c.auxiliaryInputSize + c.gates.length)).map
      booleanConstraint ++
    (c.gates.filter (·.isCircuitOutput)).map outputConstraint

/-- `algebra::convert_bit_vector_to_field_element_vector` (used at tbcs_to_uscs.hpp:190; the
function is in the algebra library: one per set bit, zero otherwise). -/
def toField (F : Type*) [Field F] (bits : List Bool) : List F := bits.map fun b => if b then 1 else 0

/-- `tbcs_to_uscs::witness_map` (tbcs_to_uscs.hpp:182-192). -/
def witnessMap (F : Type*) [Field F] (c : Tbcs) (primary aux : List Bool) : Option (List F) :=
  (c.allWires primary aux).map (toField F)

end Tbcs
end Crypto3Zk
