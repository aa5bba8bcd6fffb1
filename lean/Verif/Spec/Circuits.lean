import Verif.Model.Circuits
import Verif.Spec.LinearCombination

/-!
# Specification vocabulary for circuits
-/

namespace Crypto3Zk

variable {F : Type*} [Field F]

/-- A bilinear gate is consistent with a valuation of the wires: `out = lhs · rhs`. -/
def BacsGate.Holds (x : Nat → F) (g : BacsGate F) : Prop :=
  x g.output = formalValue g.lhs x * formalValue g.rhs x

/-- The boolean function a gate type is named after. -/
def TbcsGateType.fn : TbcsGateType → Bool → Bool → Bool
  | const0, _, _ => false
  | and, a, b => a && b
  | xAndNotY, a, b => a && !b
  | x, a, _ => a
  | notXAndY, a, b => !a && b
  | y, _, b => b
  | xor, a, b => a != b
  | or, a, b => a || b
  | nor, a, b => !(a || b)
  | equiv, a, b => a == b
  | notY, _, b => !b
  | ifYThenX, a, b => !b || a
  | notX, a, _ => !a
  | ifXThenY, a, b => !a || b
  | nand, a, b => !(a && b)
  | const1, _, _ => true

/-- The wire values a bit vector stands for: wire 0 is constantly true. -/
def bitOf (w : List Bool) : Nat → Bool
  | 0 => true
  | i + 1 => w.getD i false

/-- A boolean gate is consistent with the wire values. -/
def TbcsGate.Holds (x : Nat → Bool) (g : TbcsGate) : Prop :=
  x g.output = g.type.fn (x g.leftWire) (x g.rightWire)

/-- All variables mentioned by the USCS exist. -/
def USCS.WellRanged (cs : USCS F) : Prop := ∀ k ∈ cs.constraints, IndicesLE k cs.numVariables

/-- What it means to satisfy a USCS: every constraint evaluates to 1 or -1. -/
def USCS.Sat (cs : USCS F) (primary aux : List F) : Prop :=
  ∀ k ∈ cs.constraints, formalValue k (envOf (primary ++ aux)) = 1 ∨
    formalValue k (envOf (primary ++ aux)) = -1

end Crypto3Zk
