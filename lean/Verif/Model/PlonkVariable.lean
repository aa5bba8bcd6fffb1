/-!
# Model of `snark/arithmetization/plonk/variable.hpp`
-/

namespace Crypto3Zk

/-- `plonk_variable::column_type` (variable.hpp:71-73), an enum over `uint8_t`. -/
inductive ColumnType where
  | witness | publicInput | constant | selector | uninitialized
deriving DecidableEq, Repr

/-- the enumerator's value (plonk/variable.hpp:71-73). -/
def ColumnType.code : ColumnType → Nat
  | witness => 0
  | publicInput => 1
  | constant => 2
  | selector => 3
  | uninitialized => 4

/-- `plonk_variable` (variable.hpp:78-81). -/
structure PlonkVar where
  index : Nat
  rotation : Int
  relative : Bool
  type : ColumnType
deriving DecidableEq, Repr

namespace PlonkVar

/-- `operator==` (variable.hpp:123-126). -/
def beq (a b : PlonkVar) : Bool :=
  decide (a.index = b.index) && decide (a.rotation = b.rotation) && decide (a.type = b.type)
    && decide (a.relative = b.relative)

/-- `operator<` (variable.hpp:132-140); `bool` comparison is `false < true`. -/
def blt (a b : PlonkVar) : Bool :=
  if a.index ≠ b.index then decide (a.index < b.index)
  else if a.rotation ≠ b.rotation then decide (a.rotation < b.rotation)
  else if a.type ≠ b.type then decide (a.type.code < b.type.code)
  else !a.relative && b.relative

/-- `operator>` (variable.hpp:142-144). -/
def bgt (a b : PlonkVar) : Bool := !(beq a b) && !(blt a b)

end PlonkVar
end Crypto3Zk
