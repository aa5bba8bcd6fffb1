import Verif.Spec.PlaceholderSound

/-!
# Specification for C103: what is claimed by a proof with public inputs
-/

namespace Crypto3Zk

variable {F : Type} [Field F]

/-- The public inputs are in the table: the values that count in the first rows, and zero in the others. -/
def PublicInputsIn (c : Circuit F) (n : Nat) (t : PlonkTable F) (publicInput : List (List F)) : Prop :=
  ∀ i xs, publicInput[i]? = some xs → ∃ col, t.publicInputs[i]? = some col ∧
    ∀ j < 2 ^ n, col.getD j 0 = if j < publicSize c.publicInputSizes i xs then xs.getD j 0 else 0

/-- The table satisfies the circuit. -/
structure TableSatisfies (d : TableDesc) (c : Circuit F) (t : PlonkTable F) : Prop where
  copies : CopiesHold d c.copies t.cellAt
  gates : GatesHold t c.gates d.usableRows
  lookups : c.lookups.gates ≠ [] → LookupsHold t c.lookups d.usableRows

/-- The statement that a proof with public inputs is for: some table with the constants and selectors of `t0`
satisfies the circuit and has these public inputs. -/
def StatementTrue (d : TableDesc) (c : Circuit F) (n : Nat) (t0 : PlonkTable F) (publicInput : List (List F)) :
    Prop :=
  ∃ t : PlonkTable F, t.constants = t0.constants ∧ t.selectors = t0.selectors ∧ t.rowsAmount = t0.rowsAmount ∧
    TableSatisfies d c t ∧ PublicInputsIn c n t publicInput

end Crypto3Zk
