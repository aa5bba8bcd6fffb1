import Verif.Model.PlonkTable

/-!
# Specification vocabulary for C27-C29
-/

namespace Crypto3Zk

/-- Every column of the table has exactly `rows` cells. -/
def PlonkTable.Rectangular {F : Type} (t : PlonkTable F) (rows : Nat) : Prop :=
  (∀ c ∈ t.witnesses, c.length = rows) ∧ (∀ c ∈ t.publicInputs, c.length = rows) ∧
  (∀ c ∈ t.constants, c.length = rows) ∧ (∀ c ∈ t.selectors, c.length = rows)

/-- The cell a variable means on a table of height `rows` seen from row `row`: the row index is
`row + rotation` modulo the height, as integers. -/
def PlonkTable.cyclicCell {F : Type} [Zero F] (t : PlonkTable F) (rows row : Nat) (v : PlonkVar) :
    F :=
  (((t.columnsOf v.type).getD []).getD v.index []).getD (((row : Int) + v.rotation) % rows).toNat 0

/-- A padded column of `padded` cells: the original cells, then zeros up to the usable height, then
`tail i` in row `usable + i`. -/
def IsPadded {F : Type} [Zero F] (usable padded : Nat) (tail : Nat → F) (col col' : List F) : Prop :=
  col'.length = padded ∧ (∀ i < col.length, col'[i]? = col[i]?) ∧
  (∀ i, col.length ≤ i → i < usable → col'[i]? = some 0) ∧
  (∀ i, usable ≤ i → i < padded → col'[i]? = some (tail (i - usable)))

/-- Column by column, `cols'` is `cols` padded, column `j` with the tail `tail j`. -/
def ArePadded {F : Type} [Zero F] (usable padded : Nat) (tail : Nat → Nat → F)
    (cols cols' : List (List F)) : Prop :=
  cols'.length = cols.length ∧
  ∀ (j : Nat) (c : List F), cols[j]? = some c → ∃ c', cols'[j]? = some c' ∧ IsPadded usable padded (tail j) c c'

end Crypto3Zk
