import Verif.Props.Expression

/-!
# C11: the order of variables, spelled out
-/

namespace Crypto3Zk

/-- **C11** (which order it is): variables are compared by their column number, then by rotation, then by the type of
the column (witnesses before public inputs before constants before selectors), and an absolute one comes before a
relative one. The order in which sorted containers list variables, which prover and verifier share, is this one. -/
theorem C11_order_spelled_out (a b : PlonkVar) : PlonkVar.blt a b = true ↔
    a.index < b.index ∨ a.index = b.index ∧ (a.rotation < b.rotation ∨ a.rotation = b.rotation ∧
      (([.witness, .publicInput, .constant, .selector, .uninitialized] : List ColumnType).idxOf a.type <
        ([.witness, .publicInput, .constant, .selector, .uninitialized] : List ColumnType).idxOf b.type ∨
      a.type = b.type ∧ a.relative = false ∧ b.relative = true)) := by
  obtain ⟨i, r, l, t⟩ := a
  obtain ⟨i', r', l', t'⟩ := b
  have ht : ∀ t : ColumnType,
      ([.witness, .publicInput, .constant, .selector, .uninitialized] : List ColumnType).idxOf t = t.code := by
    intro t
    cases t <;> decide
  simp only [PlonkVar.blt, ht]
  by_cases h1 : i = i'
  · subst h1
    by_cases h2 : r = r'
    · subst h2
      by_cases h3 : t = t'
      · subst h3
        simp
      · simp [h3]
    · simp [h2]
  · simp [h1]

example : PlonkVar.blt ⟨2, -1, false, .publicInput⟩ ⟨2, -1, true, .constant⟩ = true := by decide

end Crypto3Zk
